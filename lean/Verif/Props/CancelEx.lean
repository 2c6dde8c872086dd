import Verif.Props.CancelHealth
import Verif.Props.PerpOrderEx
/-!
# Concrete cases for C74
-/
namespace Mango
namespace PerpCancel
open Fx Perp Health Book PerpOrder
open Serum (got isOk got_eq)

/-- account 0 is 10 long and has an ask of 3 and bids of 20 and 5, one of them pegged to the oracle -/
def cxOps : List POp :=
  [.create 4, .create 2, txPlace 0 (txLimit .bid 10 100 11), txPlace 1 (txLimit .ask 10 100 12), .consume 8 [0, 1], txPlace 0 (txLimit .ask 3 105 13), .market exM,
    txPlace 0 (txLimit .bid 20 90 31), txPlace 0 { txLimit .bid 5 0 32 with params := .pegged (-5) .limit 200 }]
def cxS : PSys := txRun cxOps
theorem cxReach : Reachable cxS := by
  apply txReach
  · intro op hop
    simp only [cxOps, List.mem_cons, List.not_mem_nil, or_false] at hop
    rcases hop with rfl | rfl | rfl | rfl | rfl | rfl | rfl | rfl | rfl
    · exact True.intro
    · exact True.intro
    · exact txPlace_typed _ _ _ _ _ (by omega)
    · exact txPlace_typed _ _ _ _ _ (by omega)
    · exact True.intro
    · exact txPlace_typed _ _ _ _ _ (by omega)
    · exact True.intro
    · exact txPlace_typed _ _ _ _ _ (by omega)
    · exact ⟨by decide, by decide, by decide⟩
  · simp [cxOps]
def cxA : PAcct := (cxS.accts[0]?).getD {}
def cxEnv (frozen : Bool) : Env := { rnd := id, fd := Fx.div, now := 3600, price := 100 * S, frozen := frozen }
theorem cxA_at : cxS.accts[0]? = some cxA := by decide +kernel
theorem cxFit : LotsFit cxS 0 := by intro sd; cases sd <;> decide +kernel

/-- the slots of the account: ask 3, bid 20, pegged bid 5, one free -/
theorem cxSlots : cxA.oos.map (fun o => (o.side, o.quantity, o.clientId)) = [(.ask, 3, 13), (.bid, 20, 31), (.bid, 5, 32), (.bid, 0, 0)] ∧ shape (pget cxS.accts 0) = (10, 25, 3) ∧
    matching 3 (some .bid) cxA.oos = [1, 2] ∧ matching 3 none cxA.oos = [0, 1, 2] := by decide +kernel

/-- by id, by client id, all bids, everything: the hypotheses are met, and this is what is left -/
example : ∃ s', pstep cxS (.cancelId 0 ((cxA.oos[1]?).getD ({} : OO)).id) = .ok s' ∧ Cancelled cxS s' 0 [1] :=
  C74_cancel_by_id cxReach cxA_at (i := 1) (oo := (cxA.oos[1]?).getD {}) (by decide +kernel) (by decide +kernel) cxFit
example : ∃ s', pstep cxS (.cancelClient 0 32) = .ok s' ∧ Cancelled cxS s' 0 [2] := by
  have := C74_cancel_by_client cxReach cxA_at (i := 2) (oo := (cxA.oos[2]?).getD {}) (by decide +kernel) (by decide +kernel) cxFit (by
    intro j hj o ho
    rcases (by omega : j = 0 ∨ j = 1) with rfl | rfl
    · rw [show cxA.oos[0]? = some ((cxA.oos[0]?).getD {}) by decide +kernel, Option.some.injEq] at ho
      subst ho; intro _; decide +kernel
    · rw [show cxA.oos[1]? = some ((cxA.oos[1]?).getD {}) by decide +kernel, Option.some.injEq] at ho
      subst ho; intro _; decide +kernel)
  exact this
example : ∃ s', pstep cxS (.cancelAll 0 1 (some .bid)) = .ok s' ∧ Cancelled cxS s' 0 ((matching 3 (some .bid) cxA.oos).take 1) :=
  C74_cancel_all cxReach cxA_at cxFit (by decide) (some .bid)
example := C74_cancel_all_clears cxReach cxA_at cxFit (limit := 3) (by decide) none (by decide +kernel)
example : pstep cxS (.cancelId 0 5) = .error .perpOrderIdNotFound := (C74_cancel_missing cxA_at 5).1 (by
  intro i oo h _
  rcases Nat.lt_or_ge i 4 with hi | hi
  · have : ∀ j < 4, (cxA.oos[j]?).all (fun o => decide (o.id ≠ 5)) = true := by decide +kernel
    have := this i hi
    rw [h] at this
    simpa using this
  · rw [List.getElem?_eq_none (by have : cxA.oos.length = 4 := by decide +kernel
                                  omega)] at h
    exact absurd h (by simp))

/-- what is left: base lots, open bids, open asks -/
def left (op : POp) : Option (Int × Int × Int) := (pstep cxS op).toOption.map (fun s => shape (pget s.accts 0))
theorem cxLeft : left (.cancelClient 0 32) = some (10, 20, 3) ∧ left (.cancelAll 0 1 (some .bid)) = some (10, 5, 3) ∧ left (.cancelAll 0 2 none) = some (10, 5, 0) ∧ left (.cancelAll 0 8 none) = some (10, 0, 0) := by
  decide +kernel

/-- **Finding (limit 0)**: with limit 0 cancelling everything panics if there is an order to cancel (the limit is counted down before it is looked at), and succeeds if there is none -/
theorem C74_limit_zero : pstep cxS (.cancelAll 0 0 none) = .error .panic ∧ isOk (pstep cxS (.cancelAll 1 0 none)) = true := by
  constructor <;> decide +kernel

/-- health is not lowered: init health of the account with 60 of the settle token, before and after cancelling the bids -/
def cxAfter : PSys := got cxS (pstep cxS (.cancelAll 0 8 (some .bid)))
theorem cxAfter_ok : pstep cxS (.cancelAll 0 8 (some .bid)) = .ok cxAfter := got_eq (by decide +kernel)
theorem cxAfter_reach : Reachable cxAfter := cxReach.step (op := .cancelAll 0 8 (some .bid)) trivial rfl cxAfter_ok
theorem cxCancelled : Cancelled cxS cxAfter 0 ((matching 3 (some .bid) cxA.oos).take 8) := by
  obtain ⟨s', h, C⟩ := C74_cancel_all cxReach cxA_at cxFit (limit := 8) (by decide) (some .bid)
  rw [cxAfter_ok, ok_inj] at h
  subst h
  exact C
theorem cxFd0 : ∀ p x, (cxEnv false).fd 0 p = .ok x → x = 0 := by
  intro p x h
  simp only [cxEnv, Fx.div_ok] at h
  obtain ⟨_, rfl, _⟩ := h
  simp
def cxHealth (s : PSys) : Res I80F48 := healthOf (cxEnv false) (exRest 60) s.market (some (pget s.accts 0)) .init
theorem cxSettle : SettleOk (cxEnv false) (exRest 60) cxS.market (pget cxS.accts 0) .init := by
  intro c hc tk htk _
  have h2 : (accountCache id 3600 (exRest 60).banks (exRest 60).ps (exRest 60).os ((exRest 60).above ++ (cxS.market, pget cxS.accts 0, 100 * S) :: (exRest 60).below)).toOption.all
      (fun c => c.tokens.all (fun t => decide (0 ≤ Formula.assetWeight t .init * Formula.assetPrice t.prices .init ∧ 0 ≤ Formula.liabWeight t .init * Formula.liabPrice t.prices .init))) = true := by decide +kernel
  have hc' : accountCache id 3600 (exRest 60).banks (exRest 60).ps (exRest 60).os ((exRest 60).above ++ (cxS.market, pget cxS.accts 0, 100 * S) :: (exRest 60).below) = .ok c := hc
  rw [hc'] at h2
  simp only [Except.toOption, Option.all_some, List.all_eq_true, decide_eq_true_eq] at h2
  exact h2 tk htk
theorem cxHealth_rises : cxHealth cxS = .ok (got 0 (cxHealth cxS)) ∧ cxHealth cxAfter = .ok (got 0 (cxHealth cxAfter)) ∧ got 0 (cxHealth cxS) < -400 * S ∧ -100 * S < got 0 (cxHealth cxAfter) :=
  ⟨got_eq (by decide +kernel), got_eq (by decide +kernel), by decide +kernel, by decide +kernel⟩
example : got 0 (cxHealth cxS) ≤ got 0 (cxHealth cxAfter) :=
  C74_health (e := cxEnv false) cxFd0 cxReach cxAfter_reach cxCancelled (by constructor <;> decide +kernel) (by decide) (by decide +kernel) (t := exRest 60) (by decide) (by intro o ho; simp [exRest] at ho) cxSettle
    cxHealth_rises.1 cxHealth_rises.2.1

/-- cancelling by force: whether it happened, what is left, and whether the account is marked as being liquidated -/
def forced (n : Int) (frozen being : Bool) (limit : Nat) : Option (Bool × (Int × Int × Int) × Bool) :=
  (forceCancel (cxEnv frozen) cxS 0 { exRest n with flag := ⟨being⟩ } limit).toOption.map (fun x => (x.2.2, shape (pget x.1.accts 0), x.2.1.flag.being))
/-- with 400 of the settle token nothing happens unless the account is frozen; with 60 it is liquidatable and stays so, with 100 it recovers if the orders are cancelled, but not from one only -/
theorem cxForced : forced 400 false false 8 = some (false, (10, 25, 3), false) ∧ forced 400 true false 8 = some (true, (10, 0, 0), false) ∧ forced 60 false false 8 = some (true, (10, 0, 0), true) ∧
    forced 100 false false 8 = some (true, (10, 0, 0), false) ∧ forced 100 false false 1 = some (true, (10, 25, 0), true) ∧ forced 1000 false true 8 = some (false, (10, 25, 3), false) := by
  refine ⟨?_, ?_, ?_, ?_, ?_, ?_⟩ <;> decide +kernel
example := fun (s' : PSys) (t' : PerpOrder.Rest) (did : Bool) (h : forceCancel (cxEnv false) cxS 0 (exRest 60) 8 = .ok (s', t', did)) => C74_force_cancel h ⟨by decide, by decide⟩

end PerpCancel
end Mango
