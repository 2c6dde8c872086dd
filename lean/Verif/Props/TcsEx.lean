import Verif.Props.Tcs
/-!
# C54: examples, and a swap that can never be triggered

The example: the owner has 1000 sell tokens deposited and may buy up to 100 at a price (sell per buy) between 1 and 3, premium 10%;
the triggerer has 500 buy tokens. Oracle prices: buy token 2, sell token 1; fees 1/16 each.
-/
namespace Mango.Swap
open Bank Fx

def exTcs : Tcs :=
  { kind := .fixedPremium, maxBuy := 100, maxSell := 500, expiry := 1000, lower := 1, upper := 3, premiumRate := 1 / 4,
    takerFeeRate := 1 / 16, makerFeeRate := 1 / 16, allowDeposits := true, allowBorrows := false, start := 0, duration := 0 }

def exBankT : Bank := { depositIndex := S, borrowIndex := S, indexedDeposits := 5000 * S, indexedBorrows := 0 }

def exState : State :=
  { tcs := exTcs, buyBank := exBankT, sellBank := exBankT, liqeeBuy := {}, liqeeSell := { indexed := 1000 * S },
    liqorBuy := { indexed := 500 * S }, liqorSell := {} }

def exEnv : Env :=
  { now := 7, rnd := id, buyPrice := 2 * S, sellPrice := S, health := fun _ _ => .ok (2000000 * S), liqEnd := .ok 0, liqorHealth := .ok 0 }

/-- Buying 40 tokens: 40 * 2 * 5/4 = 100 sell tokens before fees, 106 with the maker fee; 94 reach the triggerer. -/
example : (trigger exEnv exState 40 1000 40 2).map (fun r => (r.2, r.1.liqeeBuy.indexed, r.1.liqeeSell.indexed, r.1.liqorBuy.indexed,
      r.1.liqorSell.indexed)) = .ok (⟨40, 106, 6, 6, false⟩, 40 * S, 894 * S, 460 * S, 94 * S) ∧
    (trigger exEnv exState 40 1000 40 2).map (fun r => (r.1.sellBank.collectedFeesNative, r.1.tcs.bought, r.1.tcs.sold, r.1.tcs.configured)) =
    .ok (12 * S, 40, 106, true) := by decide +kernel

/-- The whole swap: it is closed. -/
example : (trigger exEnv exState 1000 1000 100 2).map (fun r => (r.2, r.1.tcs.configured)) = .ok (⟨100, 265, 15, 15, true⟩, false) := by
  decide +kernel

/-- C54_trigger_done: the swap stays open when 60 of 100 are left, and ends when health fell below a dollar, or when the rest is too
small (one token left at a price above 2: 2 sell tokens, and 4 would be needed) -/
example : (trigger exEnv exState 40 1000 40 2).map (fun r => r.2.closed) = .ok false ∧
    (trigger { exEnv with health := fun x _ => .ok (2000000 * S - 40000 * x) } exState 40 1000 40 2).map (fun r => r.2.closed) = .ok true ∧
    (trigger { exEnv with health := fun x _ => .ok (2000000 * S - 20000 * x) } exState 40 1000 40 2).map (fun r => r.2.closed) = .ok false ∧
    (trigger exEnv exState 99 1000 40 2).map (fun r => r.2.closed) = .ok true ∧
    (trigger exEnv exState 97 1000 40 2).map (fun r => r.2.closed) = .ok false := by decide +kernel

/-- C54_trigger_recovers: an account still flagged as being liquidated recovers by either health, or not at all -/
example : ((trigger { exEnv with liqEnd := .ok 0 } { exState with liqeeFlag := ⟨true⟩ } 40 1000 40 2).map (fun r => r.1.liqeeFlag.being)) = .ok false ∧
    ((trigger { exEnv with health := fun _ _ => .ok (-3 * S), liqEnd := .ok 0 } { exState with liqeeFlag := ⟨true⟩ } 40 1000 40 2).map (fun r => r.1.liqeeFlag.being)) = .ok false ∧
    ((trigger { exEnv with health := fun _ _ => .ok (-3 * S), liqEnd := .ok (-2 * S) } { exState with liqeeFlag := ⟨true⟩ } 40 1000 40 2).map (fun r => r.1.liqeeFlag.being)) = .error .beingLiquidated := by
  decide +kernel

/-- The hypotheses of the theorems above hold in the example. -/
example : exBankT.Pos ∧ exBankT.RatesOk ∧ Created exTcs ∧ (∃ r, trigger exEnv exState 40 1000 40 2 = .ok r) := by
  refine ⟨by unfold Pos; decide, ⟨by decide, by decide⟩, ⟨by decide +kernel, by decide +kernel, by decide +kernel, by decide +kernel, by decide +kernel⟩, ?_⟩
  have : (trigger exEnv exState 40 1000 40 2).isOk = true := by decide +kernel
  revert this
  cases trigger exEnv exState 40 1000 40 2 with
  | ok r => exact fun _ => ⟨r, rfl⟩
  | error _ => exact fun h => absurd h (by simp [Except.isOk, Except.toBool])

/-- A life: created, then triggered for 40 tokens. -/
example : ∃ t, Life { exTcs with bought := 5, sold := 5 } t 40 (106 * S) := by
  have hc : create { exTcs with bought := 5, sold := 5 } (1 / 16) (1 / 16) 7 = .ok (some exTcs) := by decide +kernel
  have l0 := Life.create (arg := { exTcs with bought := 5, sold := 5 }) ⟨by decide, by decide, by decide, by decide, by decide, rfl⟩ hc
  have : (trigger exEnv exState 40 1000 40 2).map (fun r => r.2) = .ok ⟨40, 106, 6, 6, false⟩ := by decide +kernel
  revert this
  cases hr : trigger exEnv exState 40 1000 40 2 with
  | error _ => exact fun h => absurd h (by simp [Except.map])
  | ok r =>
    obtain ⟨s', tr⟩ := r
    intro h
    simp only [Except.map, ok_inj] at h
    subst h
    have := Life.trigger (s := exState) l0 (by decide) (by decide) hr
    exact ⟨_, by simpa using this⟩

/-- An auction, started: the incentive (1000 native quote units at a sell price of 16) is 62.5 tokens, recorded as 62. -/
example : (start { exEnv with sellPrice := 16 * S, buyPrice := 32 * S } { exState with tcs := { exTcs with kind := .premiumAuction, duration := 10 } }).map
      (fun r => (r.2, r.1.tcs.start, r.1.tcs.sold, r.1.liqeeSell.indexed)) = .ok (125 * S / 2, 7, 62, 1875 * S / 2) := by decide +kernel

/-- The auction's price rises from 2 to 2.5 between its start and its end. -/
example : ({ exTcs with kind := .premiumAuction, duration := 10, start := 7 } : Tcs).premiumPrice id 2 7 = .ok 2 ∧
    ({ exTcs with kind := .premiumAuction, duration := 10, start := 7 } : Tcs).premiumPrice id 2 12 = .ok (9 / 4) ∧
    ({ exTcs with kind := .premiumAuction, duration := 10, start := 7 } : Tcs).premiumPrice id 2 100 = .ok (5 / 2) ∧
    ({ exTcs with kind := .linearAuction, duration := 10, start := 7 } : Tcs).premiumPrice id 2 12 = .ok 2 ∧
    ({ exTcs with kind := .linearAuction, duration := 10, start := 7 } : Tcs).premiumPrice id 2 17 = .ok 3 := by decide +kernel

/-! ## A defect -/

theorem withdrawInternal_reduceOnly {x y : Bank} {p q : TokenPosition} {amt : I80F48} {wf d : Bool} {t : Int} {w : WithdrawResult}
    (hx : x.Pos) (h : x.withdrawInternal p amt wf d t = .ok (y, q, w)) : y.reduceOnly = x.reduceOnly := by
  cases (withdrawInternal_ok hx h).2 <;> rfl

theorem depositInternal_reduceOnly {x y : Bank} {p q : TokenPosition} {amt : I80F48} {d a : Bool} {t : Int}
    (hx : x.Pos) (h : x.depositInternal p amt d t = .ok (y, q, a)) : y.reduceOnly = x.reduceOnly := by
  cases (depositInternal_ok hx h).2 <;> rfl

theorem transfer_reduceOnly {b b' : Bank} {ps ps' pt pt' : TokenPosition} {sa ta price : I80F48} {t : Int}
    {r : TransferResult} (hb : b.Pos) (hr : b.RatesOk)
    (h : b.checkedTransferWithFee ps sa pt ta t price = .ok (b', ps', pt', r)) : b'.reduceOnly = b.reduceOnly := by
  obtain ⟨b1, e1, e2, h1, h2⟩ := checkedTransfer_effects hb hr h
  have hb1 := e1.pos hb
  have x1 : b1.reduceOnly = b.reduceOnly := by
    unfold transferSource at h1
    split at h1
    · simp only [bind_ok, ok_inj, Prod.mk.injEq] at h1
      obtain ⟨⟨x, y, w⟩, hw, _, hreq, rfl, rfl, rfl⟩ := h1
      obtain ⟨q1, h1, _, _⟩ := withdrawWrapper_ok hw
      exact withdrawInternal_reduceOnly hb h1
    · simp only [ok_inj, Prod.mk.injEq] at h1
      rw [← h1.1]
  rw [← x1]
  unfold transferTarget at h2
  split at h2
  · simp only [bind_ok, ok_inj, Prod.mk.injEq] at h2
    obtain ⟨⟨x, y, w⟩, hw, _, hreq, rfl, rfl, rfl⟩ := h2
    obtain ⟨q1, h1, _, _⟩ := depositWrapper_ok hw
    exact depositInternal_reduceOnly hb1 h1
  · simp only [ok_inj, Prod.mk.injEq] at h2
    rw [← h2.1]

/-- C54, a defect: while deposits of the sell token are reduce-only, no swap selling it can be triggered by anyone, even by a triggerer
who owes that token (which the amount computation explicitly allows): the check whether more could be traded negates the smallest
fixed point number. -/
theorem C54_reduce_only_stuck {e : Env} {s : State} {maxBuy maxSell minBuy : Int} {minTaker : ℚ}
    (hs : s.sellBank.Pos) (hr : s.sellBank.RatesOk) (hro : s.sellBank.reduceOnly = 1) (hmb : 0 ≤ maxBuy) (hms : 0 ≤ maxSell) :
    ∃ err, trigger e s maxBuy maxSell minBuy minTaker = .error err := by
  cases h : trigger e s maxBuy maxSell minBuy minTaker with
  | error err => exact ⟨err, rfl⟩
  | ok v =>
    exfalso
    obtain ⟨s', t⟩ := v
    have o := trigger_ok hmb hms h
    obtain ⟨price, premium, maker, pre, post, flag, s1, ps, qs, h1, h2, h3, h4, h5, ha, h6, h7, h8, h9, h10, h11, h12, tcs, h13, rfl⟩ := o.main
    have x := exchange_ok h8
    obtain ⟨sb, r2, x2, x3⟩ := x.sell
    have ro : s1.sellBank.areDepositsReduceOnly = true := by
      rw [x3]
      unfold areDepositsReduceOnly
      dsimp only
      rw [transfer_reduceOnly hs hr x2, hro]
      rfl
    unfold record at h13
    simp only [bind_ok, cku64_ok, require_ok, ok_inj, Prod.mk.injEq] at h13
    obtain ⟨b, _, so, _, _, _, _, _, nb, _, ns, _, ⟨fb, fs⟩, h14, _⟩ := h13
    unfold tradeAmount at h14
    rw [if_pos ro] at h14
    simp only [bind_ok, neg_ok] at h14
    obtain ⟨_, _, _, _, _, _, _, ⟨n, hn, _⟩, _⟩ := h14
    exact absurd hn.2 (by unfold inRange; decide)

/-- It is the only obstacle: with deposits allowed the same trigger by a triggerer who owes 200 sell tokens succeeds, and the trade
would have respected the reduce-only flag. -/
example :
    let s := { exState with liqorSell := { indexed := -200 * S }, sellBank := { exBankT with indexedBorrows := 200 * S } }
    (trigger exEnv s 40 1000 40 2).map (fun r => (r.2.sell, r.1.liqorSell.indexed)) = .ok (106, -106 * S) ∧
    (amounts { s with sellBank := { s.sellBank with reduceOnly := 1 } } (5 / 2) (85 * S / 32) 40 1000).isOk = true ∧
    (trigger exEnv { s with sellBank := { s.sellBank with reduceOnly := 1 } } 40 1000 40 2).isOk = false := by decide +kernel

end Mango.Swap
