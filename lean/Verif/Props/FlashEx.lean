import Verif.Props.Flash

/-!
# C45: examples, and a way to make a borrow disappear

The example state: group 100 with one bank (key 10, vault 11, mint 12, token 0), mango account 1 of user 50 with 100 tokens
deposited, other users with 1900 tokens deposited, the user's own token account 20 (empty).
-/
namespace Mango.Flash
open Bank

def exBank : FBank :=
  ⟨100, 11, 12, 0, 0, NOLOAN, 0,
    { depositIndex := S, borrowIndex := S, indexedDeposits := 2000 * S, indexedBorrows := 0 }⟩

def exState : State :=
  { banks := fun k => if k = 10 then some exBank else none
    toks := fun k => if k = 11 then ⟨12, 100, 2000⟩ else ⟨12, 50, 0⟩
    accts := fun k => if k = 1 then some ⟨100, 50, [51], true⟩ else none
    pos := fun a t => if a = 1 ∧ t = 0 then { indexed := 100 * S } else {} }

/-- All health checks pass. -/
def exEnv : Env :=
  { pda := fun k => decide (k = 100), pre := fun _ _ => .ok 0, post := fun _ _ _ => .ok (),
    price := fun _ _ => .ok S, enabled := fun _ => true, allowed := [7] }

def exBegin : Ix := .mango ([1, 50, 2, 3] ++ [10] ++ [11] ++ [20] ++ [100]) (.begin [500])

/-- Another program uses the 500 tokens and returns 470. -/
def exUse : Ix := .foreign 7 [20] [.setTok 20 ⟨12, 50, 470⟩]

def exEnd : Ix := .mango ([1, 50, 3] ++ [10, 30] ++ [11] ++ [20] ++ [100]) (.endLoan 1 .unknown 0)

theorem exState_wf : WF exEnv exState := by
  have key : ∀ k b, exState.banks k = some b → k = 10 ∧ b = exBank := by
    intro k b h
    unfold exState at h
    dsimp only at h
    split at h
    · rename_i hk; exact ⟨hk, by simpa using h.symm⟩
    · simp at h
  refine ⟨?_, ?_, ?_, ?_⟩
  · intro k b h; obtain ⟨rfl, rfl⟩ := key k b h; decide
  · intro k b h; obtain ⟨rfl, rfl⟩ := key k b h; decide
  · intro k k' b b' h h' _; rw [(key k b h).1, (key k' b' h').1]
  · intro k b h; obtain ⟨rfl, rfl⟩ := key k b h
    unfold Bank.Pos Bank.RatesOk; decide

theorem exState_clear : ¬ InLoan exState := by
  rintro ⟨k, b, h, hb⟩
  unfold exState at h
  dsimp only at h
  split at h
  · rw [Option.some.injEq] at h
    subst h
    rcases hb with hb | hb <;> exact hb (by decide)
  · simp at h

/-- Everything a test can see of a result: the bank, the vault, the user's token account and position. -/
def view (r : Res State) : Option (Option FBank × Int × Int × TokenPosition) :=
  match r with
  | .ok s => some (s.banks 10, (s.toks 11).amount, (s.toks 20).amount, s.pos 1 0)
  | .error _ => none

/-- Non-vacuity of the theorems: a loan of 500 of which 470 are repaid costs the user 30 tokens. -/
example : WF exEnv exState ∧ ¬ InLoan exState ∧ OthersOk exEnv [exBegin, exUse, exEnd] ∧
    (view (runTx exEnv [exBegin, exUse, exEnd] exState)).map (fun x => (x.1.map (fun b => (b.b.indexedDeposits, b.initial)), x.2.1, x.2.2.1,
      x.2.2.2.indexed)) = some (some (1970 * S, NOLOAN), 1970, 0, 70 * S) := by
  refine ⟨exState_wf, exState_clear, ?_, by decide +kernel⟩
  intro ix hix f hf
  simp only [List.mem_cons, List.not_mem_nil, or_false] at hix
  rcases hix with rfl | rfl | rfl <;> simp [exBegin, exUse, exEnd, Ix.others] at hf

/-- Without the End the same transaction fails. -/
example : (runTx exEnv [exBegin, exUse] exState).toOption.isNone = true := by decide +kernel

/-- **A way to make a borrow disappear.** End does not reject a bank that is listed twice in its health accounts. The
first entry books the loan of 100 against the deposit of 100, which empties the position and marks it for closing. The
second entry books it again, as a borrow of 100 (it counts in the health check). Then the position is closed with the
borrow in it. Afterwards nobody owes the 100 tokens the bank has on record as borrowed: the account's debt is erased, and
the interest the bank credits on it is backed by nobody. -/
theorem C45_duplicate_bank_erases_debt :
    ∃ (s s' : State), WF exEnv s ∧ ¬ InLoan s ∧
      runTx exEnv [.mango ([1, 50, 2, 3] ++ [10] ++ [11] ++ [20] ++ [100]) (.begin [100]),
        .foreign 7 [20] [.setTok 20 ⟨12, 50, 0⟩],
        .mango ([1, 50, 3] ++ [10, 10, 30] ++ [11] ++ [20] ++ [100]) (.endLoan 1 .unknown 0)] s = .ok s' ∧
      (∀ b, s.banks 10 = some b → b.b.indexedBorrows = 0 ∧ b.b.indexedDeposits - (s.pos 1 0).indexed = 1900 * S) ∧
      (∀ b, s'.banks 10 = some b → b.b.indexedBorrows = 100 * S ∧ b.b.indexedDeposits = 1900 * S) ∧
      s'.pos 1 0 = {} ∧ (∀ a t, a ≠ 1 → s'.pos a t = s.pos a t) ∧
      (s.toks 11).amount = 2000 ∧ (s'.toks 11).amount = 1900 := by
  refine ⟨exState, ?_⟩
  cases h : runTx exEnv [.mango ([1, 50, 2, 3] ++ [10] ++ [11] ++ [20] ++ [100]) (.begin [100]),
        .foreign 7 [20] [.setTok 20 ⟨12, 50, 0⟩],
        .mango ([1, 50, 3] ++ [10, 10, 30] ++ [11] ++ [20] ++ [100]) (.endLoan 1 .unknown 0)] exState with
  | error e =>
    have : (view (runTx exEnv [.mango ([1, 50, 2, 3] ++ [10] ++ [11] ++ [20] ++ [100]) (.begin [100]),
        .foreign 7 [20] [.setTok 20 ⟨12, 50, 0⟩],
        .mango ([1, 50, 3] ++ [10, 10, 30] ++ [11] ++ [20] ++ [100]) (.endLoan 1 .unknown 0)] exState)).isSome = true := by
      decide +kernel
    rw [h] at this
    simp [view] at this
  | ok s' =>
    have hv : (view (runTx exEnv [.mango ([1, 50, 2, 3] ++ [10] ++ [11] ++ [20] ++ [100]) (.begin [100]),
        .foreign 7 [20] [.setTok 20 ⟨12, 50, 0⟩],
        .mango ([1, 50, 3] ++ [10, 10, 30] ++ [11] ++ [20] ++ [100]) (.endLoan 1 .unknown 0)] exState)).map
          (fun x => (x.1.map (fun b => (b.b.indexedBorrows, b.b.indexedDeposits)), x.2.1, x.2.2.2)) =
        some (some (100 * S, 1900 * S), 1900, {}) := by decide +kernel
    rw [h] at hv
    simp only [view, Option.map_some, Option.some.injEq, Prod.mk.injEq] at hv
    obtain ⟨h1, h2, h3⟩ := hv
    refine ⟨s', exState_wf, exState_clear, rfl, ?_, ?_, h3, ?_, by decide, h2⟩
    · intro b hb
      have : exState.banks 10 = some exBank := rfl
      rw [this, Option.some.injEq] at hb
      subst hb; decide
    · intro b hb
      rw [hb] at h1
      simpa using h1
    · have hc : Clear exState := by by_contra hn; exact exState_clear (inLoan_iff.mpr hn)
      unfold runTx at h
      simp only [bind_ok] at h
      obtain ⟨s1, e1, h⟩ := h
      unfold runTx at h
      simp only [bind_ok] at h
      obtain ⟨s2, e2, h⟩ := h
      unfold runTx at h
      simp only [bind_ok] at h
      obtain ⟨s3, e3, h⟩ := h
      unfold runTx at h
      rw [Except.ok.injEq] at h
      subst h
      unfold runIx call at e1 e3
      dsimp only at e1 e3
      obtain ⟨_, hB⟩ := begin_ok exState_wf hc e1
      obtain ⟨acctKey, owner, acct, g, a1, a2, a3, a4, a5, a6, a7, seen, hBeg⟩ := hB.args
      have hO := runActs_outside (by decide) _ s1 s2 e2
      obtain ⟨tail, hE⟩ := end_ok (hO.wf (hBeg.wf exState_wf)) e3
      intro a t ha
      rw [end_acct (hO.wf (hBeg.wf exState_wf)) hE (acctKey := 1) rfl a t ha, hO.pos, hBeg.pos]

end Mango.Flash
