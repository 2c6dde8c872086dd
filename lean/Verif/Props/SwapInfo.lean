import Verif.Bots.SwapInfo
import Verif.Props.Errors
import Verif.Bots.Trigger
import Mathlib.Data.List.Induction
import Mathlib.Tactic.FieldSimp
import Mathlib.Tactic.Ring
import Mathlib.Tactic.Positivity
import Mathlib.Tactic.Linarith
/-!
# C108: the liquidator's estimates of swap costs
-/
namespace Mango
namespace SwapInfo
open Errors

/-! ## Specification -/

/-- the operation, when it happens in state `s`, sets the estimate of `token` to `i`: it updates this token, is not skipped because
of errors, and got all answers -/
def Sets (rnd : ℚ → ℚ) (quoteToken : Nat) (s : State) (e : Nat × Op) (token : Nat) (i : Info) : Prop :=
  ∃ a, e.2 = .update token a ∧ hadTooMany s.errors errType token e.1 = none ∧ tryUpdate rnd quoteToken token e.1 a = some i

/-! ## Proofs -/

variable {rnd : ℚ → ℚ} {quoteToken : Nat}

theorem step_infos (s : State) (e : Nat × Op) (token : Nat) :
    (∃ i, Sets rnd quoteToken s e token i ∧ (step rnd quoteToken s e.1 e.2).infos token = some i) ∨
    ((∀ i, ¬ Sets rnd quoteToken s e token i) ∧ (step rnd quoteToken s e.1 e.2).infos token = s.infos token) := by
  obtain ⟨now, op⟩ := e
  cases op with
  | log => exact .inr ⟨fun i ⟨a, h, _⟩ => by simp at h, rfl⟩
  | update t a =>
    simp only [step, updateOne]
    by_cases h : (hadTooMany s.errors errType t now).isSome = true
    · rw [if_pos h]
      refine .inr ⟨?_, rfl⟩
      rintro i ⟨a', h1, h2, _⟩
      simp only [Op.update.injEq] at h1
      obtain ⟨rfl, _⟩ := h1
      dsimp only at h2
      rw [h2] at h; simp at h
    · rw [if_neg h]
      cases hu : tryUpdate rnd quoteToken t now a with
      | none =>
        refine .inr ⟨?_, rfl⟩
        rintro i ⟨a', h1, _, h3⟩
        simp only [Op.update.injEq] at h1
        obtain ⟨rfl, rfl⟩ := h1
        rw [hu] at h3; simp at h3
      | some i =>
        by_cases ht : token = t
        · subst ht
          refine .inl ⟨i, ⟨a, rfl, by simpa using h, hu⟩, ?_⟩
          simp
        · refine .inr ⟨?_, by simp [ht]⟩
          rintro i' ⟨a', h1, _⟩
          simp only [Op.update.injEq] at h1
          exact ht h1.1.symm

/-- **C108 (latest).** After any history the estimate of a token is that of the last update of this token that was not skipped and
got all answers, however long ago; there is one exactly if there was such an update (or one from the start). -/
theorem C108_latest (s : State) (l : List (Nat × Op)) (token : Nat) :
    (∃ pre e post i, l = pre ++ e :: post ∧ Sets rnd quoteToken (run rnd quoteToken s pre) e token i ∧
      (run rnd quoteToken s l).infos token = some i ∧
      ∀ pre' e' post', post = pre' ++ e' :: post' → ∀ i', ¬ Sets rnd quoteToken (run rnd quoteToken s (pre ++ e :: pre')) e' token i') ∨
    ((∀ pre e post, l = pre ++ e :: post → ∀ i, ¬ Sets rnd quoteToken (run rnd quoteToken s pre) e token i) ∧
      (run rnd quoteToken s l).infos token = s.infos token) := by
  induction l using List.reverseRecOn with
  | nil => exact .inr ⟨fun pre e post h => by simp at h, rfl⟩
  | append_singleton l e ih =>
    have hr : run rnd quoteToken s (l ++ [e]) = step rnd quoteToken (run rnd quoteToken s l) e.1 e.2 := by simp [run]
    have hsplit : ∀ {p : List (Nat × Op)} {e' : Nat × Op} {q : List (Nat × Op)} {l' : List (Nat × Op)}, l' ++ [e] = p ++ e' :: q →
        (q = [] ∧ p = l' ∧ e' = e) ∨ ∃ q', q = q' ++ [e] ∧ l' = p ++ e' :: q' := by
      intro p e' q l' h
      rcases List.eq_nil_or_concat q with rfl | ⟨q', x, rfl⟩
      · have h2 := List.append_inj' h rfl
        refine .inl ⟨rfl, h2.1.symm, by simpa using h2.2.symm⟩
      · right
        rw [List.concat_eq_append, ← List.cons_append, ← List.append_assoc] at h
        have h2 := List.append_inj' h rfl
        have : x = e := by simpa using h2.2.symm
        exact ⟨q', by rw [this, List.concat_eq_append], h2.1⟩
    rcases step_infos (rnd := rnd) (quoteToken := quoteToken) (run rnd quoteToken s l) e token with ⟨i, h1, h2⟩ | ⟨h1, h2⟩
    · refine .inl ⟨l, e, [], i, rfl, h1, by rw [hr]; exact h2, ?_⟩
      intro pre' e' post' h; simp at h
    · rcases ih with ⟨pre, x, post, i, g1, g2, g3, g4⟩ | ⟨g1, g2⟩
      · refine .inl ⟨pre, x, post ++ [e], i, by rw [g1]; simp, g2, by rw [hr, h2]; exact g3, ?_⟩
        intro pre' e' post' h i'
        rcases hsplit h with ⟨_, rfl, rfl⟩ | ⟨q', _, h4⟩
        · rw [← g1]; exact h1 i'
        · exact g4 pre' e' q' h4 i'
      · refine .inr ⟨?_, by rw [hr, h2]; exact g2⟩
        intro pre e' post h i
        rcases hsplit h with ⟨_, rfl, rfl⟩ | ⟨q', _, h4⟩
        · exact h1 i
        · exact g1 pre e' q' h4 i

/-- **C108 (cost).** What an estimate says, up to rounding: buying through the quoted route costs `buyOverOracle` times what the
tokens got are worth at the oracle prices, and selling `sellOverOracle` times more than what is got for it is worth. -/
theorem C108_cost {quoteToken token now : Nat} {a : Answers} {i : Info} (hne : token ≠ quoteToken) (h : tryUpdate id quoteToken token now a = some i)
    {tp qp : ℚ} (ht : a.tokenPrice = some tp) (hq : a.quotePrice = some qp) (htp : 0 < tp) (hqp : 0 < qp) :
    ∃ sr br, a.sellRoute = some sr ∧ a.buyRoute = some br ∧ i.lastUpdate = now ∧
      br.inAmount * qp = i.buyOverOracle id * (br.outAmount * tp) ∧ sr.inAmount * tp = i.sellOverOracle id * (sr.outAmount * qp) := by
  unfold tryUpdate at h
  rw [if_neg hne, ht, hq] at h
  cases hs : a.sellRoute with
  | none => rw [hs] at h; simp at h
  | some sr =>
    cases hb : a.buyRoute with
    | none => rw [hs, hb] at h; simp at h
    | some br =>
      rw [hs, hb] at h
      simp only [Option.bind_eq_bind, Option.bind_some, Option.bind_eq_some_iff, Option.some.injEq] at h
      obtain ⟨b, h1, c, h2, h3⟩ := h
      refine ⟨sr, br, rfl, rfl, by rw [← h3], ?_⟩
      unfold inPerOut at h1 h2
      by_cases hb0 : br.outAmount = 0 ∨ br.inAmount = 0
      · rw [if_pos hb0] at h1; simp at h1
      by_cases hs0 : sr.outAmount = 0 ∨ sr.inAmount = 0
      · rw [if_pos hs0] at h2; simp at h2
      rw [if_neg hb0] at h1
      rw [if_neg hs0] at h2
      simp only [Option.some.injEq, id_eq] at h1 h2
      push Not at hb0 hs0
      have e1 : (br.outAmount : ℚ) ≠ 0 := by exact_mod_cast hb0.1
      have e2 : (br.inAmount : ℚ) ≠ 0 := by exact_mod_cast hb0.2
      have e3 : (sr.outAmount : ℚ) ≠ 0 := by exact_mod_cast hs0.1
      have e4 : (sr.inAmount : ℚ) ≠ 0 := by exact_mod_cast hs0.2
      have e5 := ne_of_gt htp
      have e6 := ne_of_gt hqp
      rw [← h3]
      unfold Info.buyOverOracle Info.sellOverOracle
      simp only [id_eq]
      rw [← h1, ← h2]
      constructor <;> field_simp

/-- **C108 (round trip).** Two estimates made with the same price of the quote token: selling `x` of the sell token through the quoted
rate and buying the buy token with it gives what the swap at the oracle prices would give, divided by the product of the two costs. -/
theorem C108_round_trip {b s : Info} (hb : 0 < b.buy) (hs : 0 < s.sell) (hbo : 0 < b.oracle) (hso : 0 < s.oracle) (x : ℚ) :
    x * s.sell / b.buy * (b.buyOverOracle id * s.sellOverOracle id) = x * s.oracle / b.oracle := by
  unfold Info.buyOverOracle Info.sellOverOracle
  simp only [id_eq]
  have h1 := ne_of_gt hb
  have h2 := ne_of_gt hs
  have h3 := ne_of_gt hbo
  have h4 := ne_of_gt hso
  field_simp

/-- **C108 (profit).** Up to rounding, a conditional swap counts as plausible only if its taker, who gives one buy token and gets
the swap's taker price in sell tokens, ends up with at least one buy token plus the wanted profit after selling them and buying the
buy token back at the quoted rates — provided the base price is that of the estimates' oracle prices. -/
theorem C108_profit {c : Trigger.Cfg} {t : Swap.Tcs} {base : ℚ} {now : Int} {b s : Info} (hb : 0 < b.buy) (hs : 0 < s.sell) (hbo : 0 < b.oracle)
    (hso : 0 < s.oracle) (hbase : base = b.oracle / s.oracle)
    (h : Trigger.plausible id c t base now (some (b.buyOverOracle id)) (some (s.sellOverOracle id)) = .ok true) :
    ∃ premium, t.premiumPrice id base now = .ok premium ∧ base ≤ t.takerPrice id premium ∧
      1 + c.profitFraction ≤ t.takerPrice id premium * s.sell / b.buy := by
  unfold Trigger.plausible at h
  rw [bind_ok] at h
  obtain ⟨premium, hp, h⟩ := h
  refine ⟨premium, hp, ?_⟩
  dsimp only at h
  by_cases hlt : t.takerPrice id premium < base
  · rw [if_pos hlt] at h; simp at h
  rw [if_neg hlt] at h
  simp only [id_eq, ok_inj, ge_iff_le, decide_eq_true_eq] at h
  refine ⟨le_of_not_gt hlt, ?_⟩
  have e : base * (b.buyOverOracle id * s.sellOverOracle id) = b.buy / s.sell := by
    unfold Info.buyOverOracle Info.sellOverOracle
    simp only [id_eq]
    rw [hbase]
    have h1 := ne_of_gt hs
    have h3 := ne_of_gt hbo
    have h4 := ne_of_gt hso
    field_simp
  have h : base * (b.buyOverOracle id * s.sellOverOracle id) * (1 + c.profitFraction) ≤ t.takerPrice id premium := h
  rw [e] at h
  rw [le_div_iff₀ hb]
  have h5 := mul_le_mul_of_nonneg_right h hs.le
  have h6 : b.buy / s.sell * (1 + c.profitFraction) * s.sell = (1 + c.profitFraction) * b.buy := by
    have h1 := ne_of_gt hs
    field_simp
  linarith

/-! ### Example -/

def exTracking : Tracking :=
  { state := fun _ _ => none, typeThreshold := fun _ => none, typeDuration := fun _ => none, threshold := 2, duration := 1000, keepMessages := 10,
    keepDuration := 10000, lastLog := 0, logInterval := 100 }

def exGood : Answers := { tokenPrice := some 20, quotePrice := some 1, sellRoute := some ⟨50, 900⟩, buyRoute := some ⟨1000, 40⟩, message := 0 }

-- 25% over the oracle price for buying, 10/9 for selling; after two failures the answers of the third update are not even asked for, and the estimate is still there
example : tryUpdate id 0 3 7 exGood = some ⟨7, 20, 25, 18⟩ ∧
    ((run id 0 ⟨fun _ => none, exTracking⟩ [(7, .update 3 exGood), (17, .update 3 { exGood with sellRoute := none }), (27, .update 3 { exGood with sellRoute := none }),
      (37, .update 3 { exGood with buyRoute := some ⟨1000, 50⟩ }), (50000, .log)]).infos 3) = some ⟨7, 20, 25, 18⟩ := by
  constructor <;> (simp [tryUpdate, exGood, inPerOut, run, step, updateOne, hadTooMany, exTracking, record, setState, shouldSkip, update, wipeOld] <;> norm_num)

/-- a swap with a premium of 100%, no fees -/
def exTcs : Swap.Tcs :=
  { kind := .fixedPremium, maxBuy := 10, maxSell := 10, expiry := 1000, lower := 0, upper := 100, premiumRate := 1, takerFeeRate := 0, makerFeeRate := 0,
    allowDeposits := true, allowBorrows := true, start := 0, duration := 0 }

-- buying 3 with token 5: the cost 25/18 leaves 44% of the premium
example : Trigger.plausible id { profitFraction := 2 / 5 } exTcs 1 7 (some ((⟨7, 20, 25, 18⟩ : Info).buyOverOracle id)) (some ((⟨7, 20, 25, 18⟩ : Info).sellOverOracle id)) = .ok true := by
  simp [Trigger.plausible, Swap.Tcs.premiumPrice, Swap.Tcs.takerPrice, exTcs, Info.buyOverOracle, Info.sellOverOracle, bind, Except.bind]
  norm_num

end SwapInfo
end Mango
