import Verif.Props.ClientEx
import Verif.Props.TokenLiqGain
/-!
# C70: what the client library computes health of
-/
namespace Mango
namespace Client
open Fx Health Liquidation Serum

/-- token `ti` of the account changed by `d`, with the weights that bank `b` scales to -/
def Changed (rnd : ℚ → ℚ) (c : Cache) (ti : Nat) (b : BankIn) (d : Int) (c' : Cache) : Prop :=
  ∃ i t wa wl, (∀ j s, c.tokens[j]? = some s → s.tokenIndex = ti → i ≤ j) ∧ c.tokens[i]? = some t ∧ t.tokenIndex = ti ∧
    b.scaledAsset rnd (t.prices.asset .init) = .ok wa ∧ b.scaledLiab rnd (t.prices.liab .init) = .ok wl ∧
    c' = { c with tokens := c.tokens.set i { t with balanceSpot := t.balanceSpot + d, initScaledAssetWeight := wa, initScaledLiabWeight := wl } }

theorem tokenIdx_first {c : Cache} {ti i : Nat} (h : c.tokenIdx ti = some i) :
    (∀ j s, c.tokens[j]? = some s → s.tokenIndex = ti → i ≤ j) ∧ ∀ t, c.tokens[i]? = some t → t.tokenIndex = ti := by
  unfold Cache.tokenIdx at h
  rw [List.findIdx?_eq_some_iff_getElem] at h
  obtain ⟨hl, h1, h2⟩ := h
  constructor
  · intro j s hj hs
    by_contra hc
    have := h2 j (by omega)
    rw [List.getElem?_eq_some_iff] at hj
    obtain ⟨hj, rfl⟩ := hj
    simp [hs] at this
  · intro t ht
    rw [List.getElem?_eq_getElem hl, Option.some.injEq] at ht
    subst ht
    simpa using h1

theorem adjustBank_changed {rnd : ℚ → ℚ} {c c' : Cache} {ti : Nat} {b : BankIn} {d : I80F48} (h : c.adjustBank rnd ti b d = .ok c') : Changed rnd c ti b d c' := by
  unfold Cache.adjustBank at h
  split at h
  · simp at h
  · rename_i i hi
    simp only [bind_ok] at h
    obtain ⟨t, h1, wa, h2, wl, h3, h4⟩ := h
    have h1 := Health.at_ok.mp h1
    obtain ⟨f1, f2⟩ := tokenIdx_first hi
    obtain ⟨j, t0, t', g1, g2, g3, g4, g5, g6⟩ := adjust_ok h4
    rw [hi, Option.some.injEq] at g1
    subst g1
    rw [h1, Option.some.injEq] at g2
    subst g2
    refine ⟨i, t, wa, wl, f1, h1, f2 t h1, h2, h3, ?_⟩
    cases c'
    dsimp only at g3 g4 g5 ⊢
    rw [g3, g4, g5, g6]

/-- **C70 (what is looked at: swaps)** The health of a swap of `a` is that of the account after withdrawing `a` of the source token and depositing `a * price` of the other (the loan fee is left out,
`C70_borrow_fee_left_out`), with all other balances unchanged and the weights of the two tokens as scaled by their banks after the withdrawal and the deposit. -/
theorem C70_swap_preview {e : Env} {c c' : Cache} {src tgt : Tok} {price a : I80F48} (h : cacheAfterSwap e c src tgt price a = .ok c') :
    ∃ sb sp w tb tp x c1, src.bank.bank.withdrawWithFee src.pos a e.now = .ok (sb, sp, w) ∧ tgt.bank.bank.deposit tgt.pos (a * price / S) e.now = .ok (tb, tp, x) ∧
      Changed e.rnd c src.ti { src.bank with bank := sb } (-a) c1 ∧ Changed e.rnd c1 tgt.ti { tgt.bank with bank := tb } (a * price / S) c' := by
  simp only [cacheAfterSwap, bind_ok, mul_ok, neg_ok, Prod.exists] at h
  obtain ⟨_, ⟨rfl, _⟩, sb, sp, w, h1, tb, tp, x, h2, _, ⟨rfl, _⟩, c1, h3, h4⟩ := h
  exact ⟨sb, sp, w, tb, tp, x, c1, h1, h2, adjustBank_changed h3, adjustBank_changed h4⟩

/-- **C70 (what is looked at: borrows)** The health of a borrow of `a` is that of the account after withdrawing `a` (without the loan fee), with the weights of the token as scaled by its bank afterwards; the
bank's net borrows are within the limit at the given price. -/
theorem C70_borrow_preview {e : Env} {c c' : Cache} {src : Tok} {oracle a : I80F48} (h : cacheAfterBorrow e c src oracle a = .ok c') :
    ∃ b p w, src.bank.bank.withdrawWithFee src.pos a e.now = .ok (b, p, w) ∧ b.checkNetBorrows oracle = .ok () ∧ Changed e.rnd c src.ti { src.bank with bank := b } (-a) c' := by
  simp only [cacheAfterBorrow, bind_ok, neg_ok, Prod.exists] at h
  obtain ⟨b, p, w, h1, _, h2, _, ⟨rfl, _⟩, h3⟩ := h
  exact ⟨b, p, w, h1, h2, adjustBank_changed h3⟩

/-- **C70 (what is looked at: perp trades)** The health of a trade of `n` lots is that of the account with `n` lots more (bids) or less (asks) of base and their value at the given price paid or received. -/
theorem C70_trade_preview {c c' : Cache} {k : Nat} {p : PerpInfo} {price : I80F48} {bid : Bool} {n : Int} (h : cacheAfterTrade c k p price bid n = .ok c') :
    c' = { c with perps := c.perps.set k { p with baseLots := p.baseLots + (if bid then n else -n), quote := p.quote - (if bid then n else -n) * p.baseLotSize * price } } := by
  have hS : S ≠ 0 := by decide
  simp only [cacheAfterTrade, bind_ok, ck64_ok, mul_ok, sub_ok, ok_inj] at h
  obtain ⟨_, ⟨rfl, _⟩, _, ⟨rfl, _⟩, _, ⟨rfl, _⟩, _, ⟨rfl, _⟩, _, ⟨rfl, _⟩, _, ⟨rfl, _⟩, rfl⟩ := h
  have e0 : direction bid * n = if bid then n else -n := by unfold direction; cases bid <;> simp
  have e1 : ofInt (direction bid) * ofInt n / S = direction bid * n * S := by
    unfold ofInt
    rw [show direction bid * S * (n * S) = direction bid * n * S * S by ring, Int.mul_ediv_cancel _ hS]
  have e2 : direction bid * n * S * ofInt p.baseLotSize / S = direction bid * n * p.baseLotSize * S := by
    unfold ofInt
    rw [show direction bid * n * S * (p.baseLotSize * S) = direction bid * n * p.baseLotSize * S * S by ring, Int.mul_ediv_cancel _ hS]
  have e3 : direction bid * n * p.baseLotSize * S * price / S = direction bid * n * p.baseLotSize * price := by
    rw [show direction bid * n * p.baseLotSize * S * price = direction bid * n * p.baseLotSize * price * S by ring, Int.mul_ediv_cancel _ hS]
  rw [e1, e2, e3, e0]

/-- the hypotheses can be met -/
theorem cPreview : isOk (cacheAfterSwap cEnv cCache t2 t1 (S / 10 * 26) (100 * S)) = true ∧ isOk (cacheAfterBorrow cEnv cCache t2 (4 * S) (100 * S)) = true ∧
    isOk (cacheAfterTrade (cPerpCache 3) 0 (cPerpCache 3).perps[0] (20 * S) true 5) = true := by
  refine ⟨?_, ?_, ?_⟩ <;> decide +kernel
end Client
end Mango
