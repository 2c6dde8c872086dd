import Verif.Health.FromState
import Verif.Props.HealthFormula
import Verif.Props.HealthSkip
import Verif.Props.Health2
import Verif.Perp.Exec
import Mathlib.Tactic.Linarith
import Mathlib.Tactic.Positivity
/-!
# C55: health in terms of banks, markets and positions
-/
namespace Mango
namespace Health
open Fx Swap

/-- quote value of all deposits of a bank, as the code computes it (`rnd` after every step) -/
def depositsQuote (rnd : ℚ → ℚ) (b : BankIn) : ℚ :=
  rnd (rnd (rnd ((b.bank.depositIndex * b.bank.indexedDeposits / S : Int) / S) + rnd b.bank.potentialSerumTokens) * rnd ((max b.oracle b.bank.stablePrice : Int) / S))
def borrowsQuote (rnd : ℚ → ℚ) (b : BankIn) : ℚ :=
  rnd (rnd ((b.bank.borrowIndex * b.bank.indexedBorrows / S : Int) / S) * rnd ((max b.oracle b.bank.stablePrice : Int) / S))

/-- `t` describes the balance of position `p` in bank `b`, including what open orders accounts hold free -/
structure TokenFor (rnd : ℚ → ℚ) (now : Int) (b : BankIn) (os : List OpenOrd) (p : Pos) (t : TokenInfo) : Prop where
  usable : b.bad = false
  index : t.tokenIndex = p.tokenIndex
  oracle : t.prices.oracle = b.oracle
  stable : t.prices.stable = b.bank.stablePrice
  initAsset : t.initAssetWeight = b.bank.initAssetWeight
  initLiab : t.initLiabWeight = b.bank.initLiabWeight
  maint : b.bank.maintWeights now = .ok (t.maintAssetWeight, t.maintLiabWeight)
  scaledAsset : t.initScaledAssetWeight =
    if b.depositScaleStart = F64MAX ∨ depositsQuote rnd b ≤ b.depositScaleStart then b.bank.initAssetWeight
    else b.bank.initAssetWeight * roundEven (rnd (b.depositScaleStart / depositsQuote rnd b) * S) / S
  scaledLiab : t.initScaledLiabWeight =
    if b.borrowScaleStart = F64MAX ∨ borrowsQuote rnd b ≤ b.borrowScaleStart then b.bank.initLiabWeight
    else if b.borrowScaleStart = 0 then Fx.MAX
    else b.bank.initLiabWeight * roundEven (rnd (borrowsQuote rnd b / b.borrowScaleStart) * S) / S
  balance : t.balanceSpot = p.indexed * (if p.indexed > 0 then b.bank.depositIndex else b.bank.borrowIndex) / S +
    sumOf (fun o => (if o.base = p.tokenIndex then o.baseFree * S else 0) + (if o.quote = p.tokenIndex then o.quoteFree * S else 0)) os
  allow : t.allowAssetLiquidation = b.allowAssetLiquidation

/-- `i` describes perp position `x.2.1` in market `x.1`; taker fills not yet processed count -/
structure PerpFor (x : Perp.Market × Perp.Pos × I80F48) (i : PerpInfo) : Prop where
  settle : i.settleTokenIndex = x.1.settleTokenIndex
  weights : i.maintBaseAssetWeight = x.1.maintBaseAssetWeight ∧ i.initBaseAssetWeight = x.1.initBaseAssetWeight ∧ i.maintBaseLiabWeight = x.1.maintBaseLiabWeight ∧
    i.initBaseLiabWeight = x.1.initBaseLiabWeight ∧ i.maintOverallAssetWeight = x.1.maintOverallAssetWeight ∧ i.initOverallAssetWeight = x.1.initOverallAssetWeight
  oracle : i.basePrices.oracle = x.2.2
  stable : i.basePrices.stable = x.1.stablePrice
  lotSize : i.baseLotSize = x.1.baseLotSize
  lots : i.baseLots = x.2.1.base + x.2.1.takerBase
  bids : i.bidsBaseLots = x.2.1.bids
  asks : i.asksBaseLots = x.2.1.asks
  quote : i.quote = x.2.1.quote + x.2.1.takerQuote * x.1.quoteLotSize * S -
    x.2.1.base * (if x.2.1.base > 0 then x.1.longFunding - x.2.1.longSettled else x.1.shortFunding - x.2.1.shortSettled)
  market : i.perpMarketIndex = x.1.idx
  openOrders : i.hasOpenOrders = decide (x.2.1.asks ≠ 0 ∨ x.2.1.bids ≠ 0)
  openFills : i.hasOpenFills = decide (x.2.1.takerBase ≠ 0 ∨ x.2.1.takerQuote ≠ 0)

/-- `s` describes the spot open orders `o`; tokens by their place in the token list -/
structure MarketFor (ts : List TokenInfo) (o : OpenOrd) (s : Serum3Info) : Prop where
  base : ∃ t, ts[s.baseIdx]? = some t ∧ t.tokenIndex = o.base
  quote : ∃ t, ts[s.quoteIdx]? = some t ∧ t.tokenIndex = o.quote
  reservedBase : s.reservedBase = o.baseReserved * S
  reservedQuote : s.reservedQuote = o.quoteReserved * S
  lowestAsk : s.reservedBaseAsQuoteLowestAsk = o.baseReserved * o.lowestAsk
  highestBid : s.reservedQuoteAsBaseHighestBid = o.quoteReserved * o.highestBidInv
  market : s.marketIndex = o.marketIndex
  zero : s.hasZeroFunds = o.hasZeroFunds

theorem mapRes_ok {α β : Type} {f : α → Res β} : ∀ {l : List α} {r : List β}, mapRes f l = .ok r → List.Forall₂ (fun a b => f a = .ok b) l r := by
  intro l
  induction l with
  | nil => intro r h; simp [mapRes] at h; subst h; exact .nil
  | cons a l ih =>
    intro r h
    simp only [mapRes, bind_ok] at h
    obtain ⟨b, h1, bs, h2, h3⟩ := h
    simp at h3; subst h3
    exact .cons h1 (ih h2)

theorem scaledAsset_ok {rnd : ℚ → ℚ} {b : BankIn} {w : I80F48} (h : b.scaledAsset rnd (max b.oracle b.bank.stablePrice) = .ok w) :
    w = if b.depositScaleStart = F64MAX ∨ depositsQuote rnd b ≤ b.depositScaleStart then b.bank.initAssetWeight
      else b.bank.initAssetWeight * roundEven (rnd (b.depositScaleStart / depositsQuote rnd b) * S) / S := by
  unfold BankIn.scaledAsset at h
  by_cases h0 : b.depositScaleStart = F64MAX
  · rw [if_pos h0] at h
    rw [if_pos (Or.inl h0)]; simp at h; exact h.symm
  · rw [if_neg h0] at h
    simp only [bind_ok, Bank.nativeDeposits, mul_ok] at h
    obtain ⟨nd, ⟨rfl, _⟩, h⟩ := h
    unfold Swap.toF at h
    change (if depositsQuote rnd b ≤ _ then _ else _) = _ at h
    by_cases h1 : depositsQuote rnd b ≤ b.depositScaleStart
    · rw [if_pos h1] at h
      rw [if_pos (Or.inr h1)]; simp at h; exact h.symm
    · rw [if_neg h1] at h
      rw [if_neg (by rintro (h | h); exacts [h0 h, h1 h])]
      simp only [bind_ok, toFx_ok, mul_ok] at h
      obtain ⟨sc, ⟨rfl, _⟩, h2, _⟩ := h
      exact h2

theorem scaledLiab_ok {rnd : ℚ → ℚ} {b : BankIn} {w : I80F48} (h : b.scaledLiab rnd (max b.oracle b.bank.stablePrice) = .ok w) :
    w = if b.borrowScaleStart = F64MAX ∨ borrowsQuote rnd b ≤ b.borrowScaleStart then b.bank.initLiabWeight
      else if b.borrowScaleStart = 0 then Fx.MAX
      else b.bank.initLiabWeight * roundEven (rnd (borrowsQuote rnd b / b.borrowScaleStart) * S) / S := by
  unfold BankIn.scaledLiab at h
  by_cases h0 : b.borrowScaleStart = F64MAX
  · rw [if_pos h0] at h
    rw [if_pos (Or.inl h0)]; simp at h; exact h.symm
  · rw [if_neg h0] at h
    simp only [bind_ok, Bank.nativeBorrows, mul_ok] at h
    obtain ⟨nd, ⟨rfl, _⟩, h⟩ := h
    unfold Swap.toF at h
    change (if borrowsQuote rnd b ≤ _ then _ else _) = _ at h
    by_cases h1 : borrowsQuote rnd b ≤ b.borrowScaleStart
    · rw [if_pos h1] at h
      rw [if_pos (Or.inr h1)]; simp at h; exact h.symm
    · rw [if_neg h1] at h
      rw [if_neg (by rintro (h | h); exacts [h0 h, h1 h])]
      by_cases h2 : b.borrowScaleStart = 0
      · rw [if_pos h2] at h ⊢; simp at h; exact h.symm
      · rw [if_neg h2] at h ⊢
        simp only [bind_ok, toFx_ok, mul_ok] at h
        obtain ⟨sc, ⟨rfl, _⟩, h2, _⟩ := h
        exact h2

theorem buildTokens_full {view : Nat → View} : ∀ {ps : List Pos} {ts : List TokenInfo}, buildTokens view false ps = .ok ts →
    List.Forall₂ (fun p t => posInfo view p = .ok t) ps ts := by
  intro ps
  induction ps with
  | nil => intro ts h; simp [buildTokens] at h; subst h; exact .nil
  | cons p ps ih =>
    intro ts h
    simp only [buildTokens, Bool.false_eq_true, false_and, if_false, bind_ok] at h
    obtain ⟨t, h1, ts', h2, h3⟩ := h
    simp at h3; subst h3
    exact .cons h1 (ih h2)

theorem perpInfoOf_ok {x : Perp.Market × Perp.Pos × I80F48} {i : PerpInfo} (h : perpInfoOf x.1 x.2.1 x.2.2 = .ok i) : PerpFor x i := by
  obtain ⟨m, p, o⟩ := x
  simp only [perpInfoOf, bind_ok, ck64_ok, sub_ok, add_ok] at h
  obtain ⟨lots, ⟨rfl, _⟩, uf, hf, tq, ⟨rfl, _⟩, q, ⟨rfl, _⟩, q2, ⟨rfl, _⟩, h⟩ := h
  simp at h; subst h
  have hf := Perp.unsettledFunding_ok hf
  refine ⟨rfl, ⟨rfl, rfl, rfl, rfl, rfl, rfl⟩, rfl, rfl, rfl, rfl, rfl, rfl, ?_, rfl, by simp, by simp⟩
  dsimp only
  rw [hf]
  unfold ofInt
  by_cases h1 : p.base > 0
  · rw [if_pos h1, if_pos h1]; omega
  · rw [if_neg h1, if_neg h1]
    by_cases h2 : p.base < 0
    · rw [if_pos h2]; omega
    · rw [if_neg h2]
      have : p.base = 0 := by omega
      rw [this]; simp

theorem forall₂_getElem {α β : Type} {R : α → β → Prop} {l : List α} {m : List β} : List.Forall₂ R l m ↔
    l.length = m.length ∧ ∀ (i : Nat) a b, l[i]? = some a → m[i]? = some b → R a b := by
  constructor
  · intro h
    induction h with
    | nil => simp
    | cons hr _ ih =>
      refine ⟨by simp [ih.1], ?_⟩
      intro i a b ha hb
      cases i with
      | zero => simp at ha hb; subst ha; subst hb; exact hr
      | succ i => simp at ha hb; exact ih.2 i a b ha hb
  · rintro ⟨hl, h⟩
    induction l generalizing m with
    | nil => cases m with
      | nil => exact .nil
      | cons b m => simp at hl
    | cons a l ih => cases m with
      | nil => simp at hl
      | cons b m =>
        exact .cons (h 0 a b (by simp) (by simp)) (ih (by simpa using hl) (fun i a' b' h1 h2 => h (i + 1) a' b' (by simpa using h1) (by simpa using h2)))

/-- a cache built from the state describes it -/
theorem accountCache_for {rnd : ℚ → ℚ} {now : Int} {banks : Nat → BankIn} {ps : List Pos} {os : List OpenOrd}
    {perps : List (Perp.Market × Perp.Pos × I80F48)} {c : Cache} (distinct : (ps.map (·.tokenIndex)).Nodup)
    (hv : accountCache rnd now banks ps os perps = .ok c) :
    List.Forall₂ (fun p t => TokenFor rnd now (banks p.tokenIndex) os p t) ps c.tokens ∧
      List.Forall₂ (MarketFor c.tokens) os c.serums ∧ List.Forall₂ PerpFor perps c.perps ∧ (c.tokens.map (·.tokenIndex)).Nodup := by
  simp only [accountCache, bind_ok] at hv
  obtain ⟨vs, h1, pp, h2, h3⟩ := hv
  obtain ⟨ts0, b1, B, kf, _⟩ := buildCache_built distinct h3
  rw [kf rfl] at B
  have F := buildTokens_full b1
  refine ⟨?_, ?_, ?_, B.nodup'⟩
  · rw [forall₂_getElem] at F ⊢
    refine ⟨by rw [F.1, B.len], ?_⟩
    intro i p t hp ht
    have hi : i < ts0.length := by
      have := getElem?_lt hp; omega
    have e0 := List.getElem?_eq_getElem hi
    have e1 := F.2 i p _ hp e0
    have e2 := B.tok i _ e0
    rw [ht, Option.some.injEq] at e2
    -- the view
    have V := mapRes_ok h1
    rw [forall₂_getElem] at V
    have hiv : i < vs.length := by have := getElem?_lt hp; omega
    have e3 := V.2 i p _ hp (List.getElem?_eq_getElem hiv)
    generalize vs[i] = w at e3
    simp only [bind_ok, require_ok] at e3
    obtain ⟨_, hgood, e3⟩ := e3
    simp only [posInfo, bind_ok, mul_ok] at e1
    obtain ⟨n, ⟨hn, _⟩, e1⟩ := e1
    rw [e3] at e1 hn
    simp only [viewVal] at e1 hn
    simp only [ok_inj] at e1
    rw [← e1] at e2
    simp only [BankIn.view, bind_ok] at e3
    obtain ⟨⟨ma, ml⟩, m1, sa, m2, sl, m3, e3⟩ := e3
    simp only [ok_inj] at e3
    subst e3
    dsimp only at e2 hn
    subst e2
    dsimp only [Prices.liab] at m2 m3
    refine ⟨hgood, rfl, rfl, rfl, rfl, rfl, m1, scaledAsset_ok m2, scaledLiab_ok m3, ?_, rfl⟩
    dsimp only
    rw [hn]
    rfl
  · have := B.ser
    rw [forall₂_getElem] at this ⊢
    refine ⟨this.1, ?_⟩
    intro i o s ho hs
    obtain ⟨f1, f2, f3⟩ := this.2 i o s ho hs
    obtain ⟨t1, g1, g2⟩ := findToken_mem f1
    obtain ⟨t2, g3, g4⟩ := findToken_mem f2
    have k1 := B.tok _ _ g1
    have k2 := B.tok _ _ g3
    simp only [OpenOrd.info, bind_ok, mul_ok] at f3
    obtain ⟨ask, ⟨a1, _⟩, bid, ⟨a2, _⟩, f3⟩ := f3
    have hS := S_pos
    have em : ∀ a b : Int, ofInt a * b / S = a * b := by
      intro a b
      unfold ofInt
      rw [Int.mul_right_comm]; exact Int.mul_ediv_cancel _ (by omega)
    rw [em] at a1 a2
    simp only [ok_inj] at f3
    refine ⟨⟨_, k1, g2⟩, ⟨_, k2, g4⟩, ?_, ?_, ?_, ?_, ?_, ?_⟩ <;> rw [← f3]
    · rfl
    · rfl
    · exact a1
    · exact a2
  · rw [B.perps]
    refine List.Forall₂.imp ?_ (mapRes_ok h2)
    intro a b hab
    exact perpInfoOf_ok hab

/-- **C55, the whole way** If the health of an account can be computed from the banks, markets, oracle prices and its positions, then every bank and oracle was usable, every
position, open orders account and perp position is taken into account exactly as described, and the health is the value of the formula. -/
theorem C55_account_health {rnd : ℚ → ℚ} {fd : FDiv} {now : Int} {banks : Nat → BankIn} {ps : List Pos} {os : List OpenOrd}
    {perps : List (Perp.Market × Perp.Pos × I80F48)} {h : HT} {v : Int} (distinct : (ps.map (·.tokenIndex)).Nodup)
    (hv : accountHealth rnd fd now banks ps os perps h = .ok v) :
    ∃ c : Cache, List.Forall₂ (fun p t => TokenFor rnd now (banks p.tokenIndex) os p t) ps c.tokens ∧
      List.Forall₂ (MarketFor c.tokens) os c.serums ∧ List.Forall₂ PerpFor perps c.perps ∧
      v = Formula.health (fun x y => val (fd x y)) c h := by
  simp only [accountHealth, bind_ok] at hv
  obtain ⟨c, h1, h4⟩ := hv
  obtain ⟨a1, a2, a3, a4⟩ := accountCache_for distinct h1
  exact ⟨c, a1, a2, a3, C55_health_formula a4 h4⟩

/-! ## Scaling and the order of weights -/

theorem roundEven_le_S {x : ℚ} (h : x ≤ 1) : roundEven (x * S) ≤ S := by
  have := roundEven_mono (x := x * S) (y := 1 * S) (mul_le_mul_of_nonneg_right h (by norm_num [S]))
  rwa [roundEven_S] at this
theorem roundEven_nonneg {x : ℚ} (h : 0 ≤ x) : 0 ≤ roundEven (x * S) := by
  rw [← roundEven_zero]
  apply roundEven_mono
  have : (0 : ℚ) ≤ (S : ℚ) := by norm_num [S]
  positivity
theorem roundEven_ge_S {x : ℚ} (h : 1 ≤ x) : S ≤ roundEven (x * S) := by
  have := roundEven_mono (x := 1 * S) (y := x * S) (mul_le_mul_of_nonneg_right h (by norm_num [S]))
  rwa [roundEven_S] at this

/-- what `Bank::verify` checks and the code relies on elsewhere: positive scale starts, init weights that are stricter than maintenance weights -/
structure BankIn.Verified (b : BankIn) : Prop where
  verify : b.bank.verify = .ok ()
  depositStart : 0 < b.depositScaleStart
  borrowStart : 0 < b.borrowScaleStart

/-- **C55, scaling** As deposits (borrows) grow beyond their start value, the init asset weight only gets smaller (the liability weight larger): the scaled weights are never more
lenient than the configured ones. -/
theorem C55_scaled_weights {rnd : ℚ → ℚ} (hr : IsFloat rnd) {now : Int} {b : BankIn} (hb : b.Verified) {os : List OpenOrd} {p : Pos} {t : TokenInfo}
    (ht : TokenFor rnd now b os p t) :
    0 ≤ t.initScaledAssetWeight ∧ t.initScaledAssetWeight ≤ b.bank.initAssetWeight ∧ b.bank.initLiabWeight ≤ t.initScaledLiabWeight ∧
    0 ≤ t.initScaledLiabWeight := by
  have hver := hb.verify
  simp only [Bank.verify, bind_ok, require_ok] at hver
  obtain ⟨_, _, _, _, _, _, _, _, _, _, _, _, _, _, _, _, _, ha, _, _, _, hml, _, hil, _⟩ := hver
  have hS := S_pos
  have hlw : 0 ≤ b.bank.initLiabWeight := by omega
  have rnd0 : ∀ x, 0 ≤ x → 0 ≤ rnd x := by
    intro x hx
    have := hr.mono 0 x hx
    rwa [hr.zero] at this
  rw [ht.scaledAsset, ht.scaledLiab]
  refine ⟨?_, ?_, ?_, ?_⟩
  · split
    · exact ha
    · rename_i hc
      push Not at hc
      apply floor_nonneg
      apply Int.mul_nonneg ha
      apply roundEven_nonneg
      apply rnd0
      exact div_nonneg hb.depositStart.le (by linarith [hb.depositStart, hc.2])
  · split
    · exact le_refl _
    · rename_i hc
      push Not at hc
      have h1 : rnd (b.depositScaleStart / depositsQuote rnd b) ≤ 1 := by
        have := hr.mono (b.depositScaleStart / depositsQuote rnd b) 1 (div_le_one_of_le₀ hc.2.le (by linarith [hb.depositStart, hc.2]))
        rwa [hr.one] at this
      have h2 := roundEven_le_S h1
      have h3 := Int.mul_le_mul_of_nonneg_left h2 ha
      have := floor_mono h3
      rwa [Int.mul_ediv_cancel _ (by omega)] at this
  · have key : b.bank.initLiabWeight ≤ (if b.borrowScaleStart = F64MAX ∨ borrowsQuote rnd b ≤ b.borrowScaleStart then b.bank.initLiabWeight
      else if b.borrowScaleStart = 0 then Fx.MAX
      else b.bank.initLiabWeight * roundEven (rnd (borrowsQuote rnd b / b.borrowScaleStart) * S) / S) := by
      split
      · exact le_refl _
      · rename_i hc
        push Not at hc
        rw [if_neg hb.borrowStart.ne']
        have h1 : 1 ≤ rnd (borrowsQuote rnd b / b.borrowScaleStart) := by
          have := hr.mono 1 (borrowsQuote rnd b / b.borrowScaleStart) (by rw [le_div_iff₀ hb.borrowStart]; linarith [hc.2])
          rwa [hr.one] at this
        have h2 := roundEven_ge_S h1
        have h3 := Int.mul_le_mul_of_nonneg_left h2 hlw
        have := floor_mono h3
        rwa [Int.mul_ediv_cancel _ (by omega)] at this
    omega
  · split
    · exact hlw
    · rename_i hc
      push Not at hc
      rw [if_neg hb.borrowStart.ne']
      apply floor_nonneg
      apply Int.mul_nonneg hlw
      apply roundEven_nonneg
      apply rnd0
      exact div_nonneg (by linarith [hb.borrowStart, hc.2]) hb.borrowStart.le

/-- **C55, order of weights** For a bank that passes `verify`, with the maintenance weights in force now between the init asset weight and the init liability weight and in this
order (`verify` does not look at the order of the two maintenance weights nor at the targets of a shift), and non-negative prices: the token info meets the hypotheses of C37. -/
theorem C55_ordered {rnd : ℚ → ℚ} (hr : IsFloat rnd) {now : Int} {b : BankIn} (hb : b.Verified) {os : List OpenOrd} {p : Pos} {t : TokenInfo}
    (ht : TokenFor rnd now b os p t) {a l : I80F48} (hm : b.bank.maintWeights now = .ok (a, l)) (h1 : b.bank.initAssetWeight ≤ a) (h2 : a ≤ l) (h3 : l ≤ b.bank.initLiabWeight)
    (ho : 0 ≤ b.oracle) (hs : 0 ≤ b.bank.stablePrice) : t.Ordered := by
  obtain ⟨s1, s2, s3, s4⟩ := C55_scaled_weights hr hb ht
  have := ht.maint
  rw [hm] at this
  simp only [ok_inj, Prod.mk.injEq] at this
  obtain ⟨rfl, rfl⟩ := this
  exact ⟨by rw [ht.oracle]; exact ho, by rw [ht.stable]; exact hs, s1, by rw [ht.initAsset]; exact s2, by rw [ht.initAsset]; exact h1, h2, by rw [ht.initLiab]; exact h3,
    by rw [ht.initLiab]; omega⟩

end Health
end Mango
