import Verif.Health.Lemmas
/-!
# C38: health is assets minus liabilities; C41: perp health takes the worst case of the open orders
-/
namespace Mango
namespace Health
open Fx

/-! ## C38 -/

theorem addSplit_ok {al r : Int × Int} {v : Int} (h : Cache.addSplit al v = .ok r) :
    r.1 - r.2 = al.1 - al.2 + v ∧ (0 ≤ al.1 → 0 ≤ r.1) ∧ (0 ≤ al.2 → 0 ≤ r.2) := by
  simp only [Cache.addSplit, ite_ok, bind_ok] at h
  rcases h with ⟨hc, a, h1, h2⟩ | ⟨hc, n, h1, l, h2, h3⟩
  · rw [add_ok] at h1; simp at h2; subst h2; simp; omega
  · rw [neg_ok] at h1; rw [add_ok] at h2; simp at h3; subst h3; simp; omega

theorem splitPerps_ok {h : HT} {ti : Nat} : ∀ {ps : List PerpInfo} {al r : Int × Int}, Cache.splitPerps h ti al ps = .ok r →
    r.1 - r.2 = al.1 - al.2 + sumOf (fun p => if p.settleTokenIndex = ti then val (p.hupnl h) else 0) ps := by
  intro ps
  induction ps with
  | nil => intro al r hh; simp [Cache.splitPerps] at hh; subst hh; simp
  | cons p ps ih =>
    intro al r hh
    simp only [Cache.splitPerps, ite_ok, bind_ok] at hh
    rcases hh with ⟨hc, hh⟩ | ⟨hc, u, h1, al', h2, h3⟩
    · have := ih hh; simp [hc, this]
    · have := ih h3
      have e := addSplit_ok h2
      simp at hc
      simp [hc, val_ok h1]; omega

/-- the floor of a difference -/
theorem floor_sub (x y : Int) : (x - y) / S ≤ x / S - y / S ∧ x / S - y / S ≤ (x - y) / S + 1 := by
  have h1 := mulFloor_bounds x
  have h2 := mulFloor_bounds y
  have h3 := mulFloor_bounds (x - y)
  have hS := S_pos
  unfold S at *
  omega

/-- what one token adds to assets minus liabilities, against its health contribution -/
theorem splitToken_ok {c : Cache} {h : HT} {sa : Bool} {tot r : Int × Int} {t : TokenInfo} {v b : Int}
    (hh : c.splitToken h sa tot t = .ok r)
    (hb : b = sumOf (fun p => if p.settleTokenIndex = t.tokenIndex then val (p.hupnl h) else 0) c.perps + t.balanceSpot)
    (hv : t.contribution h b = .ok v) :
    v ≤ (r.1 - r.2) - (tot.1 - tot.2) ∧ (r.1 - r.2) - (tot.1 - tot.2) ≤ v + 1 := by
  have hv := contribution_ok hv
  simp only [Cache.splitToken, bind_ok] at hh
  obtain ⟨al, h1, ⟨a, l⟩, h2, h3⟩ := hh
  have e1 := addSplit_ok h1
  have e2 := splitPerps_ok h2
  simp at e1 e2
  have hab : a - l = b := by omega
  cases sa with
  | true =>
    simp only [if_true, bind_ok, ite_ok] at h3
    obtain ⟨aw, h4, as, h5, ta, h6, h7⟩ := h3
    simp only [TokenInfo.assetWeightedPrice, TokenInfo.liabWeightedPrice, mul_ok, add_ok] at h4 h5 h6
    rcases h7 with ⟨hc, x, h7, tl, h8, h9⟩ | ⟨hc, lw, h7, d, h8, x, h9, y, h10, tl, h11, h12⟩
    · simp only [mul_ok, add_ok] at h7 h8
      simp at h9; subst h9
      rw [if_neg (by omega), ← h4.1, ← hab, Int.sub_mul] at hv
      have := floor_sub (a * aw) (l * aw)
      simp only; omega
    · simp only [TokenInfo.liabWeightedPrice, sub_ok, mul_ok, add_ok] at h7 h8 h9 h10 h11
      simp at h12; subst h12
      rw [if_pos (by omega), ← h7.1] at hv
      have h0 := floor_sub 0 (d * lw)
      have : 0 - d * lw = b * lw := by
        have : b = - d := by omega
        rw [this, Int.neg_mul]; omega
      rw [this] at h0
      simp only; simp at h0; omega
  | false =>
    simp only [Bool.false_eq_true, if_false, bind_ok, ite_ok] at h3
    obtain ⟨lw, h4, as, h5, tl, h6, h7⟩ := h3
    simp only [TokenInfo.assetWeightedPrice, TokenInfo.liabWeightedPrice, mul_ok, add_ok] at h4 h5 h6
    rcases h7 with ⟨hc, aw, h7, d, h8, x, h9, y, h10, ta, h11, h12⟩ | ⟨hc, x, h7, ta, h8, h9⟩
    · simp only [TokenInfo.assetWeightedPrice, sub_ok, mul_ok, add_ok] at h7 h8 h9 h10 h11
      simp at h12; subst h12
      have hd : d = b := by omega
      rw [if_neg (by omega), ← h7.1, ← hd] at hv
      simp only; omega
    · simp only [mul_ok, add_ok] at h7 h8
      simp at h9; subst h9
      rw [if_pos (by omega), ← h4.1, ← hab, Int.sub_mul] at hv
      have := floor_sub (a * lw) (l * lw)
      simp only; omega

theorem splitTokens_ok {c : Cache} {h : HT} {sa : Bool} : ∀ {ts : List TokenInfo} {bs : List Int} {tot r : Int × Int},
    c.splitTokens h sa tot ts = .ok r → bs.length = ts.length →
    (∀ (i : Nat) t b, ts[i]? = some t → bs[i]? = some b →
      b = sumOf (fun p => if p.settleTokenIndex = t.tokenIndex then val (p.hupnl h) else 0) c.perps + t.balanceSpot) →
    (∀ x ∈ ts.zip bs, ∃ v, x.1.contribution h x.2 = .ok v) →
    let s := sumOf (fun (x : TokenInfo × Int) => val (x.1.contribution h x.2)) (ts.zip bs)
    s ≤ (r.1 - r.2) - (tot.1 - tot.2) ∧ (r.1 - r.2) - (tot.1 - tot.2) ≤ s + ts.length := by
  intro ts
  induction ts with
  | nil => intro bs tot r hh _ _ _; simp [Cache.splitTokens] at hh; subst hh; simp
  | cons t ts ih =>
    intro bs tot r hh hl hb hv
    cases bs with
    | nil => simp at hl
    | cons b bs =>
      simp only [Cache.splitTokens, bind_ok] at hh
      obtain ⟨tot', h1, h2⟩ := hh
      obtain ⟨v, h3⟩ := hv (t, b) (by simp)
      have e1 := splitToken_ok h1 (hb 0 t b (by simp) (by simp)) h3
      have e2 := ih h2 (by simpa using hl) (fun i t' b' h4 h5 => hb (i+1) t' b' (by simpa using h4) (by simpa using h5))
        (fun x hx => hv x (by simp only [List.zip_cons_cons, List.mem_cons]; right; exact hx))
      simp only [List.zip_cons_cons, sumOf_cons, val_ok h3, List.length_cons] at e2 ⊢
      push_cast
      omega

theorem splitSerums_ok {c : Cache} {h : HT} {bs mr : List Int} : ∀ {xs : List (Serum3Info × Serum3Reserved)} {tot r : Int × Int},
    c.splitSerums h bs mr tot xs = .ok r →
    (r.1 - r.2) - (tot.1 - tot.2) = sumOf (fun (x : Serum3Info × Serum3Reserved) => val (x.1.contribution h c.tokens bs mr x.2)) xs := by
  intro xs
  induction xs with
  | nil => intro tot r hh; simp [Cache.splitSerums] at hh; subst hh; simp
  | cons x xs ih =>
    intro tot r hh
    obtain ⟨s, rr⟩ := x
    simp only [Cache.splitSerums, bind_ok] at hh
    obtain ⟨v, h1, tot', h2, h3⟩ := hh
    have e1 := addSplit_ok h2
    have e2 := ih h3
    simp [val_ok h1]; omega

/-- with distinct token indexes, the settle token of a perp is at position `i` exactly when its index is the one at `i` -/
theorem tokenIdx_iff {c : Cache} (hd : (c.tokens.map (·.tokenIndex)).Nodup) {i : Nat} {t : TokenInfo} (ht : c.tokens[i]? = some t)
    (ti : Nat) : c.tokenIdx ti = some i ↔ ti = t.tokenIndex := by
  have hi : i < c.tokens.length := by
    by_contra hc
    rw [List.getElem?_eq_none (by omega)] at ht; simp at ht
  rw [List.getElem?_eq_getElem hi] at ht
  simp at ht
  unfold Cache.tokenIdx
  rw [List.findIdx?_eq_some_iff_getElem]
  constructor
  · rintro ⟨_, h1, _⟩
    rw [ht] at h1; simp at h1; exact h1.symm
  · intro h
    refine ⟨hi, by rw [ht]; simp [h], ?_⟩
    intro j hj
    simp
    intro hc
    have h2 := List.pairwise_iff_getElem.mp hd j i (by simp; omega) (by simpa using hi) hj
    simp [hc, ht, h] at h2

/-- **C38** For every health cache with one entry per token, both splitting functions report assets and liabilities whose
difference is the health, up to one unit in the last place per token (each weighting rounds down). -/
theorem C38_health_is_assets_minus_liabs {fd : FDiv} {c : Cache} {h : HT} {stableAssets : Bool} {health assets liabs : I80F48}
    (distinct : (c.tokens.map (·.tokenIndex)).Nodup)
    (hh : c.health fd h = .ok health) (hs : c.assetsAndLiabs fd h stableAssets = .ok (assets, liabs)) :
    health ≤ assets - liabs ∧ assets - liabs ≤ health + c.tokens.length := by
  simp only [Cache.health, bind_ok] at hh
  obtain ⟨bs, hb, hh⟩ := hh
  obtain ⟨mr, rs, hr, e, f1, f2⟩ := healthSum_ok hh
  obtain ⟨l1, v1, p1⟩ := balancesI_ok hb
  simp only [Cache.assetsAndLiabs, bind_ok] at hs
  obtain ⟨tot, s1, bs', s2, ⟨mr', rs'⟩, s3, s4⟩ := hs
  rw [hb] at s2; simp at s2; subst s2
  rw [hr] at s3; simp at s3; obtain ⟨rfl, rfl⟩ := s3
  have e1 := splitTokens_ok (bs := bs) s1 l1 (by
    intro i t b ht hbi
    have := v1 i t ht
    rw [hbi] at this; simp at this
    rw [this]
    congr 1
    apply sumOf_congr
    intro p _
    unfold perpOn
    simp [tokenIdx_iff distinct ht]) f1
  have e2 := splitSerums_ok s4
  simp at e1 e2
  omega

/-! ## C41 -/

/-- the exact value of one execution case: `orderLots` lots of orders execute at `price`, and the resulting base position is valued
with the given weights and prices (all in 1/2^48 units; weights multiply first, as two roundings down) -/
def caseValue (lots orderLots lotSize : Int) (assetW liabW assetP liabP price : I80F48) : I80F48 :=
  let base := (lots + orderLots) * lotSize
  (if base < 0 then base * liabW * liabP / S else base * assetW * assetP / S) - orderLots * lotSize * price

theorem mul_ofInt' (n x : Int) : ofInt n * x / S = n * x := by
  unfold ofInt
  rw [Int.mul_right_comm, Int.mul_ediv_cancel _ (by decide)]

theorem ofInt_neg (n : Int) : (ofInt n < 0) ↔ n < 0 := by
  unfold ofInt S; omega

theorem execCase_ok {p : PerpInfo} {h : HT} {o : Int} {pr v : Int} (hh : p.execCase h o pr = .ok v) :
    v = caseValue p.baseLots o p.baseLotSize (p.baseWeight h false) (p.baseWeight h true) (p.basePrices.asset h) (p.basePrices.liab h) pr := by
  simp only [PerpInfo.execCase, bind_ok, ck64_ok, mul_ok, neg_ok, add_ok, ofInt_neg] at hh
  obtain ⟨lots, ⟨h1, _⟩, nat, ⟨h2, _⟩, x, ⟨h3, _⟩, bh, ⟨h4, _⟩, on, ⟨h5, _⟩, ng, ⟨h6, _⟩, oq, ⟨h7, _⟩, h8, _⟩ := hh
  subst h1; subst h2; subst h5; subst h6
  rw [mul_ofInt'] at h3
  have hq : oq = -(o * p.baseLotSize * pr) := by
    rw [h7, show -ofInt (o * p.baseLotSize) = ofInt (-(o * p.baseLotSize)) by unfold ofInt; rw [Int.neg_mul], mul_ofInt', Int.neg_mul]
  unfold caseValue
  simp only
  by_cases hn : (p.baseLots + o) * p.baseLotSize < 0
  · simp only [hn, decide_true, if_true] at h3 h4 ⊢
    rw [h3] at h4
    omega
  · simp only [hn, decide_false, if_false] at h3 h4 ⊢
    rw [h3] at h4
    omega

/-- **C41a** The unweighted health pnl of a perp position is its quote plus the worse of "all bids execute at the liability price" and
"all asks execute at the asset price". -/
theorem C41_worst_case {p : PerpInfo} {h : HT} {u : I80F48} (hh : p.uhupnl h = .ok u) :
    let v := fun orderLots price =>
      caseValue p.baseLots orderLots p.baseLotSize (p.baseWeight h false) (p.baseWeight h true) (p.basePrices.asset h) (p.basePrices.liab h) price
    u = p.quote + min (v p.bidsBaseLots (p.basePrices.liab h)) (v (-p.asksBaseLots) (p.basePrices.asset h)) := by
  simp only [PerpInfo.uhupnl, bind_ok, ck64_ok, add_ok] at hh
  obtain ⟨b, h1, na, ⟨h2, _⟩, a, h3, h4, _⟩ := hh
  subst h2
  have e1 := execCase_ok h1
  have e2 := execCase_ok h3
  simp only [← e1, ← e2]
  exact h4

/-- consistently ordered risk parameters of a perp market: what `perp_create_market`/`perp_edit_market` intend -/
structure PerpInfo.Ordered (p : PerpInfo) : Prop where
  lot : 0 ≤ p.baseLotSize
  bids : 0 ≤ p.bidsBaseLots
  asks : 0 ≤ p.asksBaseLots
  oracle : 0 ≤ p.basePrices.oracle
  stable : 0 ≤ p.basePrices.stable
  initAsset : 0 ≤ p.initBaseAssetWeight
  asset : p.initBaseAssetWeight ≤ p.maintBaseAssetWeight
  assetOne : p.maintBaseAssetWeight ≤ ONE
  liab : p.maintBaseLiabWeight ≤ p.initBaseLiabWeight
  liabOne : ONE ≤ p.maintBaseLiabWeight
  overall0 : 0 ≤ p.initOverallAssetWeight
  overall : p.initOverallAssetWeight ≤ p.maintOverallAssetWeight
  overallOne : p.maintOverallAssetWeight ≤ ONE

namespace PerpInfo.Ordered
variable {p : PerpInfo} (o : p.Ordered) (h : HT)
include o

theorem assetP0 : 0 ≤ p.basePrices.asset h := by
  have := o.oracle; have := o.stable
  cases h <;> simp only [Prices.asset] <;> omega
theorem assetP : p.basePrices.asset h ≤ p.basePrices.oracle := by
  cases h <;> simp only [Prices.asset] <;> omega
theorem liabP : p.basePrices.oracle ≤ p.basePrices.liab h := by
  cases h <;> simp only [Prices.liab] <;> omega
theorem aw0 : 0 ≤ p.baseWeight h false := by
  have := o.initAsset; have := o.asset
  cases h <;> simp only [PerpInfo.baseWeight] <;> omega
theorem aw1 : p.baseWeight h false ≤ ONE := by
  have := o.assetOne; have := o.asset
  cases h <;> simp only [PerpInfo.baseWeight] <;> omega
theorem lw1 : ONE ≤ p.baseWeight h true := by
  have := o.liabOne; have := o.liab
  cases h <;> simp only [PerpInfo.baseWeight] <;> omega
end PerpInfo.Ordered

theorem S_ge_of {w x : Int} (hw : w ≤ ONE) (hx : 0 ≤ x) : x * w / S ≤ x := by
  unfold ONE at hw
  have h1 : x * w ≤ x * S := Int.mul_le_mul_of_nonneg_left hw hx
  have h2 := mulFloor_bounds (x * w)
  have := S_pos
  by_contra hc
  have : x + 1 ≤ x * w / S := by omega
  have := Int.mul_le_mul_of_nonneg_right this (Int.le_of_lt S_pos)
  rw [Int.add_mul] at this
  omega

/-- an execution case at a price at least as bad as the oracle's is worth at most the position at the oracle price -/
theorem caseValue_le {lots o ls aw lw ap lp pr orc : Int} (hls : 0 ≤ ls) (haw : 0 ≤ aw) (haw1 : aw ≤ ONE) (hlw : ONE ≤ lw)
    (hap0 : 0 ≤ ap) (hap : ap ≤ orc) (hlp : orc ≤ lp) (hpr : (0 ≤ o ∧ orc ≤ pr) ∨ (o ≤ 0 ∧ pr ≤ orc)) :
    caseValue lots o ls aw lw ap lp pr ≤ lots * ls * orc := by
  unfold caseValue
  simp only
  have horder : o * ls * orc ≤ o * ls * pr := by
    rcases hpr with ⟨h1, h2⟩ | ⟨h1, h2⟩
    · exact Int.mul_le_mul_of_nonneg_left h2 (Int.mul_nonneg h1 hls)
    · have h3 : 0 ≤ (-o) * ls := Int.mul_nonneg (by omega) hls
      have := Int.mul_le_mul_of_nonneg_left h2 h3
      simp only [Int.neg_mul] at this; omega
  have hsplit : (lots + o) * ls * orc = lots * ls * orc + o * ls * orc := by rw [Int.add_mul, Int.add_mul]
  generalize hB : (lots + o) * ls = B at *
  split
  · rename_i hneg
    -- short: weight at least one, price at least the oracle's
    have h1 : B * lw ≤ B * ONE := Int.mul_le_mul_of_nonpos_left (by omega) hlw
    have hlp0 : 0 ≤ lp := by omega
    have h2 : B * lw * lp ≤ B * ONE * lp := Int.mul_le_mul_of_nonneg_right h1 hlp0
    have h3 : B * lp ≤ B * orc := Int.mul_le_mul_of_nonpos_left (by omega) hlp
    have h4 : B * lw * lp / S ≤ B * lp := by
      have : B * ONE * lp / S = B * lp := by
        rw [Int.mul_right_comm]; unfold ONE; exact Int.mul_ediv_cancel _ (by decide)
      have := floor_mono h2
      omega
    omega
  · rename_i hneg
    have h1 : B * ap ≤ B * orc := Int.mul_le_mul_of_nonneg_left hap (by omega)
    have h2 : B * aw * ap / S ≤ B * ap := by
      rw [Int.mul_right_comm]; exact S_ge_of haw1 (Int.mul_nonneg (by omega) hap0)
    omega

theorem hupnl_le_uhupnl {p : PerpInfo} (o : p.Ordered) {h : HT} {u w : Int} (hw : p.weigh u h = .ok w) : w ≤ u := by
  have hov : p.overallWeight h ≤ ONE := by
    have := o.overall; have := o.overallOne
    cases h <;> simp only [PerpInfo.overallWeight] <;> omega
  simp only [PerpInfo.weigh, ite_ok, mul_ok] at hw
  rcases hw with ⟨hc, hw, _⟩ | ⟨hc, hw⟩
  · rw [hw, Int.mul_comm]; exact S_ge_of hov (by omega)
  · simp at hw; omega

/-- **C41b** With ordered risk parameters, the health pnl of a perp position is at most its unweighted health pnl, which is at most
its unrealized pnl: quote plus base position at the oracle price. -/
theorem C41_hupnl_le_upnl {p : PerpInfo} (o : p.Ordered) {h : HT} {hu : I80F48} (hh : p.hupnl h = .ok hu) :
    ∃ u, p.uhupnl h = .ok u ∧ hu ≤ u ∧ u ≤ p.quote + p.baseLots * p.baseLotSize * p.basePrices.oracle := by
  simp only [PerpInfo.hupnl, bind_ok] at hh
  obtain ⟨u, h1, h2⟩ := hh
  refine ⟨u, h1, hupnl_le_uhupnl o h2, ?_⟩
  have e := C41_worst_case h1
  simp only at e
  have hb := o.bids
  have := caseValue_le (lots := p.baseLots) (o := p.bidsBaseLots) o.lot (o.aw0 h) (o.aw1 h) (o.lw1 h) (o.assetP0 h) (o.assetP h) (o.liabP h)
    (Or.inl ⟨o.bids, o.liabP h⟩)
  omega

/-- **C41c** The same bound per order side: the unweighted health pnl is at most the worth of the position when only the bids, or only the
asks, execute at a worse price than the oracle's. -/
theorem C41_at_most_each_side {p : PerpInfo} {h : HT} {u : I80F48} (hh : p.uhupnl h = .ok u) :
    u ≤ p.quote + caseValue p.baseLots p.bidsBaseLots p.baseLotSize (p.baseWeight h false) (p.baseWeight h true) (p.basePrices.asset h)
          (p.basePrices.liab h) (p.basePrices.liab h) ∧
    u ≤ p.quote + caseValue p.baseLots (-p.asksBaseLots) p.baseLotSize (p.baseWeight h false) (p.baseWeight h true) (p.basePrices.asset h)
          (p.basePrices.liab h) (p.basePrices.asset h) := by
  have e := C41_worst_case hh
  simp only at e
  omega

end Health
end Mango
