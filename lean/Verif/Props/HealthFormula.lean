import Verif.Health.Formula
import Verif.Health.Worth
import Verif.Health.BuildLemmas
/-!
# C55: health is the documented formula
-/
namespace Mango
namespace Health
open Fx
namespace Formula

theorem assetPrice_eq (p : Prices) (h : HT) : p.asset h = assetPrice p h := by
  cases h <;> simp only [Prices.asset, assetPrice] <;> first | rfl | (split <;> omega)
theorem liabPrice_eq (p : Prices) (h : HT) : p.liab h = liabPrice p h := by
  cases h <;> simp only [Prices.liab, liabPrice] <;> first | rfl | (split <;> omega)
theorem assetWeight_eq (t : TokenInfo) (h : HT) : t.assetWeight h = assetWeight t h := by cases h <;> rfl
theorem liabWeight_eq (t : TokenInfo) (h : HT) : t.liabWeight h = liabWeight t h := by cases h <;> rfl

theorem tokenValue_of {t : TokenInfo} {h : HT} {b v : Int} (hh : t.contribution h b = .ok v) : v = tokenValue t h b := by
  rw [contribution_ok hh, assetWeight_eq, liabWeight_eq, assetPrice_eq, liabPrice_eq]
  unfold tokenValue
  by_cases hb : b < 0
  · rw [if_pos hb, if_neg (by omega)]
  · rw [if_neg hb, if_pos (by omega)]

theorem ifExecuted_of {p : PerpInfo} {h : HT} {order price v : Int} (hh : p.execCase h order price = .ok v) : v = ifExecuted p h order price := by
  simp only [PerpInfo.execCase, bind_ok, ck64_ok, mul_ok, neg_ok, add_ok] at hh
  obtain ⟨lots, ⟨rfl, _⟩, nat, ⟨rfl, _⟩, x, ⟨hx, _⟩, bh, ⟨hbh, _⟩, onat, ⟨rfl, _⟩, neg, ⟨rfl, _⟩, oq, ⟨hoq, _⟩, hv, _⟩ := hh
  have hS := S_pos
  have hsgn : ofInt ((p.baseLots + order) * p.baseLotSize) < 0 ↔ (p.baseLots + order) * p.baseLotSize < 0 := by
    unfold ofInt
    constructor
    · intro hc
      by_contra hn
      have : 0 ≤ (p.baseLots + order) * p.baseLotSize * S := Int.mul_nonneg (by omega) (by omega)
      omega
    · intro hc; exact Int.mul_neg_of_neg_of_pos hc hS
  unfold ifExecuted
  dsimp only
  have e1 : ∀ w : Int, ofInt ((p.baseLots + order) * p.baseLotSize) * w / S = (p.baseLots + order) * p.baseLotSize * w := by
    intro w
    unfold ofInt
    rw [Int.mul_right_comm]; exact Int.mul_ediv_cancel _ (by omega)
  have e2 : -ofInt (order * p.baseLotSize) * price / S = -(order * p.baseLotSize * price) := by
    unfold ofInt
    rw [Int.neg_mul, Int.mul_right_comm, ← Int.neg_mul]; exact Int.mul_ediv_cancel _ (by omega)
  rw [e2] at hoq
  rw [e1] at hx
  by_cases hc : (p.baseLots + order) * p.baseLotSize < 0
  · rw [if_pos (hsgn.mpr hc)] at hbh
    rw [decide_eq_true (hsgn.mpr hc)] at hx
    rw [if_neg (by omega), ← liabPrice_eq]
    have : p.baseWeight h true = if h = .maint then p.maintBaseLiabWeight else p.initBaseLiabWeight := by cases h <;> rfl
    rw [← this, ← hx, ← hbh]; omega
  · have hc' := mt hsgn.mp hc
    rw [if_neg hc'] at hbh
    rw [decide_eq_false hc'] at hx
    rw [if_pos (by omega), ← assetPrice_eq]
    have : p.baseWeight h false = if h = .maint then p.maintBaseAssetWeight else p.initBaseAssetWeight := by cases h <;> rfl
    rw [← this, ← hx, ← hbh]; omega

theorem perpValue_of {p : PerpInfo} {h : HT} {v : Int} (hh : p.hupnl h = .ok v) : v = perpValue p h := by
  simp only [PerpInfo.hupnl, PerpInfo.uhupnl, PerpInfo.weigh, bind_ok, ck64_ok, add_ok] at hh
  obtain ⟨u, ⟨b, hb, na, ⟨rfl, _⟩, a, ha, hu, _⟩, hv⟩ := hh
  have eb := ifExecuted_of hb
  have ea := ifExecuted_of ha
  rw [liabPrice_eq] at eb
  rw [assetPrice_eq] at ea
  unfold perpValue
  dsimp only
  rw [← eb, ← ea, ← hu]
  have hw : p.overallWeight h = if h = .maint then p.maintOverallAssetWeight else p.initOverallAssetWeight := by cases h <;> rfl
  rw [ite_ok] at hv
  rcases hv with ⟨hc, hv⟩ | ⟨hc, hv⟩
  · rw [mul_ok] at hv
    rw [if_pos hc, ← hw]; exact hv.1
  · rw [if_neg hc]; simp at hv; exact hv.symm

theorem asBase_of {fd : FDiv} {s : Serum3Info} {h : HT} {q b : TokenInfo} {v : Int} (hh : s.allReservedAsBase fd h q b = .ok v) :
    v = asBase (fun x y => val (fd x y)) s h b q := by
  simp only [Serum3Info.allReservedAsBase, bind_ok, mul_ok, ite_ok, add_ok] at hh
  obtain ⟨w, ⟨hw, _⟩, o, ho, hh⟩ := hh
  rw [assetPrice_eq] at hw
  rw [liabPrice_eq] at ho
  unfold asBase
  dsimp only
  rw [← hw, val_ok ho]
  rcases hh with ⟨hc, hv, _⟩ | ⟨hc, hv, _⟩
  · rw [if_neg hc]; exact hv
  · rw [if_pos (by simpa using hc)]; exact hv

theorem asQuote_of {fd : FDiv} {s : Serum3Info} {h : HT} {q b : TokenInfo} {v : Int} (hh : s.allReservedAsQuote fd h q b = .ok v) :
    v = asQuote (fun x y => val (fd x y)) s h b q := by
  simp only [Serum3Info.allReservedAsQuote, bind_ok, mul_ok, ite_ok, add_ok] at hh
  obtain ⟨w, ⟨hw, _⟩, o, ho, hh⟩ := hh
  rw [assetPrice_eq] at hw
  rw [liabPrice_eq] at ho
  unfold asQuote
  dsimp only
  rw [← hw, val_ok ho]
  rcases hh with ⟨hc, hv, _⟩ | ⟨hc, hv, _⟩
  · rw [if_neg hc]; exact hv
  · rw [if_pos (by simpa using hc)]; exact hv

theorem arriving_of {t : TokenInfo} {h : HT} {bal mr r v : Int} (hh : Serum3Info.effect t h bal mr r = .ok v) : v = arriving t h bal mr r := by
  simp only [Serum3Info.effect, bind_ok, add_ok, mul_ok] at hh
  obtain ⟨mb, ⟨rfl, _⟩, ⟨a, l⟩, hal, x1, ⟨h1, _⟩, x2, ⟨h2, _⟩, y1, ⟨h3, _⟩, y2, ⟨h4, _⟩, hv, _⟩ := hh
  dsimp only at h1 h3
  rw [assetWeight_eq] at h1; rw [liabWeight_eq] at h3; rw [assetPrice_eq] at h2; rw [liabPrice_eq] at h4
  unfold arriving
  dsimp only
  have : a = (if bal + mr ≥ r then r else if bal + mr < 0 then 0 else bal + mr) ∧ l = r - a := by
    by_cases c1 : bal + mr ≥ r
    · rw [if_pos c1] at hal ⊢
      simp at hal; obtain ⟨rfl, rfl⟩ := hal; omega
    · rw [if_neg c1] at hal ⊢
      by_cases c2 : bal + mr < 0
      · rw [if_pos c2] at hal ⊢
        simp at hal; obtain ⟨rfl, rfl⟩ := hal; omega
      · rw [if_neg c2] at hal ⊢
        simp only [bind_ok, sub_ok] at hal
        obtain ⟨l', ⟨hl, _⟩, hal⟩ := hal
        simp at hal; obtain ⟨rfl, rfl⟩ := hal; exact ⟨rfl, hl⟩
  rw [← this.1, ← this.2, hv, h2, h1, h4, h3]

theorem balances_of {c : Cache} {h : HT} {bs : List Int} (hd : (c.tokens.map (·.tokenIndex)).Nodup) (hh : c.balances h = .ok bs) :
    bs.length = c.tokens.length ∧ ∀ (i : Nat) t, c.tokens[i]? = some t → bs[i]? = some (balance c h t) := by
  obtain ⟨l, e, f⟩ := balancesI_ok hh
  refine ⟨l, ?_⟩
  intro i t ht
  rw [e i t ht]
  unfold balance
  rw [Int.add_comm]
  congr 2
  apply sumOf_congr
  intro p hp
  obtain ⟨_, v, hv⟩ := f p hp
  have hidx : c.tokenIdx p.settleTokenIndex = some i ↔ p.settleTokenIndex = t.tokenIndex := by
    exact findToken_iff hd ht _
  unfold perpOn
  by_cases hs : p.settleTokenIndex = t.tokenIndex
  · rw [if_pos hs, if_pos (hidx.mpr hs), if_pos (Or.inl rfl), val_ok hv, perpValue_of hv]
  · rw [if_neg hs, if_neg (fun h => hs (hidx.mp h))]

end Formula

open Formula in
/-- **C55** Whatever the account holds: if health can be computed, it is the value of the formula. (`fd` is the conversion between base and quote tokens, which the code
does in floating point.) -/
theorem C55_health_formula {fd : FDiv} {c : Cache} {h : HT} {v : Int} (hd : (c.tokens.map (·.tokenIndex)).Nodup) (hv : c.health fd h = .ok v) :
    v = Formula.health (fun x y => val (fd x y)) c h := by
  simp only [Cache.health, bind_ok] at hv
  obtain ⟨bs, hb, hv⟩ := hv
  obtain ⟨bl, hb⟩ := balances_of hd hb
  obtain ⟨mr, rs, hr, e, f1, f2⟩ := healthSum_ok hv
  obtain ⟨rl, ml, hmr, d⟩ := reservations_ok hr
  rw [e]
  unfold Formula.health
  congr 1
  · -- tokens
    rw [sum_zip_range (fun t b => val (t.contribution h b)) _ _ bl]
    have e2 := sum_zip_range (fun (t : TokenInfo) (_ : Int) => tokenValue t h (balance c h t)) c.tokens bs bl
    have e3 : sumOf (fun (x : TokenInfo × Int) => tokenValue x.1 h (balance c h x.1)) (c.tokens.zip bs) = sumOf (fun t => tokenValue t h (balance c h t)) c.tokens :=
      sumOf_zip_fst (fun t => tokenValue t h (balance c h t)) c.tokens bs bl
    rw [← e3, e2]
    apply sumOf_congr
    intro k hk
    rw [List.mem_range] at hk
    unfold atD
    rw [List.getElem?_eq_getElem hk]
    dsimp only
    have hbk := hb k _ (List.getElem?_eq_getElem hk)
    rw [balAt_eq hbk]
    have hmem : (c.tokens[k], balance c h c.tokens[k]) ∈ c.tokens.zip bs := by
      rw [List.mem_iff_getElem?]
      refine ⟨k, ?_⟩
      rw [List.getElem?_zip_eq_some]
      exact ⟨List.getElem?_eq_getElem hk, hbk⟩
    obtain ⟨w, hw⟩ := f1 _ hmem
    dsimp only at hw
    rw [val_ok hw, tokenValue_of hw]
  · -- markets
    have conv : ∀ x ∈ c.serums.zip rs, ∃ b q, tokensOf c x.1 = some (b, q) ∧ c.tokens[x.1.baseIdx]? = some b ∧ c.tokens[x.1.quoteIdx]? = some q ∧
        x.2.asBase = asBase (fun x y => val (fd x y)) x.1 h b q ∧ x.2.asQuote = asQuote (fun x y => val (fd x y)) x.1 h b q := by
      intro x hx
      obtain ⟨q, b, h1, h2, h3, h4⟩ := d x hx
      exact ⟨b, q, by unfold tokensOf; rw [h1, h2], h2, h1, asBase_of h3, asQuote_of h4⟩
    have hmax : ∀ k, k < c.tokens.length → balAt mr k = maxReserved (fun x y => val (fd x y)) c h k := by
      intro k hk
      rw [hmr k hk]
      unfold maxReserved
      rw [← sumOf_zip_fst _ c.serums rs rl]
      apply sumOf_congr
      intro x hx
      obtain ⟨b, q, h1, _, _, h2, h3⟩ := conv x hx
      rw [h1]
      simp only [part, Health.conv, h2, h3]
    rw [← sumOf_zip_fst _ c.serums rs rl]
    apply sumOf_congr
    intro x hx
    obtain ⟨b, q, h1, hbt, hqt, h2, h3⟩ := conv x hx
    obtain ⟨w, hw⟩ := f2 x hx
    rw [val_ok hw]
    unfold marketValue
    rw [h1]
    dsimp only
    rw [← h2, ← h3]
    simp only [Serum3Info.contribution, ite_ok] at hw
    rcases hw with ⟨hc, hw⟩ | ⟨hc, hw⟩
    · rw [if_pos hc]; simp at hw; exact hw.symm
    · rw [if_neg hc]
      simp only [bind_ok, at_ok] at hw
      obtain ⟨bt, hbt', qt, hqt', bb, hbb, bm, hbm, qb, hqb, qm, hqm, eb, heb, eq, heq, hw⟩ := hw
      rw [hbt, Option.some.injEq] at hbt'; subst hbt'
      rw [hqt, Option.some.injEq] at hqt'; subst hqt'
      rw [hb _ _ hbt, Option.some.injEq] at hbb; subst hbb
      rw [hb _ _ hqt, Option.some.injEq] at hqb; subst hqb
      have m1 := hmax x.1.baseIdx (getElem?_lt hbt)
      have m2 := hmax x.1.quoteIdx (getElem?_lt hqt)
      rw [balAt_eq hbm] at m1; subst m1
      rw [balAt_eq hqm] at m2; subst m2
      rw [← arriving_of heb, ← arriving_of heq]
      simp at hw; exact hw.symm

end Health
end Mango
