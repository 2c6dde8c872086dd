import Verif.Health.CheckIx
import Verif.Props.HealthSkip
import Verif.Props.HealthStateEx
import Verif.Props.SerumPrices
import Mathlib.Tactic.Linarith
/-!
# C81: what a passed HealthCheck guarantees

The check may be called without some banks. A passed check holds for the whole account, whatever the price of the tokens whose banks were left out.
-/
namespace Mango
namespace Health
open Fx

/-- the health type a kind of check looks at -/
def CheckKind.type : CheckKind → HT
  | .maint | .maintRatio => .maint
  | .init | .initRatio => .init
  | .liqEnd | .liqEndRatio => .liqEnd

/-- whether the check looks at the ratio of health to liabilities -/
def CheckKind.isRatio : CheckKind → Bool
  | .maint | .init | .liqEnd => false
  | _ => true

/-- `banks'` completes `banks`: it has the same usable banks and every other bank with some price -/
structure Completes (banks banks' : Nat → BankIn) : Prop where
  same : ∀ ti, (banks ti).bad = false → banks' ti = banks ti
  usable : ∀ ti, (banks' ti).bad = false

/-- a bank as the instructions create and keep it (C67: `verify`; C69: maintenance weights), with non-negative prices -/
structure BankIn.Ordinary (now : Int) (b : BankIn) : Prop where
  verified : b.Verified
  maint : ∃ a l, b.bank.maintWeights now = .ok (a, l) ∧ b.bank.initAssetWeight ≤ a ∧ a ≤ l ∧ l ≤ b.bank.initLiabWeight
  oracle : 0 ≤ b.oracle
  stable : 0 ≤ b.bank.stablePrice
  index : 0 ≤ b.bank.depositIndex

/-! ## the two views -/

theorem buildTokens_congr {v w : Nat → View} {skip : Bool} : ∀ {ps : List Pos}, (∀ p ∈ ps, ((skip = true ∧ (v p.tokenIndex).bad = true) ↔ (skip = true ∧ (w p.tokenIndex).bad = true)) ∧
    (¬(skip = true ∧ (v p.tokenIndex).bad = true) → posInfo v p = posInfo w p)) → buildTokens v skip ps = buildTokens w skip ps := by
  intro ps
  induction ps with
  | nil => intro _; rfl
  | cons p ps ih =>
    intro h
    obtain ⟨h1, h2⟩ := h p (by simp)
    have ih := ih (fun q hq => h q (by simp [hq]))
    simp only [buildTokens]
    by_cases hc : skip = true ∧ (v p.tokenIndex).bad = true
    · rw [if_pos hc, if_pos (h1.mp hc), ih]
    · rw [if_neg hc, if_neg (fun x => hc (h1.mpr x)), ih, h2 hc]

theorem posInfo_congr {v w : Nat → View} {p : Pos} (h1 : (v p.tokenIndex).info = (w p.tokenIndex).info) (h2 : (v p.tokenIndex).depositIndex = (w p.tokenIndex).depositIndex)
    (h3 : (v p.tokenIndex).borrowIndex = (w p.tokenIndex).borrowIndex) : posInfo v p = posInfo w p := by
  simp only [posInfo, h1, h2, h3]

/-- the full data with the flags of the data that was passed -/
def flagged (rnd : ℚ → ℚ) (now : Int) (banks banks' : Nat → BankIn) (ti : Nat) : View :=
  { viewVal ((banks' ti).view rnd now ti) with bad := (viewVal ((banks ti).view rnd now ti)).bad }

theorem both {rnd : ℚ → ℚ} {now : Int} {banks banks' : Nat → BankIn} (hc : Completes banks banks') {ps : List Pos} {os : List OpenOrd} {perps : List (Perp.Market × Perp.Pos × I80F48)}
    {c c' : Cache} (h : accountCacheSkipping rnd now banks ps os perps = .ok c) (h' : accountCache rnd now banks' ps os perps = .ok c') :
    ∃ pp, buildCache (flagged rnd now banks banks') true ps os pp = .ok c ∧ buildCache (flagged rnd now banks banks') false ps os pp = .ok c' ∧
      mapRes (fun (x : Perp.Market × Perp.Pos × I80F48) => perpInfoOf x.1 x.2.1 x.2.2) perps = .ok pp := by
  simp only [accountCacheSkipping, bind_ok] at h
  obtain ⟨vs, h1, pp, h2, h3⟩ := h
  simp only [accountCache, bind_ok] at h'
  obtain ⟨vs', h1', pp', h2', h3'⟩ := h'
  rw [h2] at h2'
  cases h2'
  refine ⟨pp, ?_, ?_, h2⟩
  · rw [← h3]
    simp only [buildCache]
    rw [buildTokens_congr (v := flagged rnd now banks banks') (w := fun ti => viewVal ((banks ti).view rnd now ti))]
    intro p _
    refine ⟨Iff.rfl, ?_⟩
    intro hb
    have hg : (banks p.tokenIndex).bad = false := by
      cases e : (banks p.tokenIndex).bad with
      | false => rfl
      | true => exact absurd ⟨rfl, viewVal_bad e⟩ hb
    have e := hc.same _ hg
    apply posInfo_congr <;> simp only [flagged, e]
  · rw [← h3']
    simp only [buildCache]
    rw [buildTokens_congr (v := flagged rnd now banks banks') (w := fun ti => viewVal ((banks' ti).view rnd now ti))]
    intro p _
    refine ⟨by simp, ?_⟩
    intro _
    apply posInfo_congr <;> rfl

theorem buildTokens_get {view : Nat → View} : ∀ {ps : List Pos} {ts : List TokenInfo}, buildTokens view false ps = .ok ts →
    ∀ (i : Nat) p, ps[i]? = some p → ∃ t, ts[i]? = some t ∧ posInfo view p = .ok t := by
  intro ps
  induction ps with
  | nil => intro ts h i p hp; simp at hp
  | cons q ps ih =>
    intro ts h i p hp
    simp only [buildTokens, Bool.false_eq_true, false_and, if_false, bind_ok] at h
    obtain ⟨t, h1, ts', h3, h4⟩ := h
    simp at h4; subst h4
    cases i with
    | zero => simp at hp; subst hp; exact ⟨t, rfl, h1⟩
    | succ i => exact ih h3 i p (by simpa using hp)

theorem flagged_ok {rnd : ℚ → ℚ} (hr : Swap.IsFloat rnd) {now : Int} {banks banks' : Nat → BankIn} {ps : List Pos} {os : List OpenOrd} {perps : List (Perp.Market × Perp.Pos × I80F48)}
    {pp : List PerpInfo} {c' : Cache} (distinct : (ps.map (·.tokenIndex)).Nodup) (h' : accountCache rnd now banks' ps os perps = .ok c')
    (hb' : buildCache (flagged rnd now banks banks') false ps os pp = .ok c') (ho : ∀ p ∈ ps, (banks' p.tokenIndex).Ordinary now) (h : HT) :
    ViewOk (flagged rnd now banks banks') ps h := by
  intro p hp
  obtain ⟨i, hi, rfl⟩ := List.getElem_of_mem hp
  obtain ⟨t, ht, tf⟩ := forall₂_some (accountCache_for distinct h').1 (List.getElem?_eq_getElem hi)
  have hb := ho _ hp
  obtain ⟨a, l, m1, m2, m3, m4⟩ := hb.maint
  have s := (C55_ordered hr hb.verified tf m1 m2 m3 m4 hb.oracle hb.stable).sane h
  obtain ⟨ts0, bt, B, _, _⟩ := buildCache_built distinct hb'
  obtain ⟨t0, ht0, hpi⟩ := buildTokens_get bt i _ (List.getElem?_eq_getElem hi)
  have e := B.tok i t0 ht0
  rw [ht] at e
  simp only [Option.some.injEq] at e
  obtain ⟨k1, k2, k3, k4, _⟩ := posInfo_ok hpi
  have s0 : t0.Sane h := by
    obtain ⟨a1, a2, a3, a4, a5⟩ := s
    rw [e] at a1 a2 a3 a4 a5
    cases h <;> exact ⟨a1, a2, a3, a4, a5⟩
  refine ⟨?_, ?_⟩
  · obtain ⟨a1, a2, a3, a4, a5⟩ := s0
    rw [k2, k3, k4] at a5
    rw [k3] at a1
    rw [k2] at a2 a4
    rw [k4] at a3
    exact ⟨a1, a2, a3, a4, a5⟩
  · simp only [accountCache, bind_ok] at h'
    obtain ⟨vs', h1', _⟩ := h'
    obtain ⟨v, hv⟩ := mapRes_mem h1' _ hp
    simp only [bind_ok, require_ok] at hv
    obtain ⟨_, _, hv⟩ := hv
    simp only [flagged, hv, viewVal]
    simp only [BankIn.view, bind_ok] at hv
    obtain ⟨⟨ma, ml⟩, n1, sa, n2, sl, n3, hv⟩ := hv
    simp only [ok_inj] at hv
    subst hv
    exact hb.index

/-! ## assets and liabilities -/

/-- what the perp positions that settle in a token add to its assets and to its liabilities -/
def perpUp (h : HT) (ti : Nat) (p : PerpInfo) : Int := if p.settleTokenIndex = ti then max (val (p.hupnl h)) 0 else 0
def perpDown (h : HT) (ti : Nat) (p : PerpInfo) : Int := if p.settleTokenIndex = ti then max (-val (p.hupnl h)) 0 else 0

theorem addSplit_parts {al r : Int × Int} {v : Int} (h : Cache.addSplit al v = .ok r) : r.1 = al.1 + max v 0 ∧ r.2 = al.2 + max (-v) 0 := by
  simp only [Cache.addSplit, ite_ok, bind_ok] at h
  rcases h with ⟨hc, a, h1, h2⟩ | ⟨hc, n, h1, l, h2, h3⟩
  · rw [add_ok] at h1; simp at h2; subst h2; simp only; omega
  · rw [neg_ok] at h1; rw [add_ok] at h2; simp at h3; subst h3; simp only; omega

theorem splitPerps_parts {h : HT} {ti : Nat} : ∀ {ps : List PerpInfo} {al r : Int × Int}, Cache.splitPerps h ti al ps = .ok r →
    r.1 = al.1 + sumOf (perpUp h ti) ps ∧ r.2 = al.2 + sumOf (perpDown h ti) ps := by
  intro ps
  induction ps with
  | nil => intro al r hh; simp [Cache.splitPerps] at hh; subst hh; simp
  | cons p ps ih =>
    intro al r hh
    simp only [Cache.splitPerps, ite_ok, bind_ok] at hh
    rcases hh with ⟨hc, hh⟩ | ⟨hc, u, h1, al', h2, h3⟩
    · have := ih hh; simp only [sumOf_cons, perpUp, perpDown, if_neg hc]; omega
    · have e3 := ih h3
      have e := addSplit_parts h2
      simp only [ne_eq, not_not] at hc
      simp only [sumOf_cons, perpUp, perpDown, if_pos hc, val_ok h1]
      omega

/-- liabilities of a token with balance `b`, and its assets minus liabilities -/
def tokLiab (h : HT) (perps : List PerpInfo) (t : TokenInfo) (b : Int) : Int :=
  (max (-b) 0 + sumOf (perpDown h t.tokenIndex) perps) * (t.liabWeight h * t.prices.liab h / S) / S
def tokNet (h : HT) (perps : List PerpInfo) (t : TokenInfo) (b : Int) : Int :=
  let a := max b 0 + sumOf (perpUp h t.tokenIndex) perps
  let l := max (-b) 0 + sumOf (perpDown h t.tokenIndex) perps
  if a ≥ l then (a - l) * (t.assetWeight h * t.prices.asset h / S) / S
  else a * (t.liabWeight h * t.prices.liab h / S) / S - l * (t.liabWeight h * t.prices.liab h / S) / S

theorem splitToken_parts {c : Cache} {h : HT} {tot r : Int × Int} {t : TokenInfo} (hh : c.splitToken h false tot t = .ok r) :
    r.2 = tot.2 + tokLiab h c.perps t t.balanceSpot ∧ r.1 - r.2 = tot.1 - tot.2 + tokNet h c.perps t t.balanceSpot := by
  simp only [Cache.splitToken, bind_ok] at hh
  obtain ⟨al, h1, ⟨a, l⟩, h2, h3⟩ := hh
  have e1 := addSplit_parts h1
  have e2 := splitPerps_parts h2
  simp only [Int.zero_add] at e1
  rw [e1.1, e1.2] at e2
  simp only at e2
  simp only [Bool.false_eq_true, if_false, bind_ok, ite_ok] at h3
  obtain ⟨lw, h4, as, h5, tl, h6, h7⟩ := h3
  simp only [TokenInfo.liabWeightedPrice, mul_ok, add_ok] at h4 h5 h6
  unfold tokLiab tokNet
  rw [← e2.1, ← e2.2, ← h4.1]
  rcases h7 with ⟨hc, aw, h7, d, h8, x, h9, y, h10, ta, h11, h12⟩ | ⟨hc, x, h7, ta, h8, h9⟩
  · simp only [TokenInfo.assetWeightedPrice, sub_ok, mul_ok, add_ok] at h7 h8 h9 h10 h11
    simp at h12; subst h12
    simp only [if_pos hc]
    rw [← h7.1, ← h8.1]
    omega
  · simp only [mul_ok, add_ok] at h7 h8
    simp at h9; subst h9
    simp only [if_neg hc]
    omega

theorem splitTokens_parts {c : Cache} {h : HT} : ∀ {ts : List TokenInfo} {tot r : Int × Int}, c.splitTokens h false tot ts = .ok r →
    r.2 = tot.2 + sumOf (fun t => tokLiab h c.perps t t.balanceSpot) ts ∧ r.1 - r.2 = tot.1 - tot.2 + sumOf (fun t => tokNet h c.perps t t.balanceSpot) ts := by
  intro ts
  induction ts with
  | nil => intro tot r hh; simp [Cache.splitTokens] at hh; subst hh; simp
  | cons t ts ih =>
    intro tot r hh
    simp only [Cache.splitTokens, bind_ok] at hh
    obtain ⟨tot', h1, h2⟩ := hh
    have e1 := splitToken_parts h1
    have e2 := ih h2
    simp only [sumOf_cons]
    omega

theorem splitSerums_zero {c : Cache} {h : HT} {bs mr : List Int} : ∀ {xs : List (Serum3Info × Serum3Reserved)} {tot r : Int × Int},
    c.splitSerums h bs mr tot xs = .ok r → (∀ x ∈ xs, x.2.asBase = 0) → r = tot := by
  intro xs
  induction xs with
  | nil => intro tot r hh _; simp [Cache.splitSerums] at hh; exact hh.symm
  | cons x xs ih =>
    intro tot r hh hz
    obtain ⟨s, rr⟩ := x
    simp only [Cache.splitSerums, bind_ok] at hh
    obtain ⟨v, h1, tot', h2, h3⟩ := hh
    have z : rr.asBase = 0 := hz (s, rr) (by simp)
    simp only [Serum3Info.contribution, z] at h1
    simp at h1
    subst h1
    have e := addSplit_parts h2
    have := ih h3 (fun x hx => hz x (by simp [hx]))
    rw [this]
    simp at e
    exact Prod.ext e.1 e.2

theorem Built.noReserved {view : Nat → View} {ts0 : List TokenInfo} {kept : List OpenOrd} {perps : List PerpInfo} {c : Cache}
    (B : Built view ts0 kept perps c) {fd : FDiv} (hfd0 : ∀ p x, fd 0 p = .ok x → x = 0) {h : HT}
    (hres : ∀ o ∈ kept, o.baseReserved = 0 ∧ o.quoteReserved = 0) {mr : List Int} {rs : List Serum3Reserved} (hr : c.reservations fd h = .ok (mr, rs)) :
    ∀ x ∈ c.serums.zip rs, x.2.asBase = 0 := by
  intro x hx
  obtain ⟨l, _, _, d⟩ := reservations_ok hr
  obtain ⟨q, b, _, _, h3, h4⟩ := d x hx
  obtain ⟨o, ho, hi⟩ := B.markets x.1 (mem_zip_fst hx)
  have hz := hres o ho
  have hi3 := hi.2.2
  simp only [OpenOrd.info, bind_ok, mul_ok] at hi3
  obtain ⟨ask, ⟨a1, _⟩, bid, ⟨a2, _⟩, hi3⟩ := hi3
  simp at hi3
  rw [hz.1] at a1; rw [hz.2] at a2
  have z1 : x.1.reservedBase = 0 := by rw [← hi3, hz.1]; rfl
  have z2 : x.1.reservedQuote = 0 := by rw [← hi3, hz.2]; rfl
  have z3 : x.1.reservedQuoteAsBaseHighestBid = 0 := by rw [← hi3]; simp [a2, ofInt]
  simp only [Serum3Info.allReservedAsBase, bind_ok, ite_ok, mul_ok, add_ok] at h3
  obtain ⟨w, ⟨hw, _⟩, oo, ho', h3⟩ := h3
  rw [z2] at hw; simp at hw; rw [hw] at ho'
  have := hfd0 _ _ ho'
  rcases h3 with ⟨hc, _⟩ | ⟨_, h3, _⟩
  · exact absurd z3 hc
  · omega

theorem Built.tokens_eq {view : Nat → View} {ts0 : List TokenInfo} {kept : List OpenOrd} {perps : List PerpInfo} {c : Cache} (B : Built view ts0 kept perps c) :
    c.tokens = ts0.map (fun t => { t with balanceSpot := t.balanceSpot + freeIn kept t.tokenIndex }) := by
  apply List.ext_getElem?
  intro k
  rw [List.getElem?_map]
  cases hk : ts0[k]? with
  | none =>
    simp only [Option.map_none]
    rw [List.getElem?_eq_none_iff] at hk ⊢
    have := B.len
    omega
  | some t => simp only [Option.map_some]; exact B.tok k t hk

theorem tokLiab_bal (h : HT) (perps : List PerpInfo) (t : TokenInfo) (x b : Int) : tokLiab h perps { t with balanceSpot := x } b = tokLiab h perps t b := by
  cases h <;> rfl
theorem tokNet_bal (h : HT) (perps : List PerpInfo) (t : TokenInfo) (x b : Int) : tokNet h perps { t with balanceSpot := x } b = tokNet h perps t b := by
  cases h <;> rfl

theorem Built.split {view : Nat → View} {ts0 : List TokenInfo} {kept : List OpenOrd} {perps : List PerpInfo} {c : Cache}
    (B : Built view ts0 kept perps c) {fd : FDiv} (hfd0 : ∀ p x, fd 0 p = .ok x → x = 0) {h : HT}
    (hres : ∀ o ∈ kept, o.baseReserved = 0 ∧ o.quoteReserved = 0) {a l : Int} (hs : c.assetsAndLiabs fd h false = .ok (a, l)) :
    l = sumOf (fun t => tokLiab h perps t (t.balanceSpot + freeIn kept t.tokenIndex)) ts0 ∧
    a - l = sumOf (fun t => tokNet h perps t (t.balanceSpot + freeIn kept t.tokenIndex)) ts0 := by
  simp only [Cache.assetsAndLiabs, bind_ok] at hs
  obtain ⟨tot, s1, bs', s2, ⟨mr', rs'⟩, s3, s4⟩ := hs
  have z := splitSerums_zero s4 (B.noReserved hfd0 hres s3)
  subst z
  have e := splitTokens_parts s1
  simp only [B.perps, B.tokens_eq, sumOf_map, tokLiab_bal, tokNet_bal] at e
  simpa using e

theorem tok_mono {h : HT} {perps : List PerpInfo} {t : TokenInfo} (s : t.Sane h) {b b' : Int} (hb : b ≤ b') :
    tokLiab h perps t b' ≤ tokLiab h perps t b ∧ tokNet h perps t b ≤ tokNet h perps t b' := by
  have e1 : 0 ≤ t.liabWeight h * t.prices.liab h / S := floor_nonneg (Int.mul_nonneg s.lw s.lp)
  have e2 : 0 ≤ t.assetWeight h * t.prices.asset h / S := floor_nonneg s.ap'
  unfold tokLiab tokNet
  generalize t.liabWeight h * t.prices.liab h / S = L at *
  generalize t.assetWeight h * t.prices.asset h / S = A at *
  generalize sumOf (perpUp h t.tokenIndex) perps = u
  generalize sumOf (perpDown h t.tokenIndex) perps = d
  refine ⟨floor_mono (Int.mul_le_mul_of_nonneg_right (by omega) e1), ?_⟩
  simp only
  have ha : max b 0 + u ≤ max b' 0 + u := by omega
  have hl : max (-b') 0 + d ≤ max (-b) 0 + d := by omega
  generalize max b 0 + u = a1 at *
  generalize max b' 0 + u = a2 at *
  generalize max (-b) 0 + d = l1 at *
  generalize max (-b') 0 + d = l2 at *
  split <;> split
  · exact floor_mono (Int.mul_le_mul_of_nonneg_right (by omega) e2)
  · omega
  · have p1 : 0 ≤ (a2 - l2) * A / S := floor_nonneg (Int.mul_nonneg (by omega) e2)
    have p2 := floor_mono (Int.mul_le_mul_of_nonneg_right (show a1 ≤ l1 by omega) e1)
    omega
  · have p1 := floor_mono (Int.mul_le_mul_of_nonneg_right ha e1)
    have p2 := floor_mono (Int.mul_le_mul_of_nonneg_right hl e1)
    omega

theorem tok_zero {h : HT} {perps : List PerpInfo} {t : TokenInfo} (s : t.Sane h) (hp : ∀ p ∈ perps, p.settleTokenIndex ≠ t.tokenIndex) {b : Int} (hb : 0 ≤ b) :
    tokLiab h perps t b = 0 ∧ 0 ≤ tokNet h perps t b := by
  have z1 : sumOf (perpUp h t.tokenIndex) perps = 0 := sumOf_zero (fun p hpp => by simp only [perpUp, if_neg (hp p hpp)])
  have z2 : sumOf (perpDown h t.tokenIndex) perps = 0 := sumOf_zero (fun p hpp => by simp only [perpDown, if_neg (hp p hpp)])
  have e2 : 0 ≤ t.assetWeight h * t.prices.asset h / S := floor_nonneg s.ap'
  unfold tokLiab tokNet
  rw [z1, z2]
  have m : max (-b) 0 = 0 := by omega
  have m' : max b 0 = b := by omega
  rw [m, m']
  refine ⟨by simp, ?_⟩
  simp only
  rw [if_pos (by omega)]
  exact floor_nonneg (Int.mul_nonneg (by omega) e2)

theorem tokLiab_nonneg {h : HT} {perps : List PerpInfo} {t : TokenInfo} (s : t.Sane h) {b : Int} : 0 ≤ tokLiab h perps t b := by
  unfold tokLiab
  have e1 : 0 ≤ t.liabWeight h * t.prices.liab h / S := floor_nonneg (Int.mul_nonneg s.lw s.lp)
  have : 0 ≤ sumOf (perpDown h t.tokenIndex) perps := sumOf_nonneg (fun p => by unfold perpDown; split <;> omega)
  exact floor_nonneg (Int.mul_nonneg (by omega) e1)

theorem tok_assets {h : HT} {perps : List PerpInfo} {t : TokenInfo} (s : t.Sane h) {b : Int} : 0 ≤ tokNet h perps t b + tokLiab h perps t b := by
  have hl := tokLiab_nonneg (perps := perps) s (b := b)
  have e1 : 0 ≤ t.liabWeight h * t.prices.liab h / S := floor_nonneg (Int.mul_nonneg s.lw s.lp)
  have e2 : 0 ≤ t.assetWeight h * t.prices.asset h / S := floor_nonneg s.ap'
  have u0 : 0 ≤ sumOf (perpUp h t.tokenIndex) perps := sumOf_nonneg (fun p => by unfold perpUp; split <;> omega)
  unfold tokLiab at *
  unfold tokNet
  simp only
  split
  · have := floor_nonneg (Int.mul_nonneg (show 0 ≤ max b 0 + sumOf (perpUp h t.tokenIndex) perps - (max (-b) 0 + sumOf (perpDown h t.tokenIndex) perps) by omega) e2)
    omega
  · have := floor_nonneg (Int.mul_nonneg (show 0 ≤ max b 0 + sumOf (perpUp h t.tokenIndex) perps by omega) e1)
    omega

/-- leaving banks out only raises the liabilities and only lowers the difference -/
theorem split_underestimates {fd : FDiv} (hfd0 : ∀ p x, fd 0 p = .ok x → x = 0) {view : Nat → View} {ps : List Pos}
    {os : List OpenOrd} {perps : List PerpInfo} {h : HT}
    (distinct : (ps.map (·.tokenIndex)).Nodup) (hv : ViewOk view ps h) (hn : ∀ o ∈ os, o.NonNeg)
    (hres : ∀ o ∈ os, o.baseReserved = 0 ∧ o.quoteReserved = 0)
    {skipped full : Cache} (h1 : buildCache view true ps os perps = .ok skipped) (h2 : buildCache view false ps os perps = .ok full)
    {a1 l1 a2 l2 : I80F48} (hv1 : skipped.assetsAndLiabs fd h false = .ok (a1, l1)) (hv2 : full.assetsAndLiabs fd h false = .ok (a2, l2)) :
    l2 ≤ l1 ∧ a1 - l1 ≤ a2 - l2 ∧ 0 ≤ l2 ∧ 0 ≤ a2 := by
  obtain ⟨t1, bt1, B1, _, pp1⟩ := buildCache_built distinct h1
  obtain ⟨t2, bt2, B2, ko2, _⟩ := buildCache_built distinct h2
  rw [ko2 rfl] at B2
  clear ko2
  obtain ⟨x1, y1⟩ := B1.split hfd0 (fun o ho => hres o (List.mem_filter.mp ho).1) hv1
  obtain ⟨x2, y2⟩ := B2.split hfd0 hres hv2
  have none : ∀ p ∈ ps, ∀ t, posInfo view p = .ok t → (view p.tokenIndex).bad = true → ∀ pp ∈ perps, pp.settleTokenIndex ≠ t.tokenIndex := by
    intro p hp t ht hbad pp hpp e
    have hm := pp1 rfl pp hpp
    rw [e] at hm
    obtain ⟨t', ht', e'⟩ := List.mem_map.mp hm
    obtain ⟨p', _, hp', hnb⟩ := buildTokens_mem bt1 t' ht'
    have := (posInfo_ok hp').1
    have e2 : p'.tokenIndex = p.tokenIndex := by rw [← this, e', (posInfo_ok ht).1]
    rw [e2] at hnb
    exact hnb ⟨rfl, hbad⟩
  refine ⟨?_, ?_, ?_, ?_⟩
  · have := buildTokens_sum (f := fun t => -tokLiab h perps t (t.balanceSpot + freeIn (os.filter (present (t1.map (·.tokenIndex)))) t.tokenIndex))
      (g := fun t => -tokLiab h perps t (t.balanceSpot + freeIn os t.tokenIndex)) bt1 bt2 (by
        intro p hp t ht
        have ts := posInfo_sane (hv p hp).1 ht
        refine ⟨fun _ => ?_, fun hbad h0 => ?_⟩
        · have := freeIn_filter hn t.tokenIndex (present (t1.map (·.tokenIndex)))
          have := (tok_mono (perps := perps) ts (show t.balanceSpot + freeIn (os.filter (present (t1.map (·.tokenIndex)))) t.tokenIndex ≤ t.balanceSpot + freeIn os t.tokenIndex by omega)).1
          omega
        · have b0 := (posInfo_ok ht).2.2.2.2 h0 (hv p hp).2
          have f0 := freeIn_nonneg hn t.tokenIndex
          have := (tok_zero ts (none p hp t ht hbad) (show 0 ≤ t.balanceSpot + freeIn os t.tokenIndex by omega)).1
          omega)
    have neg : ∀ (f : TokenInfo → Int) (l : List TokenInfo), sumOf (fun t => -f t) l = -sumOf f l := by
      intro f l
      induction l with
      | nil => rfl
      | cons a l ih => simp only [sumOf_cons, ih]; omega
    rw [neg, neg, ← x1, ← x2] at this
    omega
  · rw [y1, y2]
    apply buildTokens_sum bt1 bt2
    intro p hp t ht
    have ts := posInfo_sane (hv p hp).1 ht
    refine ⟨fun _ => ?_, fun hbad h0 => ?_⟩
    · have := freeIn_filter hn t.tokenIndex (present (t1.map (·.tokenIndex)))
      exact (tok_mono (perps := perps) ts (by omega)).2
    · have b0 := (posInfo_ok ht).2.2.2.2 h0 (hv p hp).2
      have f0 := freeIn_nonneg hn t.tokenIndex
      exact (tok_zero ts (none p hp t ht hbad) (by omega)).2
  · rw [x2]
    apply sumOf_nonneg_mem
    intro t ht
    obtain ⟨p, hp, hpi, _⟩ := buildTokens_mem bt2 t ht
    exact tokLiab_nonneg (posInfo_sane (hv p hp).1 hpi)
  · have e : a2 = sumOf (fun t => tokNet h perps t (t.balanceSpot + freeIn os t.tokenIndex) + tokLiab h perps t (t.balanceSpot + freeIn os t.tokenIndex)) t2 := by
      rw [sumOf_add, ← x2, ← y2]; omega
    rw [e]
    apply sumOf_nonneg_mem
    intro t ht
    obtain ⟨p, hp, hpi, _⟩ := buildTokens_mem bt2 t ht
    exact tok_assets (posInfo_sane (hv p hp).1 hpi)

/-! ## the check -/

theorem ratio_ok {fd : FDiv} {c : Cache} {h : HT} {r : Int} (hr : Client.healthRatio fd c h = .ok r) :
    ∃ a l, c.assetsAndLiabs fd h false = .ok (a, l) ∧ ((0 < l ∧ r = Client.sat (Int.tdiv (100 * (a - l) * S) l)) ∨ (l ≤ 0 ∧ r = Fx.MAX)) := by
  simp only [Client.healthRatio, bind_ok] at hr
  obtain ⟨⟨a, l⟩, h1, hr⟩ := hr
  refine ⟨a, l, h1, ?_⟩
  simp only [ite_ok, bind_ok, sub_ok, mul_ok] at hr
  rcases hr with ⟨hl, d, ⟨h2, _⟩, n, ⟨h3, _⟩, h4⟩ | ⟨hl, h4⟩
  · left
    simp only [Client.satDiv, if_neg (show l ≠ 0 by omega), ok_inj] at h4
    have : n = 100 * d := by rw [h3, mul_ofInt']
    exact ⟨hl, by rw [← h4, this, h2]⟩
  · right
    simp only [ok_inj] at h4
    exact ⟨by omega, h4.symm⟩

theorem sat_mono {x y : Int} (h : x ≤ y) : Client.sat x ≤ Client.sat y := by unfold Client.sat; omega

theorem sat_le_max (x : Int) : Client.sat x ≤ Fx.MAX := by
  have : I128MIN ≤ I128MAX := by decide
  unfold Client.sat Fx.MAX
  omega

/-- a positive ratio means a positive difference, and bounds it from below -/
theorem ratio_pos {d l lo : Int} (hl : 0 < l) (hlo : 0 < lo) (h : lo ≤ Client.sat (Int.tdiv (100 * d * S) l)) : 0 < d ∧ lo ≤ 100 * d * S / l := by
  have hS : (0 : Int) < S := S_pos
  have n1 : lo ≤ Int.tdiv (100 * d * S) l := by
    unfold Client.sat at h
    have : I128MIN < 0 := by decide
    omega
  by_cases hd : 0 < d
  · refine ⟨hd, ?_⟩
    rwa [Int.tdiv_eq_ediv_of_nonneg (Int.mul_nonneg (by omega) hS.le)] at n1
  · exfalso
    have e1 : 100 * d * S ≤ 0 := Int.mul_nonpos_of_nonpos_of_nonneg (by omega) hS.le
    have e : 100 * d * S = -(-(100 * d * S)) := by omega
    rw [e, Int.neg_tdiv, Int.tdiv_eq_ediv_of_nonneg (by omega)] at n1
    have := Int.ediv_nonneg (show 0 ≤ -(100 * d * S) by omega) hl.le
    omega

/-- a non-negative ratio leaves a shortfall that is rounded away -/
theorem ratio_zero {d l : Int} (hl : 0 < l) (h : 0 ≤ Client.sat (Int.tdiv (100 * d * S) l)) : -l < 100 * d * S := by
  have n1 : 0 ≤ Int.tdiv (100 * d * S) l := by
    unfold Client.sat at h
    have : I128MIN < 0 := by decide
    omega
  by_contra hc
  push Not at hc
  have e : 100 * d * S = -(-(100 * d * S)) := by omega
  rw [e, Int.neg_tdiv, Int.tdiv_eq_ediv_of_nonneg (by omega)] at n1
  have : 1 ≤ (-(100 * d * S)) / l := by rw [Int.le_ediv_iff_mul_le hl]; omega
  omega

theorem roundEven_ge (x : ℚ) : x - 1 / 2 ≤ (Swap.roundEven x : ℚ) := by
  unfold Swap.roundEven
  have h1 : x + 1 / 2 < (⌊x + 1 / 2⌋ : ℚ) + 1 := Int.lt_floor_add_one _
  split
  · rename_i hc
    have := hc.1
    push_cast
    linarith
  · linarith

theorem check_ok {rnd : ℚ → ℚ} {fd : FDiv} {now : Int} {st : AcctState} {m : Config.Flt} {k : CheckKind} (h : healthCheck rnd fd now st m k = .ok ()) :
    ∃ (q : ℚ) (c : Cache) (v lo : Int), m = .num q ∧ accountCacheSkipping rnd now st.banks st.ps st.os st.perps = .ok c ∧ Swap.toFx q = .ok lo ∧ checkedValue fd c k = .ok v ∧ lo ≤ v := by
  simp only [healthCheck, bind_ok, require_ok] at h
  obtain ⟨c, h1, lo, h2, v, h3, h4⟩ := h
  cases m with
  | num q => exact ⟨q, c, v, lo, rfl, h1, h2, h3, h4⟩
  | nan => simp [Config.Flt.toFx] at h2
  | ninf => simp [Config.Flt.toFx] at h2
  | pinf => simp [Config.Flt.toFx] at h2

/-- **C81, health.** If HealthCheck passes with minimum `q` for one of the three kinds of health, then the account's health of that kind, computed from all its tokens with any prices for
the tokens whose banks were left out, is at least `q` (as an I80F48), for every account without funds reserved in spot orders. -/
theorem C81_health {rnd : ℚ → ℚ} (hr : Swap.IsFloat rnd) {fd : FDiv} (hfd0 : ∀ p x, fd 0 p = .ok x → x = 0) {now : Int} {st : AcctState} {q : ℚ} {k : CheckKind} (hk : k.isRatio = false)
    (distinct : (st.ps.map (·.tokenIndex)).Nodup) (hn : ∀ o ∈ st.os, o.NonNeg) (hres : ∀ o ∈ st.os, o.baseReserved = 0 ∧ o.quoteReserved = 0)
    (h : healthCheck rnd fd now st (.num q) k = .ok ())
    {banks' : Nat → BankIn} (hc : Completes st.banks banks') (ho : ∀ p ∈ st.ps, (banks' p.tokenIndex).Ordinary now)
    {v : I80F48} (hv : accountHealth rnd fd now banks' st.ps st.os st.perps k.type = .ok v) :
    q * S - 1 / 2 ≤ v := by
  obtain ⟨q', c, w, lo, e, h1, h2, h3, h4⟩ := check_ok h
  simp only [Config.Flt.num.injEq] at e
  subst e
  simp only [accountHealth, bind_ok] at hv
  obtain ⟨c', hc', hv⟩ := hv
  obtain ⟨pp, b1, b2, _⟩ := both hc h1 hc'
  have hw : c.health fd k.type = .ok w := by
    cases k <;> simp_all [CheckKind.isRatio, CheckKind.type, checkedValue]
  have le := C40_skipping_underestimates_exactly hfd0 distinct (flagged_ok hr distinct hc' b2 ho k.type) hn hres b1 b2 hw hv
  rw [Swap.toFx_ok] at h2
  have := roundEven_ge (q * S)
  rw [← h2.1] at this
  have : (lo : ℚ) ≤ v := by exact_mod_cast (show lo ≤ v by omega)
  linarith

/-- **C81, health with funds in spot orders.** With funds reserved in spot orders (each token in at most one such market, or weighted alike as asset and liability) the same
holds up to the rounding of the health sums that C40 allows. Without that condition it fails (`C40_can_exceed_with_shared_token`). -/
theorem C81_health_reserved {rnd : ℚ → ℚ} (hr : Swap.IsFloat rnd) {fd : FDiv} (hfd : FdOk fd) {now : Int} {st : AcctState} {q : ℚ} {k : CheckKind} (hk : k.isRatio = false)
    (distinct : (st.ps.map (·.tokenIndex)).Nodup) (hn : ∀ o ∈ st.os, o.NonNeg) (hne : ∀ o ∈ st.os, o.base ≠ o.quote)
    (h : healthCheck rnd fd now st (.num q) k = .ok ())
    {banks' : Nat → BankIn} (hc : Completes st.banks banks') (ho : ∀ p ∈ st.ps, (banks' p.tokenIndex).Ordinary now)
    {full : Cache} (hf : accountCache rnd now banks' st.ps st.os st.perps = .ok full) {v : I80F48} (hv : full.health fd k.type = .ok v)
    {bs mr : List I80F48} {rs : List Serum3Reserved} (hb : full.balances k.type = .ok bs) (hrs : full.reservations fd k.type = .ok (mr, rs))
    (hu : Unshared full.tokens k.type (full.serums.zip rs)) :
    ∃ c bs', accountCacheSkipping rnd now st.banks st.ps st.os st.perps = .ok c ∧ c.balances k.type = .ok bs' ∧
      (q * S - 1 / 2) * (S * S) ≤ v * (S * S) + slack full k.type bs rs + tokenExcess bs' c.tokens.length := by
  obtain ⟨q', c, w, lo, e, h1, h2, h3, h4⟩ := check_ok h
  simp only [Config.Flt.num.injEq] at e
  subst e
  obtain ⟨pp, b1, b2, _⟩ := both hc h1 hf
  have hw : c.health fd k.type = .ok w := by
    cases k <;> simp_all [CheckKind.isRatio, CheckKind.type, checkedValue]
  have hw' := hw
  simp only [Cache.health, bind_ok] at hw'
  obtain ⟨bs', hb', _⟩ := hw'
  refine ⟨c, bs', h1, hb', ?_⟩
  have le := C40_skipping_underestimates hfd distinct (flagged_ok hr distinct hf b2 ho k.type) hn hne b1 b2 hb' hb hrs hu hw hv
  rw [Swap.toFx_ok] at h2
  have g := roundEven_ge (q * S)
  rw [← h2.1] at g
  have g1 : (lo : ℚ) ≤ w := by exact_mod_cast h4
  have g2 : (0 : ℚ) ≤ (S : ℚ) * S := by norm_num [S]
  have g3 : (q * S - 1 / 2) * ((S : ℚ) * S) ≤ w * (S * S) := mul_le_mul_of_nonneg_right (by linarith) g2
  have g4 : (w : ℚ) * (S * S) ≤ v * (S * S) + slack full k.type bs rs + tokenExcess bs' c.tokens.length := by exact_mod_cast le
  linarith

/-- **C81, ratios.** If HealthCheck passes with minimum `q` for one of the three ratios (percent of health per liabilities), and `q` is not so small that it is zero as an I80F48, then the
account's ratio computed from all its tokens is at least `q` as well, whatever the prices of the tokens left out. -/
theorem C81_ratio {rnd : ℚ → ℚ} (hr : Swap.IsFloat rnd) {fd : FDiv} (hfd0 : ∀ p x, fd 0 p = .ok x → x = 0) {now : Int} {st : AcctState} {q : ℚ} {k : CheckKind} (hk : k.isRatio = true)
    (hq : 1 / 2 < q * S)
    (distinct : (st.ps.map (·.tokenIndex)).Nodup) (hn : ∀ o ∈ st.os, o.NonNeg) (hres : ∀ o ∈ st.os, o.baseReserved = 0 ∧ o.quoteReserved = 0)
    (h : healthCheck rnd fd now st (.num q) k = .ok ())
    {banks' : Nat → BankIn} (hc : Completes st.banks banks') (ho : ∀ p ∈ st.ps, (banks' p.tokenIndex).Ordinary now)
    {full : Cache} (hf : accountCache rnd now banks' st.ps st.os st.perps = .ok full) {assets liabs : I80F48} (hal : full.assetsAndLiabs fd k.type false = .ok (assets, liabs)) :
    0 ≤ liabs ∧ (q * S - 1 / 2) * liabs ≤ 100 * S * (assets - liabs) := by
  obtain ⟨q', c, w, lo, e, h1, h2, h3, h4⟩ := check_ok h
  simp only [Config.Flt.num.injEq] at e
  subst e
  obtain ⟨pp, b1, b2, _⟩ := both hc h1 hf
  have hw : Client.healthRatio fd c k.type = .ok w := by
    cases k <;> simp_all [CheckKind.isRatio, CheckKind.type, checkedValue]
  obtain ⟨a1, l1, s1, s2⟩ := ratio_ok hw
  obtain ⟨m1, m2, m3, m4⟩ := split_underestimates hfd0 distinct (flagged_ok hr distinct hf b2 ho k.type) hn hres b1 b2 s1 hal
  refine ⟨m3, ?_⟩
  rw [Swap.toFx_ok] at h2
  have g := roundEven_ge (q * S)
  rw [← h2.1] at g
  have hlo : 0 < lo := by
    have : (0 : ℚ) < lo := by linarith
    exact_mod_cast this
  have hS : (0 : Int) < S := S_pos
  rcases s2 with ⟨p1, p2⟩ | ⟨p1, p2⟩
  · rw [p2] at h4
    obtain ⟨d1, d2⟩ := ratio_pos p1 hlo h4
    rw [Int.le_ediv_iff_mul_le p1] at d2
    have x1 : lo * liabs ≤ lo * l1 := Int.mul_le_mul_of_nonneg_left m1 hlo.le
    have x2 : 100 * (a1 - l1) * S ≤ 100 * (assets - liabs) * S := Int.mul_le_mul_of_nonneg_right (by omega) hS.le
    have x3 : lo * liabs ≤ 100 * S * (assets - liabs) := by
      have : 100 * S * (assets - liabs) = 100 * (assets - liabs) * S := by ring
      omega
    have x4 : (lo : ℚ) * liabs ≤ 100 * S * (assets - liabs) := by exact_mod_cast x3
    have x5 : (q * S - 1 / 2) * (liabs : ℚ) ≤ lo * liabs := mul_le_mul_of_nonneg_right g (by exact_mod_cast m3)
    linarith
  · have l0 : liabs = 0 := by omega
    rw [l0]
    have : (0 : ℚ) ≤ assets := by exact_mod_cast m4
    have hSq : (0 : ℚ) < S := by exact_mod_cast hS
    have := mul_nonneg (mul_nonneg (show (0 : ℚ) ≤ 100 by norm_num) hSq.le) this
    push_cast
    linarith

/-- **C81, ratio zero.** Passing a ratio check with minimum zero (or more) means: the weighted assets of the whole account fall short of its weighted liabilities by less than the fraction
`1 / (100 * 2^48)` of the liabilities that were counted. -/
theorem C81_ratio_zero {rnd : ℚ → ℚ} (hr : Swap.IsFloat rnd) {fd : FDiv} (hfd0 : ∀ p x, fd 0 p = .ok x → x = 0) {now : Int} {st : AcctState} {q : ℚ} {k : CheckKind} (hk : k.isRatio = true)
    (hq : 0 ≤ q)
    (distinct : (st.ps.map (·.tokenIndex)).Nodup) (hn : ∀ o ∈ st.os, o.NonNeg) (hres : ∀ o ∈ st.os, o.baseReserved = 0 ∧ o.quoteReserved = 0)
    (h : healthCheck rnd fd now st (.num q) k = .ok ())
    {banks' : Nat → BankIn} (hc : Completes st.banks banks') (ho : ∀ p ∈ st.ps, (banks' p.tokenIndex).Ordinary now)
    {full : Cache} (hf : accountCache rnd now banks' st.ps st.os st.perps = .ok full) {assets liabs : I80F48} (hal : full.assetsAndLiabs fd k.type false = .ok (assets, liabs)) :
    ∃ c a l, accountCacheSkipping rnd now st.banks st.ps st.os st.perps = .ok c ∧ c.assetsAndLiabs fd k.type false = .ok (a, l) ∧
      (0 ≤ assets - liabs ∨ (liabs - assets) * (100 * S) < l) := by
  obtain ⟨q', c, w, lo, e, h1, h2, h3, h4⟩ := check_ok h
  simp only [Config.Flt.num.injEq] at e
  subst e
  obtain ⟨pp, b1, b2, _⟩ := both hc h1 hf
  have hw : Client.healthRatio fd c k.type = .ok w := by
    cases k <;> simp_all [CheckKind.isRatio, CheckKind.type, checkedValue]
  obtain ⟨a1, l1, s1, s2⟩ := ratio_ok hw
  obtain ⟨m1, m2, m3, m4⟩ := split_underestimates hfd0 distinct (flagged_ok hr distinct hf b2 ho k.type) hn hres b1 b2 s1 hal
  refine ⟨c, a1, l1, h1, s1, ?_⟩
  have hlo := Swap.toFx_nonneg hq h2
  rcases s2 with ⟨p1, p2⟩ | ⟨p1, p2⟩
  · right
    have z := ratio_zero p1 (by omega : 0 ≤ Client.sat (Int.tdiv (100 * (a1 - l1) * S) l1))
    have e1 : 100 * (a1 - l1) * S = (a1 - l1) * (100 * S) := by ring
    have e2 : (liabs - assets) * (100 * S) ≤ -((a1 - l1) * (100 * S)) := by
      rw [← Int.neg_mul]
      exact Int.mul_le_mul_of_nonneg_right (by omega) (by decide)
    omega
  · left; omega

/-- **C81, what must be passed.** A passed check saw the bank, with a usable oracle, of every token the account owes and of every token its perp positions settle in. -/
theorem C81_needed {rnd : ℚ → ℚ} {fd : FDiv} {now : Int} {st : AcctState} {m : Config.Flt} {k : CheckKind} (h : healthCheck rnd fd now st m k = .ok ()) :
    (∀ p ∈ st.ps, p.indexed < 0 → (st.banks p.tokenIndex).bad = false) ∧
    (∀ x ∈ st.perps, ∃ p ∈ st.ps, p.tokenIndex = x.1.settleTokenIndex ∧ (st.banks p.tokenIndex).bad = false) := by
  obtain ⟨q, c, w, lo, e, h1, h2, h3, h4⟩ := check_ok h
  simp only [accountCacheSkipping, bind_ok] at h1
  obtain ⟨vs, g1, pp, g2, g3⟩ := h1
  have good : ∀ ti, (viewVal ((st.banks ti).view rnd now ti)).bad = false → (st.banks ti).bad = false := by
    intro ti hti
    cases hb : (st.banks ti).bad with
    | false => rfl
    | true => rw [viewVal_bad hb] at hti; exact hti
  simp only [buildCache, bind_ok] at g3
  obtain ⟨ts, k1, ⟨ts', ss⟩, k2, pp', k3, _⟩ := g3
  have owed : ∀ {l : List Pos} {ts : List TokenInfo} {view : Nat → View}, buildTokens view true l = .ok ts → ∀ p ∈ l, p.indexed < 0 → (view p.tokenIndex).bad = false := by
    intro l
    induction l with
    | nil => intro ts view _ p hp; simp at hp
    | cons a l ih =>
      intro ts view hb p hp hneg
      simp only [buildTokens, ite_ok, bind_ok, require_ok] at hb
      rcases hb with ⟨hc, _, hr, hb⟩ | ⟨hc, t, _, ts', hb, _⟩
      · rcases List.mem_cons.mp hp with rfl | hp
        · omega
        · exact ih hb p hp hneg
      · rcases List.mem_cons.mp hp with rfl | hp
        · simpa using hc
        · exact ih hb p hp hneg
  refine ⟨fun p hp hneg => good _ (owed k1 p hp hneg), ?_⟩
  intro x hx
  obtain ⟨i, hi, rfl⟩ := List.getElem_of_mem hx
  obtain ⟨pi, hpi, hpo⟩ := forall₂_some (mapRes_ok g2) (List.getElem?_eq_getElem hi)
  have hset : pi.settleTokenIndex = st.perps[i].1.settleTokenIndex := by
    simp only [perpInfoOf, bind_ok] at hpo
    obtain ⟨_, _, _, _, _, _, _, _, _, _, hpo⟩ := hpo
    simp only [ok_inj] at hpo
    rw [← hpo]
  have hm := (buildPerps_ok k3).2 rfl pi (List.mem_of_getElem? hpi)
  obtain ⟨t3, t4⟩ := buildSerums_used k2
  rw [t4] at hm
  obtain ⟨t, ht, e'⟩ := List.mem_map.mp hm
  obtain ⟨p, hp, hpp, hnb⟩ := buildTokens_mem k1 t ht
  refine ⟨p, hp, ?_, good _ (by simpa using hnb)⟩
  rw [← (posInfo_ok hpp).1, e', hset]

theorem buildTokens_none {view : Nat → View} : ∀ {ps : List Pos}, (∀ p ∈ ps, (view p.tokenIndex).bad = false) → buildTokens view true ps = buildTokens view false ps := by
  intro ps
  induction ps with
  | nil => intro _; rfl
  | cons p ps ih =>
    intro h
    have h0 := h p (by simp)
    simp only [buildTokens, h0, Bool.false_eq_true, and_false, if_false, ih (fun q hq => h q (by simp [hq]))]

theorem buildSerums_none : ∀ {os : List OpenOrd} {ts : List TokenInfo} {r : List TokenInfo × List Serum3Info}, buildSerums false ts os = .ok r → buildSerums true ts os = .ok r := by
  intro os
  induction os with
  | nil => intro ts r h; exact h
  | cons o os ih =>
    intro ts r h
    rw [buildSerums] at h ⊢
    cases hb : findToken ts o.base with
    | none => rw [hb] at h; simp only [bind_ok, require_ok] at h; simp at h
    | some b =>
      cases hq : findToken ts o.quote with
      | none => rw [hb, hq] at h; simp only [bind_ok, require_ok] at h; simp at h
      | some q =>
        rw [hb, hq] at h
        simp only [bind_ok] at h ⊢
        obtain ⟨t1, h1, t2, h2, s, h3, ⟨t3, ss⟩, h4, h5⟩ := h
        exact ⟨t1, h1, t2, h2, s, h3, ⟨t3, ss⟩, ih h4, h5⟩

theorem buildPerps_none {ts : List TokenInfo} : ∀ {pp : List PerpInfo}, (∀ p ∈ pp, p.settleTokenIndex ∈ ts.map (·.tokenIndex)) → buildPerps true ts pp = buildPerps false ts pp := by
  intro pp
  induction pp with
  | nil => intro _; rfl
  | cons p pp ih =>
    intro h
    have h0 := h p (by simp)
    simp only [buildPerps, ih (fun q hq => h q (by simp [hq])), if_true, Bool.false_eq_true, if_false]
    cases hf : findToken ts p.settleTokenIndex with
    | some i => rfl
    | none =>
      exfalso
      obtain ⟨t, ht, e⟩ := List.mem_map.mp h0
      simp only [findToken, List.findIdx?_eq_none_iff] at hf
      have := hf t ht
      simp [e] at this

/-- **C81, nothing else is rejected.** With every bank usable, the check passes exactly if the value is at least the minimum: the health of the account, or 100 times its
assets minus liabilities divided by its liabilities. -/
theorem C81_passes {rnd : ℚ → ℚ} {fd : FDiv} {now : Int} {st : AcctState} {q : ℚ} {k : CheckKind} {lo : I80F48} (hlo : Swap.toFx q = .ok lo)
    (hall : ∀ p ∈ st.ps, (st.banks p.tokenIndex).bad = false) {full : Cache} (hf : accountCache rnd now st.banks st.ps st.os st.perps = .ok full)
    (hperp : ∀ x ∈ st.perps, ∃ p ∈ st.ps, p.tokenIndex = x.1.settleTokenIndex) :
    (∀ v, k.isRatio = false → full.health fd k.type = .ok v → (healthCheck rnd fd now st (.num q) k = .ok () ↔ lo ≤ v)) ∧
    (∀ r, k.isRatio = true → Client.healthRatio fd full k.type = .ok r → (healthCheck rnd fd now st (.num q) k = .ok () ↔ lo ≤ r)) := by
  have hs : accountCacheSkipping rnd now st.banks st.ps st.os st.perps = .ok full := by
    simp only [accountCache, bind_ok] at hf
    obtain ⟨vs, h1, pp, h2, h3⟩ := hf
    have views : ∀ p ∈ st.ps, ∃ v, (st.banks p.tokenIndex).view rnd now p.tokenIndex = .ok v := by
      intro p hp
      obtain ⟨v, hv⟩ := mapRes_mem h1 p hp
      simp only [bind_ok, require_ok] at hv
      obtain ⟨_, _, hv⟩ := hv
      exact ⟨v, hv⟩
    obtain ⟨r, hr⟩ := mapRes_of (l := st.ps.filter (fun p => !(st.banks p.tokenIndex).bad)) (f := fun (p : Pos) => (st.banks p.tokenIndex).view rnd now p.tokenIndex)
      (fun p hp => views p (List.mem_filter.mp hp).1)
    simp only [accountCacheSkipping, bind_ok]
    refine ⟨r, hr, pp, h2, ?_⟩
    simp only [buildCache, bind_ok] at h3 ⊢
    obtain ⟨ts, k1, ⟨ts', ss⟩, k2, pp', k3, k4⟩ := h3
    refine ⟨ts, ?_, ⟨ts', ss⟩, buildSerums_none k2, pp', ?_, k4⟩
    · rw [buildTokens_none, k1]
      intro p hp
      obtain ⟨v, hv⟩ := views p hp
      exact viewVal_good (hall p hp) hv
    · rw [buildPerps_none, k3]
      intro pi hpi
      obtain ⟨i, hi, rfl⟩ := List.getElem_of_mem hpi
      have k5 := buildTokens_full_indexes k1
      have k6 := (buildSerums_used (buildSerums_none k2)).2
      rw [k6, k5]
      have hlen := (mapRes_ok h2).length_eq
      obtain ⟨pi', hpi', hpo⟩ := forall₂_some (mapRes_ok h2) (List.getElem?_eq_getElem (show i < st.perps.length by omega))
      rw [List.getElem?_eq_getElem hi] at hpi'
      simp only [Option.some.injEq] at hpi'
      subst hpi'
      have hset : pp[i].settleTokenIndex = st.perps[i].1.settleTokenIndex := by
        simp only [perpInfoOf, bind_ok] at hpo
        obtain ⟨_, _, _, _, _, _, _, _, _, _, hpo⟩ := hpo
        simp only [ok_inj] at hpo
        rw [← hpo]
      obtain ⟨p, hp, e⟩ := hperp st.perps[i] (List.getElem_mem _)
      exact List.mem_map.mpr ⟨p, hp, by rw [e, hset]⟩
  refine ⟨?_, ?_⟩ <;> intro v hk hv
  · have hw : checkedValue fd full k = .ok v := by
      cases k <;> simp_all [CheckKind.isRatio, CheckKind.type, checkedValue]
    constructor
    · intro h
      obtain ⟨q', c, w, lo', e, h1, h2, h3, h4⟩ := check_ok h
      simp only [Config.Flt.num.injEq] at e
      subst e
      rw [hs] at h1; cases h1
      rw [hlo] at h2; cases h2
      rw [hw] at h3; cases h3
      exact h4
    · intro h
      simp only [healthCheck, bind_ok, require_ok]
      exact ⟨full, hs, lo, hlo, v, hw, h⟩
  · have hw : checkedValue fd full k = .ok v := by
      cases k <;> simp_all [CheckKind.isRatio, CheckKind.type, checkedValue]
    constructor
    · intro h
      obtain ⟨q', c, w, lo', e, h1, h2, h3, h4⟩ := check_ok h
      simp only [Config.Flt.num.injEq] at e
      subst e
      rw [hs] at h1; cases h1
      rw [hlo] at h2; cases h2
      rw [hw] at h3; cases h3
      exact h4
    · intro h
      simp only [healthCheck, bind_ok, require_ok]
      exact ⟨full, hs, lo, hlo, v, hw, h⟩

/-! ## Example: an account that owes token 0, has deposits of 1 and 2 and free funds on the market of 2 and 0; the bank of token 2 is not passed -/

def chkBanks (bad : Bool) (ti : Nat) : BankIn := if ti = 2 then { exBank 1 with bad := bad } else exBank ti
def chkState : AcctState where
  banks := chkBanks true
  ps := [⟨0, -100 * S⟩, ⟨1, 300 * S⟩, ⟨2, 50 * S⟩]
  os := [{ base := 2, quote := 0, baseFree := 3, quoteFree := 20, baseReserved := 0, quoteReserved := 0, lowestAsk := 0, highestBidInv := 0 }]
  perps := exPerps

example : Completes chkState.banks (chkBanks false) := by
  refine ⟨?_, ?_⟩ <;> intro ti
  · simp only [chkState, chkBanks]
    split
    · intro h; simp at h
    · intro _; rfl
  · simp only [chkBanks]
    split
    · rfl
    · unfold exBank; split <;> rfl
example : ∀ p ∈ chkState.ps, ((chkBanks false) p.tokenIndex).Ordinary 164 := by
  have v : ∀ ti, (chkBanks false ti).Verified := by
    intro ti
    unfold chkBanks
    split
    · exact ⟨(exBank_verified 1).verify, (exBank_verified 1).depositStart, (exBank_verified 1).borrowStart⟩
    · exact exBank_verified ti
  intro p hp
  simp only [chkState, List.mem_cons, List.not_mem_nil, or_false] at hp
  rcases hp with rfl | rfl | rfl
  · exact ⟨v 0, ⟨S, S, by decide +kernel⟩, by decide +kernel, by decide +kernel, by decide +kernel⟩
  · exact ⟨v 1, ⟨_, _, rfl, by decide +kernel⟩, by decide +kernel, by decide +kernel, by decide +kernel⟩
  · exact ⟨v 2, ⟨_, _, rfl, by decide +kernel⟩, by decide +kernel, by decide +kernel, by decide +kernel⟩
/-- the check passes up to the health of the part that was passed, and the full health is larger -/
example : (healthCheck (fun x => x) Fx.div 164 chkState (.num 500) .init, healthCheck (fun x => x) Fx.div 164 chkState (.num 801) .init,
    healthCheck (fun x => x) Fx.div 164 chkState (.num 100) .maintRatio, healthCheck (fun x => x) Fx.div 164 chkState .nan .maint,
    accountHealth (fun x => x) Fx.div 164 (chkBanks false) chkState.ps chkState.os chkState.perps .init) = (.ok (), .error .invalidHealth, .ok (), .error .panic, .ok 225461456345235456) := by decide +kernel

end Health
end Mango
