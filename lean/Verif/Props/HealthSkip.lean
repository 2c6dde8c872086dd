import Verif.Health.BuildLemmas
import Verif.Props.Health2
/-!
# C40 Health with skipped banks underestimates the full health
-/
namespace Mango
namespace Health
open Fx

theorem worth_congr {t t' : TokenInfo} {h : HT} (e1 : t.prices = t'.prices) (e2 : t.assetWeight h = t'.assetWeight h)
    (e3 : t.liabWeight h = t'.liabWeight h) (b : Int) : worth t h b = worth t' h b := by
  unfold worth; rw [e1, e2, e3]

theorem worth_bal (t : TokenInfo) (h : HT) (b x : Int) : worth { t with balanceSpot := b } h x = worth t h x := by
  apply worth_congr <;> first | rfl | (cases h <;> rfl)

/-- a market's reserved funds converted to base or to quote, from the account's open orders and the oracle prices -/
def resv (fd : FDiv) (h : HT) (view : Nat → View) (o : OpenOrd) : Serum3Reserved :=
  { asBase := val (do let s ← o.info 0 0; s.allReservedAsBase fd h (view o.quote).info (view o.base).info)
    asQuote := val (do let s ← o.info 0 0; s.allReservedAsQuote fd h (view o.quote).info (view o.base).info) }

/-- what market `o` adds to token `ti` when executed in direction `d` -/
def convTok (fd : FDiv) (h : HT) (view : Nat → View) (ti : Nat) (x : OpenOrd × Bool) : Int :=
  if x.2 = true then (if x.1.base = ti then (resv fd h view x.1).asBase else 0)
  else (if x.1.quote = ti then (resv fd h view x.1).asQuote else 0)

def perpTok (h : HT) (ti : Nat) (p : PerpInfo) : Int := if p.settleTokenIndex = ti then val (p.hupnl h) else 0

/-- what building a cache from the markets `kept` and tokens `ts0` gives -/
structure Built (view : Nat → View) (ts0 : List TokenInfo) (kept : List OpenOrd) (perps : List PerpInfo) (c : Cache) : Prop where
  len : c.tokens.length = ts0.length
  tok : ∀ (k : Nat) t, ts0[k]? = some t → c.tokens[k]? = some { t with balanceSpot := t.balanceSpot + freeIn kept t.tokenIndex }
  ser : List.Forall₂ (InfoFor ts0) kept c.serums
  perps : c.perps = perps
  nodup : (ts0.map (·.tokenIndex)).Nodup
  src : ∀ t ∈ ts0, ∃ p, posInfo view p = .ok t

namespace Built
variable {view : Nat → View} {ts0 : List TokenInfo} {kept : List OpenOrd} {perps : List PerpInfo} {c : Cache}

theorem same (B : Built view ts0 kept perps c) : SameTokens ts0 c.tokens := ⟨B.len, fun k t ht => ⟨_, B.tok k t ht⟩⟩

theorem nodup' (B : Built view ts0 kept perps c) : (c.tokens.map (·.tokenIndex)).Nodup := by
  rw [B.same.indexes]; exact B.nodup

/-- prices of the token found under an index -/
theorem prices (B : Built view ts0 kept perps c) {k ti : Nat} {t : TokenInfo} (hf : findToken ts0 ti = some k) (ht : c.tokens[k]? = some t) :
    t.prices = (view ti).info.prices := by
  obtain ⟨t0, h0, h1⟩ := findToken_mem hf
  have := B.tok k t0 h0
  rw [ht] at this; simp at this; subst this
  obtain ⟨p, hp⟩ := B.src t0 (List.mem_of_getElem? h0)
  have := posInfo_ok hp
  dsimp only
  rw [this.2.1, ← this.1, h1]

theorem info_val {fd : FDiv} {h : HT} {o : OpenOrd} {bi qi : Nat} {s : Serum3Info} (hi : o.info bi qi = .ok s) {q b : TokenInfo}
    (hq : q.prices = (view o.quote).info.prices) (hb : b.prices = (view o.base).info.prices) {x y : Int}
    (hx : s.allReservedAsBase fd h q b = .ok x) (hy : s.allReservedAsQuote fd h q b = .ok y) :
    (⟨x, y⟩ : Serum3Reserved) = resv fd h view o := by
  simp only [OpenOrd.info, bind_ok] at hi
  obtain ⟨ask, h1, bid, h2, hi⟩ := hi
  simp at hi; subst hi
  unfold resv OpenOrd.info
  rw [h1, h2]
  simp only [Serum3Info.allReservedAsBase, Serum3Info.allReservedAsQuote] at hx hy ⊢
  rw [hq, hb] at hx hy
  congr 1
  · exact (val_ok hx).symm
  · exact (val_ok hy).symm

theorem rs_eq (B : Built view ts0 kept perps c) {fd : FDiv} {h : HT} {mr : List Int} {rs : List Serum3Reserved}
    (hr : c.reservations fd h = .ok (mr, rs)) : rs = kept.map (resv fd h view) := by
  obtain ⟨l, _, _, d⟩ := reservations_ok hr
  have hkl := B.ser.length_eq
  apply List.ext_getElem?
  intro k
  rw [List.getElem?_map]
  by_cases hk : k < kept.length
  · have hr' := List.getElem?_eq_getElem (l := rs) (i := k) (by omega)
    have hs' := List.getElem?_eq_getElem (l := c.serums) (i := k) (by omega)
    obtain ⟨q, b, z1, z2, z3, z4⟩ := d (c.serums[k], rs[k]) (by
      apply List.mem_of_getElem? (i := k); rw [List.getElem?_zip_eq_some]; exact ⟨hs', hr'⟩)
    have hf := (List.forall₂_iff_get.mp B.ser).2 k hk (by omega)
    simp only [List.get_eq_getElem] at hf
    obtain ⟨i1, i2, i3⟩ := hf
    have := info_val (view := view) i3 (B.prices i2 z1) (B.prices i1 z2) z3 z4
    rw [hr', List.getElem?_eq_getElem hk, Option.map_some, ← this]
  · rw [List.getElem?_eq_none (by omega : rs.length ≤ k), List.getElem?_eq_none (by omega : kept.length ≤ k)]; rfl

theorem conv_eq' {fd : FDiv} {h : HT} (hnd : (ts0.map (·.tokenIndex)).Nodup) {k : Nat} {t : TokenInfo} (ht : ts0[k]? = some t) :
    ∀ {kept : List OpenOrd} {ss : List Serum3Info}, List.Forall₂ (InfoFor ts0) kept ss → ∀ dirs : List Bool,
    convAll ((ss.zip (kept.map (resv fd h view))).zip dirs) k = sumOf (convTok fd h view t.tokenIndex) (kept.zip dirs) := by
  intro kept ss hf
  induction hf with
  | nil => intro dirs; simp [convAll]
  | cons hi hf ih =>
    rename_i o s os ss
    intro dirs
    cases dirs with
    | nil => simp [convAll]
    | cons d dirs =>
      have := ih dirs
      simp only [convAll, List.map_cons, List.zip_cons_cons, sumOf_cons] at this ⊢
      rw [this]
      congr 1
      obtain ⟨i1, i2, _⟩ := hi
      have e1 : (s.baseIdx = k) ↔ (o.base = t.tokenIndex) := by
        have := findToken_iff hnd ht o.base
        rw [i1] at this; simpa using this
      have e2 : (s.quoteIdx = k) ↔ (o.quote = t.tokenIndex) := by
        have := findToken_iff hnd ht o.quote
        rw [i2] at this; simpa using this
      cases d <;> simp only [conv, convTok, e1, e2] <;> simp

theorem bal_eq (B : Built view ts0 kept perps c) {h : HT} {bs : List Int} (hb : c.balances h = .ok bs) {k : Nat} {t : TokenInfo}
    (ht : ts0[k]? = some t) : balAt bs k = t.balanceSpot + freeIn kept t.tokenIndex + sumOf (perpTok h t.tokenIndex) perps := by
  obtain ⟨l, v, _⟩ := balancesI_ok hb
  have ht' := B.tok k t ht
  rw [balAt_eq (v k _ ht'), B.perps]
  have : sumOf (perpOn c h false k) perps = sumOf (perpTok h t.tokenIndex) perps := by
    apply sumOf_congr
    intro p _
    have := tokenIdx_iff B.nodup' ht' p.settleTokenIndex
    simp only [perpOn, this, perpTok]
    simp
  rw [this]; dsimp only; omega

/-- exact worth, as a sum over tokens -/
theorem keyed (B : Built view ts0 kept perps c) {fd : FDiv} {h : HT} {bs mr : List Int} {rs : List Serum3Reserved}
    (hb : c.balances h = .ok bs) (hr : c.reservations fd h = .ok (mr, rs)) (dirs : List Bool) :
    totalWorth c.tokens h (fun k => balAt bs k + convAll ((c.serums.zip rs).zip dirs) k) =
    sumOf (fun t => worth t h (t.balanceSpot + freeIn kept t.tokenIndex + sumOf (perpTok h t.tokenIndex) perps
      + sumOf (convTok fd h view t.tokenIndex) (kept.zip dirs))) ts0 := by
  have hz := sum_zip_range (fun (t : TokenInfo) (_ : Int) => worth t h (t.balanceSpot + freeIn kept t.tokenIndex + sumOf (perpTok h t.tokenIndex) perps
      + sumOf (convTok fd h view t.tokenIndex) (kept.zip dirs))) ts0 (List.replicate ts0.length 0) (by simp)
  rw [sumOf_zip_fst (fun (t : TokenInfo) => worth t h (t.balanceSpot + freeIn kept t.tokenIndex + sumOf (perpTok h t.tokenIndex) perps
      + sumOf (convTok fd h view t.tokenIndex) (kept.zip dirs))) _ _ (by simp)] at hz
  rw [hz]
  unfold totalWorth
  rw [B.len]
  apply sumOf_congr
  intro k hk
  have hk := List.mem_range.mp hk
  have ht := List.getElem?_eq_getElem hk
  have ht' := B.tok k _ ht
  unfold worthAt atD
  rw [ht', ht]
  simp only
  rw [worth_bal, B.bal_eq hb ht, B.rs_eq hr, conv_eq' B.nodup ht B.ser]

end Built

/-- what `buildCache` produces -/
theorem buildCache_built {view : Nat → View} {skip : Bool} {ps : List Pos} {os : List OpenOrd} {perps : List PerpInfo} {c : Cache}
    (hd : (ps.map (·.tokenIndex)).Nodup) (h : buildCache view skip ps os perps = .ok c) :
    ∃ ts0, buildTokens view skip ps = .ok ts0 ∧ Built view ts0 (os.filter (present (ts0.map (·.tokenIndex)))) perps c ∧
      (skip = false → os.filter (present (ts0.map (·.tokenIndex))) = os) ∧
      (skip = true → ∀ p ∈ perps, p.settleTokenIndex ∈ ts0.map (·.tokenIndex)) := by
  simp only [buildCache, bind_ok] at h
  obtain ⟨ts0, h1, ⟨ts, ss⟩, h2, pp, h3, h4⟩ := h
  simp at h4; subst h4
  have hsub : ∀ {ps : List Pos} {ts : List TokenInfo}, buildTokens view skip ps = .ok ts → (ts.map (·.tokenIndex)).Sublist (ps.map (·.tokenIndex)) := by
    intro ps
    induction ps with
    | nil => intro ts h; simp [buildTokens] at h; subst h; simp
    | cons p ps ih =>
      intro ts h
      simp only [buildTokens, ite_ok, bind_ok] at h
      rcases h with ⟨_, _, _, h⟩ | ⟨_, t, h1, ts', h2, h3⟩
      · exact List.Sublist.cons _ (ih h)
      · simp at h3; subst h3
        simp only [List.map_cons, (posInfo_ok h1).1]
        exact (ih h2).cons_cons _
  have nd : (ts0.map (·.tokenIndex)).Nodup := hd.sublist (hsub h1)
  obtain ⟨a, b, c1, d⟩ := buildSerums_ok nd h2
  obtain ⟨e, f⟩ := buildPerps_ok h3
  have st : SameTokens ts0 ts := ⟨a, fun k t ht => ⟨_, b k t ht⟩⟩
  refine ⟨ts0, h1, ⟨a, b, c1, e, nd, ?_⟩, d, ?_⟩
  · intro t ht
    obtain ⟨p, _, hp, _⟩ := buildTokens_mem h1 t ht
    exact ⟨p, hp⟩
  · intro hs p hp
    have := f hs p hp
    rwa [st.indexes] at this

/-- the amounts in an open orders account and its recorded order prices are not negative -/
structure OpenOrd.NonNeg (o : OpenOrd) : Prop where
  baseFree : 0 ≤ o.baseFree
  quoteFree : 0 ≤ o.quoteFree
  baseReserved : 0 ≤ o.baseReserved
  quoteReserved : 0 ≤ o.quoteReserved
  ask : 0 ≤ o.lowestAsk
  bid : 0 ≤ o.highestBidInv

theorem OpenOrd.NonNeg.info {o : OpenOrd} (n : o.NonNeg) {bi qi : Nat} {s : Serum3Info} (h : o.info bi qi = .ok s) : s.NonNeg := by
  simp only [OpenOrd.info, bind_ok, mul_ok] at h
  obtain ⟨ask, ⟨h1, _⟩, bid, ⟨h2, _⟩, h⟩ := h
  simp at h; subst h
  have e1 : 0 ≤ ofInt o.baseReserved := by unfold ofInt; exact Int.mul_nonneg n.baseReserved (by decide)
  have e2 : 0 ≤ ofInt o.quoteReserved := by unfold ofInt; exact Int.mul_nonneg n.quoteReserved (by decide)
  exact ⟨e1, e2, by rw [h1]; exact floor_nonneg (Int.mul_nonneg e1 n.ask), by rw [h2]; exact floor_nonneg (Int.mul_nonneg e2 n.bid)⟩

theorem freeIn_nonneg {os : List OpenOrd} (hn : ∀ o ∈ os, o.NonNeg) (ti : Nat) : 0 ≤ freeIn os ti := by
  apply sumOf_nonneg_mem
  intro o ho
  have e1 : 0 ≤ ofInt o.baseFree := by unfold ofInt; exact Int.mul_nonneg (hn o ho).baseFree (by decide)
  have e2 : 0 ≤ ofInt o.quoteFree := by unfold ofInt; exact Int.mul_nonneg (hn o ho).quoteFree (by decide)
  split <;> split <;> omega

theorem freeIn_filter {os : List OpenOrd} (hn : ∀ o ∈ os, o.NonNeg) (ti : Nat) (q : OpenOrd → Bool) : freeIn (os.filter q) ti ≤ freeIn os ti := by
  apply sumOf_filter_le
  intro o ho
  have e1 : 0 ≤ ofInt o.baseFree := by unfold ofInt; exact Int.mul_nonneg (hn o ho).baseFree (by decide)
  have e2 : 0 ≤ ofInt o.quoteFree := by unfold ofInt; exact Int.mul_nonneg (hn o ho).quoteFree (by decide)
  split <;> split <;> omega

/-- the bank and oracle data the health of the account is computed from: sane parameters, non-negative indexes -/
def ViewOk (view : Nat → View) (ps : List Pos) (h : HT) : Prop := ∀ p ∈ ps, (view p.tokenIndex).info.Sane h ∧ 0 ≤ (view p.tokenIndex).depositIndex

theorem posInfo_sane {view : Nat → View} {p : Pos} {h : HT} (hv : (view p.tokenIndex).info.Sane h) {t : TokenInfo} (ht : posInfo view p = .ok t) :
    t.Sane h := by
  obtain ⟨_, e1, e2, e3, _⟩ := posInfo_ok ht
  have := e2 h; have := e3 h
  obtain ⟨a, b, c, d, e⟩ := hv
  constructor <;> simp_all

theorem Built.sane {view : Nat → View} {ts0 : List TokenInfo} {kept : List OpenOrd} {perps : List PerpInfo} {c : Cache}
    (B : Built view ts0 kept perps c) {h : HT} (hs : ∀ t ∈ ts0, t.Sane h) : AllSane c.tokens h := by
  intro t ht
  obtain ⟨k, hk⟩ := List.mem_iff_getElem?.mp ht
  have hkl := getElem?_lt hk
  rw [B.len] at hkl
  have h0 := List.getElem?_eq_getElem hkl
  have := B.tok k _ h0
  rw [hk] at this; simp at this
  have sn := hs _ (List.mem_of_getElem? h0)
  obtain ⟨a, b, c1, d, e⟩ := sn
  rw [this]
  cases h <;> exact ⟨a, b, c1, d, e⟩

theorem Built.markets {view : Nat → View} {ts0 : List TokenInfo} {kept : List OpenOrd} {perps : List PerpInfo} {c : Cache}
    (B : Built view ts0 kept perps c) :
    ∀ s ∈ c.serums, ∃ o ∈ kept, InfoFor ts0 o s := by
  intro s hs
  obtain ⟨k, hk⟩ := List.mem_iff_getElem?.mp hs
  have hkl := getElem?_lt hk
  have := B.ser.length_eq
  have hf := (List.forall₂_iff_get.mp B.ser).2 k (by omega) hkl
  rw [List.getElem?_eq_getElem hkl] at hk
  simp at hk
  simp only [List.get_eq_getElem, hk] at hf
  exact ⟨_, List.getElem_mem _, hf⟩

theorem convTok_nonneg {fd : FDiv} {h : HT} {view : Nat → View} {ti : Nat} {x : OpenOrd × Bool}
    (hx : 0 ≤ (resv fd h view x.1).asBase ∧ 0 ≤ (resv fd h view x.1).asQuote) : 0 ≤ convTok fd h view ti x := by
  unfold convTok
  split <;> split <;> omega

theorem filter_map_fst {α β : Type} (q : α → Bool) : ∀ (l : List α) (m : List β), m.length = l.length →
    ((l.zip m).filter (fun x => q x.1)).map Prod.fst = l.filter q := by
  intro l
  induction l with
  | nil => intro m _; simp
  | cons a l ih =>
    intro m hm
    cases m with
    | nil => simp at hm
    | cons b m =>
      have := ih m (by simpa using hm)
      simp only [List.zip_cons_cons, List.filter_cons]
      split <;> simp [this]

theorem zip_fst_snd {α β : Type} (l : List (α × β)) : (l.map Prod.fst).zip (l.map Prod.snd) = l := by
  induction l with
  | nil => rfl
  | cons a l ih => simp [ih]

/-- **C40** For an account (token positions `ps`, open orders `os`, perp positions `perps`) and bank/oracle data `view`: when every token
is either weighted alike as asset and as liability or used by at most one market with reserved funds, the health computed while skipping
the unusable banks of non-negative positions is at most the health computed from everything, up to the rounding of the health sums
(`slack`, `tokenExcess`). -/
theorem C40_skipping_underestimates {fd : FDiv} (hfd : FdOk fd) {view : Nat → View} {ps : List Pos} {os : List OpenOrd} {perps : List PerpInfo} {h : HT}
    (distinct : (ps.map (·.tokenIndex)).Nodup) (hv : ViewOk view ps h) (hn : ∀ o ∈ os, o.NonNeg) (hne : ∀ o ∈ os, o.base ≠ o.quote)
    {skipped full : Cache} (h1 : buildCache view true ps os perps = .ok skipped) (h2 : buildCache view false ps os perps = .ok full)
    {bs1 bs2 mr2 : List I80F48} {rs2 : List Serum3Reserved} (hb1 : skipped.balances h = .ok bs1) (hb2 : full.balances h = .ok bs2)
    (hr2 : full.reservations fd h = .ok (mr2, rs2)) (hu : Unshared full.tokens h (full.serums.zip rs2))
    {v1 v2 : I80F48} (hv1 : skipped.health fd h = .ok v1) (hv2 : full.health fd h = .ok v2) :
    v1 * (S * S) ≤ v2 * (S * S) + slack full h bs2 rs2 + tokenExcess bs1 skipped.tokens.length := by
  obtain ⟨t1, bt1, B1, _, pp1⟩ := buildCache_built distinct h1
  obtain ⟨t2, bt2, B2, ko2, _⟩ := buildCache_built distinct h2
  rw [ko2 rfl] at B2
  clear ko2
  generalize hq : present (t1.map (·.tokenIndex)) = q at B1
  simp only [Cache.health, bind_ok] at hv1 hv2
  obtain ⟨x1, y1, hv1⟩ := hv1
  obtain ⟨x2, y2, hv2⟩ := hv2
  rw [hb1] at y1; simp at y1; subst y1
  rw [hb2] at y2; simp at y2; subst y2
  have sane1 : ∀ t ∈ t1, t.Sane h := by
    intro t ht
    obtain ⟨p, hp, hpi, _⟩ := buildTokens_mem bt1 t ht
    exact posInfo_sane (hv p hp).1 hpi
  have sane2 : ∀ t ∈ t2, t.Sane h := by
    intro t ht
    obtain ⟨p, hp, hpi, _⟩ := buildTokens_mem bt2 t ht
    exact posInfo_sane (hv p hp).1 hpi
  have hn1 : ∀ o ∈ os.filter q, o.NonNeg := fun o ho => hn o (List.mem_filter.mp ho).1
  have nn1 : skipped.MarketsNonNeg := by
    intro s hs
    obtain ⟨o, ho, hi⟩ := B1.markets s hs
    exact (hn1 o ho).info hi.2.2
  have nn2 : full.MarketsNonNeg := by
    intro s hs
    obtain ⟨o, ho, hi⟩ := B2.markets s hs
    exact (hn o ho).info hi.2.2
  have hne2 : ∀ s ∈ full.serums, s.baseIdx ≠ s.quoteIdx := by
    intro s hs e
    obtain ⟨o, ho, hi⟩ := B2.markets s hs
    obtain ⟨z1, e1, e2⟩ := findToken_mem hi.1
    obtain ⟨z2, e3, e4⟩ := findToken_mem hi.2.1
    rw [e, e3] at e1; simp at e1; subst e1
    exact hne o ho (e2.symm.trans e4)
  have S1 := B1.sane sane1
  have S2 := B2.sane sane2
  obtain ⟨dirs, hd, hge⟩ := healthSum_ge hfd S2 nn2 (balancesI_ok hb2).1 hv2 hr2 hne2 hu
  obtain ⟨mr1, rs1, hr1, _⟩ := healthSum_ok hv1
  have hos : dirs.length = os.length := by rw [hd, ← B2.ser.length_eq]
  have hfst := filter_map_fst q os dirs hos
  have hzip := zip_fst_snd ((os.zip dirs).filter (fun x => q x.1))
  rw [hfst] at hzip
  have hd1 : (((os.zip dirs).filter (fun x => q x.1)).map Prod.snd).length = skipped.serums.length := by
    rw [← B1.ser.length_eq, ← hfst]; simp
  have hle := healthSum_le hfd S1 nn1 (balancesI_ok hb1).1 hv1 hr1 _ hd1
  rw [B1.keyed hb1 hr1, hzip] at hle
  rw [B2.keyed hb2 hr2] at hge
  -- the reserved amounts are not negative
  have rn : ∀ x ∈ os.zip dirs, 0 ≤ (resv fd h view x.1).asBase ∧ 0 ≤ (resv fd h view x.1).asQuote := by
    obtain ⟨l1, _, _, facts⟩ := reservations_facts hfd S2 nn2 hr2
    have hrs := B2.rs_eq hr2
    intro x hx
    have hx1 := mem_zip_fst hx
    obtain ⟨k, hk⟩ := List.mem_iff_getElem?.mp hx1
    have hkl := getElem?_lt hk
    have hle := B2.ser.length_eq
    have hs' := List.getElem?_eq_getElem (l := full.serums) (i := k) (by omega)
    have := facts (full.serums[k], resv fd h view x.1) (by
      apply List.mem_of_getElem? (i := k); rw [List.getElem?_zip_eq_some]
      refine ⟨hs', ?_⟩
      have hm : (os.map (resv fd h view))[k]? = some (resv fd h view x.1) := by rw [List.getElem?_map, hk]; rfl
      rw [← hrs] at hm; exact hm)
    exact ⟨this.1, this.2.1⟩
  have key := buildTokens_sum (f := fun t => worth t h (t.balanceSpot + freeIn (os.filter q) t.tokenIndex + sumOf (perpTok h t.tokenIndex) perps
      + sumOf (convTok fd h view t.tokenIndex) ((os.zip dirs).filter (fun x => q x.1))))
    (g := fun t => worth t h (t.balanceSpot + freeIn os t.tokenIndex + sumOf (perpTok h t.tokenIndex) perps
      + sumOf (convTok fd h view t.tokenIndex) (os.zip dirs))) bt1 bt2 (by
    intro p hp t ht
    have ts := posInfo_sane (hv p hp).1 ht
    have pk := posInfo_ok ht
    refine ⟨?_, ?_⟩
    · intro _
      apply worth_mono ts
      have := freeIn_filter hn t.tokenIndex q
      have : sumOf (convTok fd h view t.tokenIndex) ((os.zip dirs).filter (fun x => q x.1)) ≤ sumOf (convTok fd h view t.tokenIndex) (os.zip dirs) :=
        sumOf_filter_le (fun x hx => convTok_nonneg (rn x hx))
      omega
    · intro hbad h0
      have b0 := pk.2.2.2.2 h0 (hv p hp).2
      have f0 := freeIn_nonneg hn t.tokenIndex
      have c0 : 0 ≤ sumOf (convTok fd h view t.tokenIndex) (os.zip dirs)   := sumOf_nonneg_mem (fun x hx => convTok_nonneg (rn x hx))
      have p0 : sumOf (perpTok h t.tokenIndex) perps = 0 := by
        apply sumOf_zero
        intro pp hpp
        unfold perpTok
        rw [if_neg]
        intro e
        have hm := pp1 rfl pp hpp
        rw [e] at hm
        obtain ⟨t', ht', e'⟩ := List.mem_map.mp hm
        obtain ⟨p', _, hp', hnb⟩ := buildTokens_mem bt1 t' ht'
        have := (posInfo_ok hp').1
        have e2 : p'.tokenIndex = p.tokenIndex := by rw [← this, e', pk.1]
        rw [e2] at hnb
        exact hnb ⟨rfl, hbad⟩
      have m0 := worth_mono ts (a := 0) (b := t.balanceSpot + freeIn os t.tokenIndex + sumOf (perpTok h t.tokenIndex) perps
        + sumOf (convTok fd h view t.tokenIndex) (os.zip dirs)) (by omega)
      have : worth t h 0 = 0 := by unfold worth; simp
      omega)
  omega

/-- the value of a token contribution -/
def cval (t : TokenInfo) (h : HT) (b : Int) : Int :=
  if b < 0 then b * (t.liabWeight h * t.prices.liab h / S) / S else b * (t.assetWeight h * t.prices.asset h / S) / S

theorem cval_bal (t : TokenInfo) (h : HT) (b x : Int) : cval { t with balanceSpot := b } h x = cval t h x := by
  unfold cval; cases h <;> rfl

theorem cval_mono {t : TokenInfo} {h : HT} (s : t.Sane h) {a b : Int} (hab : a ≤ b) : cval t h a ≤ cval t h b := by
  have e1 : 0 ≤ t.liabWeight h * t.prices.liab h / S := floor_nonneg (Int.mul_nonneg s.lw s.lp)
  have e2 : 0 ≤ t.assetWeight h * t.prices.asset h / S := floor_nonneg s.ap'
  unfold cval
  generalize t.liabWeight h * t.prices.liab h / S = L at *
  generalize t.assetWeight h * t.prices.asset h / S = A at *
  split <;> split
  · exact floor_mono (Int.mul_le_mul_of_nonneg_right hab e1)
  · have p1 : a * L ≤ 0 := Int.mul_nonpos_of_nonpos_of_nonneg (by omega) e1
    have p2 : 0 ≤ b * A := Int.mul_nonneg (by omega) e2
    exact floor_mono (by omega)
  · omega
  · exact floor_mono (Int.mul_le_mul_of_nonneg_right hab e2)

/-- without reserved funds the health is the sum of the token contributions -/
theorem Built.health_noReserved {view : Nat → View} {ts0 : List TokenInfo} {kept : List OpenOrd} {perps : List PerpInfo} {c : Cache}
    (B : Built view ts0 kept perps c) {fd : FDiv} (hfd0 : ∀ p x, fd 0 p = .ok x → x = 0) {h : HT}
    (hres : ∀ o ∈ kept, o.baseReserved = 0 ∧ o.quoteReserved = 0) {v : Int} (hv : c.health fd h = .ok v) :
    v = sumOf (fun t => cval t h (t.balanceSpot + freeIn kept t.tokenIndex + sumOf (perpTok h t.tokenIndex) perps)) ts0 := by
  simp only [Cache.health, bind_ok] at hv
  obtain ⟨bs, hb, hv⟩ := hv
  obtain ⟨mr, rs, hr, e, f1, f2⟩ := healthSum_ok hv
  obtain ⟨l, _, _, d⟩ := reservations_ok hr
  have z : sumOf (fun (x : Serum3Info × Serum3Reserved) => val (x.1.contribution h c.tokens bs mr x.2)) (c.serums.zip rs) = 0 := by
    apply sumOf_zero
    intro x hx
    obtain ⟨q, b, _, _, h3, h4⟩ := d x hx
    obtain ⟨o, ho, hi⟩ := B.markets x.1 (mem_zip_fst hx)
    have hz := hres o ho
    have hi3 := hi.2.2
    simp only [OpenOrd.info, bind_ok, mul_ok] at hi3
    obtain ⟨ask, ⟨a1, _⟩, bid, ⟨a2, _⟩, hi3⟩ := hi3
    simp at hi3
    rw [hz.1] at a1; rw [hz.2] at a2
    have z1 : x.1.reservedBase = 0 := by rw [← hi3, hz.1]; rfl
    have z2 : x.1.reservedQuote = 0 := by rw [← hi3, hz.2]; rfl
    have z3 : x.1.reservedQuoteAsBaseHighestBid = 0 := by rw [← hi3]; simp [a2, ofInt]
    have : x.2.asBase = 0 := by
      simp only [Serum3Info.allReservedAsBase, bind_ok, ite_ok, mul_ok, add_ok] at h3
      obtain ⟨w, ⟨hw, _⟩, oo, ho', h3⟩ := h3
      rw [z2] at hw; simp at hw; rw [hw] at ho'
      have := hfd0 _ _ ho'
      rcases h3 with ⟨hc, _⟩ | ⟨_, h3, _⟩
      · exact absurd z3 hc
      · omega
    simp [Serum3Info.contribution, this, val]
  rw [z] at e
  have hl := (balancesI_ok hb).1
  have e2 : sumOf (fun (x : TokenInfo × Int) => val (x.1.contribution h x.2)) (c.tokens.zip bs) = sumOf (fun (x : TokenInfo × Int) => cval x.1 h x.2) (c.tokens.zip bs) := by
    apply sumOf_congr
    intro x hx
    obtain ⟨w, hw⟩ := f1 x hx
    rw [val_ok hw]; exact contribution_ok hw
  rw [e2, sum_zip_range (fun t b => cval t h b) _ _ hl] at e
  have hz := sum_zip_range (fun (t : TokenInfo) (_ : Int) => cval t h (t.balanceSpot + freeIn kept t.tokenIndex + sumOf (perpTok h t.tokenIndex) perps))
    ts0 (List.replicate ts0.length 0) (by simp)
  rw [sumOf_zip_fst (fun (t : TokenInfo) => cval t h (t.balanceSpot + freeIn kept t.tokenIndex + sumOf (perpTok h t.tokenIndex) perps)) _ _ (by simp)] at hz
  rw [hz, e, B.len]
  have : sumOf (fun k => atD c.tokens k fun t => cval t h (balAt bs k)) (List.range ts0.length) =
      sumOf (fun k => atD ts0 k fun t => cval t h (t.balanceSpot + freeIn kept t.tokenIndex + sumOf (perpTok h t.tokenIndex) perps)) (List.range ts0.length) := by
    apply sumOf_congr
    intro k hk
    have hk := List.mem_range.mp hk
    have ht := List.getElem?_eq_getElem hk
    unfold atD
    rw [B.tok k _ ht, ht]
    simp only
    rw [cval_bal, B.bal_eq hb ht]
  omega

/-- **C40, exact** Without funds reserved in spot orders, health with skipped banks is at most the full health, with no rounding allowance. -/
theorem C40_skipping_underestimates_exactly {fd : FDiv} (hfd0 : ∀ p x, fd 0 p = .ok x → x = 0) {view : Nat → View} {ps : List Pos}
    {os : List OpenOrd} {perps : List PerpInfo} {h : HT}
    (distinct : (ps.map (·.tokenIndex)).Nodup) (hv : ViewOk view ps h) (hn : ∀ o ∈ os, o.NonNeg)
    (hres : ∀ o ∈ os, o.baseReserved = 0 ∧ o.quoteReserved = 0)
    {skipped full : Cache} (h1 : buildCache view true ps os perps = .ok skipped) (h2 : buildCache view false ps os perps = .ok full)
    {v1 v2 : I80F48} (hv1 : skipped.health fd h = .ok v1) (hv2 : full.health fd h = .ok v2) : v1 ≤ v2 := by
  obtain ⟨t1, bt1, B1, _, pp1⟩ := buildCache_built distinct h1
  obtain ⟨t2, bt2, B2, ko2, _⟩ := buildCache_built distinct h2
  rw [ko2 rfl] at B2
  clear ko2
  rw [B1.health_noReserved hfd0 (fun o ho => hres o (List.mem_filter.mp ho).1) hv1, B2.health_noReserved hfd0 hres hv2]
  apply buildTokens_sum bt1 bt2
  intro p hp t ht
  have ts := posInfo_sane (hv p hp).1 ht
  have pk := posInfo_ok ht
  refine ⟨?_, ?_⟩
  · intro _
    apply cval_mono ts
    have := freeIn_filter hn t.tokenIndex (present (t1.map (·.tokenIndex)))
    omega
  · intro hbad h0
    have b0 := pk.2.2.2.2 h0 (hv p hp).2
    have f0 := freeIn_nonneg hn t.tokenIndex
    have p0 : sumOf (perpTok h t.tokenIndex) perps = 0 := by
      apply sumOf_zero
      intro pp hpp
      unfold perpTok
      rw [if_neg]
      intro e
      have hm := pp1 rfl pp hpp
      rw [e] at hm
      obtain ⟨t', ht', e'⟩ := List.mem_map.mp hm
      obtain ⟨p', _, hp', hnb⟩ := buildTokens_mem bt1 t' ht'
      have := (posInfo_ok hp').1
      have e2 : p'.tokenIndex = p.tokenIndex := by rw [← this, e', pk.1]
      rw [e2] at hnb
      exact hnb ⟨rfl, hbad⟩
    have m0 := cval_mono ts (a := 0) (b := t.balanceSpot + freeIn os t.tokenIndex + sumOf (perpTok h t.tokenIndex) perps) (by omega)
    have : cval t h 0 = 0 := by unfold cval; simp
    omega

end Health
end Mango
