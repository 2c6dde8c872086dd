import Verif.Health.Build
import Verif.Props.HealthSettle
/-! Facts about built caches -/
namespace Mango
namespace Health
open Fx

theorem sumOf_filter_le {α : Type} {f : α → Int} {q : α → Bool} : ∀ {l : List α}, (∀ x ∈ l, 0 ≤ f x) → sumOf f (l.filter q) ≤ sumOf f l := by
  intro l
  induction l with
  | nil => intro _; simp
  | cons a l ih =>
    intro h
    have h1 := ih (fun x hx => h x (by simp [hx]))
    have h2 := h a (by simp)
    rw [List.filter_cons]
    split
    · simp; exact h1
    · simp; omega

theorem findToken_mem {ts : List TokenInfo} {ti i : Nat} (h : findToken ts ti = some i) : ∃ t, ts[i]? = some t ∧ t.tokenIndex = ti := by
  unfold findToken at h
  rw [List.findIdx?_eq_some_iff_getElem] at h
  obtain ⟨h1, h2, _⟩ := h
  exact ⟨ts[i], List.getElem?_eq_getElem h1, by simpa using h2⟩

theorem findToken_isSome {ts : List TokenInfo} {ti : Nat} : (findToken ts ti).isSome = true ↔ ti ∈ ts.map (·.tokenIndex) := by
  unfold findToken
  rw [List.findIdx?_isSome, List.any_eq_true, List.mem_map]
  constructor
  · rintro ⟨t, h1, h2⟩; exact ⟨t, h1, by simpa using h2⟩
  · rintro ⟨t, h1, h2⟩; exact ⟨t, h1, by simpa using h2⟩

/-- with distinct tokens, the position found is the position of that token -/
theorem findToken_iff {ts : List TokenInfo} (hd : (ts.map (·.tokenIndex)).Nodup) {i : Nat} {t : TokenInfo} (ht : ts[i]? = some t) (ti : Nat) :
    findToken ts ti = some i ↔ ti = t.tokenIndex := tokenIdx_iff (c := { tokens := ts }) hd ht ti

/-- same tokens up to balances: what `addFree` preserves -/
def SameTokens (ts ts' : List TokenInfo) : Prop :=
  ts'.length = ts.length ∧ ∀ (k : Nat) t, ts[k]? = some t → ∃ b, ts'[k]? = some { t with balanceSpot := b }

theorem SameTokens.indexes {ts ts' : List TokenInfo} (h : SameTokens ts ts') : ts'.map (·.tokenIndex) = ts.map (·.tokenIndex) := by
  apply List.ext_getElem?
  intro k
  rw [List.getElem?_map, List.getElem?_map]
  by_cases hk : k < ts.length
  · obtain ⟨b, hb⟩ := h.2 k _ (List.getElem?_eq_getElem hk)
    rw [hb, List.getElem?_eq_getElem hk]; rfl
  · have h1 := h.1
    rw [List.getElem?_eq_none (by omega : ts'.length ≤ k), List.getElem?_eq_none (by omega : ts.length ≤ k)]

theorem findToken_congr {ts ts' : List TokenInfo} (h : ts'.map (·.tokenIndex) = ts.map (·.tokenIndex)) (ti : Nat) :
    findToken ts' ti = findToken ts ti := by
  have : ∀ l : List TokenInfo, findToken l ti = (l.map (·.tokenIndex)).findIdx? (fun x => x == ti) := by
    intro l; unfold findToken; rw [List.findIdx?_map]; rfl
  rw [this, this, h]

theorem addFree_ok {ts ts' : List TokenInfo} {i : Nat} {amt : Int} (h : addFree ts i amt = .ok ts') :
    ts'.length = ts.length ∧ ∀ (k : Nat) t, ts[k]? = some t →
      ts'[k]? = some { t with balanceSpot := t.balanceSpot + (if k = i then ofInt amt else 0) } := by
  simp only [addFree, bind_ok, at_ok, add_ok] at h
  obtain ⟨t, ht, b, ⟨hb, _⟩, h⟩ := h
  simp at h; subst h
  refine ⟨by simp, ?_⟩
  intro k t' ht'
  rw [List.getElem?_set]
  have hi := getElem?_lt ht
  by_cases hk : i = k
  · subst hk
    rw [ht] at ht'; simp at ht'; subst ht'
    simp [hi, hb]
  · have hk' : ¬ k = i := fun e => hk e.symm
    simp [hk, hk', ht']

theorem addFree_same {ts ts' : List TokenInfo} {i : Nat} {amt : Int} (h : addFree ts i amt = .ok ts') : SameTokens ts ts' := by
  obtain ⟨h1, h2⟩ := addFree_ok h
  exact ⟨h1, fun k t ht => ⟨_, h2 k t ht⟩⟩

/-- the markets whose two tokens are present -/
def present (tis : List Nat) (o : OpenOrd) : Bool := decide (o.base ∈ tis) && decide (o.quote ∈ tis)

/-- free funds of the given markets in a token -/
def freeIn (os : List OpenOrd) (ti : Nat) : Int :=
  sumOf (fun o => (if o.base = ti then ofInt o.baseFree else 0) + (if o.quote = ti then ofInt o.quoteFree else 0)) os

/-- a market info built for an open orders account -/
def InfoFor (ts : List TokenInfo) (o : OpenOrd) (s : Serum3Info) : Prop :=
  findToken ts o.base = some s.baseIdx ∧ findToken ts o.quote = some s.quoteIdx ∧ o.info s.baseIdx s.quoteIdx = .ok s

theorem info_idx {o : OpenOrd} {bi qi : Nat} {s : Serum3Info} (h : o.info bi qi = .ok s) : s.baseIdx = bi ∧ s.quoteIdx = qi := by
  simp only [OpenOrd.info, bind_ok] at h
  obtain ⟨a, _, b, _, h⟩ := h
  simp at h; subst h; exact ⟨rfl, rfl⟩

theorem buildSerums_ok {skip : Bool} : ∀ {os : List OpenOrd} {ts ts' : List TokenInfo} {ss : List Serum3Info},
    (ts.map (·.tokenIndex)).Nodup → buildSerums skip ts os = .ok (ts', ss) →
    ts'.length = ts.length ∧
    (∀ (k : Nat) t, ts[k]? = some t → ts'[k]? = some { t with balanceSpot := t.balanceSpot + freeIn (os.filter (present (ts.map (·.tokenIndex)))) t.tokenIndex }) ∧
    List.Forall₂ (InfoFor ts) (os.filter (present (ts.map (·.tokenIndex)))) ss ∧
    (skip = false → os.filter (present (ts.map (·.tokenIndex))) = os) := by
  intro os
  induction os with
  | nil =>
    intro ts ts' ss _ h
    simp [buildSerums] at h
    obtain ⟨rfl, rfl⟩ := h
    simp [freeIn]
  | cons o os ih =>
    intro ts ts' ss hd h
    simp only [buildSerums] at h
    split at h
    · rename_i bi qi hb hq
      simp only [bind_ok] at h
      obtain ⟨ts1, h1, ts2, h2, s, h3, ⟨ts3, ss3⟩, h4, h5⟩ := h
      simp at h5
      obtain ⟨rfl, rfl⟩ := h5
      have s1 := addFree_same h1
      have s2 := addFree_same h2
      have e1 := s1.indexes
      have e2 := s2.indexes
      have e12 : ts2.map (·.tokenIndex) = ts.map (·.tokenIndex) := e2.trans e1
      obtain ⟨l, v, f, fl⟩ := ih (by rw [e12]; exact hd) h4
      have hp : present (ts.map (·.tokenIndex)) o = true := by
        unfold present
        have := findToken_isSome (ts := ts) (ti := o.base)
        have := findToken_isSome (ts := ts) (ti := o.quote)
        simp_all
      rw [e12] at v f fl
      rw [List.filter_cons, if_pos hp]
      refine ⟨by rw [l, s2.1, s1.1], ?_, ?_, ?_⟩
      · intro k t ht
        have a1 := (addFree_ok h1).2 k t ht
        have a2 := (addFree_ok h2).2 k _ a1
        have a3 := v k _ a2
        rw [a3]
        have c1 : (k = bi) ↔ (o.base = t.tokenIndex) := by
          have := findToken_iff hd ht o.base
          rw [hb] at this; simp at this; rw [← this]
          exact ⟨fun e => e.symm, fun e => e.symm⟩
        have c2 : (k = qi) ↔ (o.quote = t.tokenIndex) := by
          have := findToken_iff hd ht o.quote
          rw [hq] at this; simp at this; rw [← this]
          exact ⟨fun e => e.symm, fun e => e.symm⟩
        simp only [freeIn, sumOf_cons, c1, c2]
        congr 2
        omega
      · have hi := info_idx h3
        refine List.Forall₂.cons ⟨by rw [hi.1]; exact hb, by rw [hi.2]; exact hq, by rw [hi.1, hi.2]; exact h3⟩ ?_
        refine f.imp ?_
        intro o' s' hh
        unfold InfoFor at *
        rw [findToken_congr e12, findToken_congr e12] at hh
        exact hh
      · intro hs
        rw [fl hs]
    · rename_i hx
      simp only [bind_ok, require_ok] at h
      obtain ⟨_, hsk, h⟩ := h
      obtain ⟨l, v, f, fl⟩ := ih hd h
      have hp : present (ts.map (·.tokenIndex)) o = false := by
        cases hpc : present (ts.map (·.tokenIndex)) o with
        | false => rfl
        | true =>
          unfold present at hpc
          simp only [Bool.and_eq_true, decide_eq_true_eq] at hpc
          have g1 := findToken_isSome.mpr hpc.1
          have g2 := findToken_isSome.mpr hpc.2
          obtain ⟨x, hx1⟩ := Option.isSome_iff_exists.mp g1
          obtain ⟨y, hy1⟩ := Option.isSome_iff_exists.mp g2
          exact absurd hy1 (hx x y hx1)
      rw [List.filter_cons, if_neg (by simp [hp])]
      exact ⟨l, v, f, fun hs => by rw [hsk] at hs; simp at hs⟩

theorem posInfo_ok {view : Nat → View} {p : Pos} {t : TokenInfo} (h : posInfo view p = .ok t) :
    t.tokenIndex = p.tokenIndex ∧ t.prices = (view p.tokenIndex).info.prices ∧ (∀ hh, t.assetWeight hh = (view p.tokenIndex).info.assetWeight hh) ∧
    (∀ hh, t.liabWeight hh = (view p.tokenIndex).info.liabWeight hh) ∧
    (0 ≤ p.indexed → 0 ≤ (view p.tokenIndex).depositIndex → 0 ≤ t.balanceSpot) := by
  simp only [posInfo, bind_ok, mul_ok] at h
  obtain ⟨n, ⟨hn, _⟩, h⟩ := h
  simp at h; subst h
  refine ⟨rfl, rfl, fun hh => by cases hh <;> rfl, fun hh => by cases hh <;> rfl, ?_⟩
  intro h0 h1
  simp only
  rw [hn]
  apply floor_nonneg
  split
  · exact Int.mul_nonneg h0 h1
  · have : p.indexed = 0 := by omega
    rw [this]; simp

/-- tokens of a built list come from positions -/
theorem buildTokens_mem {view : Nat → View} {skip : Bool} : ∀ {ps : List Pos} {ts : List TokenInfo}, buildTokens view skip ps = .ok ts →
    ∀ t ∈ ts, ∃ p ∈ ps, posInfo view p = .ok t ∧ ¬ (skip = true ∧ (view p.tokenIndex).bad = true) := by
  intro ps
  induction ps with
  | nil => intro ts h; simp [buildTokens] at h; subst h; simp
  | cons p ps ih =>
    intro ts h
    simp only [buildTokens, ite_ok, bind_ok] at h
    rcases h with ⟨hc, _, _, h⟩ | ⟨hc, t, h1, ts', h2, h3⟩
    · intro t ht
      obtain ⟨q, hq, h1⟩ := ih h t ht
      exact ⟨q, by simp [hq], h1⟩
    · simp at h3; subst h3
      intro t' ht'
      rcases List.mem_cons.mp ht' with rfl | ht'
      · exact ⟨p, by simp, h1, hc⟩
      · obtain ⟨q, hq, h1⟩ := ih h2 t' ht'
        exact ⟨q, by simp [hq], h1⟩

theorem buildTokens_full_indexes {view : Nat → View} : ∀ {ps : List Pos} {ts : List TokenInfo}, buildTokens view false ps = .ok ts →
    ts.map (·.tokenIndex) = ps.map (·.tokenIndex) := by
  intro ps
  induction ps with
  | nil => intro ts h; simp [buildTokens] at h; subst h; rfl
  | cons p ps ih =>
    intro ts h
    simp only [buildTokens, Bool.false_eq_true, false_and, if_false, bind_ok] at h
    obtain ⟨t, h1, ts', h2, h3⟩ := h
    simp at h3; subst h3
    simp [ih h2, (posInfo_ok h1).1]

theorem buildTokens_skip_sublist {view : Nat → View} : ∀ {ps : List Pos} {ts ts2 : List TokenInfo}, buildTokens view true ps = .ok ts →
    buildTokens view false ps = .ok ts2 → ts.Sublist ts2 := by
  intro ps
  induction ps with
  | nil => intro ts ts2 h h2; simp [buildTokens] at h h2; subst h; subst h2; simp
  | cons p ps ih =>
    intro ts ts2 h h2
    simp only [buildTokens, Bool.false_eq_true, false_and, if_false, bind_ok] at h2
    obtain ⟨t, h1, ts', h3, h4⟩ := h2
    simp at h4; subst h4
    simp only [buildTokens, ite_ok, bind_ok] at h
    rcases h with ⟨hc, _, _, h⟩ | ⟨hc, t', h1', ts1', h3', h4'⟩
    · exact List.Sublist.cons _ (ih h h3)
    · rw [h1] at h1'; simp at h1'; subst h1'
      simp at h4'; subst h4'
      exact (ih h3' h3).cons_cons _

/-- comparing sums over the kept and over all tokens -/
theorem buildTokens_sum {view : Nat → View} {f g : TokenInfo → Int} : ∀ {ps : List Pos} {ts ts2 : List TokenInfo},
    buildTokens view true ps = .ok ts → buildTokens view false ps = .ok ts2 →
    (∀ p ∈ ps, ∀ t, posInfo view p = .ok t → ((view p.tokenIndex).bad = false → f t ≤ g t) ∧
      ((view p.tokenIndex).bad = true → 0 ≤ p.indexed → 0 ≤ g t)) →
    sumOf f ts ≤ sumOf g ts2 := by
  intro ps
  induction ps with
  | nil => intro ts ts2 h h2 _; simp [buildTokens] at h h2; subst h; subst h2; simp
  | cons p ps ih =>
    intro ts ts2 h h2 hh
    simp only [buildTokens, Bool.false_eq_true, false_and, if_false, bind_ok] at h2
    obtain ⟨t, h1, ts', h3, h4⟩ := h2
    simp at h4; subst h4
    have hp := hh p (by simp) t h1
    have hrest := fun q hq => hh q (List.mem_cons_of_mem p hq)
    simp only [buildTokens, ite_ok, bind_ok, require_ok] at h
    rcases h with ⟨hc, _, hr, h⟩ | ⟨hc, t', h1', ts1', h3', h4'⟩
    · have := ih h h3 hrest
      have := hp.2 hc.2 hr
      simp; omega
    · rw [h1] at h1'; simp at h1'; subst h1'
      simp at h4'; subst h4'
      have := ih h3' h3 hrest
      have := hp.1 (by simpa using hc)
      simp; omega

theorem buildPerps_ok {skip : Bool} {ts : List TokenInfo} : ∀ {ps r : List PerpInfo}, buildPerps skip ts ps = .ok r →
    r = ps ∧ (skip = true → ∀ p ∈ ps, p.settleTokenIndex ∈ ts.map (·.tokenIndex)) := by
  intro ps
  induction ps with
  | nil => intro r h; simp [buildPerps] at h; subst h; simp
  | cons p ps ih =>
    intro r h
    simp only [buildPerps, bind_ok] at h
    obtain ⟨_, h0, r', h1, h2⟩ := h
    simp at h2; subst h2
    obtain ⟨rfl, f⟩ := ih h1
    refine ⟨rfl, ?_⟩
    intro hs q hq
    rcases List.mem_cons.mp hq with rfl | hq
    · rw [if_pos hs] at h0
      split at h0
      · rename_i i hi
        exact findToken_isSome.mp (by rw [hi]; rfl)
      · simp at h0
    · exact f hs q hq

end Health
end Mango
