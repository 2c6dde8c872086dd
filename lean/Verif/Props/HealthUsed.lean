import Verif.Props.HealthUpdate
/-!
# Health caches that leave out banks

Instructions that only need a lower bound of health build the cache without the tokens whose bank is not passed or whose oracle is bad (health/cache.rs:1248-1262). Here: that cache is
the full cache of the account without those positions, so everything about full caches applies.
-/
namespace Mango
namespace Health
open Fx

/-- cache.rs:1248-1262 `new_health_cache_skipping_missing_banks_and_bad_oracles` -/
def accountCacheSkipping (rnd : ℚ → ℚ) (now : Int) (banks : Nat → BankIn) (ps : List Pos) (os : List OpenOrd) (perps : List (Perp.Market × Perp.Pos × I80F48)) : Res Cache := do
  let _ ← mapRes (fun (p : Pos) => (banks p.tokenIndex).view rnd now p.tokenIndex) (ps.filter (fun p => !(banks p.tokenIndex).bad))
  let pp ← mapRes (fun (x : Perp.Market × Perp.Pos × I80F48) => perpInfoOf x.1 x.2.1 x.2.2) perps
  buildCache (fun ti => viewVal ((banks ti).view rnd now ti)) true ps os pp

/-- the account without the positions in unusable banks and without the spot markets that trade such a token -/
def AcctState.used (st : AcctState) : AcctState :=
  { st with ps := st.ps.filter (fun p => !(st.banks p.tokenIndex).bad)
            os := st.os.filter (present ((st.ps.filter (fun p => !(st.banks p.tokenIndex).bad)).map (·.tokenIndex))) }

theorem viewVal_bad {rnd : ℚ → ℚ} {now : Int} {b : BankIn} {ti : Nat} (h : b.bad = true) : (viewVal (b.view rnd now ti)).bad = true := by
  cases hv : b.view rnd now ti with
  | error e => rfl
  | ok v =>
    simp only [BankIn.view, bind_ok] at hv
    obtain ⟨⟨ma, ml⟩, m1, sa, m2, sl, m3, hv⟩ := hv
    simp only [ok_inj] at hv
    subst hv
    exact h

theorem viewVal_good {rnd : ℚ → ℚ} {now : Int} {b : BankIn} {ti : Nat} {v : View} (h : b.bad = false) (hv : b.view rnd now ti = .ok v) : (viewVal (b.view rnd now ti)).bad = false := by
  rw [hv]
  simp only [BankIn.view, bind_ok] at hv
  obtain ⟨⟨ma, ml⟩, m1, sa, m2, sl, m3, hv⟩ := hv
  simp only [ok_inj] at hv
  subst hv
  exact h

theorem buildTokens_used {view : Nat → View} {good : Pos → Bool} : ∀ {ps : List Pos} {ts : List TokenInfo}, (∀ p ∈ ps, (view p.tokenIndex).bad = !good p) → buildTokens view true ps = .ok ts →
    buildTokens view false (ps.filter good) = .ok ts := by
  intro ps
  induction ps with
  | nil => intro ts _ h; exact h
  | cons p ps ih =>
    intro ts hb h
    have e := hb p (List.mem_cons_self ..)
    have hb' : ∀ q ∈ ps, (view q.tokenIndex).bad = !good q := fun q hq => hb q (List.mem_cons_of_mem _ hq)
    simp only [buildTokens] at h
    cases hg : good p with
    | false =>
      rw [hg] at e
      rw [if_pos ⟨trivial, e⟩] at h
      simp only [bind_ok, require_ok] at h
      obtain ⟨_, _, h⟩ := h
      rw [List.filter_cons_of_neg (by simp [hg])]
      exact ih hb' h
    | true =>
      rw [hg] at e
      rw [if_neg (by simp [e])] at h
      simp only [bind_ok] at h
      obtain ⟨t, h1, ts', h2, h3⟩ := h
      rw [List.filter_cons_of_pos hg]
      simp only [buildTokens, Bool.false_eq_true, false_and, if_false, bind_ok]
      exact ⟨t, h1, ts', ih hb' h2, h3⟩

theorem addFree_indexes {ts ts' : List TokenInfo} {i : Nat} {x : Int} (h : addFree ts i x = .ok ts') : ts'.map (·.tokenIndex) = ts.map (·.tokenIndex) := by
  simp only [addFree, bind_ok] at h
  obtain ⟨t, h1, b, _, h⟩ := h
  simp only [ok_inj] at h
  subst h
  have : ts[i]? = some t := Liquidation.at_ok h1
  rw [List.map_set]
  apply List.ext_getElem?
  intro k
  by_cases hk : i = k
  · subst hk
    rw [List.getElem?_set_self (by rw [List.length_map]; exact getElem?_lt this), List.getElem?_map, this]
    rfl
  · rw [List.getElem?_set_ne hk]

theorem buildSerums_used : ∀ {os : List OpenOrd} {ts ts' : List TokenInfo} {ss : List Serum3Info}, buildSerums true ts os = .ok (ts', ss) →
    buildSerums false ts (os.filter (present (ts.map (·.tokenIndex)))) = .ok (ts', ss) ∧ ts'.map (·.tokenIndex) = ts.map (·.tokenIndex) := by
  intro os
  induction os with
  | nil =>
    intro ts ts' ss h
    simp only [buildSerums, ok_inj, Prod.mk.injEq] at h
    obtain ⟨rfl, rfl⟩ := h
    exact ⟨rfl, rfl⟩
  | cons o os ih =>
    intro ts ts' ss h
    simp only [buildSerums] at h
    have s1 := findToken_isSome (ts := ts) (ti := o.base)
    have s2 := findToken_isSome (ts := ts) (ti := o.quote)
    cases e1 : findToken ts o.base with
    | none =>
      rw [e1] at h s1
      simp only [bind_ok, require_ok] at h
      obtain ⟨_, _, h⟩ := h
      have : present (ts.map (·.tokenIndex)) o = false := by
        unfold present
        simp only [Option.isSome_none, Bool.false_eq_true, false_iff] at s1
        simp only [Bool.and_eq_false_iff, decide_eq_false_iff_not]
        exact Or.inl s1
      rw [List.filter_cons_of_neg (by simp [this])]
      exact ih h
    | some bi =>
      cases e2 : findToken ts o.quote with
      | none =>
        rw [e1, e2] at h
        rw [e2] at s2
        simp only [bind_ok, require_ok] at h
        obtain ⟨_, _, h⟩ := h
        have : present (ts.map (·.tokenIndex)) o = false := by
          unfold present
          simp only [Option.isSome_none, Bool.false_eq_true, false_iff] at s2
          simp only [Bool.and_eq_false_iff, decide_eq_false_iff_not]
          exact Or.inr s2
        rw [List.filter_cons_of_neg (by simp [this])]
        exact ih h
      | some qi =>
        rw [e1] at s1
        rw [e2] at s2
        have : present (ts.map (·.tokenIndex)) o = true := by
          unfold present
          simp only [Bool.and_eq_true, decide_eq_true_eq]
          exact ⟨s1.mp rfl, s2.mp rfl⟩
        rw [List.filter_cons_of_pos this]
        rw [e1, e2] at h
        simp only [bind_ok] at h
        obtain ⟨t1, h1, t2, h2, s, h3, ⟨t3, ss'⟩, h4, h⟩ := h
        have i1 := addFree_indexes h1
        have i2 := addFree_indexes h2
        obtain ⟨r1, r2⟩ := ih h4
        rw [i2, i1] at r1 r2
        simp only [ok_inj, Prod.mk.injEq] at h
        obtain ⟨rfl, rfl⟩ := h
        refine ⟨?_, r2⟩
        simp only [buildSerums, e1, e2, bind_ok]
        exact ⟨t1, h1, t2, h2, s, h3, ⟨t3, ss'⟩, r1, rfl⟩

theorem buildPerps_used {ts : List TokenInfo} : ∀ {pp r : List PerpInfo}, buildPerps true ts pp = .ok r → buildPerps false ts pp = .ok r := by
  intro pp
  induction pp with
  | nil => intro r h; exact h
  | cons p pp ih =>
    intro r h
    simp only [buildPerps, bind_ok] at h ⊢
    obtain ⟨_, _, r', h2, h3⟩ := h
    exact ⟨(), by simp, r', ih h2, h3⟩

theorem mapRes_of {α β : Type} {f : α → Res β} : ∀ {l : List α}, (∀ a ∈ l, ∃ b, f a = .ok b) → ∃ r, mapRes f l = .ok r := by
  intro l
  induction l with
  | nil => intro _; exact ⟨[], rfl⟩
  | cons a l ih =>
    intro h
    obtain ⟨b, hb⟩ := h a (List.mem_cons_self ..)
    obtain ⟨r, hr⟩ := ih (fun x hx => h x (List.mem_cons_of_mem _ hx))
    exact ⟨b :: r, by simp only [mapRes, hb, hr]; rfl⟩

theorem mapRes_mem {α β : Type} {f : α → Res β} {l : List α} {r : List β} (h : mapRes f l = .ok r) : ∀ a ∈ l, ∃ b, f a = .ok b := by
  intro a ha
  obtain ⟨i, hi, rfl⟩ := List.getElem_of_mem ha
  obtain ⟨b, _, hb⟩ := forall₂_some (mapRes_ok h) (List.getElem?_eq_getElem hi)
  exact ⟨b, hb⟩

/-- **C57.** The cache with banks left out is exactly the full cache of the account without those positions and markets. -/
theorem C57_skipping {rnd : ℚ → ℚ} {now : Int} {st : AcctState} {c : Cache} (h : accountCacheSkipping rnd now st.banks st.ps st.os st.perps = .ok c) :
    accountCache rnd now st.used.banks st.used.ps st.used.os st.used.perps = .ok c := by
  simp only [accountCacheSkipping, bind_ok] at h
  obtain ⟨vs, h1, pp, h2, h⟩ := h
  simp only [buildCache, bind_ok] at h
  obtain ⟨ts, h3, ⟨ts', ss⟩, h4, pp', h5, h⟩ := h
  have views := mapRes_mem h1
  have hg : ∀ p ∈ st.ps, (viewVal ((st.banks p.tokenIndex).view rnd now p.tokenIndex)).bad = !(!(st.banks p.tokenIndex).bad) := by
    intro p hp
    cases hb : (st.banks p.tokenIndex).bad with
    | true => exact viewVal_bad hb
    | false =>
      obtain ⟨v, hv⟩ := views p (List.mem_filter.mpr ⟨hp, by simp [hb]⟩)
      exact viewVal_good hb hv
  have t1 := buildTokens_used (good := fun p => !(st.banks p.tokenIndex).bad) hg h3
  have t2 := buildTokens_full_indexes t1
  obtain ⟨t3, t4⟩ := buildSerums_used h4
  rw [t2] at t3
  obtain ⟨r, hr⟩ := mapRes_of (l := st.used.ps) (f := fun p => do
      require ((st.banks p.tokenIndex).bad = false) .invalidBank
      (st.banks p.tokenIndex).view rnd now p.tokenIndex) (by
    intro p hp
    obtain ⟨v, hv⟩ := views p hp
    refine ⟨v, ?_⟩
    simp only [bind_ok, require_ok]
    have := (List.mem_filter.mp hp).2
    exact ⟨(), by simpa using this, hv⟩)
  simp only [accountCache, bind_ok]
  refine ⟨r, hr, pp, h2, ?_⟩
  simp only [buildCache, bind_ok]
  exact ⟨ts, t1, ⟨ts', ss⟩, t3, pp', buildPerps_used h5, h⟩

theorem filter_nodup {α : Type} {f : α → Nat} {l : List α} (q : α → Bool) (h : (l.map f).Nodup) : ((l.filter q).map f).Nodup := h.sublist (List.Sublist.map f List.filter_sublist)

end Health
end Mango
