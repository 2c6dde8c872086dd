import Verif.Client.SearchLemmas
/-!
# C70: the searches of the client library
-/
namespace Mango
namespace Client
open Fx

/-- A function on `[l, r]` with one hill: strictly rising up to `p`, constant from `p` to `q`, strictly falling after `q`. -/
structure Hill (g : Int → Int) (l r p q : Int) : Prop where
  order : l ≤ p ∧ p ≤ q ∧ q ≤ r
  rising : ∀ x y, l ≤ x → x < y → y ≤ p → g x < g y
  flat : ∀ x, p ≤ x → x ≤ q → g x = g p
  falling : ∀ x y, q ≤ x → x < y → y ≤ r → g y < g x

theorem Hill.up {g : Int → Int} {l r p q x y : Int} (h : Hill g l r p q) (h1 : l ≤ x) (h2 : x ≤ y) (h3 : y ≤ q) : g x ≤ g y := by
  obtain ⟨⟨o1, o2, o3⟩, hr, hf, _⟩ := h
  by_cases hy : y ≤ p
  · rcases Int.lt_or_eq_of_le h2 with h | rfl
    · exact le_of_lt (hr x y h1 h hy)
    · exact le_refl _
  · rw [hf y (by omega) h3]
    by_cases hx : x < p
    · exact le_of_lt (hr x p h1 hx (le_refl _))
    · rw [hf x (by omega) (by omega)]

theorem Hill.down {g : Int → Int} {l r p q x y : Int} (h : Hill g l r p q) (h1 : q ≤ x) (h2 : x ≤ y) (h3 : y ≤ r) : g y ≤ g x := by
  rcases Int.lt_or_eq_of_le h2 with h' | rfl
  · exact le_of_lt (h.falling x y h1 h' h3)
  · exact le_refl _

/-- the bracket contains the right end of the top of the hill -/
def Bracket.Has (b : Bracket) (q : Int) : Prop := b.l ≤ q ∧ q ≤ b.r

/-- one step on a hill: it does not fail and keeps the top inside -/
theorem step_hill {f : I80F48 → Res I80F48} {g : Int → Int} {l r p q : Int} {b : Bracket} (hg : ∀ x, l ≤ x → x ≤ r → f x = .ok (g x))
    (hh : Hill g l r p q) (hlo : I128MIN ≤ 2 * l) (hhi : 2 * r ≤ I128MAX) (hc : b.Centered) (hv : b.Values f) (hb : b.Has q) (hl : l ≤ b.l) (hr : b.r ≤ r)
    (hlen : 16 ≤ b.r - b.l) : ∃ b', maxStep f b = .ok b' ∧ b'.Has q := by
  obtain ⟨c1, c2, c3, c4⟩ := hc
  obtain ⟨v1, v2, v3⟩ := hv
  obtain ⟨b1, b2⟩ := hb
  rw [hg _ (by omega) (by omega), ok_inj] at v1 v2 v3
  have mids : ∀ x y, l ≤ x → x ≤ y → y ≤ r → ∃ m, mid x y = .ok m ∧ f m = .ok (g m) ∧ 2 * m ≤ x + y ∧ x + y ≤ 2 * m + 1 := by
    intro x y hx hxy hy
    obtain ⟨m, hm⟩ := mid_range (a := x) (b := y) (by unfold inRange; omega)
    have := mid_ok hm
    exact ⟨m, hm, hg m (by omega) (by omega), this⟩
  obtain ⟨lm, hlm, hlmv, hlm1, hlm2⟩ := mids b.l b.m hl c1 (by omega)
  obtain ⟨rm, hrm, hrmv, hrm1, hrm2⟩ := mids b.m b.r (by omega) c2 hr
  unfold maxStep
  by_cases h1 : b.lv > b.mv
  · rw [if_pos h1]
    have hq : q < b.m := by
      by_contra hcon
      have := hh.up hl c1 (by omega)
      omega
    have hge : b.mv ≥ b.rv := by have := hh.down (le_of_lt hq) c2 hr; omega
    refine ⟨⟨b.l, lm, b.m, b.lv, g lm, b.mv⟩, ?_, b1, le_of_lt hq⟩
    simp only [bind_ok, require_ok, ok_inj]
    exact ⟨(), hge, lm, hlm, g lm, hlmv, rfl⟩
  rw [if_neg h1]
  by_cases h2 : b.mv ≤ b.rv
  · rw [if_pos h2]
    have hq : b.m ≤ q := by
      by_contra hcon
      have := hh.falling b.m b.r (by omega) (by omega) hr
      omega
    have hge : b.lv ≤ b.mv := by omega
    refine ⟨⟨b.m, rm, b.r, b.mv, g rm, b.rv⟩, ?_, hq, b2⟩
    simp only [bind_ok, require_ok, ok_inj]
    exact ⟨(), hge, rm, hrm, g rm, hrmv, rfl⟩
  rw [if_neg h2]
  have hlge : g lm ≥ b.lv := by
    by_cases hq : lm ≤ q
    · have := hh.up hl (show b.l ≤ lm by omega) hq; omega
    · have := hh.down (show q ≤ lm by omega) (show lm ≤ b.m by omega) (by omega); omega
  have hrge : g rm ≥ b.rv := by
    by_cases hq : rm ≤ q
    · have := hh.up (show l ≤ b.m by omega) (show b.m ≤ rm by omega) hq; omega
    · have := hh.down (show q ≤ rm by omega) (show rm ≤ b.r by omega) hr; omega
  by_cases h3 : g lm > b.mv
  · have hq : q < b.m := by
      by_contra hcon
      have := hh.up (show l ≤ lm by omega) (show lm ≤ b.m by omega) (by omega)
      omega
    refine ⟨⟨b.l, lm, b.m, b.lv, g lm, b.mv⟩, ?_, b1, le_of_lt hq⟩
    simp only [bind_ok, require_ok]
    exact ⟨lm, hlm, g lm, hlmv, (), hlge, by rw [if_pos h3]⟩
  have hq1 : lm ≤ q := by
    by_contra hcon
    have := hh.falling lm b.m (by omega) (by omega) (by omega)
    omega
  by_cases h4 : g rm ≥ b.mv
  · have hq : b.m ≤ q := by
      by_contra hcon
      have := hh.falling b.m rm (by omega) (by omega) (by omega)
      omega
    refine ⟨⟨b.m, rm, b.r, b.mv, g rm, b.rv⟩, ?_, hq, b2⟩
    simp only [bind_ok, require_ok]
    refine ⟨lm, hlm, g lm, hlmv, (), hlge, ?_⟩
    rw [if_neg h3]
    simp only [bind_ok, require_ok]
    exact ⟨rm, hrm, g rm, hrmv, (), hrge, by rw [if_pos h4]⟩
  · have hq : q < rm := by
      by_contra hcon
      have := hh.up (show l ≤ b.m by omega) (show b.m ≤ rm by omega) (by omega)
      omega
    refine ⟨⟨lm, b.m, rm, g lm, b.mv, g rm⟩, ?_, hq1, le_of_lt hq⟩
    simp only [bind_ok, require_ok]
    refine ⟨lm, hlm, g lm, hlmv, (), hlge, ?_⟩
    rw [if_neg h3]
    simp only [bind_ok, require_ok]
    exact ⟨rm, hrm, g rm, hrmv, (), hrge, by rw [if_neg h4]⟩

theorem loop_hill {f : I80F48 → Res I80F48} {g : Int → Int} {l r p q step : Int} (hg : ∀ x, l ≤ x → x ≤ r → f x = .ok (g x))
    (hh : Hill g l r p q) (hlo : I128MIN ≤ 2 * l) (hhi : 2 * r ≤ I128MAX) (hs : 16 ≤ step) :
    ∀ (n : Nat) (b : Bracket) (x : Res Bracket), b.Centered → b.Values f → b.Has q → l ≤ b.l → b.r ≤ r → maxLoop f step n b = some x →
      ∃ b', x = .ok b' ∧ b'.Has q := by
  intro n
  induction n with
  | zero => intro b x _ _ _ _ _ h; exact absurd h (by simp [maxLoop])
  | succ n ih =>
    intro b x hc hv hb hl hr h
    rw [maxLoop] at h
    have hsub : Fx.sub b.r b.l = .ok (b.r - b.l) := by
      rw [sub_ok]
      have := hc.lm; have := hc.mr
      exact ⟨rfl, by unfold inRange I128MIN I128MAX at *; omega⟩
    rw [hsub] at h
    dsimp only at h
    by_cases hd : b.r - b.l > step
    · rw [if_pos hd] at h
      obtain ⟨b1, h1, h2⟩ := step_hill hg hh hlo hhi hc hv hb hl hr (by omega)
      rw [h1] at h
      dsimp only at h
      have h3 := step_shrinks hc h1
      exact ih b1 x h3.1 (step_values hv h1) h2 (by omega) (by omega) h
    · rw [if_neg hd] at h
      simp only [Option.some.injEq] at h
      exact ⟨b, h.symm, hb⟩

/-- **C70 (search for the maximum, for every function)**: the unlimited loop of `find_maximum` ends after at most 130 rounds whatever the function does, and the answer is a point of the interval
together with the function's value there. -/
theorem C70_find_maximum_ends (f : I80F48 → Res I80F48) (l r step : I80F48) (hs : 7 ≤ step) (n : Nat) (hn : 130 ≤ n) :
    ∃ x, findMaximum f l r step n = some x ∧ findMaximum f l r step 130 = some x ∧ ∀ a v, x = .ok (a, v) → l ≤ a ∧ a ≤ r ∧ f a = .ok v := by
  have key : ∃ x, findMaximum f l r step 130 = some x ∧ findMaximum f l r step n = some x := by
    unfold findMaximum
    by_cases h1 : r < l
    · rw [if_pos h1]; exact ⟨_, rfl, by rw [if_pos h1]⟩
    rw [if_neg h1, if_neg h1]
    cases hm : mid l r with
    | error e => exact ⟨_, rfl, rfl⟩
    | ok m =>
      have hmb := mid_ok hm
      dsimp only
      cases hl : f l with
      | error e => exact ⟨_, rfl, rfl⟩
      | ok lv =>
        cases hr : f r with
        | error e => exact ⟨_, rfl, rfl⟩
        | ok rv =>
          cases hf : f m with
          | error e => exact ⟨_, rfl, rfl⟩
          | ok mv =>
            dsimp only
            have hne : maxLoop f step 130 ⟨l, m, r, lv, mv, rv⟩ ≠ none := by
              cases hd : Fx.sub r l with
              | error e => rw [maxLoop]; dsimp only; rw [hd]; simp
              | ok d =>
                rw [sub_ok] at hd
                refine maxLoop_some hs 129 _ ⟨?_, ?_, ?_, ?_⟩ ?_ <;> dsimp only <;> first | omega | skip
                have := hd.2
                unfold inRange I128MAX at this
                omega
            cases hx : maxLoop f step 130 ⟨l, m, r, lv, mv, rv⟩ with
            | none => exact absurd hx hne
            | some y =>
              refine ⟨_, rfl, ?_⟩
              have := maxLoop_more (n - 130) 130 _ _ hx
              rw [show 130 + (n - 130) = n by omega] at this
              rw [this]; rfl
  obtain ⟨x, hx, hx2⟩ := key
  refine ⟨x, hx2, hx, ?_⟩
  intro a v hav
  subst hav
  obtain ⟨hlr, b, b', rfl, rfl, hc, hv, hl, hbest⟩ := findMaximum_parts hx
  obtain ⟨e1, e2, e3, e4, e5⟩ := maxLoop_end 130 b b' hc hv hl
  obtain ⟨w1, w2, w3⟩ := best_values e1 e2 hbest
  exact ⟨by omega, by omega, w1⟩

/-- **C70 (search for the maximum, for functions with one hill)**: no assertion fails, the answer is within `step` of the right end of the top, and no point further than `step` away has a
larger value. -/
theorem C70_find_maximum_hill (f : I80F48 → Res I80F48) (g : Int → Int) (l r p q step : I80F48) (hs : 16 ≤ step)
    (hg : ∀ x, l ≤ x → x ≤ r → f x = .ok (g x)) (hh : Hill g l r p q) (hlo : I128MIN ≤ 2 * l) (hhi : 2 * r ≤ I128MAX) :
    ∃ a v, findMaximum f l r step = some (.ok (a, v)) ∧ v = g a ∧ l ≤ a ∧ a ≤ r ∧ |a - q| ≤ step ∧ ∀ y, l ≤ y → y ≤ r → step < |y - a| → g y ≤ v := by
  obtain ⟨x, hx, _, hx3⟩ := C70_find_maximum_ends f l r step (by omega) 200 (by omega)
  obtain ⟨o1, o2, o3⟩ := hh.order
  obtain ⟨m, hm⟩ := mid_range (a := l) (b := r) (by unfold inRange; omega)
  have hmb := mid_ok hm
  have hx' := hx
  unfold findMaximum at hx'
  rw [if_neg (by omega), hm] at hx'
  dsimp only at hx'
  rw [hg l (by omega) (by omega), hg r (by omega) (by omega), hg m (by omega) (by omega)] at hx'
  dsimp only at hx'
  have hc : Bracket.Centered ⟨l, m, r, g l, g m, g r⟩ := by refine ⟨?_, ?_, ?_, ?_⟩ <;> dsimp only <;> omega
  have hv : Bracket.Values f ⟨l, m, r, g l, g m, g r⟩ := ⟨hg l (by omega) (by omega), hg m (by omega) (by omega), hg r (by omega) (by omega)⟩
  cases hml : maxLoop f step 200 ⟨l, m, r, g l, g m, g r⟩ with
  | none => rw [hml] at hx'; simp at hx'
  | some y =>
    obtain ⟨b', rfl, hb'⟩ := loop_hill hg hh hlo hhi hs 200 _ y hc hv ⟨by dsimp only; omega, by dsimp only; omega⟩ (le_refl _) (le_refl _) hml
    rw [hml] at hx'
    simp only [Option.map_some, Except.map, Option.some.injEq] at hx'
    obtain ⟨e1, e2, e3, e4, e5⟩ := maxLoop_end 200 _ b' hc hv hml
    dsimp only at e4 e5
    have hbest : b'.best = (b'.best.1, b'.best.2) := rfl
    obtain ⟨w1, w2, w3⟩ := best_values e1 e2 hbest
    have hc1 := e1.lm
    have hc2 := e1.mr
    obtain ⟨u1, u2, u3⟩ := e2
    rw [hg _ (by omega) (by omega), ok_inj] at u1 u2 u3
    have hq1 := hb'.1
    have hq2 := hb'.2
    have htop : b'.lv ≤ b'.best.2 ∧ b'.mv ≤ b'.best.2 ∧ b'.rv ≤ b'.best.2 := by
      unfold Bracket.best
      by_cases h1 : b'.lv > b'.mv
      · rw [if_pos h1]
        have hq : q < b'.m := by
          by_contra hcon
          have := hh.up (show l ≤ b'.l by omega) hc1 (by omega)
          omega
        have := hh.down (le_of_lt hq) hc2 (by omega)
        dsimp only; omega
      · rw [if_neg h1]
        by_cases h2 : b'.mv > b'.rv
        · rw [if_pos h2]; dsimp only; omega
        · rw [if_neg h2]; dsimp only; omega
    refine ⟨b'.best.1, b'.best.2, ?_, ?_, by omega, by omega, ?_, ?_⟩
    · rw [hx, ← hx']
    · rw [hg _ (by omega) (by omega), ok_inj] at w1; exact w1.symm
    · rw [abs_le]; constructor <;> omega
    · intro y h1 h2 h3
      rw [lt_abs] at h3
      by_cases hy : y < b'.l
      · have := hh.up h1 (le_of_lt hy) hq1; omega
      · have := hh.down hq2 (show b'.r ≤ y by omega) h2; omega

/-- **C70 (bisection, for every function)**: from a value above the target down to one at or below it, the answer is between the ends and either is the start or has a value above the target;
and it cannot be improved: its value is less than 0.1 above the target, or some point less than `step` further right has a value at or below the target. -/
theorem C70_binary_search (f : I80F48 → Res I80F48) (l lv r t step x : I80F48) (hlr : l ≤ r) (hlv : t < lv)
    (h : binarySearch f l lv r t step = .ok x) :
    l ≤ x ∧ x ≤ r ∧ (x = l ∨ ∃ v, f x = .ok v ∧ t < v) ∧
      ((∃ v, f x = .ok v ∧ t < v ∧ v - t < TENTH) ∨ ∃ y w, x ≤ y ∧ y < x + step ∧ y ≤ r ∧ f y = .ok w ∧ w ≤ t) := by
  obtain ⟨a, b, c, d⟩ := binary_found hlr hlv h
  exact ⟨a, b, c, d⟩

/-- **C70 (bisection succeeds)**: if the function has values on the interval, the ends are on the two sides of the target and the interval is not longer than about 2^49 steps, there is an answer. -/
theorem C70_binary_search_total (f : I80F48 → Res I80F48) (l lv r t step : I80F48) (hlr : l ≤ r) (hlo : I128MIN ≤ 2 * l) (hhi : 2 * r ≤ I128MAX)
    (hf : ∀ x, l ≤ x → x ≤ r → ∃ v, f x = .ok v) (hlen : r - l ≤ 2 ^ 49 * (step - 1)) (hlv : t ≤ lv) (hrv : ∀ v, f r = .ok v → v ≤ t) :
    ∃ x, binarySearch f l lv r t step = .ok x := by
  obtain ⟨rv, hr⟩ := hf r hlr (le_refl _)
  obtain ⟨x, hx⟩ := binLoop_total (f := f) (rv := rv) (t := t) (step := step) 49 l r hlr hlo hhi hf hlen
  refine ⟨x, ?_⟩
  unfold binarySearch
  simp only [bind_ok, require_ok]
  exact ⟨rv, hr, (), Or.inr ⟨hlv, hrv rv hr⟩, hx⟩

/-- **C70 (doubling)**: the scan to the right stops at a value at or below the target, and moves only if the start is above it. -/
theorem C70_scan_right (f : I80F48 → Res I80F48) (s t x : I80F48) (h : scanRight f s t = .ok x) :
    s ≤ x ∧ (∃ v, f x = .ok v ∧ v ≤ t) ∧ (x ≠ s → ∃ v, f s = .ok v ∧ t < v) := scanLoop_spec 20 s x h

end Client
end Mango
