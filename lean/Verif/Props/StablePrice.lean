import Verif.Misc.StablePrice
import Mathlib.Algebra.Order.Field.Basic
import Mathlib.Algebra.Order.Ring.Pow
import Mathlib.Data.List.GetD
import Mathlib.Tactic.Linarith
import Mathlib.Tactic.Ring
import Mathlib.Tactic.NormNum
import Mathlib.Tactic.Positivity
/-!
# Stable price (C43)
-/
namespace Mango
namespace Stable

/-- What is used of floating point rounding: it is monotone, keeps 0 and 1 and what is already a float, and has relative error at most `ε`
(no overflow, no underflow). `rnd = id`, `ε = 0` is exact arithmetic. -/
structure IsRnd (rnd : ℚ → ℚ) (ε : ℚ) : Prop where
  mono : ∀ x y, x ≤ y → rnd x ≤ rnd y
  zero : rnd 0 = 0
  one : rnd 1 = 1
  idem : ∀ x, rnd (rnd x) = rnd x
  err : ∀ x, |rnd x - x| ≤ ε * |x|
  eps : 0 ≤ ε
  eps1 : ε < 1

theorem isRnd_id : IsRnd id 0 := ⟨fun _ _ h => h, rfl, rfl, fun _ => rfl, by simp, le_refl _, by norm_num⟩

/-- shape of a usable model; all prices are floats -/
structure Wf (rnd : ℚ → ℚ) (m : Model) : Prop where
  stable : 0 ≤ m.stable ∧ rnd m.stable = m.stable
  delay : ∀ d ∈ m.delay, 0 ≤ d ∧ rnd d = d
  len : m.delay.length = 24
  dg : 0 ≤ m.delayGrowth
  sg : 0 ≤ m.stableGrowth ∧ rnd m.stableGrowth = m.stableGrowth
  acc : 0 ≤ m.accPrice
  time : m.accTime ≤ m.last
  idx : m.lastIdx < 24
  int : m.interval ≠ 0

variable {rnd : ℚ → ℚ} {ε : ℚ}

theorem rnd_nonneg (R : IsRnd rnd ε) {x : ℚ} (h : 0 ≤ x) : 0 ≤ rnd x := by have := R.mono 0 x h; rwa [R.zero] at this
theorem rnd_le (R : IsRnd rnd ε) {x : ℚ} (h : 0 ≤ x) : rnd x ≤ x * (1 + ε) := by
  have := (abs_le.mp (R.err x)).2
  rw [abs_of_nonneg h] at this
  linarith
theorem rnd_ge (R : IsRnd rnd ε) {x : ℚ} (h : 0 ≤ x) : x * (1 - ε) ≤ rnd x := by
  have := (abs_le.mp (R.err x)).1
  rw [abs_of_nonneg h] at this
  linarith

theorem growth_bounds (R : IsRnd rnd ε) {prev limit : ℚ} (hp : 0 ≤ prev) (hr : rnd prev = prev) (hl : 0 ≤ limit) :
    rnd (prev * rnd (1 - limit)) ≤ prev ∧ prev ≤ rnd (prev * rnd (1 + limit)) ∧
    rnd (prev * rnd (1 + limit)) ≤ prev * (1 + limit) * (1 + ε) ^ 2 ∧
    (limit ≤ 1 → prev * (1 - limit) * (1 - ε) ^ 2 ≤ rnd (prev * rnd (1 - limit))) := by
  have e0 := R.eps
  have e1 := R.eps1
  have h1 : rnd (1 - limit) ≤ 1 := by have := R.mono (1 - limit) 1 (by linarith); rwa [R.one] at this
  have h2 : 1 ≤ rnd (1 + limit) := by have := R.mono 1 (1 + limit) (by linarith); rwa [R.one] at this
  refine ⟨?_, ?_, ?_, ?_⟩
  · have := R.mono (prev * rnd (1 - limit)) prev (by nlinarith)
    rwa [hr] at this
  · have := R.mono prev (prev * rnd (1 + limit)) (by nlinarith)
    rwa [hr] at this
  · have a1 := rnd_le R (show 0 ≤ 1 + limit by linarith)
    have a2 := rnd_le R (show 0 ≤ prev * rnd (1 + limit) from mul_nonneg hp (by linarith))
    have a3 := mul_le_mul_of_nonneg_left a1 hp
    have a4 := mul_le_mul_of_nonneg_right a3 (show 0 ≤ 1 + ε by linarith)
    calc _ ≤ _ := a2
      _ ≤ _ := a4
      _ = _ := by ring
  · intro hl1
    have a1 := rnd_ge R (show 0 ≤ 1 - limit by linarith)
    have a2 := rnd_ge R (show 0 ≤ prev * rnd (1 - limit) from mul_nonneg hp (rnd_nonneg R (by linarith)))
    have a3 := mul_le_mul_of_nonneg_left a1 hp
    have a4 := mul_le_mul_of_nonneg_right a3 (show 0 ≤ 1 - ε by linarith)
    calc _ = prev * ((1 - limit) * (1 - ε)) * (1 - ε) := by ring
      _ ≤ _ := a4
      _ ≤ _ := a2

/-- the clamp moves from `prev` toward the target, not beyond it and not beyond the limit -/
theorem growthClamped_spec (R : IsRnd rnd ε) {target prev limit : ℚ} (hp : 0 ≤ prev) (hr : rnd prev = prev) (hl : 0 ≤ limit) :
    ∃ y, growthClamped rnd target prev limit = .ok y ∧
      (prev ≤ target → prev ≤ y ∧ y ≤ target) ∧ (target ≤ prev → target ≤ y ∧ y ≤ prev) ∧
      y ≤ prev * (1 + limit) * (1 + ε) ^ 2 ∧ (limit ≤ 1 → prev * (1 - limit) * (1 - ε) ^ 2 ≤ y) ∧
      (rnd target = target → rnd y = y) := by
  obtain ⟨b1, b2, b3, b4⟩ := growth_bounds R hp hr hl
  unfold growthClamped clampR
  rw [if_pos (le_trans b1 b2)]
  refine ⟨_, rfl, ?_⟩
  by_cases c1 : target < rnd (prev * rnd (1 - limit))
  · rw [if_pos c1]
    exact ⟨fun h => ⟨by linarith, by linarith⟩, fun _ => ⟨le_of_lt c1, b1⟩, by linarith, fun h => b4 h, fun _ => R.idem _⟩
  · rw [if_neg c1]
    by_cases c2 : rnd (prev * rnd (1 + limit)) < target
    · rw [if_pos c2]
      exact ⟨fun h => ⟨b2, le_of_lt c2⟩, fun h => ⟨by linarith, by linarith⟩, b3, fun h => by linarith [b4 h], fun _ => R.idem _⟩
    · rw [if_neg c2]
      push Not at c1 c2
      exact ⟨fun h => ⟨h, le_refl _⟩, fun h => ⟨le_refl _, h⟩, by linarith, fun h => by linarith [b4 h], fun h => h⟩

theorem growthLimit_spec (R : IsRnd rnd ε) {s d g : ℚ} {dt : Nat} (hs : 0 ≤ s) (hd : 0 ≤ d) (hg : 0 ≤ g) (hgr : rnd g = g) :
    (0 < s → ∃ l, growthLimit rnd s d g dt = .ok l) ∧
    (∀ l, growthLimit rnd s d g dt = .ok l → 0 ≤ l ∧ l ≤ g * (min dt 600 : Nat) * (1 + ε) ∧
      l ≤ g * (min s d / max s d) ^ 2 * (min dt 600 : Nat) * (1 + ε) ^ 5 ∧ 0 < max s d) := by
  have e0 := R.eps
  have key : ∀ f, 0 ≤ f → f ≤ 1 → 0 ≤ rnd (rnd (rnd (g * rnd f) * rnd f) * (min dt 600 : Nat)) ∧
      rnd (rnd (rnd (g * rnd f) * rnd f) * (min dt 600 : Nat)) ≤ g * (min dt 600 : Nat) * (1 + ε) ∧
      rnd (rnd (rnd (g * rnd f) * rnd f) * (min dt 600 : Nat)) ≤ g * f ^ 2 * (min dt 600 : Nat) * (1 + ε) ^ 5 := by
    intro f hf0 hf1
    have hD : (0:ℚ) ≤ ((min dt 600 : Nat) : ℚ) := by positivity
    generalize ((min dt 600 : Nat) : ℚ) = D at *
    have f0 := rnd_nonneg R hf0
    have f1 : rnd f ≤ 1 := by have := R.mono f 1 hf1; rwa [R.one] at this
    have fe := rnd_le R hf0
    generalize rnd f = F at *
    have p1 := mul_nonneg hg f0
    have p2 := rnd_nonneg R p1
    have q1 : rnd (g * F) ≤ g := by have := R.mono (g * F) g (by nlinarith); rwa [hgr] at this
    have r1 := rnd_le R p1
    generalize rnd (g * F) = X at *
    have p3 := mul_nonneg p2 f0
    have p4 := rnd_nonneg R p3
    have q2 : rnd (X * F) ≤ g := by have := R.mono (X * F) g (by nlinarith); rwa [hgr] at this
    have r2 := rnd_le R p3
    generalize rnd (X * F) = Y at *
    have p5 := mul_nonneg p4 hD
    have r3 := rnd_le R p5
    refine ⟨rnd_nonneg R p5, ?_, ?_⟩
    · have : Y * D ≤ g * D := mul_le_mul_of_nonneg_right q2 hD
      nlinarith
    · have t : 0 ≤ 1 + ε := by linarith
      have s1 : X ≤ g * (f * (1 + ε)) * (1 + ε) := le_trans r1 (mul_le_mul_of_nonneg_right (mul_le_mul_of_nonneg_left fe hg) t)
      have s2 : X * F ≤ g * (f * (1 + ε)) * (1 + ε) * (f * (1 + ε)) := by
        apply mul_le_mul s1 fe f0 (by positivity)
      have s3 : Y ≤ g * (f * (1 + ε)) * (1 + ε) * (f * (1 + ε)) * (1 + ε) := le_trans r2 (mul_le_mul_of_nonneg_right s2 t)
      calc rnd (Y * D) ≤ Y * D * (1 + ε) := r3
        _ ≤ g * (f * (1 + ε)) * (1 + ε) * (f * (1 + ε)) * (1 + ε) * D * (1 + ε) := mul_le_mul_of_nonneg_right (mul_le_mul_of_nonneg_right s3 hD) t
        _ = _ := by ring
  unfold growthLimit
  by_cases hc : d ≥ s
  · rw [if_pos hc]
    by_cases h0 : d = 0
    · rw [if_pos h0]
      exact ⟨fun h => by linarith, fun l h => by simp [bind, Except.bind] at h⟩
    · rw [if_neg h0]
      have dpos : 0 < d := lt_of_le_of_ne hd (Ne.symm h0)
      obtain ⟨k1, k2, k3⟩ := key (s / d) (div_nonneg hs hd) (by rw [div_le_one dpos]; exact hc)
      refine ⟨fun _ => ⟨_, rfl⟩, fun l h => ?_⟩
      simp only [bind, Except.bind, Except.ok.injEq] at h
      rw [← h, min_eq_left hc, max_eq_right hc]
      exact ⟨k1, k2, k3, dpos⟩
  · rw [if_neg hc]
    push Not at hc
    have spos : 0 < s := by linarith
    obtain ⟨k1, k2, k3⟩ := key (d / s) (div_nonneg hd hs) (by rw [div_le_one spos]; linarith)
    refine ⟨fun _ => ⟨_, rfl⟩, fun l h => ?_⟩
    simp only [bind, Except.bind, Except.ok.injEq] at h
    rw [← h, min_eq_right (le_of_lt hc), max_eq_left (le_of_lt hc)]
    exact ⟨k1, k2, k3, spos⟩

/-- delay price part: shape kept, only the delay prices, accumulators and times change; the new delay price is within the growth limit of the
one of the previous interval, the other ones are unchanged -/
theorem updateDelay_spec (R : IsRnd rnd ε) {m : Model} {dt now : Nat} {price : ℚ} (w : Wf rnd m) (hp : 0 ≤ price) (hdt : dt = now - m.last) (hn : m.last ≤ now)
    (hn2 : now < 2 ^ 32) (hd : 10 ≤ dt) :
    ∃ m', updateDelay rnd m dt now price = .ok m' ∧ Wf rnd m' ∧ m'.stable = m.stable ∧ m'.stableGrowth = m.stableGrowth ∧ m'.delayGrowth = m.delayGrowth ∧
      m'.interval = m.interval ∧ m'.reset = m.reset ∧ m'.last = now ∧ m'.lastIdx = now / m.interval % 24 ∧
      (m'.lastIdx = m.lastIdx → m'.delay = m.delay) ∧
      (m'.lastIdx ≠ m.lastIdx → ∃ y, (let prev := m.delay.getD (if m.lastIdx = 0 then 23 else m.lastIdx - 1) 0
          (y ≤ prev * (1 + m.delayGrowth) * (1 + ε) ^ 2 ∧ (m.delayGrowth ≤ 1 → prev * (1 - m.delayGrowth) * (1 - ε) ^ 2 ≤ y)) ∧
          (let avg := rnd (rnd (m.accPrice + rnd (price * (min dt 600 : Nat))) / ((m.accTime + dt : Nat) : ℚ))
           (prev ≤ avg → prev ≤ y ∧ y ≤ avg) ∧ (avg ≤ prev → avg ≤ y ∧ y ≤ prev))) ∧
        (∀ i, i < 24 → m'.delay.getD i 0 = if overwritten (decide (dt > 24 * m.interval)) m.lastIdx m'.lastIdx i then y else m.delay.getD i 0)) ∧
      ((m'.lastIdx = m.lastIdx ∧ m'.accTime = m.accTime + dt ∧ m'.accPrice = rnd (m.accPrice + rnd (price * (min dt 600 : Nat)))) ∨
        (m'.accTime = 0 ∧ m'.accPrice = 0)) := by
  have hmod : dt % 2 ^ 32 = dt := Nat.mod_eq_of_lt (by omega)
  have hacc : m.accTime + dt < 2 ^ 32 := by have := w.time; omega
  have hpa : 0 ≤ rnd (m.accPrice + rnd (price * (min dt 600 : Nat))) := by
    apply rnd_nonneg R
    have := rnd_nonneg R (show 0 ≤ price * (min dt 600 : Nat) from mul_nonneg hp (by positivity))
    have := w.acc
    linarith
  have hidx : now / m.interval % 24 < 24 := Nat.mod_lt _ (by norm_num)
  unfold updateDelay delayIdx
  simp only [hmod, if_neg w.int]
  have hr : require (m.accTime + dt < 2 ^ 32) Err.panic = .ok () := by rw [require_ok]; exact hacc
  simp only [hr, bind, Except.bind]
  by_cases hi : now / m.interval % 24 = m.lastIdx
  · rw [if_pos hi]
    refine ⟨_, rfl, ⟨w.stable, w.delay, w.len, w.dg, w.sg, hpa, ?_, w.idx, w.int⟩, rfl, rfl, rfl, rfl, rfl, rfl, ?_, ?_, ?_, ?_⟩
    · dsimp only; have := w.time; omega
    · exact hi.symm
    · intro _; rfl
    · intro h; exact absurd rfl h
    · left; exact ⟨rfl, rfl, rfl⟩
  · rw [if_neg hi]
    have hr2 : require (m.accTime + dt ≠ 0) Err.panic = .ok () := by rw [require_ok]; omega
    simp only [hr2]
    have hprev : m.delay.getD (if m.lastIdx = 0 then 23 else m.lastIdx - 1) 0 ∈ m.delay := by
      have : (if m.lastIdx = 0 then 23 else m.lastIdx - 1) < m.delay.length := by rw [w.len]; have := w.idx; split <;> omega
      rw [List.getD_eq_getElem _ _ this]
      exact List.getElem_mem _
    obtain ⟨y, g1, g2, g3, g4, g5, g6⟩ := growthClamped_spec R (target := rnd (rnd (m.accPrice + rnd (price * (min dt 600 : Nat))) / ((m.accTime + dt : Nat) : ℚ)))
      (w.delay _ hprev).1 (w.delay _ hprev).2 w.dg
    have gy : 0 ≤ y := by
      have h0 : 0 ≤ rnd (rnd (m.accPrice + rnd (price * (min dt 600 : Nat))) / ((m.accTime + dt : Nat) : ℚ)) :=
        rnd_nonneg R (div_nonneg hpa (by positivity))
      rcases le_total (m.delay.getD (if m.lastIdx = 0 then 23 else m.lastIdx - 1) 0) (rnd (rnd (m.accPrice + rnd (price * (min dt 600 : Nat))) / ((m.accTime + dt : Nat) : ℚ))) with h | h
      · linarith [(g2 h).1, (w.delay _ hprev).1]
      · linarith [(g3 h).1]
    rw [g1]
    refine ⟨_, rfl, ⟨w.stable, ?_, ?_, w.dg, w.sg, le_refl _, ?_, hidx, w.int⟩, rfl, rfl, rfl, rfl, rfl, rfl, rfl, ?_, ?_, ?_⟩
    · intro d hd
      rw [List.mem_mapIdx] at hd
      obtain ⟨i, hi, rfl⟩ := hd
      split
      · exact ⟨gy, g6 (R.idem _)⟩
      · exact w.delay _ (List.getElem_mem _)
    · simp [w.len]
    · simp
    · intro h; exact absurd h hi
    · intro _
      refine ⟨y, ⟨⟨g4, g5⟩, g2, g3⟩, ?_⟩
      intro i hi24
      have h1 : i < m.delay.length := by rw [w.len]; exact hi24
      rw [List.getD_eq_getElem _ _ (by simpa using h1), List.getD_eq_getElem _ _ h1]
      simp
    · right; exact ⟨rfl, rfl⟩

/-- the growth limit of one second, in floating point -/
def rate (ε : ℚ) (m : Model) : ℚ := m.stableGrowth * (1 + ε)

/-- **C43, one update** (no reset pending). If fewer than ten seconds have passed nothing changes. Otherwise the stable price moves toward the
oracle price and not past it, by a relative amount of at most the growth limit per second times the elapsed time (at most ten minutes), times the
square of the ratio between stable price and delayed price; up to f64 rounding. It fails only if both the stable and the delayed price are zero. -/
theorem C43_update (R : IsRnd rnd ε) {m : Model} (w : Wf rnd m) {now : Nat} {price : ℚ} (hp : 0 ≤ price) (hpr : rnd price = price) (hreset : m.reset = false)
    (hn2 : now < 2 ^ 32) :
    (now < m.last + 10 → update rnd m now price = .ok m) ∧
    (m.last + 10 ≤ now →
      (0 < m.stable → ∃ m', update rnd m now price = .ok m') ∧
      (∀ m', update rnd m now price = .ok m' →
        Wf rnd m' ∧ m'.last = now ∧ m'.stableGrowth = m.stableGrowth ∧ m'.reset = false ∧ m'.interval = m.interval ∧ m'.delayGrowth = m.delayGrowth ∧
        (m.stable ≤ price → m.stable ≤ m'.stable ∧ m'.stable ≤ price) ∧
        (price ≤ m.stable → price ≤ m'.stable ∧ m'.stable ≤ m.stable) ∧
        ∃ limit, (0 ≤ limit ∧ limit ≤ rate ε m * (min (now - m.last) 600 : Nat) ∧
            (let d := m'.delay.getD (now / m.interval % 24) 0
             limit ≤ m.stableGrowth * (min m.stable d / max m.stable d) ^ 2 * (min (now - m.last) 600 : Nat) * (1 + ε) ^ 5)) ∧
          m'.stable ≤ m.stable * (1 + limit) * (1 + ε) ^ 2 ∧
          (limit ≤ 1 → m.stable * (1 - limit) * (1 - ε) ^ 2 ≤ m'.stable))) := by
  have hunf : update rnd m now price = (if now - m.last < 10 then .ok m else do
      let m1 ← updateDelay rnd m (now - m.last) now price
      let limit ← growthLimit rnd m1.stable (m1.delay.getD m1.lastIdx 0) m1.stableGrowth (now - m.last)
      let s ← growthClamped rnd price m1.stable limit
      .ok { m1 with stable := s }) := by
    unfold update
    simp [hreset]
  constructor
  · intro h
    rw [hunf, if_pos (by omega)]
  · intro h
    rw [hunf, if_neg (by omega)]
    obtain ⟨m1, e1, w1, e2, e3, e3', e4, e5, e6, e7, -⟩ := updateDelay_spec R w hp rfl (by omega) hn2 (show 10 ≤ now - m.last by omega)
    have hd : 0 ≤ m1.delay.getD m1.lastIdx 0 := by
      have h1 : m1.lastIdx < m1.delay.length := by rw [w1.len]; exact w1.idx
      rw [List.getD_eq_getElem _ _ h1]
      exact (w1.delay _ (List.getElem_mem _)).1
    obtain ⟨l1, l2⟩ := growthLimit_spec R (dt := now - m.last) w1.stable.1 hd w1.sg.1 w1.sg.2
    simp only [e1, bind, Except.bind]
    constructor
    · intro hs
      obtain ⟨l, hl⟩ := l1 (by rw [e2]; exact hs)
      obtain ⟨k1, -⟩ := l2 l hl
      obtain ⟨y, hy, -⟩ := growthClamped_spec R (target := price) w1.stable.1 w1.stable.2 k1
      exact ⟨{ m1 with stable := y }, by simp only [hl, hy]⟩
    · intro m' hm'
      cases hl : growthLimit rnd m1.stable (m1.delay.getD m1.lastIdx 0) m1.stableGrowth (now - m.last) with
      | error e => rw [hl] at hm'; simp at hm'
      | ok l =>
        obtain ⟨k1, k2, k3, -⟩ := l2 l hl
        obtain ⟨y, hy, c1, c2, c3, c4, c5⟩ := growthClamped_spec R (target := price) w1.stable.1 w1.stable.2 k1
        rw [hl] at hm'
        simp only [hy, Except.ok.injEq] at hm'
        subst hm'
        rw [e2] at c1 c2 c3 c4 k3
        rw [e3] at k2 k3
        rw [e7] at k3
        have y0 : 0 ≤ y := by
          rcases le_total m.stable price with hh | hh
          · linarith [(c1 hh).1, w.stable.1]
          · linarith [(c2 hh).1]
        refine ⟨⟨⟨y0, c5 hpr⟩, w1.delay, w1.len, w1.dg, w1.sg, w1.acc, w1.time, w1.idx, w1.int⟩, e6, e3, by rw [← hreset, ← e5], e4, e3', c1, c2, l, ⟨k1, ?_, k3⟩, c3, c4⟩
        unfold rate
        calc l ≤ _ := k2
          _ = _ := by ring

/-- **C43, reset** While a reset is pending, the first positive price becomes the stable price and all delayed prices. -/
theorem C43_reset {m : Model} {now : Nat} {price : ℚ} (hr : m.reset = true) (hp : 0 < price) :
    ∃ m', update rnd m now price = .ok m' ∧ m'.stable = price ∧ (∀ d ∈ m'.delay, d = price) ∧ m'.last = now ∧ m'.reset = false := by
  refine ⟨resetToPrice m price now, ?_, rfl, ?_, rfl, ?_⟩
  · unfold update
    simp [hr, hp, resetToPrice]
  · intro d hd
    simp [resetToPrice] at hd
    exact hd
  · simp [resetToPrice, hp]

/-- admissible sequences of update calls: times do not go back, prices are non-negative floats in [lo, hi] -/
def Calls (rnd : ℚ → ℚ) (lo hi : ℚ) : Nat → List (Nat × ℚ) → Prop
  | _, [] => True
  | t0, (t, p) :: us => t0 ≤ t ∧ t < 2 ^ 32 ∧ 0 ≤ p ∧ rnd p = p ∧ lo ≤ p ∧ p ≤ hi ∧ Calls rnd lo hi t us

/-- what the history theorem maintains, relative to the starting price `s0` at time `t0` after `k` effective updates -/
structure Tracks (rnd : ℚ → ℚ) (ε lo hi s0 r : ℚ) (t0 k : Nat) (m : Model) : Prop where
  wf : Wf rnd m
  pos : 0 < m.stable
  noreset : m.reset = false
  r_eq : rate ε m = r
  after : t0 ≤ m.last
  lo_le : lo ≤ m.stable
  le_hi : m.stable ≤ hi
  up : m.stable ≤ s0 * (1 + r) ^ (m.last - t0) * ((1 + ε) ^ 2) ^ k
  down : s0 * (1 - r * (m.last - t0 : Nat)) * ((1 - ε) ^ 2) ^ k ≤ m.stable

theorem step_tracks (R : IsRnd rnd ε) {lo hi s0 r : ℚ} {t0 k : Nat} {m : Model} (T : Tracks rnd ε lo hi s0 r t0 k m) (hs0 : 0 ≤ s0) (hr600 : r * 600 < 1)
    {t : Nat} {p : ℚ} (ht : m.last ≤ t) (ht2 : t < 2 ^ 32) (hp : 0 ≤ p) (hpr : rnd p = p) (hlo : lo ≤ p) (hhi : p ≤ hi) :
    ∃ m' k', update rnd m t p = .ok m' ∧ m'.last ≤ t ∧ k' ≤ k + 1 ∧ Tracks rnd ε lo hi s0 r t0 k' m' := by
  obtain ⟨u1, u2⟩ := C43_update R T.wf hp hpr T.noreset ht2
  by_cases hc : t < m.last + 10
  · exact ⟨m, k, u1 hc, ht, by omega, T⟩
  obtain ⟨x1, x2⟩ := u2 (by omega)
  obtain ⟨m', hm'⟩ := x1 T.pos
  obtain ⟨w', e1, e2, e3, -, -, e4, e5, l, ⟨l0, l1, -⟩, l2, l3⟩ := x2 m' hm'
  have e0 := R.eps
  have e01 := R.eps1
  have hsg := T.wf.sg.1
  have r0 : 0 ≤ r := by rw [← T.r_eq]; unfold rate; exact mul_nonneg hsg (by linarith)
  rw [T.r_eq] at l1
  have hD : ((min (t - m.last) 600 : Nat) : ℚ) ≤ 600 := by exact_mod_cast Nat.min_le_right _ _
  have hD0 : (0:ℚ) ≤ ((min (t - m.last) 600 : Nat) : ℚ) := by positivity
  have hDt : ((min (t - m.last) 600 : Nat) : ℚ) ≤ ((t - m.last : Nat) : ℚ) := by exact_mod_cast Nat.min_le_left _ _
  have hl1 : l ≤ 1 := by nlinarith
  have hpow : 1 + l ≤ (1 + r) ^ (t - m.last) := by
    have h1 := one_add_mul_le_pow (show (-2:ℚ) ≤ r by linarith) (t - m.last)
    have h2 : r * ((min (t - m.last) 600 : Nat) : ℚ) ≤ r * ((t - m.last : Nat) : ℚ) := mul_le_mul_of_nonneg_left hDt r0
    linarith
  have hll : l ≤ r * ((t - m.last : Nat) : ℚ) := le_trans l1 (mul_le_mul_of_nonneg_left hDt r0)
  have hpos' : 0 < m'.stable := by
    have h3 := l3 hl1
    have hlt : l < 1 := by nlinarith
    have : 0 < m.stable * (1 - l) * (1 - ε) ^ 2 := by
      have a1 : 0 < 1 - l := by linarith
      have a2 : 0 < 1 - ε := by linarith
      have a3 := T.pos
      positivity
    linarith
  have htime : m'.last - t0 = (m.last - t0) + (t - m.last) := by rw [e1]; have := T.after; omega
  refine ⟨m', k + 1, hm', le_of_eq e1, by omega, ⟨w', hpos', e3, ?_, ?_, ?_, ?_, ?_, ?_⟩⟩
  · unfold rate; rw [e2]; exact T.r_eq
  · rw [e1]; have := T.after; omega
  · rcases le_total m.stable p with hh | hh
    · linarith [(e4 hh).1, T.lo_le]
    · linarith [(e5 hh).1]
  · rcases le_total m.stable p with hh | hh
    · linarith [(e4 hh).2]
    · linarith [(e5 hh).2, T.le_hi]
  · rw [htime, pow_add]
    have a1 : 0 ≤ (1 + ε) ^ 2 := by positivity
    have a2 : m.stable * (1 + l) ≤ (s0 * (1 + r) ^ (m.last - t0) * ((1 + ε) ^ 2) ^ k) * (1 + r) ^ (t - m.last) := by
      apply mul_le_mul T.up hpow (by linarith)
      have : 0 ≤ (1 + r) := by linarith
      positivity
    calc m'.stable ≤ _ := l2
      _ ≤ _ := mul_le_mul_of_nonneg_right a2 a1
      _ = _ := by ring
  · rw [htime]
    have a1 : 0 ≤ (1 - ε) ^ 2 := by positivity
    have h3 := l3 hl1
    push_cast
    have hb : s0 * (1 - r * ((m.last - t0 : Nat) + (t - m.last : Nat))) * ((1 - ε) ^ 2) ^ k ≤ m.stable * (1 - l) := by
      set A : ℚ := ((m.last - t0 : Nat) : ℚ) with hA
      set B : ℚ := ((t - m.last : Nat) : ℚ) with hB
      have A0 : 0 ≤ A := by positivity
      have K : 0 ≤ s0 * ((1 - ε) ^ 2) ^ k := by positivity
      have d := T.down
      have d1 : s0 * ((1 - ε) ^ 2) ^ k * (1 - r * A) ≤ m.stable := by linarith
      have d2 : s0 * ((1 - ε) ^ 2) ^ k * (1 - r * A) * (1 - l) ≤ m.stable * (1 - l) := mul_le_mul_of_nonneg_right d1 (by linarith)
      have d3 : 1 - r * (A + B) ≤ (1 - r * A) * (1 - l) := by
        have : 0 ≤ r * A * l := by positivity
        nlinarith
      have d4 := mul_le_mul_of_nonneg_left d3 K
      linarith
    calc _ = s0 * (1 - r * ((m.last - t0 : Nat) + (t - m.last : Nat))) * ((1 - ε) ^ 2) ^ k * (1 - ε) ^ 2 := by push_cast; ring
      _ ≤ m.stable * (1 - l) * (1 - ε) ^ 2 := mul_le_mul_of_nonneg_right hb a1
      _ ≤ _ := h3

theorem run_tracks (R : IsRnd rnd ε) {lo hi s0 r : ℚ} {t0 : Nat} (hs0 : 0 ≤ s0) (hr600 : r * 600 < 1) :
    ∀ {us : List (Nat × ℚ)} {m : Model} {tc k : Nat}, Tracks rnd ε lo hi s0 r t0 k m → m.last ≤ tc → Calls rnd lo hi tc us →
    ∃ m' k', run rnd m us = .ok m' ∧ k' ≤ k + us.length ∧ Tracks rnd ε lo hi s0 r t0 k' m' := by
  intro us
  induction us with
  | nil => intro m tc k T _ _; exact ⟨m, k, rfl, by simp, T⟩
  | cons u us ih =>
    intro m tc k T htc hc
    obtain ⟨t, p⟩ := u
    obtain ⟨c1, c2, c3, c4, c5, c6, c7⟩ := hc
    obtain ⟨m1, k1, h1, h2, h3, h4⟩ := step_tracks R T hs0 hr600 (by omega) c2 c3 c4 c5 c6
    obtain ⟨m2, k2, g1, g2, g3⟩ := ih h4 h2 c7
    refine ⟨m2, k2, ?_, by simp; omega, g3⟩
    simp only [run, h1]
    exact g1

/-- **C43, histories** Whatever the oracle prices (non-negative, in [lo, hi] together with the starting price) and however often it is updated:
updates never fail, the stable price stays in [lo, hi], grows at most exponentially with the per-second growth limit and falls at most linearly with it,
up to the f64 rounding of each update. -/
theorem C43_history (R : IsRnd rnd ε) {m : Model} (w : Wf rnd m) (hpos : 0 < m.stable) (hreset : m.reset = false) (hg : rate ε m * 600 < 1)
    {lo hi : ℚ} (hlo : lo ≤ m.stable) (hhi : m.stable ≤ hi) {us : List (Nat × ℚ)} (hc : Calls rnd lo hi m.last us) :
    ∃ m' k, run rnd m us = .ok m' ∧ k ≤ us.length ∧ 0 < m'.stable ∧ lo ≤ m'.stable ∧ m'.stable ≤ hi ∧
      m'.stable ≤ m.stable * (1 + rate ε m) ^ (m'.last - m.last) * ((1 + ε) ^ 2) ^ k ∧
      m.stable * (1 - rate ε m * (m'.last - m.last : Nat)) * ((1 - ε) ^ 2) ^ k ≤ m'.stable := by
  have T : Tracks rnd ε lo hi m.stable (rate ε m) m.last 0 m := ⟨w, hpos, hreset, rfl, le_refl _, hlo, hhi, by simp, by simp⟩
  obtain ⟨m', k, h1, h2, h3⟩ := run_tracks R (le_of_lt hpos) hg T (le_refl _) hc
  exact ⟨m', k, h1, by omega, h3.pos, h3.lo_le, h3.le_hi, h3.up, h3.down⟩

/-- **C43, delayed price** In every update, each of the 24 delayed prices is either unchanged or set to one new value, which is within the delay growth limit
of the price of the previous interval, lies between that and the average price of the interval, and is only stored when a new interval begins. -/
theorem C43_delay_price (R : IsRnd rnd ε) {m m' : Model} (w : Wf rnd m) {now : Nat} {price : ℚ} (hp : 0 ≤ price) (hpr : rnd price = price) (hreset : m.reset = false)
    (hn2 : now < 2 ^ 32) (hn : m.last + 10 ≤ now) (h : update rnd m now price = .ok m') :
    (now / m.interval % 24 = m.lastIdx → m'.delay = m.delay) ∧
    (now / m.interval % 24 ≠ m.lastIdx → ∃ y, (let prev := m.delay.getD (if m.lastIdx = 0 then 23 else m.lastIdx - 1) 0
        y ≤ prev * (1 + m.delayGrowth) * (1 + ε) ^ 2 ∧ (m.delayGrowth ≤ 1 → prev * (1 - m.delayGrowth) * (1 - ε) ^ 2 ≤ y)) ∧
      (∀ i, i < 24 → m'.delay.getD i 0 = y ∨ m'.delay.getD i 0 = m.delay.getD i 0) ∧
      (now - m.last ≤ 24 * m.interval → m'.delay.getD (now / m.interval % 24) 0 = m.delay.getD (now / m.interval % 24) 0)) := by
  have hunf : update rnd m now price = (if now - m.last < 10 then .ok m else do
      let m1 ← updateDelay rnd m (now - m.last) now price
      let limit ← growthLimit rnd m1.stable (m1.delay.getD m1.lastIdx 0) m1.stableGrowth (now - m.last)
      let s ← growthClamped rnd price m1.stable limit
      .ok { m1 with stable := s }) := by
    unfold update
    simp [hreset]
  rw [hunf, if_neg (by omega)] at h
  obtain ⟨m1, e1, w1, e2, e3, e3', e4, e5, e6, e7, e8, e9, -⟩ := updateDelay_spec R w hp rfl (by omega) hn2 (show 10 ≤ now - m.last by omega)
  simp only [e1, bind_ok] at h
  obtain ⟨mm, hmm, _, _, _, _, h⟩ := h
  simp only [Except.ok.injEq] at h hmm
  subst hmm
  subst h
  rw [← e7]
  refine ⟨e8, ?_⟩
  intro hne
  obtain ⟨y, ⟨y1, y2⟩, y3⟩ := e9 hne
  refine ⟨y, y1, ?_, ?_⟩
  · intro i hi
    have := y3 i hi
    dsimp only
    rw [this]
    split
    · left; rfl
    · right; rfl
  · intro hle
    dsimp only
    rw [y3 _ (by rw [e7]; exact Nat.mod_lt _ (by norm_num)), if_neg]
    have hf : decide (now - m.last > 24 * m.interval) = false := by simpa using hle
    unfold overwritten
    rw [hf]
    by_cases hgt : m1.lastIdx > m.lastIdx
    · simp [hgt]
    · simp [hgt]; omega

theorem mem_of_getD {l : List ℚ} (hl : l.length = 24) {P : ℚ → Prop} (h : ∀ i, i < 24 → P (l.getD i 0)) : ∀ d ∈ l, P d := by
  intro d hd
  obtain ⟨i, hi, rfl⟩ := List.getElem_of_mem hd
  have := h i (by omega)
  rwa [List.getD_eq_getElem _ _ hi] at this

/-- **C43, delayed price range** (exact arithmetic) If the oracle prices are in [lo, hi] the delayed prices stay at most hi; they stay at least lo only
if updates are never more than ten minutes apart (see `C43_delay_understated_after_gaps`). -/
theorem C43_delay_range {m m' : Model} (w : Wf id m) {now : Nat} {price lo hi : ℚ} (hp : 0 ≤ price) (hlo : lo ≤ price) (hhi : price ≤ hi) (hreset : m.reset = false)
    (hn2 : now < 2 ^ 32) (h : update id m now price = .ok m') :
    ((∀ d ∈ m.delay, d ≤ hi) → m.accPrice ≤ hi * m.accTime → (∀ d ∈ m'.delay, d ≤ hi) ∧ m'.accPrice ≤ hi * m'.accTime) ∧
    (now ≤ m.last + 600 → (∀ d ∈ m.delay, lo ≤ d) → lo * m.accTime ≤ m.accPrice → (∀ d ∈ m'.delay, lo ≤ d) ∧ lo * m'.accTime ≤ m'.accPrice) := by
  by_cases hc : now < m.last + 10
  · obtain ⟨u1, -⟩ := C43_update isRnd_id w hp rfl hreset hn2
    rw [u1 hc] at h
    simp at h; subst h
    exact ⟨fun a b => ⟨a, b⟩, fun _ a b => ⟨a, b⟩⟩
  have hunf : update id m now price = (if now - m.last < 10 then .ok m else do
      let m1 ← updateDelay id m (now - m.last) now price
      let limit ← growthLimit id m1.stable (m1.delay.getD m1.lastIdx 0) m1.stableGrowth (now - m.last)
      let s ← growthClamped id price m1.stable limit
      .ok { m1 with stable := s }) := by
    unfold update
    simp [hreset]
  rw [hunf, if_neg (by omega)] at h
  obtain ⟨m1, e1, w1, e2, e3, e3', e4, e5, e6, e7, e8, e9, e10⟩ := updateDelay_spec isRnd_id w hp rfl (by omega) hn2 (show 10 ≤ now - m.last by omega)
  simp only [e1, bind_ok] at h
  obtain ⟨mm, hmm, _, _, _, _, h⟩ := h
  simp only [Except.ok.injEq] at h hmm
  subst hmm
  subst h
  dsimp only
  have hT : (0:ℚ) < ((m.accTime + (now - m.last) : Nat) : ℚ) := by
    have : 0 < m.accTime + (now - m.last) := by omega
    exact_mod_cast this
  have hD : ((min (now - m.last) 600 : Nat) : ℚ) ≤ ((now - m.last : Nat) : ℚ) := by exact_mod_cast Nat.min_le_left _ _
  have hD0 : (0:ℚ) ≤ ((min (now - m.last) 600 : Nat) : ℚ) := by positivity
  have hprev : m.delay.getD (if m.lastIdx = 0 then 23 else m.lastIdx - 1) 0 ∈ m.delay := by
    have : (if m.lastIdx = 0 then 23 else m.lastIdx - 1) < m.delay.length := by rw [w.len]; have := w.idx; split <;> omega
    rw [List.getD_eq_getElem _ _ this]
    exact List.getElem_mem _
  have hget : ∀ i, i < 24 → m.delay.getD i 0 ∈ m.delay := by
    intro i hi
    rw [List.getD_eq_getElem _ _ (by rw [w.len]; exact hi)]
    exact List.getElem_mem _
  simp only [id] at e9 e10
  constructor
  · intro hd ha
    have hacc : m.accPrice + price * ((min (now - m.last) 600 : Nat) : ℚ) ≤ hi * ((m.accTime + (now - m.last) : Nat) : ℚ) := by
      have a1 : price * ((min (now - m.last) 600 : Nat) : ℚ) ≤ price * ((now - m.last : Nat) : ℚ) := mul_le_mul_of_nonneg_left hD hp
      have a2 : price * ((now - m.last : Nat) : ℚ) ≤ hi * ((now - m.last : Nat) : ℚ) := mul_le_mul_of_nonneg_right hhi (by positivity)
      rw [Nat.cast_add]
      linarith
    constructor
    · by_cases hi' : m1.lastIdx = m.lastIdx
      · rw [e8 hi']; exact hd
      · obtain ⟨y, ⟨_, y2, y3⟩, y4⟩ := e9 hi'
        have hy : y ≤ hi := by
          have havg : (m.accPrice + price * ((min (now - m.last) 600 : Nat) : ℚ)) / ((m.accTime + (now - m.last) : Nat) : ℚ) ≤ hi := by
            rw [div_le_iff₀ hT]; exact hacc
          rcases le_total (m.delay.getD (if m.lastIdx = 0 then 23 else m.lastIdx - 1) 0) ((m.accPrice + price * ((min (now - m.last) 600 : Nat) : ℚ)) / ((m.accTime + (now - m.last) : Nat) : ℚ)) with hh | hh
          · exact le_trans (y2 hh).2 havg
          · exact le_trans (y3 hh).2 (hd _ hprev)
        refine mem_of_getD (P := fun d => d ≤ hi) w1.len ?_
        intro i hi24
        rw [y4 i hi24]
        split
        · exact hy
        · exact hd _ (hget i hi24)
    · rcases e10 with ⟨_, b, c⟩ | ⟨b, c⟩
      · rw [b, c]; exact hacc
      · rw [b, c]; simp
  · intro h600 hd ha
    have hDe : ((min (now - m.last) 600 : Nat) : ℚ) = ((now - m.last : Nat) : ℚ) := by
      have : min (now - m.last) 600 = now - m.last := by omega
      rw [this]
    rw [hDe] at e9 e10
    have hacc : lo * ((m.accTime + (now - m.last) : Nat) : ℚ) ≤ m.accPrice + price * ((now - m.last : Nat) : ℚ) := by
      have a2 : lo * ((now - m.last : Nat) : ℚ) ≤ price * ((now - m.last : Nat) : ℚ) := mul_le_mul_of_nonneg_right hlo (by positivity)
      rw [Nat.cast_add]
      linarith
    constructor
    · by_cases hi' : m1.lastIdx = m.lastIdx
      · rw [e8 hi']; exact hd
      · obtain ⟨y, ⟨_, y2, y3⟩, y4⟩ := e9 hi'
        have hy : lo ≤ y := by
          have havg : lo ≤ (m.accPrice + price * ((now - m.last : Nat) : ℚ)) / ((m.accTime + (now - m.last) : Nat) : ℚ) := by
            rw [le_div_iff₀ hT]; exact hacc
          rcases le_total (m.delay.getD (if m.lastIdx = 0 then 23 else m.lastIdx - 1) 0) ((m.accPrice + price * ((now - m.last : Nat) : ℚ)) / ((m.accTime + (now - m.last) : Nat) : ℚ)) with hh | hh
          · exact le_trans (hd _ hprev) (y2 hh).1
          · exact le_trans havg (y3 hh).1
        refine mem_of_getD (P := fun d => lo ≤ d) w1.len ?_
        intro i hi24
        rw [y4 i hi24]
        split
        · exact hy
        · exact hd _ (hget i hi24)
    · rcases e10 with ⟨_, b, c⟩ | ⟨b, c⟩
      · rw [b, c]; exact hacc
      · rw [b, c]; simp

/-- a model at price 2, updated to 3 after one minute, again after seven seconds (no effect), then falling to 1 across an interval boundary -/
example : Wf id (init (6/100) (3/10000) 2 0) ∧ rate 0 (init (6/100) (3/10000) 2 0) * 600 < 1 ∧
    Calls id 1 3 0 [(60, 3), (67, 3), (3650, 1)] := by
  refine ⟨⟨by decide, ?_, by decide, by decide +kernel, by decide +kernel, by decide, by decide, by decide, by decide⟩, by decide +kernel, ?_⟩
  · intro d hd
    simp [init, resetToPrice] at hd
    subst hd
    exact ⟨by norm_num, rfl⟩
  · simp [Calls]
example : ((run id (init (6/100) (3/10000) 2 0) [(60, 3), (67, 3), (3650, 1)]).map (fun m => m.stable)) = .ok (2 * (1018/1000) * (1 - (3/10000) * 600 * (1000/1018) ^ 2)) := by
  decide +kernel

/-- **C43, finding** The average that feeds the delayed price counts at most ten minutes of price per update but all of the time: with a constant oracle price
of 1 and one update per hour, the delayed price falls below 1. -/
theorem C43_delay_understated_after_gaps :
    ((run id (init (6/100) (3/10000) 1 0) [(3600, 1), (7200, 1)]).map (fun m => (m.stable, m.delay.getD 0 0, m.delay.getD 1 0))) =
      .ok (1, 94/100, (94/100) * (94/100)) := by decide +kernel

/-- **C43, finding** If the price is zero when the model is set up, every update with a zero price (at least ten seconds later) aborts, until
a positive price resets it. -/
theorem C43_zero_price_aborts : update id (init (6/100) (3/10000) 0 0) 10 0 = .error .panic ∧
    ((update id (init (6/100) (3/10000) 0 0) 10 5).map (fun m => m.stable)) = .ok 5 := by decide +kernel

end Stable
end Mango
