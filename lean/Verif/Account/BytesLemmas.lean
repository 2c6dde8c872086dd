import Verif.Account.Bytes
import Mathlib.Tactic.Ring
import Mathlib.Tactic.Linarith

namespace Mango.Raw

theorem rbind_ok {α β : Type} {x : R α} {f : α → R β} {a : α} (h : x = .ok a) : (x >>= f) = f a := by
  rw [h]; rfl

/-- Slots `i .. i + c` of a vector that starts at `start`. -/
def slotsFrom (m : Mem) (start size i c : Nat) : List (List UInt8) :=
  (List.range c).map fun j => m.read (start + (i + j) * size) size

theorem read_congr {m m' : Mem} {a b n : Nat} (h : ∀ k, k < n → m'.bytes (a + k) = m.bytes (b + k)) :
    m'.read a n = m.read b n := by
  unfold Mem.read
  apply List.map_congr_left
  intro k hk
  exact h k (List.mem_range.mp hk)

theorem slotsFrom_congr {m m' : Mem} {start start' size i i' c : Nat}
    (h : ∀ k, k < c * size → m'.bytes (start' + i' * size + k) = m.bytes (start + i * size + k)) :
    slotsFrom m' start' size i' c = slotsFrom m start size i c := by
  unfold slotsFrom
  apply List.map_congr_left
  intro j hj
  have hj' := List.mem_range.mp hj
  apply read_congr
  intro k hk
  have h1 : j * size + k < c * size := by
    have : (j + 1) * size ≤ c * size := Nat.mul_le_mul_right _ hj'
    rw [Nat.add_mul, Nat.one_mul] at this
    omega
  have h2 := h (j * size + k) h1
  rw [Nat.add_mul, Nat.add_mul]
  have e1 : start' + (i' * size + j * size) + k = start' + i' * size + (j * size + k) := by omega
  have e2 : start + (i * size + j * size) + k = start + i * size + (j * size + k) := by omega
  rw [e1, e2]; exact h2

theorem slotsFrom_zero (m : Mem) (start size i : Nat) : slotsFrom m start size i 0 = [] := rfl

theorem slotsFrom_cons (m : Mem) (start size i c : Nat) :
    slotsFrom m start size i (c + 1) = m.read (start + i * size) size :: slotsFrom m start size (i + 1) c := by
  unfold slotsFrom
  rw [List.range_succ_eq_map, List.map_cons, List.map_map]
  congr 1
  apply List.map_congr_left
  intro j _
  simp only [Function.comp]
  congr 2
  congr 1
  omega

theorem slotsFrom_snoc (m : Mem) (start size i c : Nat) :
    slotsFrom m start size i (c + 1) = slotsFrom m start size i c ++ [m.read (start + (i + c) * size) size] := by
  unfold slotsFrom
  rw [List.range_succ, List.map_append]
  rfl

theorem slotsFrom_append (m : Mem) (start size i c d : Nat) :
    slotsFrom m start size i (c + d) = slotsFrom m start size i c ++ slotsFrom m start size (i + c) d := by
  induction d with
  | zero => simp [slotsFrom_zero]
  | succ d ih =>
    rw [← Nat.add_assoc, slotsFrom_snoc, ih, slotsFrom_snoc, List.append_assoc, Nat.add_assoc i c d]

theorem slotsFrom_length (m : Mem) (start size i c : Nat) : (slotsFrom m start size i c).length = c := by
  simp [slotsFrom]

theorem write_in {m : Mem} {a n x : Nat} {v : Nat → UInt8} (h1 : a ≤ x) (h2 : x < a + n) :
    (m.write a n v).bytes x = v (x - a) := by
  simp only [Mem.write]; rw [if_pos ⟨h1, h2⟩]

theorem write_out {m : Mem} {a n x : Nat} {v : Nat → UInt8} (h : x < a ∨ a + n ≤ x) :
    (m.write a n v).bytes x = m.bytes x := by
  simp only [Mem.write]; rw [if_neg (by omega)]

theorem getHelper_ok {m : Mem} {a n : Nat} (h : a + n ≤ m.len) : getHelper m a n = .ok (m.read a n) := by
  unfold getHelper; rw [if_pos h]

theorem setHelper_ok {m : Mem} {a n : Nat} {v : Nat → UInt8} (h : a + n ≤ m.len) :
    setHelper m a n v = .ok (m.write a n v) := by
  unfold setHelper; rw [if_pos h]

theorem memmove_ok {m : Mem} {dst src n : Nat} (hn : 0 < n) (h1 : dst + n ≤ m.len) (h2 : src + n ≤ m.len) :
    memmove m dst src n = .ok (m.write dst n fun k => m.bytes (src + k)) := by
  unfold memmove; rw [if_neg (by omega), if_neg (by omega)]

theorem write_len (m : Mem) (a n : Nat) (v : Nat → UInt8) : (m.write a n v).len = m.len := rfl

/-- What the defrag loop over one vector does: the active slots are moved to the front in their order,
nothing outside of the vector changes, and no access is out of bounds. -/
theorem defrag_spec (start size : Nat) (hs : 0 < size) (act : List UInt8 → Bool) :
    ∀ (rem i a : Nat) (m : Mem), a ≤ i → (0 < rem → start + (i + rem) * size ≤ m.len) →
      ∃ m' a', defrag start size act rem i a m = .ok (m', a') ∧ m'.len = m.len ∧
        a' = a + ((slotsFrom m start size i rem).filter act).length ∧ a' ≤ i + rem ∧
        slotsFrom m' start size 0 a' =
          slotsFrom m start size 0 a ++ (slotsFrom m start size i rem).filter act ∧
        ∀ x, x < start ∨ start + (i + rem) * size ≤ x → m'.bytes x = m.bytes x := by
  intro rem
  induction rem with
  | zero =>
    intro i a m ha hl
    exact ⟨m, a, rfl, rfl, by simp [slotsFrom_zero], by omega, by simp [slotsFrom_zero], fun _ _ => rfl⟩
  | succ rem ih =>
    intro i a m ha hl0
    have hl := hl0 (by omega)
    have e1 : (i + 1 + rem) = i + (rem + 1) := by omega
    have hi : start + i * size + size ≤ m.len := by
      have : (i + 1) * size ≤ (i + (rem + 1)) * size := Nat.mul_le_mul_right _ (by omega)
      rw [Nat.add_mul i 1, Nat.one_mul] at this
      omega
    have hai : a * size ≤ i * size := Nat.mul_le_mul_right _ ha
    have hend : i * size + size ≤ (i + (rem + 1)) * size := by
      have : (i + 1) * size ≤ (i + (rem + 1)) * size := Nat.mul_le_mul_right _ (by omega)
      rw [Nat.add_mul i 1, Nat.one_mul] at this; exact this
    have hget := getHelper_ok hi
    unfold defrag
    rw [rbind_ok hget]
    by_cases hact : act (m.read (start + i * size) size) = false
    · rw [if_pos hact]
      obtain ⟨m', a', h1, h2, h3, h4, h5, h6⟩ := ih (i + 1) a m (by omega) (fun _ => by rw [e1]; exact hl)
      refine ⟨m', a', h1, h2, ?_, by omega, ?_, ?_⟩
      · rw [h3, slotsFrom_cons, List.filter_cons, hact]; simp
      · rw [h5, slotsFrom_cons m start size i rem, List.filter_cons, hact]; simp
      · intro x hx; apply h6; rw [e1]; exact hx
    · rw [if_neg hact]
      have hact' : act (m.read (start + i * size) size) = true := by simpa using hact
      obtain ⟨m1, hm1, hlen1, hslot, hrest, hout⟩ :
          ∃ m1, (if i ≠ a then memmove m (start + a * size) (start + i * size) size else .ok m) = .ok m1 ∧
            m1.len = m.len ∧
            slotsFrom m1 start size 0 (a + 1) =
              slotsFrom m start size 0 a ++ [m.read (start + i * size) size] ∧
            slotsFrom m1 start size (i + 1) rem = slotsFrom m start size (i + 1) rem ∧
            ∀ x, x < start ∨ start + (i + (rem + 1)) * size ≤ x → m1.bytes x = m.bytes x := by
        by_cases hia : i ≠ a
        · rw [if_pos hia]
          have hmm := memmove_ok (m := m) (dst := start + a * size) (src := start + i * size) hs
            (by omega) (by omega)
          refine ⟨_, hmm, rfl, ?_, ?_, ?_⟩
          · rw [slotsFrom_snoc]
            congr 1
            · apply slotsFrom_congr
              intro k hk
              rw [Nat.zero_mul, Nat.add_zero]
              exact write_out (by omega)
            · congr 1
              apply read_congr
              intro k hk
              rw [Nat.zero_add, write_in (by omega) (by omega)]
              congr 1; omega
          · apply slotsFrom_congr
            intro k hk
            refine write_out (Or.inr ?_)
            rw [Nat.add_mul, Nat.one_mul]; omega
          · intro x hx
            exact write_out (by omega)
        · have hia' : i = a := by omega
          rw [if_neg hia]
          refine ⟨m, rfl, rfl, ?_, rfl, fun _ _ => rfl⟩
          rw [slotsFrom_snoc, Nat.zero_add, hia']
      rw [rbind_ok hm1]
      obtain ⟨m', a', h1, h2, h3, h4, h5, h6⟩ := ih (i + 1) (a + 1) m1 (by omega)
        (fun _ => by rw [e1, hlen1]; exact hl)
      refine ⟨m', a', h1, by rw [h2, hlen1], ?_, by omega, ?_, ?_⟩
      · rw [h3, hrest, slotsFrom_cons, List.filter_cons, if_pos hact', List.length_cons]; omega
      · rw [h5, hslot, hrest, slotsFrom_cons m start size i rem, List.filter_cons, if_pos hact',
          List.append_assoc]; rfl
      · intro x hx
        rw [h6 x (by rw [e1]; exact hx), hout x hx]

/-- The search for the last active slot. -/
theorem blockedOo_spec (start size : Nat) (act : List UInt8 → Bool) (m : Mem) :
    ∀ n, start + n * size ≤ m.len → ∃ b, blockedOo start size act n m = .ok b ∧ b ≤ n ∧
      (∀ i, b ≤ i → i < n → act (m.read (start + i * size) size) = false) ∧
      (0 < b → act (m.read (start + (b - 1) * size) size) = true) := by
  intro n
  induction n with
  | zero => intro _; exact ⟨0, rfl, by omega, by intros; omega, by omega⟩
  | succ n ih =>
    intro hl
    rw [Nat.add_mul, Nat.one_mul] at hl
    have hget := getHelper_ok (m := m) (a := start + n * size) (n := size) (by omega)
    unfold blockedOo
    rw [rbind_ok hget]
    by_cases hact : act (m.read (start + n * size) size) = true
    · rw [if_pos hact]
      exact ⟨n + 1, rfl, by omega, by intros; omega, fun _ => by simpa using hact⟩
    · rw [if_neg hact]
      obtain ⟨b, h1, h2, h3, h4⟩ := ih (by omega)
      refine ⟨b, h1, by omega, ?_, h4⟩
      intro i hi hin
      by_cases hin' : i < n
      · exact h3 i hi hin'
      · have : i = n := by omega
        subst this; simpa using hact

/-- The record whose bytes are given by a default function. -/
def record (size : Nat) (dflt : Nat → UInt8) : List UInt8 := (List.range size).map dflt

theorem fillDefault_spec (start size : Nat) (dflt : Nat → UInt8) :
    ∀ (rem i : Nat) (m : Mem), start + (i + rem) * size ≤ m.len →
      ∃ m', fillDefault start size dflt rem i m = .ok m' ∧ m'.len = m.len ∧
        slotsFrom m' start size i rem = List.replicate rem (record size dflt) ∧
        ∀ x, x < start + i * size ∨ start + (i + rem) * size ≤ x → m'.bytes x = m.bytes x := by
  intro rem
  induction rem with
  | zero => intro i m hl; exact ⟨m, rfl, rfl, rfl, fun _ _ => rfl⟩
  | succ rem ih =>
    intro i m hl
    have e1 : (i + 1 + rem) = i + (rem + 1) := by omega
    have hend : i * size + size ≤ (i + (rem + 1)) * size := by
      have : (i + 1) * size ≤ (i + (rem + 1)) * size := Nat.mul_le_mul_right _ (by omega)
      rw [Nat.add_mul i 1, Nat.one_mul] at this; exact this
    have hset := setHelper_ok (m := m) (a := start + i * size) (n := size) (v := dflt) (by omega)
    unfold fillDefault
    rw [rbind_ok hset]
    obtain ⟨m', h1, h2, h3, h4⟩ := ih (i + 1) (m.write (start + i * size) size dflt)
      (by rw [e1, write_len]; exact hl)
    have hmul : (i + 1) * size = i * size + size := by rw [Nat.add_mul, Nat.one_mul]
    refine ⟨m', h1, h2, ?_, ?_⟩
    · rw [slotsFrom_cons, h3, List.replicate_succ]
      congr 1
      unfold Mem.read record
      apply List.map_congr_left
      intro k hk
      have hk' := List.mem_range.mp hk
      rw [h4 _ (by omega), write_in (by omega) (by omega)]
      congr 1; omega
    · intro x hx
      rw [h4 x (by rw [e1]; omega), write_out (by omega)]

theorem moveLeft_spec {m : Mem} {new old size cnt : Nat} (hs : 0 < size)
    (h1 : 0 < cnt → old + size * cnt ≤ m.len) :
    ∃ m', moveLeft m new old size cnt = .ok m' ∧ m'.len = m.len ∧
      (∀ k, k < size * cnt → m'.bytes (min new old + k) = m.bytes (old + k)) ∧
      ∀ x, (x < new ∨ new + size * cnt ≤ x ∨ old ≤ new) → m'.bytes x = m.bytes x := by
  unfold moveLeft
  by_cases h : new < old ∧ 0 < cnt
  · have h1 := h1 h.2
    rw [if_pos h, memmove_ok (Nat.mul_pos hs h.2) (by omega) (by omega)]
    refine ⟨_, rfl, rfl, ?_, ?_⟩
    · intro k hk
      rw [Nat.min_eq_left (by omega), write_in (by omega) (by omega)]
      congr 1; omega
    · intro x hx; exact write_out (by omega)
  · rw [if_neg h]
    refine ⟨m, rfl, rfl, ?_, fun _ _ => rfl⟩
    intro k hk
    have : 0 < cnt := by
      rcases Nat.eq_zero_or_pos cnt with h0 | h0
      · rw [h0, Nat.mul_zero] at hk; omega
      · exact h0
    rw [Nat.min_eq_right (by omega)]

theorem moveRight_spec {m : Mem} {new old size cnt : Nat} (hs : 0 < size)
    (h1 : 0 < cnt → old + size * cnt ≤ m.len) (h2 : new + size * cnt ≤ m.len) :
    ∃ m', moveRight m new old size cnt = .ok m' ∧ m'.len = m.len ∧
      (∀ k, k < size * cnt → m'.bytes (new + k) = m.bytes (min new old + k)) ∧
      ∀ x, (x < new ∨ new + size * cnt ≤ x ∨ new ≤ old) → m'.bytes x = m.bytes x := by
  unfold moveRight
  by_cases h : old < new ∧ 0 < cnt
  · have h1 := h1 h.2
    rw [if_pos h, memmove_ok (Nat.mul_pos hs h.2) (by omega) (by omega)]
    refine ⟨_, rfl, rfl, ?_, ?_⟩
    · intro k hk
      rw [Nat.min_eq_right (by omega), write_in (by omega) (by omega)]
      congr 1; omega
    · intro x hx; exact write_out (by omega)
  · rw [if_neg h]
    refine ⟨m, rfl, rfl, ?_, fun _ _ => rfl⟩
    intro k hk
    have : 0 < cnt := by
      rcases Nat.eq_zero_or_pos cnt with h0 | h0
      · rw [h0, Nat.mul_zero] at hk; omega
      · exact h0
    rw [Nat.min_eq_left (by omega)]

theorem writeLength_spec {m : Mem} {offset count : Nat} (h8 : 8 ≤ offset) (h : offset ≤ m.len)
    (hc : count < 256) :
    ∃ m', writeLength m offset count = .ok m' ∧ m'.len = m.len ∧
      (m'.bytes (offset - 4)).toNat = count ∧ m'.bytes (offset - 4 + 1) = 0 ∧
      m'.bytes (offset - 4 + 2) = 0 ∧ m'.bytes (offset - 4 + 3) = 0 ∧
      ∀ x, x < offset - 8 ∨ offset ≤ x → m'.bytes x = m.bytes x := by
  unfold writeLength
  rw [rbind_ok (setHelper_ok (by omega)), setHelper_ok (by rw [write_len]; omega)]
  refine ⟨_, rfl, rfl, ?_, ?_, ?_, ?_, ?_⟩
  · rw [write_in (by omega) (by omega), Nat.sub_self, if_pos rfl]
    simp [Nat.mod_eq_of_lt hc]
  · rw [write_in (by omega) (by omega), if_neg (by omega)]
  · rw [write_in (by omega) (by omega), if_neg (by omega)]
  · rw [write_in (by omega) (by omega), if_neg (by omega)]
  · intro x hx
    rw [write_out (by omega), write_out (by omega)]

theorem readCount_of {m : Mem} {a c : Nat} (hl : a + 4 ≤ m.len) (h0 : (m.bytes a).toNat = c)
    (h1 : m.bytes (a + 1) = 0) (h2 : m.bytes (a + 2) = 0) (h3 : m.bytes (a + 3) = 0) :
    readCount m a = .ok c := by
  unfold readCount
  rw [if_neg (by omega), h1, h2, h3, if_pos (by rfl), h0]

end Mango.Raw
