import Verif.Props.HealthValue
import Verif.Props.HealthStateEx
/-!
# C92, continued: solvency of healthy accounts, reported equity, examples
-/
namespace Mango
namespace Health
open Fx Swap
namespace Worth

/-- **C92, solvency** An account whose health of some type is not negative owns at least what it owes, up to the rounding of reserved funds. -/
theorem C92_healthy_is_solvent {rnd : ℚ → ℚ} {ε : ℚ} (R : Stable.IsRnd rnd ε) (he : ε ≤ 1 / 5) {now : Int} {banks : Nat → BankIn} {ps : List Pos} {os : List OpenOrd}
    {perps : List (Perp.Market × Perp.Pos × I80F48)} {h : HT} {v : I80F48} (distinct : (ps.map (·.tokenIndex)).Nodup) (hB : ∀ p ∈ ps, BankOk (banks p.tokenIndex))
    (hO : ∀ o ∈ os, OrdersOk o) (hX : ∀ x ∈ perps, PerpOk x) (hv : accountHealth rnd (f64Div rnd) now banks ps os perps h = .ok v) (h0 : 0 ≤ v) :
    - (os.map (slack banks ε)).sum ≤ total banks ps os perps := by
  have := C92_health_le_worth R he distinct hB hO hX hv
  have : (0 : ℚ) ≤ (v : ℚ) / 2 ^ 48 := div_nonneg (by exact_mod_cast h0) (by norm_num)
  linarith

/-- **C92, no reserved funds** Without funds reserved by spot orders there is no rounding allowance at all: a healthy account is worth at least 0. -/
theorem C92_no_orders {rnd : ℚ → ℚ} {ε : ℚ} (R : Stable.IsRnd rnd ε) (he : ε ≤ 1 / 5) {now : Int} {banks : Nat → BankIn} {ps : List Pos} {os : List OpenOrd}
    {perps : List (Perp.Market × Perp.Pos × I80F48)} {h : HT} {v : I80F48} (distinct : (ps.map (·.tokenIndex)).Nodup) (hB : ∀ p ∈ ps, BankOk (banks p.tokenIndex))
    (hO : ∀ o ∈ os, OrdersOk o ∧ o.baseReserved = 0 ∧ o.quoteReserved = 0) (hX : ∀ x ∈ perps, PerpOk x)
    (hv : accountHealth rnd (f64Div rnd) now banks ps os perps h = .ok v) : (v : ℚ) / 2 ^ 48 ≤ total banks ps os perps := by
  have := C92_health_le_worth R he distinct hB (fun o ho => (hO o ho).1) hX hv
  have e : (os.map (slack banks ε)).sum = 0 := by
    clear this hv
    induction os with
    | nil => simp
    | cons o os ih =>
      obtain ⟨_, h1, h2⟩ := hO o (by simp)
      simp only [List.map_cons, List.sum_cons, ih (fun x hx => hO x (by simp [hx]))]
      simp [slack, h1, h2]
  linarith

/-! ## Equity -/

/-- the map's values by key, and which keys there are -/
theorem insert_keys (m : EquityMap) (k : Nat) (v : I80F48) : (EquityMap.insert m k v).map (·.1) = if k ∈ m.map (·.1) then m.map (·.1) else m.map (·.1) ++ [k] := by
  unfold EquityMap.insert
  have hany : (m.any (fun e => e.1 == k) = true) ↔ k ∈ m.map (·.1) := by
    simp only [List.any_eq_true, beq_iff_eq, List.mem_map]
  by_cases h : k ∈ m.map (·.1)
  · rw [if_pos (hany.mpr h), if_pos h, List.map_map]
    apply List.map_congr_left
    intro e _
    dsimp only [Function.comp]
    split
    · rename_i he; exact he.symm
    · rfl
  · rw [if_neg (fun hc => h (hany.mp hc)), if_neg h, List.map_append]; rfl

theorem insert_nodup {m : EquityMap} (h : (m.map (·.1)).Nodup) (k : Nat) (v : I80F48) : ((EquityMap.insert m k v).map (·.1)).Nodup := by
  rw [insert_keys]
  by_cases hk : k ∈ m.map (·.1)
  · rw [if_pos hk]; exact h
  · rw [if_neg hk]
    rw [List.nodup_append]
    refine ⟨h, by simp, ?_⟩
    intro a ha b hb
    rw [List.mem_singleton] at hb
    subst hb
    intro hab; subst hab; exact hk ha

theorem mem_insert {m : EquityMap} {k : Nat} {v : I80F48} {e : Nat × I80F48} : e ∈ EquityMap.insert m k v ↔ (e = (k, v)) ∨ (e ∈ m ∧ e.1 ≠ k) := by
  unfold EquityMap.insert
  by_cases h : m.any (fun e => e.1 == k) = true
  · rw [if_pos h, List.mem_map]
    constructor
    · rintro ⟨a, ha, rfl⟩
      by_cases hk : a.1 = k
      · rw [if_pos hk]; exact Or.inl rfl
      · rw [if_neg hk]; exact Or.inr ⟨ha, hk⟩
    · rintro (rfl | ⟨h1, h2⟩)
      · obtain ⟨a, ha, hk⟩ := List.any_eq_true.mp h
        exact ⟨a, ha, by rw [if_pos (by simpa using hk)]⟩
      · exact ⟨e, h1, by rw [if_neg h2]⟩
  · rw [if_neg h, List.mem_append, List.mem_singleton]
    constructor
    · rintro (h1 | h1)
      · right
        refine ⟨h1, ?_⟩
        intro hk
        exact h (List.any_eq_true.mpr ⟨e, h1, by simpa using hk⟩)
      · exact Or.inl h1
    · rintro (h1 | h1)
      · exact Or.inr h1
      · exact Or.inl h1.1

theorem get_mem {m : EquityMap} (hn : (m.map (·.1)).Nodup) {k : Nat} {v : I80F48} (h : (k, v) ∈ m) : m.get k = v := by
  unfold EquityMap.get
  induction m with
  | nil => cases h
  | cons e m ih =>
    simp only [List.map_cons, List.nodup_cons] at hn
    rcases List.mem_cons.mp h with rfl | h
    · simp
    · have hne : e.1 ≠ k := by
        intro hc; exact hn.1 (List.mem_map.mpr ⟨(k, v), h, hc.symm⟩)
      rw [List.find?_cons_of_neg (by simpa using hne)]
      exact ih hn.2 h

theorem get_not_mem {m : EquityMap} {k : Nat} (h : k ∉ m.map (·.1)) : m.get k = 0 := by
  unfold EquityMap.get
  rw [List.find?_eq_none.mpr]
  intro e he
  simp only [beq_iff_eq]
  intro hc
  exact h (List.mem_map.mpr ⟨e, he, hc⟩)

theorem get_insert {m : EquityMap} (hn : (m.map (·.1)).Nodup) (k j : Nat) (v : I80F48) : EquityMap.get (EquityMap.insert m k v) j = if j = k then v else m.get j := by
  by_cases hj : j = k
  · rw [if_pos hj]
    subst hj
    exact get_mem (insert_nodup hn _ _) (mem_insert.mpr (Or.inl rfl))
  · rw [if_neg hj]
    by_cases hm : j ∈ m.map (·.1)
    · obtain ⟨e, he, hej⟩ := List.mem_map.mp hm
      have h1 : (j, e.2) ∈ m := by rw [← hej]; exact he
      rw [get_mem hn h1]
      exact get_mem (insert_nodup hn _ _) (mem_insert.mpr (Or.inr ⟨h1, hj⟩))
    · rw [get_not_mem hm]
      apply get_not_mem
      rw [insert_keys]
      split
      · exact hm
      · intro hc
        rcases List.mem_append.mp hc with hc | hc
        · exact hm hc
        · exact hj (List.mem_singleton.mp hc)

/-- worth of a position rounded down to the last place (bit pattern) -/
def posValue (banks : Nat → BankIn) (p : Pos) : Int := ⌊tokens banks p * price banks p.tokenIndex * 2 ^ 48⌋

theorem posValue_eq (banks : Nat → BankIn) (p : Pos) :
    posValue banks p = p.indexed * (if p.indexed > 0 then (banks p.tokenIndex).bank.depositIndex else (banks p.tokenIndex).bank.borrowIndex) / S * (banks p.tokenIndex).oracle / S := by
  unfold posValue tokens price
  have hS : (2 : Int) ^ 48 = S := by decide
  rw [hS]
  generalize p.indexed * (if p.indexed > 0 then (banks p.tokenIndex).bank.depositIndex else (banks p.tokenIndex).bank.borrowIndex) / S = n
  have e : (n : ℚ) / 2 ^ 48 * ((banks p.tokenIndex).oracle / 2 ^ 48) * 2 ^ 48 = ((n * (banks p.tokenIndex).oracle : Int) : ℚ) / ((S : Int) : ℚ) := by
    have hq : (2 : ℚ) ^ 48 = (S : ℚ) := by norm_num [S]
    rw [hq]
    have h0 : (S : ℚ) ≠ 0 := by norm_num [S]
    push_cast
    field_simp
  rw [e]
  rw [Int.floor_div_cast_of_nonneg (by decide), Int.floor_intCast]

theorem equityTokens_ok {banks : Nat → BankIn} : ∀ {ps : List Pos} {m m' : EquityMap}, (ps.map (·.tokenIndex)).Nodup → (m.map (·.1)).Nodup → (∀ p ∈ ps, p.tokenIndex ∉ m.map (·.1)) →
    equityTokens banks m ps = .ok m' →
    (m'.map (·.1)).Nodup ∧ (∀ k, k ∈ m'.map (·.1) ↔ k ∈ m.map (·.1) ∨ ∃ p ∈ ps, p.tokenIndex = k) ∧
    (∀ k, m'.get k = m.get k + sumOf (fun p => if p.tokenIndex = k then posValue banks p else 0) ps) ∧ ∀ p ∈ ps, (banks p.tokenIndex).bad = false := by
  intro ps
  induction ps with
  | nil => intro m m' _ hn _ h; rw [equityTokens, ok_inj] at h; subst h; exact ⟨hn, by simp, by simp, by simp⟩
  | cons p ps ih =>
    intro m m' hd hn hf h
    simp only [equityTokens, bind_ok, require_ok, mul_ok] at h
    obtain ⟨_, hbad, n, ⟨hn1, _⟩, v, ⟨hv, _⟩, h⟩ := h
    simp only [List.map_cons, List.nodup_cons] at hd
    have hpv : v = posValue banks p := by rw [posValue_eq, hv, hn1]
    obtain ⟨i1, i2, i3, i4⟩ := ih hd.2 (insert_nodup hn _ _) (by
      intro q hq
      rw [insert_keys]
      have h1 : q.tokenIndex ∉ m.map (·.1) := hf q (by simp [hq])
      have h2 : q.tokenIndex ≠ p.tokenIndex := by
        intro hc; exact hd.1 (List.mem_map.mpr ⟨q, hq, hc⟩)
      split
      · exact h1
      · intro hc
        rcases List.mem_append.mp hc with hc | hc
        · exact h1 hc
        · exact h2 (List.mem_singleton.mp hc)) h
    refine ⟨i1, ?_, ?_, ?_⟩
    · intro k
      rw [i2 k, insert_keys, if_neg (hf p (by simp)), List.mem_append, List.mem_singleton]
      constructor
      · rintro ((h1 | h1) | ⟨q, hq, h1⟩)
        · exact Or.inl h1
        · exact Or.inr ⟨p, by simp, h1.symm⟩
        · exact Or.inr ⟨q, by simp [hq], h1⟩
      · rintro (h1 | ⟨q, hq, h1⟩)
        · exact Or.inl (Or.inl h1)
        · rcases List.mem_cons.mp hq with rfl | hq
          · exact Or.inl (Or.inr h1.symm)
          · exact Or.inr ⟨q, hq, h1⟩
    · intro k
      rw [i3 k, get_insert hn, sumOf_cons]
      by_cases hk : k = p.tokenIndex
      · rw [if_pos hk, if_pos hk.symm, hk, get_not_mem (hf p (by simp)), hpv]; omega
      · rw [if_neg hk, if_neg (fun hc => hk hc.symm)]; omega
    · intro q hq
      rcases List.mem_cons.mp hq with rfl | hq
      · exact hbad
      · exact i4 q hq

theorem equityAdd_ok {banks : Nat → BankIn} {m m' : EquityMap} {ti : Nat} {n : Int} (hn : (m.map (·.1)).Nodup) (h : equityAdd banks m ti n = .ok m') :
    (m'.map (·.1)).Nodup ∧ (∀ k, k ∈ m'.map (·.1) ↔ k ∈ m.map (·.1) ∨ ti = k) ∧
    (∀ k, m'.get k = m.get k + if ti = k then n * (banks ti).oracle else 0) ∧ (banks ti).bad = false := by
  simp only [equityAdd, bind_ok, require_ok, mul_ok, add_ok] at h
  obtain ⟨_, hbad, x, ⟨hx, _⟩, v, ⟨hv, _⟩, h⟩ := h
  rw [ok_inj] at h; subst h
  have ex : x = n * (banks ti).oracle := by
    rw [hx]; unfold ofInt
    rw [Int.mul_right_comm]; exact Int.mul_ediv_cancel _ (by decide)
  refine ⟨insert_nodup hn _ _, ?_, ?_, hbad⟩
  · intro k
    rw [insert_keys]
    by_cases ht : ti ∈ m.map (·.1)
    · rw [if_pos ht]
      exact ⟨Or.inl, fun h => h.elim id (fun h => h ▸ ht)⟩
    · rw [if_neg ht, List.mem_append, List.mem_singleton]
      exact ⟨fun h => h.imp id Eq.symm, fun h => h.imp id Eq.symm⟩
  · intro k
    rw [get_insert hn]
    by_cases hk : k = ti
    · rw [if_pos hk, if_pos hk.symm, hk, hv, ex]
    · rw [if_neg hk, if_neg (fun hc => hk hc.symm)]; omega

/-- tokens of kind `k` in an open orders account -/
def held (k : Nat) (o : OpenOrd) : Int := (if o.base = k then o.baseFree + o.baseReserved else 0) + (if o.quote = k then o.quoteFree + o.quoteReserved else 0)

theorem equityOrders_ok {banks : Nat → BankIn} : ∀ {os : List OpenOrd} {m m' : EquityMap}, (m.map (·.1)).Nodup → equityOrders banks m os = .ok m' →
    (m'.map (·.1)).Nodup ∧ (∀ k, k ∈ m'.map (·.1) ↔ k ∈ m.map (·.1) ∨ ∃ o ∈ os, o.base = k ∨ o.quote = k) ∧
    (∀ k, m'.get k = m.get k + sumOf (held k) os * (banks k).oracle) ∧ ∀ o ∈ os, (banks o.base).bad = false ∧ (banks o.quote).bad = false := by
  intro os
  induction os with
  | nil => intro m m' hn h; rw [equityOrders, ok_inj] at h; subst h; exact ⟨hn, by simp, by simp, by simp⟩
  | cons o os ih =>
    intro m m' hn h
    simp only [equityOrders, bind_ok] at h
    obtain ⟨m1, h1, m2, h2, h⟩ := h
    obtain ⟨a1, a2, a3, a4⟩ := equityAdd_ok hn h1
    obtain ⟨b1, b2, b3, b4⟩ := equityAdd_ok a1 h2
    obtain ⟨i1, i2, i3, i4⟩ := ih b1 h
    refine ⟨i1, ?_, ?_, ?_⟩
    · intro k
      rw [i2 k, b2 k, a2 k]
      simp only [List.mem_cons, exists_eq_or_imp]
      constructor
      · rintro (((h | h) | h) | h)
        · exact Or.inl h
        · exact Or.inr (Or.inl (Or.inl h))
        · exact Or.inr (Or.inl (Or.inr h))
        · exact Or.inr (Or.inr h)
      · rintro (h | (h | h) | h)
        · exact Or.inl (Or.inl (Or.inl h))
        · exact Or.inl (Or.inl (Or.inr h))
        · exact Or.inl (Or.inr h)
        · exact Or.inr h
    · intro k
      rw [i3 k, b3 k, a3 k, sumOf_cons, Int.add_mul (held k o)]
      generalize sumOf (held k) os * (banks k).oracle = w
      unfold held
      by_cases hb : o.base = k <;> by_cases hq : o.quote = k
      · rw [if_pos hb, if_pos hq, if_pos hb, if_pos hq, hb, hq, Int.add_mul (o.baseFree + o.baseReserved)]; omega
      · rw [if_pos hb, if_neg hq, if_pos hb, if_neg hq, hb, Int.add_zero, Int.add_zero]; omega
      · rw [if_neg hb, if_pos hq, if_neg hb, if_pos hq, hq, Int.add_zero, Int.zero_add]; omega
      · rw [if_neg hb, if_neg hq, if_neg hb, if_neg hq]; omega
    · intro x hx
      rcases List.mem_cons.mp hx with rfl | hx
      · exact ⟨a4, b4⟩
      · exact i4 x hx

/-- **C92, reported equity** The equity lists every token the account has a position or an open orders account in, each once, and no other; a token's value is its position at the
oracle price (rounded down) plus everything its open orders accounts hold of it, free or reserved, at the oracle price. All these prices were usable. -/
theorem C92_equity {banks : Nat → BankIn} {ps : List Pos} {os : List OpenOrd} {m : EquityMap} (distinct : (ps.map (·.tokenIndex)).Nodup)
    (h : computeEquity banks ps os = .ok m) :
    (m.map (·.1)).Nodup ∧ (∀ k, (∃ v, (k, v) ∈ m) ↔ (∃ p ∈ ps, p.tokenIndex = k) ∨ ∃ o ∈ os, o.base = k ∨ o.quote = k) ∧
    (∀ k v, (k, v) ∈ m → v = sumOf (fun p => if p.tokenIndex = k then posValue banks p else 0) ps + sumOf (held k) os * (banks k).oracle ∧ (banks k).bad = false) := by
  simp only [computeEquity, bind_ok] at h
  obtain ⟨m1, h1, h2⟩ := h
  obtain ⟨a1, a2, a3, a4⟩ := equityTokens_ok distinct (by simp) (by simp) h1
  obtain ⟨b1, b2, b3, b4⟩ := equityOrders_ok a1 h2
  have keys : ∀ k, k ∈ m.map (·.1) ↔ (∃ p ∈ ps, p.tokenIndex = k) ∨ ∃ o ∈ os, o.base = k ∨ o.quote = k := by
    intro k; rw [b2, a2]; simp
  refine ⟨b1, ?_, ?_⟩
  · intro k
    rw [← keys, List.mem_map]
    exact ⟨fun ⟨v, hv⟩ => ⟨(k, v), hv, rfl⟩, fun ⟨e, he, hk⟩ => ⟨e.2, by rw [← hk]; exact he⟩⟩
  · intro k v hv
    refine ⟨?_, ?_⟩
    · rw [← get_mem b1 hv, b3, a3, get_not_mem (by simp)]; omega
    · rcases (keys k).mp (List.mem_map.mpr ⟨(k, v), hv, rfl⟩) with ⟨p, hp, hk⟩ | ⟨o, ho, hk | hk⟩
      · rw [← hk]; exact a4 p hp
      · rw [← hk]; exact (b4 o ho).1
      · rw [← hk]; exact (b4 o ho).2

/-- a sum over the entries of a map, each key's value being a sum -/
theorem sum_keys {α : Type} {ks : List Nat} (hn : ks.Nodup) (key : α → Nat) (f : α → Int) : ∀ {l : List α}, (∀ a ∈ l, key a ∈ ks) →
    sumOf (fun k => sumOf (fun a => if key a = k then f a else 0) l) ks = sumOf f l := by
  intro l
  induction l with
  | nil => intro _; simp [sumOf_zero]
  | cons a l ih =>
    intro h
    rw [sumOf_cons, ← ih (fun x hx => h x (by simp [hx]))]
    have e : sumOf (fun k => sumOf (fun b => if key b = k then f b else 0) (a :: l)) ks =
        sumOf (fun k => if key a = k then f a else 0) ks + sumOf (fun k => sumOf (fun b => if key b = k then f b else 0) l) ks := by
      rw [← sumOf_add]
      apply sumOf_congr
      intro k _
      rw [sumOf_cons]
    rw [e]
    congr 1
    have hm := h a (by simp)
    clear e ih h
    induction ks with
    | nil => cases hm
    | cons k ks ih =>
      rw [List.nodup_cons] at hn
      rw [sumOf_cons]
      rcases List.mem_cons.mp hm with hk | hk
      · rw [if_pos hk, sumOf_zero]
        · omega
        · intro j hj
          rw [if_neg]
          intro hc; exact hn.1 (by rw [← hk, hc]; exact hj)
      · rw [if_neg (by intro hc; exact hn.1 (by rw [← hc]; exact hk)), ih hn.2 hk]; omega

/-- **C92, total equity** The reported values add up to what tokens and open orders accounts are worth, less than 2^-48 per position too low. -/
theorem C92_equity_total {banks : Nat → BankIn} {ps : List Pos} {os : List OpenOrd} {m : EquityMap} (distinct : (ps.map (·.tokenIndex)).Nodup)
    (h : computeEquity banks ps os = .ok m) :
    ((sumOf (·.2) m : Int) : ℚ) / 2 ^ 48 ≤ spot banks ps os ∧ spot banks ps os ≤ ((sumOf (·.2) m : Int) : ℚ) / 2 ^ 48 + ps.length / 2 ^ 48 := by
  obtain ⟨h1, h2, h3⟩ := C92_equity distinct h
  have hq : (2 : ℚ) ^ 48 = (S : ℚ) := by norm_num [S]
  have h0 : (0 : ℚ) < (S : ℚ) := by norm_num [S]
  have e1 : sumOf (·.2) m = sumOf (posValue banks) ps + sumOf (fun o => (o.baseFree + o.baseReserved) * (banks o.base).oracle) os +
      sumOf (fun o => (o.quoteFree + o.quoteReserved) * (banks o.quote).oracle) os := by
    have k1 : ∀ p ∈ ps, p.tokenIndex ∈ m.map (·.1) := by
      intro p hp
      obtain ⟨v, hv⟩ := (h2 p.tokenIndex).mpr (Or.inl ⟨p, hp, rfl⟩)
      exact List.mem_map.mpr ⟨_, hv, rfl⟩
    have k2 : ∀ o ∈ os, o.base ∈ m.map (·.1) := by
      intro o ho
      obtain ⟨v, hv⟩ := (h2 o.base).mpr (Or.inr ⟨o, ho, Or.inl rfl⟩)
      exact List.mem_map.mpr ⟨_, hv, rfl⟩
    have k3 : ∀ o ∈ os, o.quote ∈ m.map (·.1) := by
      intro o ho
      obtain ⟨v, hv⟩ := (h2 o.quote).mpr (Or.inr ⟨o, ho, Or.inr rfl⟩)
      exact List.mem_map.mpr ⟨_, hv, rfl⟩
    rw [← sum_keys h1 (fun (p : Pos) => p.tokenIndex) (posValue banks) k1, ← sum_keys h1 (fun (o : OpenOrd) => o.base) _ k2, ← sum_keys h1 (fun (o : OpenOrd) => o.quote) _ k3,
      sumOf_map, sumOf_map, sumOf_map, ← sumOf_add, ← sumOf_add]
    apply sumOf_congr
    intro e he
    rw [(h3 e.1 e.2 he).1, Int.add_assoc, ← sumOf_add]
    congr 1
    rw [sumOf_mul]
    apply sumOf_congr
    intro o _
    unfold held
    rw [Int.add_mul]
    congr 1
    · split
      · rename_i hk; rw [hk]
      · simp
    · split
      · rename_i hk; rw [hk]
      · simp
  have e2 : (os.map (orders banks)).sum = (((sumOf (fun o => (o.baseFree + o.baseReserved) * (banks o.base).oracle) os : Int) : ℚ) +
      ((sumOf (fun o => (o.quoteFree + o.quoteReserved) * (banks o.quote).oracle) os : Int) : ℚ)) / 2 ^ 48 := by
    rw [cast_sumOf, cast_sumOf, ← sum_add_map, div_eq_mul_inv, ← sum_mul_map]
    congr 1
    apply List.map_congr_left
    intro o _
    unfold orders price
    push_cast
    ring
  have e3 : ∀ l : List Pos, ((sumOf (posValue banks) l : Int) : ℚ) ≤ (l.map (fun p => tokens banks p * price banks p.tokenIndex)).sum * 2 ^ 48 ∧
      (l.map (fun p => tokens banks p * price banks p.tokenIndex)).sum * 2 ^ 48 ≤ ((sumOf (posValue banks) l : Int) : ℚ) + l.length := by
    intro l
    induction l with
    | nil => simp
    | cons p l ih =>
      have f1 := Int.floor_le (tokens banks p * price banks p.tokenIndex * 2 ^ 48)
      have f2 := Int.lt_floor_add_one (tokens banks p * price banks p.tokenIndex * 2 ^ 48)
      have f3 : posValue banks p = ⌊tokens banks p * price banks p.tokenIndex * 2 ^ 48⌋ := rfl
      rw [← f3] at f1 f2
      simp only [sumOf_cons, List.map_cons, List.sum_cons, List.length_cons]
      push_cast
      constructor <;> linarith [ih.1, ih.2]
  obtain ⟨g1, g2⟩ := e3 ps
  unfold spot
  rw [e2, e1]
  push_cast
  rw [hq] at *
  constructor
  · rw [div_le_iff₀ h0, add_mul, div_mul_cancel₀ _ h0.ne']
    linarith
  · rw [← add_div, le_div_iff₀ h0, add_mul, div_mul_cancel₀ _ h0.ne']
    linarith

/-- **C92, account data** What ComputeAccountData logs: it works in testing groups only, and both healths are at most the reported equity plus the perp positions (which the report
leaves out), up to rounding. -/
theorem C92_account_data {rnd : ℚ → ℚ} {ε : ℚ} (R : Stable.IsRnd rnd ε) (he : ε ≤ 1 / 5) {testing : Bool} {now : Int} {banks : Nat → BankIn} {ps : List Pos} {os : List OpenOrd}
    {perps : List (Perp.Market × Perp.Pos × I80F48)} {r : AccountData} (distinct : (ps.map (·.tokenIndex)).Nodup) (hB : ∀ p ∈ ps, BankOk (banks p.tokenIndex))
    (hO : ∀ o ∈ os, OrdersOk o) (hX : ∀ x ∈ perps, PerpOk x) (h : computeAccountData rnd testing now banks ps os perps = .ok r) :
    testing = true ∧
    (max r.initHealth r.maintHealth : ℚ) / 2 ^ 48 ≤ ((sumOf (·.2) r.equity : Int) : ℚ) / 2 ^ 48 + perp banks perps + ps.length / 2 ^ 48 + (os.map (slack banks ε)).sum := by
  simp only [computeAccountData, bind_ok, require_ok] at h
  obtain ⟨_, ht, c, hc, i, hi, m, hm, e, hE, h⟩ := h
  rw [ok_inj] at h; subst h
  have a1 := C92_health_le_worth R he distinct hB hO hX (h := .init) (v := i) (by simp only [accountHealth, bind_ok]; exact ⟨c, hc, hi⟩)
  have a2 := C92_health_le_worth R he distinct hB hO hX (h := .maint) (v := m) (by simp only [accountHealth, bind_ok]; exact ⟨c, hc, hm⟩)
  have a3 := (C92_equity_total distinct hE).2
  unfold total at a1 a2
  refine ⟨ht, ?_⟩
  dsimp only
  rcases max_choice (i : ℚ) (m : ℚ) with hx | hx <;> rw [hx] <;> linarith

/-! ## A concrete account: the positions of C55: a debt of 300, 100 tokens of price 5, spot orders and a short perp position -/

/-- the banks of C55, with a weight shift over 128 seconds -/
def exB (ti : Nat) : BankIn := { exBank ti with bank := { (exBank ti).bank with maintWeightShiftEnd := 228 } }

theorem exBankOk (ti : Nat) : BankOk (exB ti) := by
  by_cases h : ti = 0
  · subst h
    exact ⟨⟨by decide, by decide +kernel, by decide +kernel⟩, Or.inl rfl, by decide, by decide, by decide, by decide, by decide, by decide⟩
  · have : exB ti = exB 1 := by unfold exB exBank; simp [h]
    rw [this]
    exact ⟨⟨by decide, by decide +kernel, by decide +kernel⟩, Or.inr (by decide), by decide, by decide, by decide, by decide, by decide, by decide⟩

/-- the hypotheses of C92 are met -/
theorem exWorth : (exPs.map (·.tokenIndex)).Nodup ∧ (∀ p ∈ exPs, BankOk (exB p.tokenIndex)) ∧ (∀ o ∈ exOs, OrdersOk o) ∧ (∀ x ∈ exPerps, PerpOk x) := by
  refine ⟨by decide, fun p _ => exBankOk _, ?_, ?_⟩
  · intro o ho
    rw [exOs, List.mem_singleton] at ho
    subst ho
    exact ⟨by decide, by decide, by decide, by decide⟩
  · intro x hx
    rw [exPerps, List.mem_singleton] at hx
    subst hx
    exact ⟨by decide, by decide, by decide, by decide, by decide, by decide⟩

/-- ... and ComputeAccountData reports init health -69, maintenance health 572.69 and tokens worth -230 and 565; together with the perp position the account is worth 838.
Without it, the equity reported is below maintenance health: it says nothing about perps. -/
theorem exData : computeAccountData (fun x => x) true 164 exB exPs exOs exPerps =
      .ok ⟨-19421773393035280, 161197200724983763, [(0, -230 * 2 ^ 48), (1, 565 * 2 ^ 48)]⟩ ∧
    spot exB exPs exOs = 335 ∧ perp exB exPerps = 503 ∧ total exB exPs exOs exPerps = 838 ∧ (exOs.map (slack exB 0)).sum = 51 / 2 ^ 47 := by
  decide +kernel

example : ((-19421773393035280 : Int) : ℚ) / 2 ^ 48 ≤ total exB exPs exOs exPerps + (exOs.map (slack exB 0)).sum :=
  C92_health_le_worth (rnd := fun x => x) (now := 164) (h := .init) Stable.isRnd_id (by norm_num) exWorth.1 exWorth.2.1 exWorth.2.2.1 exWorth.2.2.2 (by decide +kernel)

/-- a bank that passes `verify` although its asset weights are 1.5 -/
def exHeavy : BankIn :=
  { bank := { depositIndex := S, borrowIndex := S, indexedDeposits := 500 * S, indexedBorrows := 100 * S, stablePrice := S, maintAssetWeight := S / 2 * 3, initAssetWeight := S / 2 * 3,
              maintLiabWeight := S / 2 * 3, initLiabWeight := S / 2 * 3 }, oracle := S }

/-- **C92, the weights matter** `verify` accepts such weights, and then health exceeds worth: with 100 deposited here and 120 owed elsewhere the account owes more than it owns, and
all its healths are 30. -/
theorem C92_weights_not_checked : exHeavy.Verified ∧
    (let banks := fun ti => if ti = 0 then exB 0 else exHeavy
     let ps : List Pos := [⟨0, -40 * S⟩, ⟨1, 100 * S⟩]
     (∀ h ∈ [HT.init, .maint, .liqEnd], accountHealth (fun x => x) (f64Div (fun x => x)) 0 banks ps [] [] h = .ok (30 * S)) ∧ total banks ps [] [] = -20) := by
  refine ⟨⟨by decide, by decide +kernel, by decide +kernel⟩, ?_⟩
  decide +kernel

end Worth
end Health
end Mango
