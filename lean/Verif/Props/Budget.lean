import Verif.Client.Budget
/-!
# C109: compute budget and priority fee of the client's transactions
-/
namespace Mango
namespace Budget

/-! ## Specification -/

/-- the value of the limit instructions in a list -/
def limits (ixs : List Ix) : List Nat := ixs.filterMap fun | .limit n => some n | _ => none

/-- the value of the price instructions in a list -/
def prices (ixs : List Ix) : List Nat := ixs.filterMap fun | .price n => some n | _ => none

/-- the instructions of other programs -/
def work (ixs : List Ix) : List Nat := ixs.filterMap fun | .other n => some n | _ => none

theorem limits_nil_iff (ixs : List Ix) : limits ixs = [] ↔ ixs.any Ix.isLimit = false := by
  induction ixs with
  | nil => simp [limits]
  | cons i is ih => cases i <;> simp_all [limits, Ix.isLimit]

theorem prices_nil_iff (ixs : List Ix) : prices ixs = [] ↔ ixs.any Ix.isPrice = false := by
  induction ixs with
  | nil => simp [prices]
  | cons i is ih => cases i <;> simp_all [prices, Ix.isPrice]

theorem count_eq (ixs : List Ix) : ixs.length = (work ixs).length + (ixs.filter Ix.isBudget).length := by
  induction ixs with
  | nil => simp [work]
  | cons i is ih => cases i <;> simp only [work, List.filterMap_cons, List.filter_cons, Ix.isBudget, if_true, Bool.false_eq_true, if_false, List.length_cons] at ih ⊢ <;> omega

/-- **C109.** What is sent are the given instructions, unchanged and in order, after at most a price and a limit.  A limit or price the caller gave is the only one (none is added); otherwise the price is
the provider's, if it is positive, and the limit the configured one times the number of instructions of other programs, if that setting is positive. -/
theorem C109_budget {c : Cfg} {ixs out : List Ix} (h : withBudget c ixs = some out) :
    ixs <:+ out ∧ work out = work ixs ∧
    limits out = (if limits ixs ≠ [] ∨ c.cuPerIx.getD 0 = 0 then limits ixs
      else [c.cuPerIx.getD 0 * (work ixs).length]) ∧
    prices out = (if prices ixs ≠ [] ∨ c.prio.getD 0 = 0 then prices ixs else [c.prio.getD 0]) ∧
    (∀ n ∈ limits out, n ∈ limits ixs ∨ n ≤ 4294967295) := by
  have hl := limits_nil_iff ixs
  have hp := prices_nil_iff ixs
  have hc := count_eq ixs
  have hcount : ixs.length - (ixs.filter Ix.isBudget).length = (work ixs).length := by omega
  unfold withBudget addLimit at h
  simp only [hcount] at h
  by_cases h1 : limits ixs = []
  · have a1 := hl.mp h1
    by_cases h2 : c.cuPerIx.getD 0 = 0
    · by_cases h3 : prices ixs = []
      · have a3 := hp.mp h3
        by_cases h4 : c.prio.getD 0 = 0
        · simp [h2, addPrice, h4] at h
          subst h
          simp [h1, h3, h2, h4]
        · simp [h2, addPrice, a3, Nat.pos_of_ne_zero h4] at h
          subst h
          refine ⟨List.suffix_cons _ _, rfl, ?_, ?_, ?_⟩
          · simpa [limits, h2] using h1
          · simp [h3, h4]; simpa [prices] using h3
          · intro n hn; left; simpa [limits] using hn
      · have a3 : ixs.any Ix.isPrice = true := by
          cases hb : ixs.any Ix.isPrice
          · exact absurd (hp.mpr hb) h3
          · rfl
        simp [h2, addPrice, a3] at h
        subst h
        simp [h1, h2, h3]
    · have hpos := Nat.pos_of_ne_zero h2
      simp only [a1, Bool.false_eq_true, not_false_eq_true, gt_iff_lt, hpos, and_self, if_true] at h
      by_cases hb : (work ixs).length ≤ u32Max ∧ c.cuPerIx.getD 0 * (work ixs).length ≤ u32Max
      · simp only [if_pos hb, Option.map_some, Option.some.injEq] at h
        have hle : c.cuPerIx.getD 0 * (work ixs).length ≤ 4294967295 := hb.2
        by_cases h3 : prices ixs = []
        · have a3 := hp.mp h3
          by_cases h4 : c.prio.getD 0 = 0
          · simp [addPrice, h4] at h
            subst h
            refine ⟨List.suffix_cons _ _, rfl, ?_, ?_, ?_⟩
            · simp [h1, h2]; simpa [limits] using h1
            · simp [h4]; simp [prices]
            · intro n hn
              simp only [limits, List.filterMap_cons, List.mem_cons] at hn
              rcases hn with rfl | hn
              · exact .inr hle
              · exact .inl hn
          · simp [addPrice, a3, Nat.pos_of_ne_zero h4] at h
            subst h
            refine ⟨(List.suffix_cons _ _).trans (List.suffix_cons _ _), rfl, ?_, ?_, ?_⟩
            · simp [h1, h2]; simpa [limits] using h1
            · simp [h3, h4]; simpa [prices] using h3
            · intro n hn
              simp only [limits, List.filterMap_cons, List.mem_cons] at hn
              rcases hn with rfl | hn
              · exact .inr hle
              · exact .inl hn
        · have a3 : ixs.any Ix.isPrice = true := by
            cases hb : ixs.any Ix.isPrice
            · exact absurd (hp.mpr hb) h3
            · rfl
          simp [addPrice, a3] at h
          subst h
          refine ⟨List.suffix_cons _ _, rfl, ?_, ?_, ?_⟩
          · simp [h1, h2]; simpa [limits] using h1
          · simp [h3]; simp [prices]
          · intro n hn
            simp only [limits, List.filterMap_cons, List.mem_cons] at hn
            rcases hn with rfl | hn
            · exact .inr hle
            · exact .inl hn
      · simp only [if_neg hb, Option.map_none] at h
        cases h
  · have a1 : ixs.any Ix.isLimit = true := by
      cases hb : ixs.any Ix.isLimit
      · exact absurd (hl.mpr hb) h1
      · rfl
    simp only [a1, not_true_eq_false, false_and, if_false, Option.map_some, Option.some.injEq] at h
    unfold addPrice at h
    by_cases h3 : prices ixs = []
    · have a3 := hp.mp h3
      by_cases h4 : c.prio.getD 0 = 0
      · simp [h4] at h
        subst h
        simp [h1, h4]
        exact fun _ hn => .inl hn
      · simp [a3, Nat.pos_of_ne_zero h4] at h
        subst h
        refine ⟨List.suffix_cons _ _, rfl, ?_, ?_, ?_⟩
        · simp [h1]; simp [limits]
        · simp [h3, h4]; simpa [prices] using h3
        · intro n hn; left; simpa [limits] using hn
    · have a3 : ixs.any Ix.isPrice = true := by
        cases hb : ixs.any Ix.isPrice
        · exact absurd (hp.mpr hb) h3
        · rfl
      simp [a3] at h
      subst h
      simp [h1, h3]
      exact fun _ hn => .inl hn

/-- the panic is only for too large limits -/
theorem C109_total (c : Cfg) (ixs : List Ix) (h : (work ixs).length ≤ 4294967295)
    (h2 : c.cuPerIx.getD 0 * (work ixs).length ≤ 4294967295) : ∃ out, withBudget c ixs = some out := by
  have hc := count_eq ixs
  have hcount : ixs.length - (ixs.filter Ix.isBudget).length = (work ixs).length := by omega
  unfold withBudget addLimit
  simp only [hcount]
  split
  · have : (work ixs).length ≤ u32Max ∧ c.cuPerIx.getD 0 * (work ixs).length ≤ u32Max := ⟨h, h2⟩
    simp [this]
  · simp

/-- the instructions gathered since the last `clear`, and their compute units: the specification -/
def gathered : List Op → List (List Ix × Nat)
  | [] => []
  | .clear :: os => gathered os
  | .push ix cu :: os => if os.any (fun | .clear => true | _ => false) then gathered os else ([ix], cu) :: gathered os
  | .append ixs cu :: os => if os.any (fun | .clear => true | _ => false) then gathered os else (ixs, cu) :: gathered os

theorem Prepared.run_spec (os : List Op) : ∀ (p q : Prepared), p.run os = some q →
    let kept := if os.any (fun | .clear => true | _ => false) then Prepared.new else p
    q.ixs = kept.ixs ++ ((gathered os).map Prod.fst).flatten ∧
    q.cu = kept.cu + ((gathered os).map Prod.snd).sum := by
  induction os with
  | nil =>
    intro p q h
    simp only [Prepared.run, Option.some.injEq] at h
    subst h
    simp [gathered]
  | cons o os ih =>
    intro p q h
    unfold Prepared.run at h
    cases hs : p.step o with
    | none => rw [hs] at h; cases h
    | some r =>
      rw [hs] at h
      have := ih r q h
      cases o with
      | clear =>
        simp only [Prepared.step, Option.some.injEq] at hs
        subst hs
        by_cases ha : os.any (fun | .clear => true | _ => false) = true
        · simpa [gathered, ha, Prepared.new] using this
        · simpa [gathered, ha, Prepared.new, Prepared.clear] using this
      | push ix cu =>
        simp only [Prepared.step, Prepared.push] at hs
        split at hs
        · cases hs
          by_cases ha : os.any (fun | .clear => true | _ => false) = true
          · simpa [gathered, ha, Prepared.new] using this
          · simpa [gathered, ha, Prepared.new, Nat.add_assoc] using this
        · cases hs
      | append ixs cu =>
        simp only [Prepared.step, Prepared.append] at hs
        by_cases hle : p.cu + (Prepared.fromVec ixs cu).cu ≤ u32Max
        · rw [if_pos hle] at hs
          cases hs
          by_cases ha : os.any (fun | .clear => true | _ => false) = true
          · simpa [gathered, ha, Prepared.new] using this
          · simpa [gathered, ha, Prepared.new, Nat.add_assoc, Prepared.fromVec] using this
        · rw [if_neg hle] at hs; cases hs

/-- **C109.** A transaction gathered with `push`, `append` and `clear` does all that was gathered since the last `clear`, in order, and its compute limit is the sum of theirs — whatever limit per
instruction is configured. -/
theorem C109_prepared {os : List Op} {p : Prepared} (h : Prepared.new.run os = some p) (c : Cfg)
    (hl : ∀ g ∈ gathered os, limits g.1 = []) :
    ∃ out, withBudget c p.toInstructions = some out ∧
      work out = ((gathered os).map (fun g => work g.1)).flatten ∧
      limits out = [((gathered os).map Prod.snd).sum] := by
  have hr := Prepared.run_spec os _ _ h
  have hk : (if os.any (fun | .clear => true | _ => false) then Prepared.new else Prepared.new) = Prepared.new := by
    split <;> rfl
  simp only [hk] at hr
  obtain ⟨h1, h2⟩ := hr
  simp only [Prepared.new, List.nil_append, Nat.zero_add] at h1 h2
  have hw : work p.ixs = ((gathered os).map (fun g => work g.1)).flatten := by
    rw [h1]
    generalize gathered os = gs
    induction gs with
    | nil => rfl
    | cons g gs ih =>
      simp only [List.map_cons, List.flatten_cons, work, List.filterMap_append] at ih ⊢
      rw [ih]
  have hlim : limits p.ixs = [] := by
    rw [h1]
    revert hl
    generalize gathered os = gs
    intro hl
    induction gs with
    | nil => rfl
    | cons g gs ih =>
      have a := hl g (by simp)
      have b := ih (fun x hx => hl x (by simp [hx]))
      simp only [List.map_cons, List.flatten_cons, limits, List.filterMap_append] at a b ⊢
      rw [a, b]; rfl
  have hlt : limits p.toInstructions = [p.cu] := by
    show p.cu :: limits p.ixs = _
    rw [hlim]
  have hne : limits p.toInstructions ≠ [] := by rw [hlt]; simp
  have hsome : ∃ out, withBudget c p.toInstructions = some out := by
    have : p.toInstructions.any Ix.isLimit = true := by simp [Prepared.toInstructions, Ix.isLimit]
    simp [withBudget, addLimit, this]
  obtain ⟨out, ho⟩ := hsome
  obtain ⟨_, hwork, hlim', _, _⟩ := C109_budget ho
  refine ⟨out, ho, ?_, ?_⟩
  · rw [hwork, ← hw]; rfl
  · rw [hlim', if_pos (.inl hne), hlt, h2]

/-! ## The fee -/

/-- the fees of the blocks that have one, oldest first, with their times -/
def seen (bs : List (Nat × Option Nat)) : List (Nat × Nat) := bs.filterMap fun b => b.2.map fun f => (b.1, f)

/-- the average as a weighted sum: a fee that is followed by `k` others weighs `α (1-α)^k` -/
def weighted (α : ℚ) : List (Nat × Nat) → ℚ
  | [] => 0
  | b :: bs => α * (1 - α) ^ bs.length * b.2 + weighted α bs

theorem Ema.run_spec (c : EmaCfg) (bs : List (Nat × Option Nat)) : ∀ d : Ema,
    (d.run c bs).ema = d.ema * (1 - c.alpha) ^ (seen bs).length + weighted c.alpha (seen bs) ∧
    (d.run c bs).lastUpdate = ((seen bs).getLast?.map Prod.fst).or d.lastUpdate := by
  induction bs with
  | nil => intro d; simp [Ema.run, seen, weighted]
  | cons b bs ih =>
    intro d
    obtain ⟨t, f⟩ := b
    cases f with
    | none => simpa [Ema.run, Ema.block, seen] using ih d
    | some f =>
      have := ih (d.block c t (some f))
      have hs : seen ((t, some f) :: bs) = (t, f) :: seen bs := by simp [seen]
      rw [hs]
      unfold Ema.run
      obtain ⟨h1, h2⟩ := this
      refine ⟨?_, ?_⟩
      · simp only [h1]
        simp only [Ema.block, weighted, List.length_cons, pow_succ]
        ring
      · simp only [h2]
        cases hq : seen bs with
        | nil => simp [Ema.block]
        | cons x xs =>
          rw [List.getLast?_cons_cons]
          obtain ⟨y, hy⟩ : ∃ y, (x :: xs).getLast? = some y := ⟨_, List.getLast?_eq_some_getLast (by simp)⟩
          rw [hy]; rfl

theorem weighted_bounds {α : ℚ} (h0 : 0 ≤ α) (h1 : α ≤ 1) (m : Nat) (bs : List (Nat × Nat))
    (hm : ∀ b ∈ bs, b.2 ≤ m) : 0 ≤ weighted α bs ∧ weighted α bs ≤ m * (1 - (1 - α) ^ bs.length) := by
  induction bs with
  | nil => simp [weighted]
  | cons b bs ih =>
    obtain ⟨i1, i2⟩ := ih (fun x hx => hm x (by simp [hx]))
    have hb : (b.2 : ℚ) ≤ m := by exact_mod_cast hm b (by simp)
    have hb0 : (0 : ℚ) ≤ b.2 := by positivity
    have hp : 0 ≤ α * (1 - α) ^ bs.length := mul_nonneg h0 (pow_nonneg (by linarith) _)
    refine ⟨?_, ?_⟩
    · simp only [weighted]; have := mul_nonneg hp hb0; linarith
    · simp only [weighted, List.length_cons, pow_succ]
      have := mul_le_mul_of_nonneg_left hb hp
      nlinarith

/-- **C109.** The averaging provider's fee: after any blocks, it is the fallback if none of them had a fee or the last that did is older than the maximum age, and otherwise the (rounded down) exponentially
weighted sum of the fees seen, never above the largest of them. -/
theorem C109_fee (c : EmaCfg) (h0 : 0 ≤ c.alpha) (h1 : c.alpha ≤ 1) (bs : List (Nat × Option Nat)) (now : Nat) :
    let fee := (Ema.init.run c bs).fee c now
    (∀ b, (seen bs).getLast? = some b → now ≤ b.1 + c.maxAge →
      fee = min (Int.toNat ⌊weighted c.alpha (seen bs)⌋) 18446744073709551615 ∧
      ∀ m, (∀ x ∈ seen bs, x.2 ≤ m) → fee ≤ m) ∧
    (((seen bs).getLast? = none ∨ ∃ b, (seen bs).getLast? = some b ∧ b.1 + c.maxAge < now) → fee = c.fallback) := by
  obtain ⟨e1, e2⟩ := Ema.run_spec c bs Ema.init
  simp only [Ema.init, zero_mul, zero_add, Option.or_none] at e1 e2
  have fe : (Ema.init.run c bs).fee c now =
      match (seen bs).getLast?.map Prod.fst with
      | none => c.fallback
      | some t => if now - t > c.maxAge then c.fallback else asU64 (weighted c.alpha (seen bs)) := by
    unfold Ema.fee Ema.init
    rw [e2, e1]
    cases (seen bs).getLast? <;> rfl
  simp only [fe]
  refine ⟨?_, ?_⟩
  · intro b hb hn
    simp only [hb, Option.map_some]
    rw [if_neg (by omega)]
    refine ⟨rfl, ?_⟩
    intro m hm
    obtain ⟨w0, w1⟩ := weighted_bounds h0 h1 m _ hm
    have hle : weighted c.alpha (seen bs) ≤ m := by
      have : (0 : ℚ) ≤ (1 - c.alpha) ^ (seen bs).length := pow_nonneg (by linarith) _
      have : (0 : ℚ) ≤ m * (1 - c.alpha) ^ (seen bs).length := mul_nonneg (by positivity) this
      nlinarith
    refine le_trans (min_le_left _ _) ?_
    have : ⌊weighted c.alpha (seen bs)⌋ ≤ (m : ℤ) := by
      have := Int.floor_le_floor hle
      simpa using this
    omega
  · rintro (hb | ⟨b, hb, hn⟩)
    · simp [hb]
    · simp only [hb, Option.map_some]
      rw [if_pos (by omega)]

/-- **C109.** The average starts at zero: after `n` blocks with the same fee `f` it is `f (1 - (1-α)^n)`, below `f` however many there were (and below the fallback if that is near `f`). -/
theorem C109_start (c : EmaCfg) (f : Nat) (times : List Nat) :
    (Ema.init.run c (times.map fun t => (t, some f))).ema = f * (1 - (1 - c.alpha) ^ times.length) := by
  have hs : ∀ ts : List Nat, seen (ts.map fun t => (t, some f)) = ts.map fun t => (t, f) := by
    intro ts
    induction ts with
    | nil => rfl
    | cons t ts ih => simp_all [seen]
  have hw : ∀ ts : List Nat, weighted c.alpha (ts.map fun t => (t, f)) = f * (1 - (1 - c.alpha) ^ ts.length) := by
    intro ts
    induction ts with
    | nil => simp [weighted]
    | cons t ts ih =>
      simp only [List.map_cons, weighted, List.length_map, List.length_cons, ih, pow_succ]
      ring
  rw [(Ema.run_spec c (times.map fun t => (t, some f)) Ema.init).1, hs, hw]
  simp [Ema.init]

/-! ## Examples -/

example : withBudget ⟨some 250000, some 7⟩ [.other 1, .otherBudget 3, .other 2] =
    some [.price 7, .limit 500000, .other 1, .otherBudget 3, .other 2] := by decide
example : withBudget ⟨some 250000, some 7⟩ [.limit 9, .other 2] = some [.price 7, .limit 9, .other 2] := by decide
example : withBudget ⟨some 4294967295, none⟩ [.other 1, .other 2] = none := by decide
example : ((Prepared.new.run [.push (.other 8) 50, .clear, .push (.other 1) 100, .append [.other 2, .other 3] 70]).map
    (·.toInstructions)) = some [.limit 170, .other 1, .other 2, .other 3] := by decide
/-- with α = 1/5 and fallback 900 the first block at 1000 gives a fee of 200, and 16 s later the fallback -/
example : (Ema.init.run ⟨1/5, 900, 15⟩ [(3, some 1000), (4, none)]).fee ⟨1/5, 900, 15⟩ 18 = 200 ∧
    (Ema.init.run ⟨1/5, 900, 15⟩ [(3, some 1000), (4, none)]).fee ⟨1/5, 900, 15⟩ 19 = 900 := by decide +kernel

end Budget
end Mango
