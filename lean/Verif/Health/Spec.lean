import Verif.Health.Lemmas
/-!
# Exact worth of an account's token balances

Specification for the health properties with funds in spot orders: exact (unrounded) worth of balances, and the balances after the
orders of every spot market executed entirely to its base token or entirely to its quote token.
Worth is in units of 2^-48 of the health's last place squared: a health `v` (bit pattern) corresponds to `v * S * S`.
-/
namespace Mango
namespace Health
open Fx

/-- exact weighted worth of a balance: liabilities at liability weight and price, assets at asset weight and price -/
def worth (t : TokenInfo) (h : HT) (b : I80F48) : Int :=
  if b < 0 then b * (t.liabWeight h * t.prices.liab h) else b * (t.assetWeight h * t.prices.asset h)

/-- worth of a balance of the token at position `k` (0 beyond the end) -/
def worthAt (ts : List TokenInfo) (h : HT) (k : Nat) (b : Int) : Int :=
  match ts[k]? with
  | some t => worth t h b
  | none => 0

/-- exact worth of all balances -/
def totalWorth (ts : List TokenInfo) (h : HT) (b : Nat → Int) : Int :=
  sumOf (fun k => worthAt ts h k (b k)) (List.range ts.length)

/-- what a market's reserved funds add to the token at position `k` if all converted to base (`true`) or all to quote -/
def conv (x : Serum3Info × Serum3Reserved) (toBase : Bool) (k : Nat) : Int :=
  match toBase with
  | true => if x.1.baseIdx = k then x.2.asBase else 0
  | false => if x.1.quoteIdx = k then x.2.asQuote else 0

/-- the sum over all markets, each with its own direction -/
def convAll (xs : List ((Serum3Info × Serum3Reserved) × Bool)) (k : Nat) : Int := sumOf (fun x => conv x.1 x.2 k) xs

/-- everything a market could add to token `k` -/
def part (x : Serum3Info × Serum3Reserved) (k : Nat) : Int := conv x true k + conv x false k

/-- risk parameters of a token with non-negative prices and `asset weight * asset price ≤ liab weight * liab price` -/
structure TokenInfo.Sane (t : TokenInfo) (h : HT) : Prop where
  aw : 0 ≤ t.assetWeight h
  ap : 0 ≤ t.prices.asset h
  lw : 0 ≤ t.liabWeight h
  lp : 0 ≤ t.prices.liab h
  le : t.assetWeight h * t.prices.asset h ≤ t.liabWeight h * t.prices.liab h

theorem TokenInfo.Sane.ap' {t : TokenInfo} {h : HT} (s : t.Sane h) : 0 ≤ t.assetWeight h * t.prices.asset h := Int.mul_nonneg s.aw s.ap

theorem worth_mono {t : TokenInfo} {h : HT} (s : t.Sane h) {a b : Int} (hab : a ≤ b) : worth t h a ≤ worth t h b := by
  have h0 := s.ap'
  have h1 := s.le
  unfold worth
  generalize t.liabWeight h * t.prices.liab h = L at *
  generalize t.assetWeight h * t.prices.asset h = A at *
  split <;> split
  · exact Int.mul_le_mul_of_nonneg_right hab (by omega)
  · have : a * L ≤ 0 := Int.mul_nonpos_of_nonpos_of_nonneg (by omega) (by omega)
    have : 0 ≤ b * A := Int.mul_nonneg (by omega) (by omega)
    omega
  · omega
  · exact Int.mul_le_mul_of_nonneg_right hab (by omega)

/-- worth is concave: adding `r` is worth less the more one already has -/
theorem worth_concave {t : TokenInfo} {h : HT} (s : t.Sane h) {u v r : Int} (huv : u ≤ v) (hr : 0 ≤ r) :
    worth t h v - worth t h (v - r) ≤ worth t h u - worth t h (u - r) := by
  have h0 := s.ap'
  have h1 := s.le
  unfold worth
  generalize t.liabWeight h * t.prices.liab h = L at *
  generalize t.assetWeight h * t.prices.asset h = A at *
  obtain ⟨D, hD, rfl⟩ : ∃ D, 0 ≤ D ∧ L = A + D := ⟨L - A, by omega, by omega⟩
  have key : ∀ x : Int, (if x < 0 then x * (A + D) else x * A) = x * A + min x 0 * D := by
    intro x
    split
    · have : min x 0 = x := by omega
      rw [this, Int.mul_add]
    · have : min x 0 = 0 := by omega
      rw [this]; simp
  simp only [key]
  have e : (min v 0 - min (v - r) 0) * D ≤ (min u 0 - min (u - r) 0) * D :=
    Int.mul_le_mul_of_nonneg_right (by omega) hD
  simp only [Int.sub_mul] at e ⊢
  omega

theorem worth_linear {t : TokenInfo} {h : HT} (hl : t.assetWeight h * t.prices.asset h = t.liabWeight h * t.prices.liab h) (b : Int) :
    worth t h b = b * (t.assetWeight h * t.prices.asset h) := by
  unfold worth; split <;> simp [hl]

/-- a change of the balance function at one position changes the sum at that position -/
theorem sum_range_update (G : Nat → Int → Int) (b : Nat → Int) (i : Nat) (r : Int) : ∀ n, i < n →
    sumOf (fun k => G k (b k + (if i = k then r else 0))) (List.range n) =
      sumOf (fun k => G k (b k)) (List.range n) + (G i (b i + r) - G i (b i)) := by
  intro n
  induction n with
  | zero => intro h; omega
  | succ n ih =>
    intro hi
    rw [List.range_succ, sumOf_append, sumOf_append]
    simp only [sumOf_cons, sumOf_nil]
    by_cases hin : i = n
    · subst hin
      have : sumOf (fun k => G k (b k + (if i = k then r else 0))) (List.range i) = sumOf (fun k => G k (b k)) (List.range i) := by
        apply sumOf_congr
        intro k hk
        have : k < i := List.mem_range.mp hk
        rw [if_neg (by omega)]; simp
      simp [this]
    · have := ih (by omega)
      rw [this, if_neg hin]; simp; omega

/-- position of the token a market converts to -/
def convIdx (x : Serum3Info × Serum3Reserved) (toBase : Bool) : Nat := if toBase then x.1.baseIdx else x.1.quoteIdx
def convAmt (x : Serum3Info × Serum3Reserved) (toBase : Bool) : Int := if toBase then x.2.asBase else x.2.asQuote

theorem conv_eq (x : Serum3Info × Serum3Reserved) (d : Bool) (k : Nat) : conv x d k = if convIdx x d = k then convAmt x d else 0 := by
  cases d <;> rfl

theorem totalWorth_cons {ts : List TokenInfo} {h : HT} {b : Nat → Int} {x : (Serum3Info × Serum3Reserved) × Bool}
    {xs : List ((Serum3Info × Serum3Reserved) × Bool)} (hi : convIdx x.1 x.2 < ts.length) :
    totalWorth ts h (fun k => b k + convAll (x :: xs) k) =
      totalWorth ts h (fun k => b k + convAll xs k) +
        (worthAt ts h (convIdx x.1 x.2) (b (convIdx x.1 x.2) + convAll xs (convIdx x.1 x.2) + convAmt x.1 x.2)
          - worthAt ts h (convIdx x.1 x.2) (b (convIdx x.1 x.2) + convAll xs (convIdx x.1 x.2))) := by
  unfold totalWorth
  have := sum_range_update (fun k v => worthAt ts h k v) (fun k => b k + convAll xs k) (convIdx x.1 x.2) (convAmt x.1 x.2) ts.length hi
  rw [← this]
  apply sumOf_congr
  intro k _
  simp only [convAll, sumOf_cons]
  rw [conv_eq]
  congr 1
  omega

/-- all tokens of the list have sane parameters -/
def AllSane (ts : List TokenInfo) (h : HT) : Prop := ∀ t ∈ ts, t.Sane h

theorem worthAt_concave {ts : List TokenInfo} {h : HT} (s : AllSane ts h) (k : Nat) {u v r : Int} (huv : u ≤ v) (hr : 0 ≤ r) :
    worthAt ts h k v - worthAt ts h k (v - r) ≤ worthAt ts h k u - worthAt ts h k (u - r) := by
  unfold worthAt
  split
  · rename_i t ht; exact worth_concave (s t (List.mem_of_getElem? ht)) huv hr
  · simp

theorem worthAt_mono {ts : List TokenInfo} {h : HT} (s : AllSane ts h) (k : Nat) {u v : Int} (huv : u ≤ v) :
    worthAt ts h k u ≤ worthAt ts h k v := by
  unfold worthAt
  split
  · rename_i t ht; exact worth_mono (s t (List.mem_of_getElem? ht)) huv
  · simp

/-- what the exact (unrounded) serum effect of a market on one of its tokens is, given the maximal balance `M` -/
def exactEffect (ts : List TokenInfo) (h : HT) (M : Nat → Int) (x : Serum3Info × Serum3Reserved) (d : Bool) : Int :=
  worthAt ts h (convIdx x d) (M (convIdx x d)) - worthAt ts h (convIdx x d) (M (convIdx x d) - convAmt x d)

/-- the effects computed at the maximal balance are at most the worth of executing the orders -/
theorem effects_le {ts : List TokenInfo} {h : HT} (s : AllSane ts h) {b M : Nat → Int} :
    ∀ (xs : List ((Serum3Info × Serum3Reserved) × Bool)),
    (∀ x ∈ xs, convIdx x.1 x.2 < ts.length ∧ 0 ≤ convAmt x.1 x.2) →
    (∀ k, b k + convAll xs k ≤ M k) →
    totalWorth ts h b + sumOf (fun x => exactEffect ts h M x.1 x.2) xs ≤ totalWorth ts h (fun k => b k + convAll xs k) := by
  intro xs
  induction xs with
  | nil => intro _ _; simp [convAll]
  | cons x xs ih =>
    intro h1 h2
    obtain ⟨hi, hr⟩ := h1 x (by simp)
    have hle : ∀ k, convAll xs k ≤ convAll (x :: xs) k := by
      intro k
      simp only [convAll, sumOf_cons, conv_eq]
      split <;> omega
    have := ih (fun y hy => h1 y (by simp [hy])) (fun k => by have := h2 k; have := hle k; omega)
    rw [totalWorth_cons hi]
    have hm := h2 (convIdx x.1 x.2)
    simp only [convAll, sumOf_cons, conv_eq, if_true] at hm
    have hc := worthAt_concave s (convIdx x.1 x.2) (u := b (convIdx x.1 x.2) + convAll xs (convIdx x.1 x.2) + convAmt x.1 x.2)
      (v := M (convIdx x.1 x.2)) (r := convAmt x.1 x.2) (by simp only [convAll, conv_eq]; omega) hr
    simp only [sumOf_cons, exactEffect]
    rw [show b (convIdx x.1 x.2) + convAll xs (convIdx x.1 x.2) + convAmt x.1 x.2 - convAmt x.1 x.2
      = b (convIdx x.1 x.2) + convAll xs (convIdx x.1 x.2) by omega] at hc
    simp only [exactEffect] at this
    omega

/-- the token at `k` weighs assets and liabilities alike -/
def LinearAt (ts : List TokenInfo) (h : HT) (k : Nat) : Prop :=
  ∀ t, ts[k]? = some t → t.assetWeight h * t.prices.asset h = t.liabWeight h * t.prices.liab h

theorem worthAt_linear {ts : List TokenInfo} {h : HT} {k : Nat} (hl : LinearAt ts h k) (u v r : Int) :
    worthAt ts h k v - worthAt ts h k (v - r) = worthAt ts h k (u + r) - worthAt ts h k u := by
  unfold worthAt
  split
  · rename_i t ht
    rw [worth_linear (hl t ht), worth_linear (hl t ht), worth_linear (hl t ht), worth_linear (hl t ht)]
    rw [Int.sub_mul, Int.add_mul]; omega
  · simp

/-- every token is either linear or used by at most one market with reserved funds -/
def Unshared (ts : List TokenInfo) (h : HT) (xs : List (Serum3Info × Serum3Reserved)) : Prop :=
  ∀ k, LinearAt ts h k ∨ xs.Pairwise (fun x y => part x k = 0 ∨ part y k = 0)

theorem sum_part_of_pairwise {k : Nat} : ∀ {xs : List (Serum3Info × Serum3Reserved)} , xs.Pairwise (fun x y => part x k = 0 ∨ part y k = 0) →
    ∀ x ∈ xs, part x k ≠ 0 → sumOf (fun y => part y k) xs = part x k := by
  intro xs
  induction xs with
  | nil => intro _ x hx; simp at hx
  | cons y ys ih =>
    intro hp x hx hne
    rw [List.pairwise_cons] at hp
    rcases List.mem_cons.mp hx with rfl | hx
    · have : sumOf (fun y => part y k) ys = 0 := by
        apply sumOf_zero
        intro z hz
        rcases hp.1 z hz with h | h
        · exact absurd h hne
        · exact h
      simp [this]
    · have h0 : part y k = 0 := by
        rcases hp.1 x hx with h | h
        · exact h
        · exact absurd h hne
      simp [h0, ih hp.2 x hx hne]

/-- with unshared tokens the computed effects are exactly the worth of executing the orders -/
theorem effects_eq {ts : List TokenInfo} {h : HT} {b M : Nat → Int} :
    ∀ (xs : List ((Serum3Info × Serum3Reserved) × Bool)),
    (∀ x ∈ xs, convIdx x.1 x.2 < ts.length ∧ 0 ≤ x.1.2.asBase ∧ 0 ≤ x.1.2.asQuote) →
    (∀ k, LinearAt ts h k ∨ ((∀ x ∈ xs, part x.1 k = 0 ∨ (M k = b k + part x.1 k ∧ x.1.1.baseIdx ≠ x.1.1.quoteIdx)) ∧
      xs.Pairwise (fun x y => part x.1 k = 0 ∨ part y.1 k = 0))) →
    totalWorth ts h (fun k => b k + convAll xs k) = totalWorth ts h b + sumOf (fun x => exactEffect ts h M x.1 x.2) xs := by
  intro xs
  induction xs with
  | nil => intro _ _; simp [convAll]
  | cons x xs ih =>
    intro h1 h2
    obtain ⟨hi, ha, hq⟩ := h1 x (by simp)
    rw [totalWorth_cons hi, ih (fun y hy => h1 y (by simp [hy]))
      (fun k => (h2 k).imp_right (fun hh => ⟨fun y hy => hh.1 y (by simp [hy]), (List.pairwise_cons.mp hh.2).2⟩))]
    simp only [sumOf_cons]
    suffices hs : worthAt ts h (convIdx x.1 x.2) (b (convIdx x.1 x.2) + convAll xs (convIdx x.1 x.2) + convAmt x.1 x.2)
          - worthAt ts h (convIdx x.1 x.2) (b (convIdx x.1 x.2) + convAll xs (convIdx x.1 x.2)) = exactEffect ts h M x.1 x.2 by omega
    unfold exactEffect
    generalize hk : convIdx x.1 x.2 = k at *
    rcases h2 k with hl | ⟨hp, hpw⟩
    · exact (worthAt_linear hl _ _ _).symm
    · have hamt : part x.1 k = 0 → convAmt x.1 x.2 = 0 := by
        intro h0
        cases hd : x.2 <;> simp only [part, conv_eq, convIdx, convAmt, hd] at h0 hk ⊢ <;> simp_all
        · split at h0 <;> omega
        · split at h0 <;> omega
      by_cases h0 : part x.1 k = 0
      · simp [hamt h0]
      · rcases hp x (by simp) with hh | ⟨hh, hne⟩
        · exact absurd hh h0
        · have hrest : convAll xs k = 0 := by
            apply sumOf_zero
            intro y hy
            rcases (List.pairwise_cons.mp hpw).1 y hy with h | h
            · exact absurd h h0
            · obtain ⟨_, ya, yq⟩ := h1 y (by simp [hy])
              have e1 : 0 ≤ conv y.1 true k := by simp only [conv]; split <;> omega
              have e2 : 0 ≤ conv y.1 false k := by simp only [conv]; split <;> omega
              unfold part at h
              cases y.2 <;> omega
          have hr : part x.1 k = convAmt x.1 x.2 := by
            cases hd : x.2 with
            | true =>
              simp only [convIdx, hd, if_true] at hk
              have : ¬ x.1.1.quoteIdx = k := by rw [← hk]; exact fun e => hne e.symm
              simp [part, conv, convAmt, hk, this]
            | false =>
              simp only [convIdx, hd, Bool.false_eq_true, if_false] at hk
              have : ¬ x.1.1.baseIdx = k := by rw [← hk]; exact hne
              simp [part, conv, convAmt, hk, this]
          rw [hrest, hh, hr]
          simp

end Health
end Mango
