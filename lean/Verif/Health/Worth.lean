import Verif.Health.Bounds
/-! Computed health between exact worths: upper bound for every way the spot orders can execute, lower bound for one of them. -/
namespace Mango
namespace Health
open Fx

theorem sumOf_zip_fst {α β : Type} (f : α → Int) : ∀ (zs : List α) (ds : List β), ds.length = zs.length →
    sumOf (fun x => f x.1) (zs.zip ds) = sumOf f zs := by
  intro zs
  induction zs with
  | nil => intro ds _; simp
  | cons z zs ih =>
    intro ds hl
    cases ds with
    | nil => simp at hl
    | cons d ds => simp [ih ds (by simpa using hl)]

theorem choose_list {α β : Type} {P : α → β → Prop} : ∀ (zs : List α), (∀ z ∈ zs, ∃ d, P z d) →
    ∃ ds : List β, ds.length = zs.length ∧ ∀ x ∈ zs.zip ds, P x.1 x.2 := by
  intro zs
  induction zs with
  | nil => intro _; exact ⟨[], rfl, by simp⟩
  | cons z zs ih =>
    intro h
    obtain ⟨d, hd⟩ := h z (by simp)
    obtain ⟨ds, h1, h2⟩ := ih (fun y hy => h y (by simp [hy]))
    refine ⟨d :: ds, by simp [h1], ?_⟩
    intro x hx
    simp only [List.zip_cons_cons, List.mem_cons] at hx
    rcases hx with rfl | hx
    · exact hd
    · exact h2 x hx

theorem mem_zip_fst {α β : Type} {zs : List α} {ds : List β} {x : α × β} (h : x ∈ zs.zip ds) : x.1 ∈ zs := (List.of_mem_zip h).1

/-- the markets of a cache have non-negative amounts -/
def Cache.MarketsNonNeg (c : Cache) : Prop := ∀ s ∈ c.serums, s.NonNeg

theorem getElem?_lt {α : Type} {l : List α} {i : Nat} {x : α} (h : l[i]? = some x) : i < l.length := by
  by_contra hc
  rw [List.getElem?_eq_none (by omega)] at h; simp at h

/-- facts about the reservations of a cache -/
theorem reservations_facts {fd : FDiv} (hfd : FdOk fd) {c : Cache} {h : HT} (sane : AllSane c.tokens h) (nn : c.MarketsNonNeg)
    {mr : List Int} {rs : List Serum3Reserved} (hh : c.reservations fd h = .ok (mr, rs)) :
    rs.length = c.serums.length ∧ mr.length = c.tokens.length ∧
    (∀ k, balAt mr k = sumOf (fun x => part x k) (c.serums.zip rs)) ∧
    ∀ x ∈ c.serums.zip rs, 0 ≤ x.2.asBase ∧ 0 ≤ x.2.asQuote ∧ x.1.baseIdx < c.tokens.length ∧ x.1.quoteIdx < c.tokens.length := by
  obtain ⟨a, b, c1, d⟩ := reservations_ok hh
  have facts : ∀ x ∈ c.serums.zip rs, 0 ≤ x.2.asBase ∧ 0 ≤ x.2.asQuote ∧ x.1.baseIdx < c.tokens.length ∧ x.1.quoteIdx < c.tokens.length := by
    intro x hx
    obtain ⟨q, bt, h1, h2, h3, h4⟩ := d x hx
    have := reserved_nonneg hfd (nn x.1 (mem_zip_fst hx)) (sane q (List.mem_of_getElem? h1)) (sane bt (List.mem_of_getElem? h2)) h3 h4
    exact ⟨this.1, this.2, getElem?_lt h2, getElem?_lt h1⟩
  refine ⟨a, b, ?_, facts⟩
  intro k
  by_cases hk : k < c.tokens.length
  · exact c1 k hk
  · rw [sumOf_zero]
    · unfold balAt
      rw [List.getD_eq_getElem?_getD, List.getElem?_eq_none (by omega)]; rfl
    · intro x hx
      obtain ⟨_, _, h1, h2⟩ := facts x hx
      simp only [part, conv]
      rw [if_neg (by omega), if_neg (by omega)]; rfl

theorem conv_le_part {x : Serum3Info × Serum3Reserved} (hb : 0 ≤ x.2.asBase) (hq : 0 ≤ x.2.asQuote) (d : Bool) (k : Nat) :
    conv x d k ≤ part x k := by
  have e1 : 0 ≤ conv x true k := by simp only [conv]; split <;> omega
  have e2 : 0 ≤ conv x false k := by simp only [conv]; split <;> omega
  unfold part
  cases d <;> omega

/-- Upper bound: computed health is at most the exact worth of the balances after each market's orders executed in any direction
(plus the rounding of the borrows). -/
theorem healthSum_le {fd : FDiv} (hfd : FdOk fd) {c : Cache} {h : HT} (sane : AllSane c.tokens h) (nn : c.MarketsNonNeg)
    {bs : List Int} (hl : bs.length = c.tokens.length) {v : Int} (hh : c.healthSum fd h bs = .ok v)
    {mr : List Int} {rs : List Serum3Reserved} (hr : c.reservations fd h = .ok (mr, rs))
    (dirs : List Bool) (hd : dirs.length = c.serums.length) :
    v * (S * S) ≤ totalWorth c.tokens h (fun k => balAt bs k + convAll ((c.serums.zip rs).zip dirs) k) + tokenExcess bs c.tokens.length := by
  obtain ⟨mr', rs', hr', e, f1, f2⟩ := healthSum_ok hh
  rw [hr] at hr'; simp at hr'; obtain ⟨rfl, rfl⟩ := hr'
  obtain ⟨l1, l2, m, facts⟩ := reservations_facts hfd sane nn hr
  have hl3 : dirs.length = (c.serums.zip rs).length := by simp [l1, hd]
  have tb := (tokens_bounds hl f1).2
  have ef := effects_le sane (b := balAt bs) (M := fun k => balAt bs k + balAt mr k) ((c.serums.zip rs).zip dirs)
    (by
      intro x hx
      obtain ⟨a1, a2, a3, a4⟩ := facts x.1 (mem_zip_fst hx)
      cases hd : x.2 <;> simp [convIdx, convAmt] <;> exact ⟨by assumption, by assumption⟩)
    (by
      intro k
      have : convAll ((c.serums.zip rs).zip dirs) k ≤ sumOf (fun x => part x.1 k) ((c.serums.zip rs).zip dirs) := by
        apply sumOf_le
        intro x hx
        obtain ⟨a1, a2, _⟩ := facts x.1 (mem_zip_fst hx)
        exact conv_le_part a1 a2 _ _
      rw [sumOf_zip_fst (fun x => part x k) _ _ hl3, ← m k] at this
      omega)
  have sm : sumOf (fun (x : Serum3Info × Serum3Reserved) => val (x.1.contribution h c.tokens bs mr x.2)) (c.serums.zip rs) * (S * S) ≤
      sumOf (fun x => exactEffect c.tokens h (fun k => balAt bs k + balAt mr k) x.1 x.2) ((c.serums.zip rs).zip dirs) := by
    rw [sumOf_mul, ← sumOf_zip_fst _ _ _ hl3]
    apply sumOf_le
    intro x hx
    obtain ⟨a1, a2, _⟩ := facts x.1 (mem_zip_fst hx)
    obtain ⟨w, hw⟩ := f2 x.1 (mem_zip_fst hx)
    rw [val_ok hw]
    exact (market_bounds sane a1 a2 hw).1 x.2
  rw [e, Int.add_mul]
  omega

/-- the rounding allowance of the lower bound -/
def slack (c : Cache) (h : HT) (bs : List Int) (rs : List Serum3Reserved) : Int :=
  tokenSlack bs c.tokens.length + sumOf (marketSlack c.tokens h) (c.serums.zip rs)

/-- Lower bound: when every token is linear or used by one market only, computed health is at least the exact worth for some
directions of execution, less the rounding allowance. -/
theorem healthSum_ge {fd : FDiv} (hfd : FdOk fd) {c : Cache} {h : HT} (sane : AllSane c.tokens h) (nn : c.MarketsNonNeg)
    {bs : List Int} (hl : bs.length = c.tokens.length) {v : Int} (hh : c.healthSum fd h bs = .ok v)
    {mr : List Int} {rs : List Serum3Reserved} (hr : c.reservations fd h = .ok (mr, rs))
    (hne : ∀ s ∈ c.serums, s.baseIdx ≠ s.quoteIdx) (hu : Unshared c.tokens h (c.serums.zip rs)) :
    ∃ dirs : List Bool, dirs.length = c.serums.length ∧
      totalWorth c.tokens h (fun k => balAt bs k + convAll ((c.serums.zip rs).zip dirs) k) ≤ v * (S * S) + slack c h bs rs := by
  obtain ⟨mr', rs', hr', e, f1, f2⟩ := healthSum_ok hh
  rw [hr] at hr'; simp at hr'; obtain ⟨rfl, rfl⟩ := hr'
  obtain ⟨l1, l2, m, facts⟩ := reservations_facts hfd sane nn hr
  have tb := (tokens_bounds hl f1).1
  obtain ⟨dirs, hd, hP⟩ := choose_list (P := fun (z : Serum3Info × Serum3Reserved) (d : Bool) =>
      exactEffect c.tokens h (fun k => balAt bs k + balAt mr k) z d ≤ val (z.1.contribution h c.tokens bs mr z.2) * (S * S) + marketSlack c.tokens h z)
    (c.serums.zip rs) (by
      intro z hz
      obtain ⟨a1, a2, _⟩ := facts z hz
      obtain ⟨w, hw⟩ := f2 z hz
      rw [val_ok hw]
      exact (market_bounds sane a1 a2 hw).2.1)
  refine ⟨dirs, by simpa [l1] using hd, ?_⟩
  have ef := effects_eq (ts := c.tokens) (h := h) (b := balAt bs) (M := fun k => balAt bs k + balAt mr k) ((c.serums.zip rs).zip dirs)
    (by
      intro x hx
      obtain ⟨a1, a2, a3, a4⟩ := facts x.1 (mem_zip_fst hx)
      refine ⟨?_, a1, a2⟩
      cases hd : x.2 <;> simp [convIdx] <;> assumption)
    (by
      intro k
      rcases hu k with hlin | hpw
      · exact Or.inl hlin
      · right
        refine ⟨?_, ?_⟩
        · intro x hx
          by_cases h0 : part x.1 k = 0
          · exact Or.inl h0
          · right
            refine ⟨?_, hne x.1.1 (mem_zip_fst (mem_zip_fst hx))⟩
            rw [m k, sum_part_of_pairwise hpw x.1 (mem_zip_fst hx) h0]
        · have : ((c.serums.zip rs).zip dirs).map Prod.fst = c.serums.zip rs := List.map_fst_zip (by omega)
          rw [← this, List.pairwise_map] at hpw
          exact hpw)
  have sm : sumOf (fun x => exactEffect c.tokens h (fun k => balAt bs k + balAt mr k) x.1 x.2) ((c.serums.zip rs).zip dirs) ≤
      sumOf (fun (x : Serum3Info × Serum3Reserved) => val (x.1.contribution h c.tokens bs mr x.2)) (c.serums.zip rs) * (S * S)
        + sumOf (marketSlack c.tokens h) (c.serums.zip rs) := by
    rw [sumOf_mul, ← sumOf_add, ← sumOf_zip_fst _ _ _ hd]
    exact sumOf_le (fun x hx => hP x hx)
  rw [ef, e, Int.add_mul]
  unfold slack
  omega

/-- exact worth is monotone in the balances -/
theorem totalWorth_mono {ts : List TokenInfo} {h : HT} (s : AllSane ts h) {b b' : Nat → Int} (hb : ∀ k, b k ≤ b' k) :
    totalWorth ts h b ≤ totalWorth ts h b' := sumOf_le (fun k _ => worthAt_mono s k (hb k))

theorem convAll_mono {zs zs' : List (Serum3Info × Serum3Reserved)} {dirs : List Bool} : 
    zs.length = zs'.length →
    (∀ (i : Nat) x y, zs[i]? = some x → zs'[i]? = some y → x.1 = y.1 ∧ x.2.asBase ≤ y.2.asBase ∧ x.2.asQuote ≤ y.2.asQuote) →
    ∀ k, convAll (zs.zip dirs) k ≤ convAll (zs'.zip dirs) k := by
  induction zs generalizing zs' dirs with
  | nil => intro hl _ k; cases zs' with | nil => simp | cons _ _ => simp at hl
  | cons z zs ih =>
    intro hl hh k
    cases zs' with
    | nil => simp at hl
    | cons y ys =>
      cases dirs with
      | nil => simp
      | cons d ds =>
        have h0 := hh 0 z y (by simp) (by simp)
        have := ih (zs' := ys) (dirs := ds) (by simpa using hl) (fun i x y hx hy => hh (i+1) x y (by simpa using hx) (by simpa using hy)) k
        simp only [convAll, List.zip_cons_cons, sumOf_cons] at this ⊢
        have : conv z d k ≤ conv y d k := by
          cases d <;> simp only [conv, h0.1] <;> split <;> omega
        omega

end Health
end Mango
