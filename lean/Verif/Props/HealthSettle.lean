import Verif.Props.HealthZero
/-!
# C39 (settlement): settling up to the computed maximum keeps the settle health non-negative
-/
namespace Mango
namespace Health
open Fx

theorem zip_set_right {α β : Type} : ∀ (l : List α) (m : List β) (i : Nat) (a : α) (y : β), l[i]? = some a →
    l.zip (m.set i y) = (l.zip m).set i (a, y) := by
  intro l
  induction l with
  | nil => intro m i a y h; simp at h
  | cons b l ih =>
    intro m i a y h
    cases m with
    | nil => simp
    | cons c m =>
      cases i with
      | zero => simp at h; subst h; simp
      | succ i => simp at h; simp [ih m i a y h]

theorem balAt_set {bs : List Int} {i : Nat} {b y : Int} (h : bs[i]? = some b) (k : Nat) :
    balAt (bs.set i y) k = if k = i then y else balAt bs k := by
  unfold balAt
  rw [List.getD_eq_getElem?_getD, List.getD_eq_getElem?_getD, List.getElem?_set]
  have hi := getElem?_lt h
  by_cases hk : i = k
  · subst hk; simp [hi]
  · have : ¬ k = i := fun e => hk e.symm
    simp [hk, this]

/-- lowering balances never lowers the exact serum effect -/
theorem exactEffect_anti {ts : List TokenInfo} {h : HT} (s : AllSane ts h) {M M' : Nat → Int} (hm : ∀ k, M' k ≤ M k)
    (x : Serum3Info × Serum3Reserved) (d : Bool) (hr : 0 ≤ convAmt x d) :
    exactEffect ts h M x d ≤ exactEffect ts h M' x d := worthAt_concave s _ (hm _) hr

/-- **C39c** The maximum amount of negative perp pnl that may be settled into a token: when the settle health (maintenance health that ignores
negative perp contributions) is positive, taking any amount up to the maximum from the token leaves the settle health above
minus two last-place units (plus the rounding of the spot markets). When it is not positive nothing may be settled. -/
theorem C39_perp_max_settle {fd : FDiv} (hfd : FdOk fd) {c : Cache} (o : c.Ordered) {ti i : Nat} {t : I80F48}
    (hi : c.tokenIdx ti = some i) (hmax : c.perpMaxSettle fd ti = .ok t)
    {bs : List I80F48} (hb : c.balancesI .maint true = .ok bs) {v : I80F48} (hv : c.healthSum fd .maint bs = .ok v)
    {mr : List I80F48} {rs : List Serum3Reserved} (hres : c.reservations fd .maint = .ok (mr, rs)) :
    (v ≤ 0 → t = 0) ∧
    (0 < v → 0 ≤ t ∧ ∀ x v', 0 ≤ x → x ≤ t → c.healthSum fd .maint (bs.set i (balAt bs i - x)) = .ok v' →
      -(2 * (S * S)) < v' * (S * S) + sumOf (marketSlack c.tokens .maint) (c.serums.zip rs)) := by
  have hS := S_pos
  have sane := o.sane .maint
  have hl := (balancesI_ok hb).1
  simp only [Cache.perpMaxSettle, bind_ok] at hmax
  obtain ⟨bs0, hb0, v0, hv0, hmax⟩ := hmax
  rw [hb] at hb0; simp at hb0; subst hb0
  rw [hv] at hv0; simp at hv0; subst hv0
  rw [hi] at hmax
  simp only [bind_ok, at_ok, TokenInfo.assetWeightedPrice, TokenInfo.liabWeightedPrice, mul_ok] at hmax
  obtain ⟨tk, htk, b, hbb, aw, ⟨haw, _⟩, lw, ⟨hlw, _⟩, hmax⟩ := hmax
  have st := sane tk (List.mem_of_getElem? htk)
  have haw0 : 0 ≤ aw := by rw [haw]; exact floor_nonneg (Int.mul_nonneg st.aw st.ap)
  have hle : aw ≤ lw := by rw [haw, hlw]; exact floor_mono st.le
  obtain ⟨z, pz⟩ := C39_taken haw0 hle hmax
  refine ⟨z, ?_⟩
  intro hpos
  obtain ⟨t0, tx, _⟩ := pz hpos
  refine ⟨t0, ?_⟩
  intro x v' hx0 hxt hv'
  have hx := tx x hxt
  have hbal := balAt_eq hbb
  rw [hbal] at hv'
  -- the two health sums
  obtain ⟨mr1, rs1, r1, e1, f1, g1⟩ := healthSum_ok hv
  rw [hres] at r1; simp at r1; obtain ⟨rfl, rfl⟩ := r1
  obtain ⟨mr2, rs2, r2, e2, f2, g2⟩ := healthSum_ok hv'
  rw [hres] at r2; simp at r2; obtain ⟨rfl, rfl⟩ := r2
  obtain ⟨l1, l2, m, facts⟩ := reservations_facts hfd sane o.markets hres
  -- tokens
  have hz : (c.tokens.zip bs)[i]? = some (tk, b) := by rw [List.getElem?_zip_eq_some]; exact ⟨htk, hbb⟩
  rw [zip_set_right c.tokens bs i tk (b - x) htk] at e2 f2
  rw [sumOf_set _ hz] at e2
  obtain ⟨w1, hw1⟩ := f1 _ (List.mem_of_getElem? hz)
  obtain ⟨w2, hw2⟩ := f2 (tk, b - x) (by
    apply List.mem_of_getElem? (i := i)
    rw [List.getElem?_set]
    simp; simpa [hl] using getElem?_lt htk)
  dsimp only at hw1 hw2 e2
  rw [val_ok hw1, val_ok hw2] at e2
  have c1 := contribution_ok hw1
  have c2 := contribution_ok hw2
  rw [← haw, ← hlw] at c1 c2
  have p1 : w1 = priced aw lw b / S := by rw [c1]; unfold priced; split <;> rfl
  have p2 : w2 = priced aw lw (b - x) / S := by rw [c2]; unfold priced; split <;> rfl
  have q1 := mulFloor_bounds (priced aw lw b)
  have q2 := mulFloor_bounds (priced aw lw (b - x))
  rw [← p1] at q1
  rw [← p2] at q2
  -- markets
  have sm : sumOf (fun (z : Serum3Info × Serum3Reserved) => val (z.1.contribution .maint c.tokens bs mr z.2)) (c.serums.zip rs) * (S * S) ≤
      sumOf (fun (z : Serum3Info × Serum3Reserved) => val (z.1.contribution .maint c.tokens (bs.set i (b - x)) mr z.2)) (c.serums.zip rs) * (S * S)
        + sumOf (marketSlack c.tokens .maint) (c.serums.zip rs) := by
    rw [sumOf_mul, sumOf_mul, ← sumOf_add]
    apply sumOf_le
    intro z hz
    obtain ⟨zs, zr⟩ := z
    obtain ⟨a1, a2, _⟩ := facts _ hz
    obtain ⟨u1, hu1⟩ := g1 _ hz
    obtain ⟨u2, hu2⟩ := g2 _ hz
    dsimp only at a1 a2 hu1 hu2 ⊢
    rw [val_ok hu1, val_ok hu2]
    obtain ⟨d, hd⟩ := (market_bounds sane a1 a2 hu2).2.1
    have hup := (market_bounds sane a1 a2 hu1).1 d
    have han := exactEffect_anti sane (M := fun k => balAt bs k + balAt mr k) (M' := fun k => balAt (bs.set i (b - x)) k + balAt mr k)
      (by
        intro k
        rw [balAt_set hbb]
        split
        · rename_i hk; subst hk; omega
        · omega) (zs, zr) d (by cases d <;> simpa [convAmt])
    omega
  -- put together, scaled by S * S
  have k1 : (v - w1) * (S * S) = v * S * S - w1 * S * S := by rw [Int.sub_mul, Int.mul_assoc, Int.mul_assoc]
  have hS2 : (-S) * S < (v * S + priced aw lw (b - x) - priced aw lw b) * S := Int.mul_lt_mul_of_pos_right hx hS
  have hq1 : w1 * S * S ≤ priced aw lw b * S := Int.mul_le_mul_of_nonneg_right q1.1 (Int.le_of_lt hS)
  have hq2 : priced aw lw (b - x) * S ≤ (w2 * S + S) * S := Int.mul_le_mul_of_nonneg_right (Int.le_of_lt q2.2) (Int.le_of_lt hS)
  have hb2 : v' * (S * S) = v * S * S - w1 * S * S + w2 * S * S
      + (sumOf (fun (z : Serum3Info × Serum3Reserved) => val (z.1.contribution .maint c.tokens (bs.set i (b - x)) mr z.2)) (c.serums.zip rs) * (S * S)
      - sumOf (fun (z : Serum3Info × Serum3Reserved) => val (z.1.contribution .maint c.tokens bs mr z.2)) (c.serums.zip rs) * (S * S)) := by
    rw [Int.mul_assoc v, Int.mul_assoc w1, Int.mul_assoc w2, ← Int.sub_mul, ← Int.sub_mul, ← Int.add_mul, ← Int.add_mul]
    congr 1
    omega
  simp only [Int.add_mul, Int.sub_mul, Int.neg_mul] at hS2 hq2
  omega

end Health
end Mango
