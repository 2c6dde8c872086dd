import Verif.Props.HealthFormula
/-!
# Health against oracle value: lemmas for C92
-/
namespace Mango
namespace Health
open Fx

/-- a token whose weights discount assets and mark up debts, with prices that are not negative -/
structure TokenInfo.Prudent (t : TokenInfo) (h : HT) : Prop where
  aw0 : 0 ≤ t.assetWeight h
  aw1 : t.assetWeight h ≤ S
  lw1 : S ≤ t.liabWeight h
  oracle : 0 ≤ t.prices.oracle
  stable : 0 ≤ t.prices.stable

/-- a perp position valued with such weights -/
structure PerpInfo.Prudent (p : PerpInfo) (h : HT) : Prop where
  aw0 : 0 ≤ p.baseWeight h false
  aw1 : p.baseWeight h false ≤ S
  lw1 : S ≤ p.baseWeight h true
  overall : p.overallWeight h ≤ S
  oracle : 0 ≤ p.basePrices.oracle
  stable : 0 ≤ p.basePrices.stable
  lot : 0 ≤ p.baseLotSize
  bids : 0 ≤ p.bidsBaseLots

theorem Prices.asset_le (p : Prices) (h : HT) : p.asset h ≤ p.oracle := by
  cases h <;> simp only [Prices.asset] <;> omega
theorem Prices.le_liab (p : Prices) (h : HT) : p.oracle ≤ p.liab h := by
  cases h <;> simp only [Prices.liab] <;> omega
theorem Prices.asset_nonneg {p : Prices} (h : HT) (ho : 0 ≤ p.oracle) (hs : 0 ≤ p.stable) : 0 ≤ p.asset h := by
  cases h <;> simp only [Prices.asset] <;> omega

/-- the rounded price of a debt -/
def TokenInfo.lwp (t : TokenInfo) (h : HT) : Int := t.liabWeight h * t.prices.liab h / S

section
variable {t : TokenInfo} {h : HT} (P : t.Prudent h)
include P

theorem TokenInfo.Prudent.ap : 0 ≤ t.prices.asset h := Prices.asset_nonneg h P.oracle P.stable
theorem TokenInfo.Prudent.lp : 0 ≤ t.prices.liab h := Int.le_trans P.oracle (Prices.le_liab _ h)

theorem TokenInfo.Prudent.oracle_le_lwp : t.prices.oracle ≤ t.lwp h := by
  unfold TokenInfo.lwp
  rw [Int.le_ediv_iff_mul_le S_pos, Int.mul_comm]
  exact Int.mul_le_mul P.lw1 (Prices.le_liab _ h) P.oracle (Int.le_trans (show (0:Int) ≤ S by decide) P.lw1)

theorem TokenInfo.Prudent.awp_le : t.assetWeight h * t.prices.asset h ≤ S * t.prices.oracle :=
  Int.mul_le_mul P.aw1 (Prices.asset_le _ h) P.ap (by decide)

theorem TokenInfo.Prudent.sane : t.Sane h := by
  refine ⟨P.aw0, P.ap, Int.le_trans (show (0:Int) ≤ S by decide) P.lw1, P.lp, ?_⟩
  refine Int.le_trans P.awp_le ?_
  exact Int.mul_le_mul P.lw1 (Prices.le_liab _ h) P.oracle (Int.le_trans (show (0:Int) ≤ S by decide) P.lw1)
end

/-- the token with its weighted prices as weights: debts at the rounded price -/
def TokenInfo.flat (h : HT) (t : TokenInfo) : TokenInfo :=
  { t with maintAssetWeight := t.assetWeight h * t.prices.asset h, initAssetWeight := t.assetWeight h * t.prices.asset h,
           initScaledAssetWeight := t.assetWeight h * t.prices.asset h, maintLiabWeight := t.lwp h * S, initLiabWeight := t.lwp h * S,
           initScaledLiabWeight := t.lwp h * S, prices := ⟨1, 1⟩ }

theorem flat_worth (t : TokenInfo) (h : HT) (b : Int) :
    worth (t.flat h) h b = if b < 0 then b * (t.lwp h * S) else b * (t.assetWeight h * t.prices.asset h) := by
  cases h <;> simp [worth, TokenInfo.flat, TokenInfo.assetWeight, TokenInfo.liabWeight, Prices.asset, Prices.liab]

theorem flat_sane {t : TokenInfo} {h : HT} (P : t.Prudent h) : (t.flat h).Sane h := by
  have h1 : t.assetWeight h * t.prices.asset h ≤ t.lwp h * S := by
    refine Int.le_trans P.awp_le ?_
    rw [Int.mul_comm]
    exact Int.mul_le_mul_of_nonneg_right P.oracle_le_lwp (by decide)
  have h2 := Int.mul_nonneg P.aw0 P.ap
  have e1 : (t.flat h).assetWeight h = t.assetWeight h * t.prices.asset h := by cases h <;> rfl
  have e2 : (t.flat h).liabWeight h = t.lwp h * S := by cases h <;> rfl
  have e3 : (t.flat h).prices.asset h = 1 := by cases h <;> rfl
  have e4 : (t.flat h).prices.liab h = 1 := by cases h <;> rfl
  exact ⟨by rw [e1]; exact h2, by rw [e3]; decide, by rw [e2]; omega, by rw [e4]; decide, by rw [e1, e2, e3, e4]; omega⟩

/-- worth of a balance with rounded debt prices is at most its oracle value -/
theorem flat_le {t : TokenInfo} {h : HT} (P : t.Prudent h) (b : Int) : worth (t.flat h) h b ≤ b * t.prices.oracle * S := by
  rw [flat_worth]
  split
  · rename_i hb
    have := Int.mul_le_mul_of_nonpos_left (a := b) (by omega) (P.oracle_le_lwp)
    have := Int.mul_le_mul_of_nonneg_right this (show (0 : Int) ≤ S by decide)
    rw [← Int.mul_assoc]; exact this
  · rename_i hb
    have := Int.mul_le_mul_of_nonneg_left P.awp_le (show 0 ≤ b by omega)
    rw [Int.mul_assoc, Int.mul_comm t.prices.oracle S]; exact this

/-- rounding debt prices costs at most one unit per token -/
theorem flat_effect {t : TokenInfo} {h : HT} (b r : Int) (hr : 0 ≤ r) :
    worth t h b - worth t h (b - r) ≤ worth (t.flat h) h b - worth (t.flat h) h (b - r) + r * S := by
  rw [flat_worth, flat_worth]
  unfold worth
  have hd := mulFloor_bounds (t.liabWeight h * t.prices.liab h)
  have hl : t.lwp h = t.liabWeight h * t.prices.liab h / S := rfl
  rw [← hl] at hd
  generalize t.liabWeight h * t.prices.liab h = x at *
  generalize t.assetWeight h * t.prices.asset h = y at *
  generalize t.lwp h = z at *
  obtain ⟨e, he⟩ : ∃ e, x = z * S + e := ⟨x - z * S, by omega⟩
  have e0 : 0 ≤ e ∧ e ≤ S := by omega
  subst he
  have hS : (0 : Int) < S := S_pos
  split <;> split <;> (try omega)
  · -- both negative
    have : r * e ≤ r * S := Int.mul_le_mul_of_nonneg_left e0.2 hr
    simp only [Int.mul_add, Int.sub_mul]
    omega
  · -- from debt to asset
    rename_i h1 h2
    have h3 : (b - r) * (z * S + e) = (b - r) * (z * S) + (b - r) * e := Int.mul_add _ _ _
    have h4 : (r - b) * e ≤ r * S := by
      have a1 : (r - b) * e ≤ (r - b) * S := Int.mul_le_mul_of_nonneg_left e0.2 (by omega)
      have a2 : (r - b) * S ≤ r * S := Int.mul_le_mul_of_nonneg_right (by omega) (by omega)
      omega
    have h5 : (b - r) * e = -((r - b) * e) := by rw [← Int.neg_mul]; congr 1; omega
    omega
  · have : 0 ≤ r * S := Int.mul_nonneg hr (by omega)
    omega

theorem contribution_flat {t : TokenInfo} {h : HT} {b v : Int} (hh : t.contribution h b = .ok v) : v * (S * S) ≤ worth (t.flat h) h b := by
  rw [contribution_ok hh, flat_worth]
  have hS : (0 : Int) < S := S_pos
  split
  · have := mulFloor_bounds (b * (t.liabWeight h * t.prices.liab h / S))
    have e : b * (t.lwp h * S) = b * (t.liabWeight h * t.prices.liab h / S) * S := by unfold TokenInfo.lwp; rw [Int.mul_assoc]
    rw [e, ← Int.mul_assoc]
    exact Int.mul_le_mul_of_nonneg_right (by omega) (by omega)
  · rename_i hb
    have h1 := mulFloor_bounds (b * (t.assetWeight h * t.prices.asset h / S))
    have h2 := mulFloor_bounds (t.assetWeight h * t.prices.asset h)
    have h3 : b * (t.assetWeight h * t.prices.asset h / S * S) ≤ b * (t.assetWeight h * t.prices.asset h) := Int.mul_le_mul_of_nonneg_left (by omega) (by omega)
    have h4 := Int.mul_le_mul_of_nonneg_right (show b * (t.assetWeight h * t.prices.asset h / S) / S * S ≤ b * (t.assetWeight h * t.prices.asset h / S) by omega) (Int.le_of_lt hS)
    rw [← Int.mul_assoc]
    rw [Int.mul_assoc b] at h4
    omega

/-- oracle price of the token at position `k` -/
def oracleAt (c : Cache) (k : Nat) : Int := match c.tokens[k]? with | some t => t.prices.oracle | none => 0

theorem worthAt_flat (ts : List TokenInfo) (h : HT) (k : Nat) (b : Int) :
    worthAt (ts.map (TokenInfo.flat h)) h k b = match ts[k]? with | some t => worth (t.flat h) h b | none => 0 := by
  unfold worthAt
  rw [List.getElem?_map]
  cases ts[k]? <;> rfl

theorem effect_flat (ts : List TokenInfo) (h : HT) (M : Nat → Int) (x : Serum3Info × Serum3Reserved) (d : Bool) (hr : 0 ≤ convAmt x d) :
    exactEffect ts h M x d ≤ exactEffect (ts.map (TokenInfo.flat h)) h M x d + convAmt x d * S := by
  unfold exactEffect
  rw [worthAt_flat, worthAt_flat]
  unfold worthAt
  cases ts[convIdx x d]? with
  | none => have : 0 ≤ convAmt x d * S := Int.mul_nonneg hr (by decide); simpa using this
  | some t => exact flat_effect _ _ hr

/-- **the bound in the cache** -/
theorem healthSum_value {fd : FDiv} (hfd : FdOk fd) {c : Cache} {h : HT} (P : ∀ t ∈ c.tokens, t.Prudent h) (nn : c.MarketsNonNeg)
    {bs : List Int} (hl : bs.length = c.tokens.length) {v : Int} (hh : c.healthSum fd h bs = .ok v)
    {mr : List Int} {rs : List Serum3Reserved} (hr : c.reservations fd h = .ok (mr, rs)) :
    v * S ≤ sumOf (fun k => balAt bs k * oracleAt c k) (List.range c.tokens.length) +
      sumOf (fun (x : Serum3Info × Serum3Reserved) => x.2.asQuote * oracleAt c x.1.quoteIdx + x.2.asQuote) (c.serums.zip rs) := by
  have sane : AllSane c.tokens h := fun t ht => (P t ht).sane
  have sane' : AllSane (c.tokens.map (TokenInfo.flat h)) h := by
    intro t ht
    obtain ⟨u, hu, rfl⟩ := List.mem_map.mp ht
    exact flat_sane (P u hu)
  obtain ⟨mr', rs', hr', e, f1, f2⟩ := healthSum_ok hh
  rw [hr] at hr'; simp at hr'; obtain ⟨rfl, rfl⟩ := hr'
  obtain ⟨l1, l2, m, facts⟩ := reservations_facts hfd sane nn hr
  obtain ⟨dirs, hdl, hdf⟩ : ∃ dirs : List Bool, dirs.length = (c.serums.zip rs).length ∧ ∀ d ∈ dirs, d = false :=
    ⟨List.replicate (c.serums.zip rs).length false, by simp, fun d hd => (List.mem_replicate.mp hd).2⟩
  have hdx : ∀ x ∈ (c.serums.zip rs).zip dirs, x.2 = false := fun x hx => hdf _ (List.of_mem_zip hx).2
  -- tokens
  have tb : sumOf (fun (x : TokenInfo × Int) => val (x.1.contribution h x.2)) (c.tokens.zip bs) * (S * S) ≤
      totalWorth (c.tokens.map (TokenInfo.flat h)) h (balAt bs) := by
    rw [sumOf_mul, sum_zip_range (fun t b => val (t.contribution h b) * (S * S)) c.tokens bs hl]
    unfold totalWorth
    rw [List.length_map]
    apply sumOf_le
    intro k hk
    rw [worthAt_flat]
    have hk' : k < c.tokens.length := List.mem_range.mp hk
    have h1 : c.tokens[k]? = some c.tokens[k] := List.getElem?_eq_getElem hk'
    have h2 : bs[k]? = some (bs[k]'(by omega)) := List.getElem?_eq_getElem (by omega)
    obtain ⟨w, hw⟩ := f1 (c.tokens[k], bs[k]'(by omega)) (by
      rw [List.mem_iff_getElem?]; exact ⟨k, by rw [List.getElem?_zip_eq_some]; exact ⟨h1, h2⟩⟩)
    unfold atD
    rw [h1, balAt_eq h2]
    dsimp only at hw ⊢
    rw [val_ok hw]
    exact contribution_flat hw
  have ef := effects_le sane' (b := balAt bs) (M := fun k => balAt bs k + balAt mr k) ((c.serums.zip rs).zip dirs)
    (by
      intro x hx
      obtain ⟨a1, a2, a3, a4⟩ := facts x.1 (mem_zip_fst hx)
      rw [hdx x hx, List.length_map]
      exact ⟨a4, a2⟩)
    (by
      intro k
      have : convAll ((c.serums.zip rs).zip dirs) k ≤ sumOf (fun x => part x.1 k) ((c.serums.zip rs).zip dirs) := by
        apply sumOf_le
        intro x hx
        obtain ⟨a1, a2, _⟩ := facts x.1 (mem_zip_fst hx)
        exact conv_le_part a1 a2 _ _
      rw [sumOf_zip_fst (fun x => part x k) _ _ hdl, ← m k] at this
      omega)
  have sm : sumOf (fun (x : Serum3Info × Serum3Reserved) => val (x.1.contribution h c.tokens bs mr x.2)) (c.serums.zip rs) * (S * S) ≤
      sumOf (fun x => exactEffect (c.tokens.map (TokenInfo.flat h)) h (fun k => balAt bs k + balAt mr k) x.1 x.2) ((c.serums.zip rs).zip dirs) +
        sumOf (fun (x : Serum3Info × Serum3Reserved) => x.2.asQuote * S) (c.serums.zip rs) := by
    rw [sumOf_mul, ← sumOf_zip_fst _ _ _ hdl, ← sumOf_zip_fst (fun (x : Serum3Info × Serum3Reserved) => x.2.asQuote * S) _ _ hdl, ← sumOf_add]
    apply sumOf_le
    intro x hx
    obtain ⟨a1, a2, _⟩ := facts x.1 (mem_zip_fst hx)
    obtain ⟨w, hw⟩ := f2 x.1 (mem_zip_fst hx)
    rw [val_ok hw]
    have k1 := (market_bounds sane a1 a2 hw).1 x.2
    have k2 := effect_flat c.tokens h (fun k => balAt bs k + balAt mr k) x.1 x.2 (by rw [hdx x hx]; exact a2)
    have e2 : convAmt x.1 x.2 = x.1.2.asQuote := by rw [hdx x hx]; rfl
    rw [e2] at k2
    exact Int.le_trans k1 k2
  have fin : totalWorth (c.tokens.map (TokenInfo.flat h)) h (fun k => balAt bs k + convAll ((c.serums.zip rs).zip dirs) k) ≤
      sumOf (fun k => balAt bs k * oracleAt c k) (List.range c.tokens.length) * S +
        sumOf (fun (x : Serum3Info × Serum3Reserved) => x.2.asQuote * oracleAt c x.1.quoteIdx) (c.serums.zip rs) * S := by
    have a : totalWorth (c.tokens.map (TokenInfo.flat h)) h (fun k => balAt bs k + convAll ((c.serums.zip rs).zip dirs) k) ≤
        sumOf (fun k => (balAt bs k + convAll ((c.serums.zip rs).zip dirs) k) * oracleAt c k * S) (List.range c.tokens.length) := by
      unfold totalWorth
      rw [List.length_map]
      apply sumOf_le
      intro k _
      rw [worthAt_flat]
      unfold oracleAt
      cases hk : c.tokens[k]? with
      | none => simp
      | some t => exact flat_le (P t (List.mem_of_getElem? hk)) _
    have b : ∀ (zs : List ((Serum3Info × Serum3Reserved) × Bool)), (∀ x ∈ zs, x.2 = false ∧ x.1.1.quoteIdx < c.tokens.length) →
        sumOf (fun k => convAll zs k * oracleAt c k) (List.range c.tokens.length) = sumOf (fun x => x.1.2.asQuote * oracleAt c x.1.1.quoteIdx) zs := by
      intro zs
      induction zs with
      | nil => intro _; simp [convAll, sumOf_zero]
      | cons z zs ih =>
        intro hz
        obtain ⟨z1, z2⟩ := hz z (by simp)
        have ih := ih (fun x hx => hz x (by simp [hx]))
        have := sum_range_update (fun k x => x * oracleAt c k) (fun k => convAll zs k) z.1.1.quoteIdx z.1.2.asQuote c.tokens.length z2
        rw [sumOf_cons, ← ih]
        have e : sumOf (fun k => convAll (z :: zs) k * oracleAt c k) (List.range c.tokens.length) =
            sumOf (fun k => (convAll zs k + if z.1.1.quoteIdx = k then z.1.2.asQuote else 0) * oracleAt c k) (List.range c.tokens.length) := by
          apply sumOf_congr
          intro k _
          simp only [convAll, sumOf_cons, conv_eq, z1, convIdx, convAmt]
          congr 1
          simp only [Bool.false_eq_true, if_false]
          omega
        rw [e, this, Int.add_mul]
        omega
    have b := b ((c.serums.zip rs).zip dirs) (fun x hx => ⟨hdx x hx, (facts x.1 (mem_zip_fst hx)).2.2.2⟩)
    rw [sumOf_zip_fst (fun (x : Serum3Info × Serum3Reserved) => x.2.asQuote * oracleAt c x.1.quoteIdx) _ _ hdl] at b
    rw [← b, ← Int.add_mul, ← sumOf_add, sumOf_mul]
    refine Int.le_trans a (Int.le_of_eq ?_)
    apply sumOf_congr
    intro k _
    rw [Int.add_mul (balAt bs k)]
  have tot : v * S * S ≤ (sumOf (fun k => balAt bs k * oracleAt c k) (List.range c.tokens.length) +
      sumOf (fun (x : Serum3Info × Serum3Reserved) => x.2.asQuote * oracleAt c x.1.quoteIdx + x.2.asQuote) (c.serums.zip rs)) * S := by
    rw [sumOf_add, Int.add_mul, Int.add_mul, sumOf_mul (fun (x : Serum3Info × Serum3Reserved) => x.2.asQuote) S, Int.mul_assoc v, e, Int.add_mul]
    omega
  exact Int.le_of_mul_le_mul_right tot S_pos

/-- a perp position counts for at most its pnl at the oracle price -/
theorem perp_value {p : PerpInfo} {h : HT} (P : p.Prudent h) {v : Int} (hh : p.hupnl h = .ok v) :
    v ≤ p.quote + p.baseLots * p.baseLotSize * p.basePrices.oracle := by
  simp only [PerpInfo.hupnl, PerpInfo.uhupnl, bind_ok, ck64_ok, add_ok] at hh
  obtain ⟨u, ⟨b, hb, na, ⟨rfl, _⟩, a, ha, hu, _⟩, hv⟩ := hh
  have hS : (0 : Int) < S := S_pos
  have hvu : v ≤ u := by
    simp only [PerpInfo.weigh, ite_ok, mul_ok] at hv
    rcases hv with ⟨hc, hv, _⟩ | ⟨hc, hv⟩
    · have h1 := mulFloor_bounds (p.overallWeight h * u)
      have h2 : p.overallWeight h * u ≤ S * u := Int.mul_le_mul_of_nonneg_right P.overall (by omega)
      rw [← hv] at h1
      have h3 : v * S ≤ u * S := by rw [Int.mul_comm u S]; omega
      exact Int.le_of_mul_le_mul_right h3 hS
    · simp at hv; omega
  have eb := Formula.ifExecuted_of hb
  rw [Formula.liabPrice_eq] at eb
  have hle : b ≤ p.baseLots * p.baseLotSize * p.basePrices.oracle := by
    rw [eb]
    unfold Formula.ifExecuted
    dsimp only
    have hob : p.bidsBaseLots * p.baseLotSize * p.basePrices.oracle ≤ p.bidsBaseLots * p.baseLotSize * Formula.liabPrice p.basePrices h := by
      rw [← Formula.liabPrice_eq]
      exact Int.mul_le_mul_of_nonneg_left (Prices.le_liab _ h) (Int.mul_nonneg P.bids P.lot)
    have e : (p.baseLots + p.bidsBaseLots) * p.baseLotSize * p.basePrices.oracle =
        p.baseLots * p.baseLotSize * p.basePrices.oracle + p.bidsBaseLots * p.baseLotSize * p.basePrices.oracle := by
      rw [Int.add_mul, Int.add_mul]
    generalize hn : (p.baseLots + p.bidsBaseLots) * p.baseLotSize = n at *
    have key : (if n ≥ 0 then n * (if h = HT.maint then p.maintBaseAssetWeight else p.initBaseAssetWeight) * Formula.assetPrice p.basePrices h / S
        else n * (if h = HT.maint then p.maintBaseLiabWeight else p.initBaseLiabWeight) * Formula.liabPrice p.basePrices h / S) ≤ n * p.basePrices.oracle := by
      have w1 : (if h = HT.maint then p.maintBaseAssetWeight else p.initBaseAssetWeight) = p.baseWeight h false := by cases h <;> rfl
      have w2 : (if h = HT.maint then p.maintBaseLiabWeight else p.initBaseLiabWeight) = p.baseWeight h true := by cases h <;> rfl
      rw [w1, w2, ← Formula.assetPrice_eq, ← Formula.liabPrice_eq]
      split
      · rename_i h0
        have h1 := mulFloor_bounds (n * p.baseWeight h false * p.basePrices.asset h)
        have h2 : p.baseWeight h false * p.basePrices.asset h ≤ S * p.basePrices.oracle :=
          Int.mul_le_mul P.aw1 (Prices.asset_le _ h) (Prices.asset_nonneg h P.oracle P.stable) (by omega)
        have h3 := Int.mul_le_mul_of_nonneg_left h2 h0
        rw [← Int.mul_assoc, Int.mul_comm S, ← Int.mul_assoc] at h3
        exact Int.le_of_mul_le_mul_right (by omega) hS
      · rename_i h0
        have h1 := mulFloor_bounds (n * p.baseWeight h true * p.basePrices.liab h)
        have h2 : S * p.basePrices.oracle ≤ p.baseWeight h true * p.basePrices.liab h :=
          Int.mul_le_mul P.lw1 (Prices.le_liab _ h) P.oracle (Int.le_trans (by omega) P.lw1)
        have h3 := Int.mul_le_mul_of_nonpos_left (a := n) (by omega) h2
        rw [← Int.mul_assoc, Int.mul_comm S, ← Int.mul_assoc] at h3
        exact Int.le_of_mul_le_mul_right (by omega) hS
    omega
  omega

/-- the balances at oracle prices: spot balances and perp pnl -/
theorem balances_value {c : Cache} {h : HT} {bs : List Int} (P : ∀ p ∈ c.perps, p.Prudent h) (ho : ∀ t ∈ c.tokens, 0 ≤ t.prices.oracle) (hh : c.balances h = .ok bs) :
    sumOf (fun k => balAt bs k * oracleAt c k) (List.range c.tokens.length) ≤
      sumOf (fun t => t.balanceSpot * t.prices.oracle) c.tokens +
      sumOf (fun p => (p.quote + p.baseLots * p.baseLotSize * p.basePrices.oracle) * (match c.tokenIdx p.settleTokenIndex with | some i => oracleAt c i | none => 0)) c.perps := by
  obtain ⟨l, e, f⟩ := balancesI_ok hh
  have o0 : ∀ k, 0 ≤ oracleAt c k := by
    intro k; unfold oracleAt
    split
    · rename_i t ht; exact ho t (List.mem_of_getElem? ht)
    · omega
  have h1 : sumOf (fun k => balAt bs k * oracleAt c k) (List.range c.tokens.length) =
      sumOf (fun k => (match c.tokens[k]? with | some t => t.balanceSpot | none => 0) * oracleAt c k) (List.range c.tokens.length) +
      sumOf (fun k => sumOf (perpOn c h false k) c.perps * oracleAt c k) (List.range c.tokens.length) := by
    rw [← sumOf_add]
    apply sumOf_congr
    intro k hk
    have hk' : k < c.tokens.length := List.mem_range.mp hk
    have ht : c.tokens[k]? = some c.tokens[k] := List.getElem?_eq_getElem hk'
    rw [balAt_eq (e k _ ht), ht, ← Int.add_mul]
    congr 1
    dsimp only
    omega
  have h2 : sumOf (fun k => (match c.tokens[k]? with | some t => t.balanceSpot | none => 0) * oracleAt c k) (List.range c.tokens.length) =
      sumOf (fun t => t.balanceSpot * t.prices.oracle) c.tokens := by
    have := sum_zip_range (fun (t : TokenInfo) (_ : Int) => t.balanceSpot * t.prices.oracle) c.tokens bs l
    rw [sumOf_zip_fst (fun t : TokenInfo => t.balanceSpot * t.prices.oracle) _ _ l] at this
    rw [this]
    apply sumOf_congr
    intro k hk
    have hk' : k < c.tokens.length := List.mem_range.mp hk
    simp [atD, oracleAt, List.getElem?_eq_getElem hk']
  have h3 : ∀ ps : List PerpInfo, (∀ p ∈ ps, (∃ i, c.tokenIdx p.settleTokenIndex = some i) ∧ ∃ v, p.hupnl h = .ok v) → (∀ p ∈ ps, p.Prudent h) →
      sumOf (fun k => sumOf (perpOn c h false k) ps * oracleAt c k) (List.range c.tokens.length) ≤
      sumOf (fun p => (p.quote + p.baseLots * p.baseLotSize * p.basePrices.oracle) * (match c.tokenIdx p.settleTokenIndex with | some i => oracleAt c i | none => 0)) ps := by
    intro ps
    induction ps with
    | nil => intro _ _; simp [sumOf_zero]
    | cons p ps ih =>
      intro g1 g2
      have ih := ih (fun q hq => g1 q (by simp [hq])) (fun q hq => g2 q (by simp [hq]))
      obtain ⟨⟨i, hi⟩, v, hv⟩ := g1 p (by simp)
      have hle := perp_value (g2 p (by simp)) hv
      have hil : i < c.tokens.length := by
        unfold Cache.tokenIdx at hi
        exact (List.findIdx?_eq_some_iff_getElem.mp hi).1
      have := sum_range_update (fun k x => x * oracleAt c k) (fun k => sumOf (perpOn c h false k) ps) i v c.tokens.length hil
      have e2 : sumOf (fun k => sumOf (perpOn c h false k) (p :: ps) * oracleAt c k) (List.range c.tokens.length) =
          sumOf (fun k => (sumOf (perpOn c h false k) ps + if i = k then v else 0) * oracleAt c k) (List.range c.tokens.length) := by
        apply sumOf_congr
        intro k _
        rw [sumOf_cons]
        congr 1
        unfold perpOn
        rw [hi, val_ok hv]
        by_cases hk : i = k
        · rw [if_pos (by rw [hk]), if_pos (Or.inl rfl), if_pos hk]; omega
        · rw [if_neg (by intro hc; exact hk (Option.some.inj hc)), if_neg hk]; omega
      rw [e2, this, sumOf_cons, hi, Int.add_mul]
      dsimp only
      have := Int.mul_le_mul_of_nonneg_right hle (o0 i)
      omega
  have h3 := h3 c.perps f P
  omega

end Health
end Mango
