import Verif.Health.Worth
import Verif.Props.Health
/-!
# C51: spot orders are valued conservatively; C37: init ≤ liquidation-end ≤ maintenance health
-/
namespace Mango
namespace Health
open Fx

/-! ## C51 -/

/-- **C51** Health never exceeds the exact worth the account would have after the orders on every spot market executed, each market
entirely to its base token or entirely to its quote token (in any combination), up to the rounding of the borrowed balances
(`2^-48` health units per borrowed native token). -/
theorem C51_orders_valued_conservatively {fd : FDiv} (hfd : FdOk fd) {c : Cache} {h : HT} (sane : AllSane c.tokens h)
    (nn : c.MarketsNonNeg) {health : I80F48} (hh : c.health fd h = .ok health) :
    ∃ bs mr rs, c.balances h = .ok bs ∧ c.reservations fd h = .ok (mr, rs) ∧
      ∀ dirs : List Bool, dirs.length = c.serums.length →
        health * (S * S) ≤ totalWorth c.tokens h (fun k => balAt bs k + convAll ((c.serums.zip rs).zip dirs) k)
          + tokenExcess bs c.tokens.length := by
  simp only [Cache.health, bind_ok] at hh
  obtain ⟨bs, hb, hh⟩ := hh
  obtain ⟨mr, rs, hr, _⟩ := healthSum_ok hh
  exact ⟨bs, mr, rs, hb, hr, fun dirs hd => healthSum_le hfd sane nn (balancesI_ok hb).1 hh hr dirs hd⟩

/-! ## C37 -/

/-- consistently ordered risk parameters of a token: what `token_register`/`token_edit` verify (bank.verify), with non-negative prices;
the scaled init weights are at most as favourable as the unscaled ones (bank.scaled_init_asset_weight / scaled_init_liab_weight) -/
structure TokenInfo.Ordered (t : TokenInfo) : Prop where
  oracle : 0 ≤ t.prices.oracle
  stable : 0 ≤ t.prices.stable
  scaledAsset0 : 0 ≤ t.initScaledAssetWeight
  scaledAsset : t.initScaledAssetWeight ≤ t.initAssetWeight
  asset : t.initAssetWeight ≤ t.maintAssetWeight
  assetLiab : t.maintAssetWeight ≤ t.maintLiabWeight
  liab : t.maintLiabWeight ≤ t.initLiabWeight
  scaledLiab : t.initLiabWeight ≤ t.initScaledLiabWeight

/-- the order of health types: from the strictest to the most lenient -/
def HT.rank : HT → Nat
  | .init => 0
  | .liqEnd => 1
  | .maint => 2

section
variable {t : TokenInfo} (o : t.Ordered)
include o

theorem TokenInfo.Ordered.assetWeight_mono {h h' : HT} (hr : h.rank ≤ h'.rank) : t.assetWeight h ≤ t.assetWeight h' := by
  have := o.scaledAsset; have := o.asset
  cases h <;> cases h' <;> simp [HT.rank] at hr <;> simp only [TokenInfo.assetWeight] <;> omega
theorem TokenInfo.Ordered.assetPrice_mono {h h' : HT} (hr : h.rank ≤ h'.rank) : t.prices.asset h ≤ t.prices.asset h' := by
  cases h <;> cases h' <;> simp [HT.rank] at hr <;> simp only [Prices.asset] <;> omega
theorem TokenInfo.Ordered.liabWeight_anti {h h' : HT} (hr : h.rank ≤ h'.rank) : t.liabWeight h' ≤ t.liabWeight h := by
  have := o.liab; have := o.scaledLiab
  cases h <;> cases h' <;> simp [HT.rank] at hr <;> simp only [TokenInfo.liabWeight] <;> omega
theorem TokenInfo.Ordered.liabPrice_anti {h h' : HT} (hr : h.rank ≤ h'.rank) : t.prices.liab h' ≤ t.prices.liab h := by
  cases h <;> cases h' <;> simp [HT.rank] at hr <;> simp only [Prices.liab] <;> omega

theorem TokenInfo.Ordered.sane (h : HT) : t.Sane h := by
  have a1 := o.scaledAsset0; have a2 := o.scaledAsset; have a3 := o.asset; have a4 := o.assetLiab
  have a5 := o.liab; have a6 := o.scaledLiab; have a7 := o.oracle; have a8 := o.stable
  have haw : 0 ≤ t.assetWeight h := by cases h <;> simp only [TokenInfo.assetWeight] <;> omega
  have hap : 0 ≤ t.prices.asset h := by cases h <;> simp only [Prices.asset] <;> omega
  have hw : t.assetWeight h ≤ t.liabWeight h := by cases h <;> simp only [TokenInfo.assetWeight, TokenInfo.liabWeight] <;> omega
  have hp : t.prices.asset h ≤ t.prices.liab h := by cases h <;> simp only [Prices.asset, Prices.liab] <;> omega
  exact ⟨haw, hap, by omega, by omega, Int.le_trans (Int.mul_le_mul_of_nonneg_right hw hap) (Int.mul_le_mul_of_nonneg_left hp (by omega))⟩

/-- the computed contribution of a token is monotone in the balance and in the health type -/
theorem TokenInfo.Ordered.contribution_mono {h h' : HT} (hr : h.rank ≤ h'.rank) {b b' v v' : Int} (hb : b ≤ b')
    (h1 : t.contribution h b = .ok v) (h2 : t.contribution h' b' = .ok v') : v ≤ v' := by
  have e1 := contribution_ok h1
  have e2 := contribution_ok h2
  have s1 := o.sane h
  have s2 := o.sane h'
  have ha : t.assetWeight h * t.prices.asset h ≤ t.assetWeight h' * t.prices.asset h' :=
    Int.le_trans (Int.mul_le_mul_of_nonneg_right (o.assetWeight_mono hr) s1.ap) (Int.mul_le_mul_of_nonneg_left (o.assetPrice_mono hr) s2.aw)
  have hl : t.liabWeight h' * t.prices.liab h' ≤ t.liabWeight h * t.prices.liab h :=
    Int.le_trans (Int.mul_le_mul_of_nonneg_right (o.liabWeight_anti hr) s2.lp) (Int.mul_le_mul_of_nonneg_left (o.liabPrice_anti hr) s1.lw)
  have ha' := floor_mono ha
  have hl' := floor_mono hl
  have n1 := floor_nonneg (Int.mul_nonneg s1.aw s1.ap)
  have n2 := floor_nonneg (Int.mul_nonneg s2.aw s2.ap)
  have n3 := floor_nonneg (Int.mul_nonneg s1.lw s1.lp)
  have n4 := floor_nonneg (Int.mul_nonneg s2.lw s2.lp)
  rw [e1, e2]
  split <;> split
  · apply floor_mono
    exact Int.le_trans (Int.mul_le_mul_of_nonpos_left (by omega) hl') (Int.mul_le_mul_of_nonneg_right hb n4)
  · have p1 : b * (t.liabWeight h * t.prices.liab h / S) ≤ 0 := Int.mul_nonpos_of_nonpos_of_nonneg (by omega) n3
    have p2 : 0 ≤ b' * (t.assetWeight h' * t.prices.asset h' / S) := Int.mul_nonneg (by omega) n2
    exact floor_mono (by omega)
  · omega
  · apply floor_mono
    exact Int.le_trans (Int.mul_le_mul_of_nonneg_left ha' (by omega)) (Int.mul_le_mul_of_nonneg_right hb n2)

theorem TokenInfo.Ordered.worth_mono_type {h h' : HT} (hr : h.rank ≤ h'.rank) {b b' : Int} (hb : b ≤ b') : worth t h b ≤ worth t h' b' := by
  have s1 := o.sane h
  have s2 := o.sane h'
  have ha : t.assetWeight h * t.prices.asset h ≤ t.assetWeight h' * t.prices.asset h' :=
    Int.le_trans (Int.mul_le_mul_of_nonneg_right (o.assetWeight_mono hr) s1.ap) (Int.mul_le_mul_of_nonneg_left (o.assetPrice_mono hr) s2.aw)
  have hl : t.liabWeight h' * t.prices.liab h' ≤ t.liabWeight h * t.prices.liab h :=
    Int.le_trans (Int.mul_le_mul_of_nonneg_right (o.liabWeight_anti hr) s2.lp) (Int.mul_le_mul_of_nonneg_left (o.liabPrice_anti hr) s1.lw)
  have n1 := s1.ap'
  refine Int.le_trans (worth_mono s1 hb) ?_
  unfold worth
  split
  · exact Int.mul_le_mul_of_nonpos_left (by omega) hl
  · exact Int.mul_le_mul_of_nonneg_left ha (by omega)
end

/-! perp pnl -/
section
variable {p : PerpInfo} (o : p.Ordered)
include o

theorem execCase_mono {h h' : HT} (hr : h.rank ≤ h'.rank) {ord pr pr' v v' : Int}
    (hpr : (0 ≤ ord ∧ pr' ≤ pr) ∨ (ord ≤ 0 ∧ pr ≤ pr'))
    (h1 : p.execCase h ord pr = .ok v) (h2 : p.execCase h' ord pr' = .ok v') : v ≤ v' := by
  have e1 := execCase_ok h1
  have e2 := execCase_ok h2
  have horder : ord * p.baseLotSize * pr' ≤ ord * p.baseLotSize * pr := by
    rcases hpr with ⟨a, b⟩ | ⟨a, b⟩
    · exact Int.mul_le_mul_of_nonneg_left b (Int.mul_nonneg a o.lot)
    · have h3 : 0 ≤ (-ord) * p.baseLotSize := Int.mul_nonneg (by omega) o.lot
      have := Int.mul_le_mul_of_nonneg_left b h3
      simp only [Int.neg_mul] at this; omega
  have haw : p.baseWeight h false ≤ p.baseWeight h' false := by
    have := o.asset
    cases h <;> cases h' <;> simp [HT.rank] at hr <;> simp only [PerpInfo.baseWeight] <;> omega
  have hlw : p.baseWeight h' true ≤ p.baseWeight h true := by
    have := o.liab
    cases h <;> cases h' <;> simp [HT.rank] at hr <;> simp only [PerpInfo.baseWeight] <;> omega
  have hap : p.basePrices.asset h ≤ p.basePrices.asset h' := by
    cases h <;> cases h' <;> simp [HT.rank] at hr <;> simp only [Prices.asset] <;> omega
  have hlp : p.basePrices.liab h' ≤ p.basePrices.liab h := by
    cases h <;> cases h' <;> simp [HT.rank] at hr <;> simp only [Prices.liab] <;> omega
  have n1 := o.aw0 h'
  have n2 := o.assetP0 h
  have n3 := o.lw1 h'
  have n4 : 0 ≤ p.basePrices.liab h' := by have := o.oracle; have := o.liabP h'; omega
  have n5 : 0 < ONE := by decide
  unfold caseValue at e1 e2
  simp only at e1 e2
  generalize (p.baseLots + ord) * p.baseLotSize = B at *
  have hbase : (if B < 0 then B * p.baseWeight h true * p.basePrices.liab h / S else B * p.baseWeight h false * p.basePrices.asset h / S) ≤
      (if B < 0 then B * p.baseWeight h' true * p.basePrices.liab h' / S else B * p.baseWeight h' false * p.basePrices.asset h' / S) := by
    split
    · apply floor_mono
      have q1 : B * p.baseWeight h true ≤ B * p.baseWeight h' true := Int.mul_le_mul_of_nonpos_left (by omega) hlw
      have q2 : B * p.baseWeight h true ≤ 0 := Int.mul_nonpos_of_nonpos_of_nonneg (by omega) (by omega)
      exact Int.le_trans (Int.mul_le_mul_of_nonpos_left q2 hlp) (Int.mul_le_mul_of_nonneg_right q1 n4)
    · apply floor_mono
      have q1 : B * p.baseWeight h false ≤ B * p.baseWeight h' false := Int.mul_le_mul_of_nonneg_left haw (by omega)
      have q2 : 0 ≤ B * p.baseWeight h' false := Int.mul_nonneg (by omega) n1
      exact Int.le_trans (Int.mul_le_mul_of_nonneg_right q1 n2) (Int.mul_le_mul_of_nonneg_left hap q2)
  omega

theorem hupnl_mono {h h' : HT} (hr : h.rank ≤ h'.rank) {v v' : Int} (h1 : p.hupnl h = .ok v) (h2 : p.hupnl h' = .ok v') : v ≤ v' := by
  simp only [PerpInfo.hupnl, bind_ok] at h1 h2
  obtain ⟨u, h1, w1⟩ := h1
  obtain ⟨u', h2, w2⟩ := h2
  have hu : u ≤ u' := by
    simp only [PerpInfo.uhupnl, bind_ok, ck64_ok, add_ok] at h1 h2
    obtain ⟨b, b1, na, ⟨b2, _⟩, a, b3, b4, _⟩ := h1
    obtain ⟨b', b1', na', ⟨b2', _⟩, a', b3', b4', _⟩ := h2
    subst b2; subst b2'
    have hlp : p.basePrices.liab h' ≤ p.basePrices.liab h := by
      cases h <;> cases h' <;> simp [HT.rank] at hr <;> simp only [Prices.liab] <;> omega
    have hap : p.basePrices.asset h ≤ p.basePrices.asset h' := by
      cases h <;> cases h' <;> simp [HT.rank] at hr <;> simp only [Prices.asset] <;> omega
    have := execCase_mono o hr (Or.inl ⟨o.bids, hlp⟩) b1 b1'
    have := execCase_mono o hr (Or.inr ⟨by have := o.asks; omega, hap⟩) b3 b3'
    omega
  have hov : p.overallWeight h ≤ p.overallWeight h' := by
    have := o.overall
    cases h <;> cases h' <;> simp [HT.rank] at hr <;> simp only [PerpInfo.overallWeight] <;> omega
  have hov0 : 0 ≤ p.overallWeight h := by
    have := o.overall0; have := o.overall
    cases h <;> simp only [PerpInfo.overallWeight] <;> omega
  simp only [PerpInfo.weigh, ite_ok, mul_ok] at w1 w2
  rcases w1 with ⟨c1, w1, _⟩ | ⟨c1, w1⟩ <;> rcases w2 with ⟨c2, w2, _⟩ | ⟨c2, w2⟩
  · rw [w1, w2]
    exact floor_mono (Int.le_trans (Int.mul_le_mul_of_nonneg_left hu hov0) (Int.mul_le_mul_of_nonneg_right hov (by omega)))
  · omega
  · simp at w1
    have : 0 ≤ v' := by rw [w2]; exact floor_nonneg (Int.mul_nonneg (by omega) (by omega))
    omega
  · simp at w1 w2; omega
end

/-- consistently ordered risk parameters everywhere -/
structure Cache.Ordered (c : Cache) : Prop where
  tokens : ∀ t ∈ c.tokens, t.Ordered
  perps : ∀ p ∈ c.perps, p.Ordered
  markets : c.MarketsNonNeg

theorem Cache.Ordered.sane {c : Cache} (o : c.Ordered) (h : HT) : AllSane c.tokens h := fun t ht => (o.tokens t ht).sane h

theorem balances_mono {c : Cache} (o : c.Ordered) {h h' : HT} (hr : h.rank ≤ h'.rank) {bs bs' : List Int}
    (h1 : c.balances h = .ok bs) (h2 : c.balances h' = .ok bs') : ∀ k, balAt bs k ≤ balAt bs' k := by
  obtain ⟨l1, v1, p1⟩ := balancesI_ok h1
  obtain ⟨l2, v2, p2⟩ := balancesI_ok h2
  intro k
  by_cases hk : k < c.tokens.length
  · have ht := List.getElem?_eq_getElem hk
    rw [balAt_eq (v1 k _ ht), balAt_eq (v2 k _ ht)]
    have : sumOf (perpOn c h false k) c.perps ≤ sumOf (perpOn c h' false k) c.perps := by
      apply sumOf_le
      intro p hp
      unfold perpOn
      obtain ⟨_, a, ha⟩ := p1 p hp
      obtain ⟨_, b, hb⟩ := p2 p hp
      rw [val_ok ha, val_ok hb]
      have := hupnl_mono (o.perps p hp) hr ha hb
      split
      · simpa using this
      · simp
    omega
  · unfold balAt
    rw [List.getD_eq_getElem?_getD, List.getD_eq_getElem?_getD, List.getElem?_eq_none (by omega), List.getElem?_eq_none (by omega)]; simp

/-- no funds reserved in spot orders -/
def Cache.NoReserved (c : Cache) : Prop := ∀ s ∈ c.serums, s.reservedBase = 0 ∧ s.reservedQuote = 0

/-- **C37a** Without funds reserved in spot orders, the healths of an account with consistently ordered risk parameters are ordered
exactly: init ≤ liquidation-end ≤ maintenance. (`fd 0 p = 0`: a zero amount converts to zero.) -/
theorem C37_healths_ordered {fd : FDiv} (hfd0 : ∀ p x, fd 0 p = .ok x → x = 0) {c : Cache} (o : c.Ordered) (hn : c.NoReserved)
    {h h' : HT} (hr : h.rank ≤ h'.rank)
    {v v' : I80F48} (h1 : c.health fd h = .ok v) (h2 : c.health fd h' = .ok v') : v ≤ v' := by
  simp only [Cache.health, bind_ok] at h1 h2
  obtain ⟨bs, hb, h1⟩ := h1
  obtain ⟨bs', hb', h2⟩ := h2
  have hm := balances_mono o hr hb hb'
  have hl := (balancesI_ok hb).1
  have hl' := (balancesI_ok hb').1
  have zero : ∀ {h : HT} {bs mr : List Int} {rs}, c.reservations fd h = .ok (mr, rs) →
      sumOf (fun (x : Serum3Info × Serum3Reserved) => val (x.1.contribution h c.tokens bs mr x.2)) (c.serums.zip rs) = 0 := by
    intro h bs mr rs hres
    obtain ⟨_, _, _, d⟩ := reservations_ok hres
    apply sumOf_zero
    intro x hx
    obtain ⟨q, b, _, _, h3, h4⟩ := d x hx
    obtain ⟨z1, z2⟩ := hn x.1 (mem_zip_fst hx)
    have : x.2.asBase = 0 ∨ x.2.asQuote = 0 := by
      simp only [Serum3Info.allReservedAsBase, bind_ok, ite_ok, mul_ok, add_ok] at h3
      simp only [Serum3Info.allReservedAsQuote, bind_ok, ite_ok, mul_ok, add_ok] at h4
      obtain ⟨w, ⟨hw, _⟩, oo, ho, h3⟩ := h3
      obtain ⟨w', ⟨hw', _⟩, oo', ho', h4⟩ := h4
      rw [z2] at hw; rw [z1] at hw'
      simp at hw hw'
      rw [hw] at ho; rw [hw'] at ho'
      have e1 := hfd0 _ _ ho
      have e2 := hfd0 _ _ ho'
      have nb := (o.markets x.1 (mem_zip_fst hx)).bid
      rcases h3 with ⟨_, h3, _⟩ | ⟨_, h3, _⟩
      · left; omega
      · left; omega
    simp [Serum3Info.contribution, this, val]
  obtain ⟨mr, rs, r1, e1, f1, _⟩ := healthSum_ok h1
  obtain ⟨mr', rs', r2, e2, f2, _⟩ := healthSum_ok h2
  rw [zero r1] at e1
  rw [zero r2] at e2
  have : sumOf (fun (x : TokenInfo × Int) => val (x.1.contribution h x.2)) (c.tokens.zip bs) ≤
      sumOf (fun (x : TokenInfo × Int) => val (x.1.contribution h' x.2)) (c.tokens.zip bs') := by
    apply sumOf_zip_le hl hl'
    intro i t b b' ht hbi hbi'
    obtain ⟨a, ha⟩ := f1 (t, b) (by apply List.mem_of_getElem? (i := i); rw [List.getElem?_zip_eq_some]; exact ⟨ht, hbi⟩)
    obtain ⟨a', ha'⟩ := f2 (t, b') (by apply List.mem_of_getElem? (i := i); rw [List.getElem?_zip_eq_some]; exact ⟨ht, hbi'⟩)
    dsimp only at ha ha' ⊢
    rw [val_ok ha, val_ok ha']
    have := hm i
    rw [balAt_eq hbi, balAt_eq hbi'] at this
    exact (o.tokens t (List.mem_of_getElem? ht)).contribution_mono hr this ha ha'
  omega

/-- reservations are monotone in the health type -/
theorem reserved_mono {fd : FDiv} (hfd : FdOk fd) {s : Serum3Info} (hs : s.NonNeg) {q b : TokenInfo} (oq : q.Ordered) (ob : b.Ordered)
    {h h' : HT} (hr : h.rank ≤ h'.rank) {x x' y y' : Int}
    (hx : s.allReservedAsBase fd h q b = .ok x) (hx' : s.allReservedAsBase fd h' q b = .ok x')
    (hy : s.allReservedAsQuote fd h q b = .ok y) (hy' : s.allReservedAsQuote fd h' q b = .ok y') : x ≤ x' ∧ y ≤ y' := by
  simp only [Serum3Info.allReservedAsBase, Serum3Info.allReservedAsQuote, bind_ok, ite_ok, mul_ok, add_ok] at hx hy hx' hy'
  obtain ⟨v, ⟨hv, _⟩, o, ho, hx⟩ := hx
  obtain ⟨w, ⟨hw, _⟩, u, hu, hy⟩ := hy
  obtain ⟨v', ⟨hv', _⟩, o', ho', hx'⟩ := hx'
  obtain ⟨w', ⟨hw', _⟩, u', hu', hy'⟩ := hy'
  have e1 := hfd.mono _ _ _ _ _ _ (by rw [hv]; exact floor_nonneg (Int.mul_nonneg hs.quote (oq.sane h).ap))
    (by rw [hv, hv']; exact floor_mono (Int.mul_le_mul_of_nonneg_left (oq.assetPrice_mono hr) hs.quote)) (ob.sane h').lp (ob.liabPrice_anti hr) ho ho'
  have e2 := hfd.mono _ _ _ _ _ _ (by rw [hw]; exact floor_nonneg (Int.mul_nonneg hs.base (ob.sane h).ap))
    (by rw [hw, hw']; exact floor_mono (Int.mul_le_mul_of_nonneg_left (ob.assetPrice_mono hr) hs.base)) (oq.sane h').lp (oq.liabPrice_anti hr) hu hu'
  constructor
  · rcases hx with ⟨c1, hx, _⟩ | ⟨c1, hx, _⟩ <;> rcases hx' with ⟨c2, hx', _⟩ | ⟨c2, hx', _⟩ <;> omega
  · rcases hy with ⟨c1, hy, _⟩ | ⟨c1, hy, _⟩ <;> rcases hy' with ⟨c2, hy', _⟩ | ⟨c2, hy', _⟩ <;> omega

/-- **C37b** With funds in spot orders: when every token is either weighted alike as asset and as liability (as the quote token of
the markets usually is) or used by at most one market with reserved funds, the healths are ordered up to rounding: the excess is at
most `slack` (about one last-place unit per token and market plus `2^-48` per native token and price). -/
theorem C37_healths_ordered_with_orders {fd : FDiv} (hfd : FdOk fd) {c : Cache} (o : c.Ordered)
    (hne : ∀ s ∈ c.serums, s.baseIdx ≠ s.quoteIdx) {h h' : HT} (hr : h.rank ≤ h'.rank)
    {bs bs' mr' : List I80F48} {rs' : List Serum3Reserved} (hb : c.balances h = .ok bs) (hb' : c.balances h' = .ok bs')
    (hres : c.reservations fd h' = .ok (mr', rs'))
    (hu : Unshared c.tokens h' (c.serums.zip rs'))
    {v v' : I80F48} (h1 : c.health fd h = .ok v) (h2 : c.health fd h' = .ok v') :
    v * (S * S) ≤ v' * (S * S) + slack c h' bs' rs' + tokenExcess bs c.tokens.length := by
  simp only [Cache.health, bind_ok] at h1 h2
  obtain ⟨bs1, hb1, h1⟩ := h1
  obtain ⟨bs2, hb2, h2⟩ := h2
  rw [hb] at hb1; simp at hb1; subst hb1
  rw [hb'] at hb2; simp at hb2; subst hb2
  have hm := balances_mono o hr hb hb'
  obtain ⟨mr, rs, r1, _⟩ := healthSum_ok h1
  obtain ⟨dirs, hd, hge⟩ := healthSum_ge hfd (o.sane h') o.markets (balancesI_ok hb').1 h2 hres hne hu
  have hle := healthSum_le hfd (o.sane h) o.markets (balancesI_ok hb).1 h1 r1 dirs hd
  have hcv : ∀ k, convAll ((c.serums.zip rs).zip dirs) k ≤ convAll ((c.serums.zip rs').zip dirs) k := by
    obtain ⟨a1, _, _, d1⟩ := reservations_ok r1
    obtain ⟨a2, _, _, d2⟩ := reservations_ok hres
    apply convAll_mono
    · simp [a1, a2]
    · intro i x y hx hy
      obtain ⟨q, b, z1, z2, z3, z4⟩ := d1 x (List.mem_of_getElem? hx)
      obtain ⟨q', b', z1', z2', z3', z4'⟩ := d2 y (List.mem_of_getElem? hy)
      have hs : x.1 = y.1 := by
        rw [List.getElem?_zip_eq_some] at hx hy
        have := hx.1.symm.trans hy.1
        simpa using this
      rw [← hs] at z1' z2' z3' z4'
      rw [z1] at z1'; simp at z1'; subst z1'
      rw [z2] at z2'; simp at z2'; subst z2'
      exact ⟨hs, reserved_mono hfd (o.markets x.1 (mem_zip_fst (List.mem_of_getElem? hx))) (o.tokens q (List.mem_of_getElem? z1))
        (o.tokens b (List.mem_of_getElem? z2)) hr z3 z3' z4 z4'⟩
  have hw : totalWorth c.tokens h (fun k => balAt bs k + convAll ((c.serums.zip rs).zip dirs) k) ≤
      totalWorth c.tokens h' (fun k => balAt bs' k + convAll ((c.serums.zip rs').zip dirs) k) := by
    apply sumOf_le
    intro k _
    unfold worthAt
    split
    · rename_i t ht
      exact (o.tokens t (List.mem_of_getElem? ht)).worth_mono_type hr (by have := hm k; have := hcv k; dsimp only; omega)
    · simp
  omega

/-- the exact division is one admissible conversion -/
theorem fdOk_div : FdOk Fx.div := by
  constructor
  · intro a b x ha hb h
    rw [div_ok] at h
    have := tdiv_bounds (a := a * S) (b := b) (Int.mul_nonneg ha (by decide)) (by omega)
    omega
  · intro a a' b b' x y ha haa hb hbb h1 h2
    rw [div_ok] at h1 h2
    have p1 : 0 ≤ a * S := Int.mul_nonneg ha (by decide)
    have p2 : a * S ≤ a' * S := Int.mul_le_mul_of_nonneg_right haa (by decide)
    have t1 := tdiv_bounds (a := a * S) (b := b) p1 (by omega)
    have t2 := tdiv_bounds (a := a' * S) (b := b') (by omega) (by omega)
    rw [h1.2.1, h2.2.1]
    generalize Int.tdiv (a * S) b = q at *
    generalize Int.tdiv (a' * S) b' = q' at *
    by_contra hc
    have : (q' + 1) * b' ≤ q * b := Int.mul_le_mul (by omega) hbb hb t1.2.2
    rw [Int.add_mul] at this
    omega

end Health
end Mango
