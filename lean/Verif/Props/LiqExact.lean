import Verif.Props.TokenLiqEx
/-!
# C12, C56: the amounts exactly

The bounds in `C12_insurance` and `C56_amounts` are attained: the fund pays as soon as it can, and a token liquidation goes as far as one of its limits allows.
-/
namespace Mango
namespace Liquidation
open Fx Health Bank

/-- the part of the insurance fund that may be used for this token -/
def fundFor (s : Bkr) : Int := if s.eligible = true then s.insuranceVault else 0

/-- **C12, exact amounts** The fund pays the price of the debt to be covered (what is owed, at most what was asked for), rounded up to a native unit, if it has that much, and all it has otherwise.
The liqee is credited what the payment is worth at that price, rounded down by less than one bit. `left` is what the credit leaves of the loss; all of it is socialized if the fund is exhausted
(then the account owes nothing any more), and nothing otherwise. -/
theorem C12_amounts_exact {env : BkrEnv} {s s' : Bkr} {maxLiab : I80F48} {r : Report} (hpos : ∀ b ∈ s.banks, b.Pos) (hv : 0 ≤ s.insuranceVault) (hr : 0 ≤ r.ratio)
    (h : tokenLiqBankruptcy env s maxLiab = .ok (s', r)) :
    (min r.loss maxLiab * r.ratio / S ≤ fundFor s * S →
      min r.loss maxLiab * r.ratio / S ≤ r.insuranceTransfer * S ∧ r.insuranceTransfer * S < min r.loss maxLiab * r.ratio / S + S) ∧
    (fundFor s * S < min r.loss maxLiab * r.ratio / S → r.insuranceTransfer = fundFor s) ∧
    r.liabTransfer * r.ratio ≤ r.insuranceTransfer * S * S ∧ r.insuranceTransfer * S * S < r.liabTransfer * r.ratio + r.ratio ∧
    ∃ b bm liqee n0 n1 left, s.banks[s.k]? = some b ∧ s.liqee.native b = .ok n0 ∧
      (r.insuranceTransfer = 0 → bm = b ∧ liqee = s.liqee ∧ n1 = n0) ∧
      (0 < r.insuranceTransfer → (∃ act, b.depositWithDusting s.liqee r.liabTransfer env.now = .ok (bm, liqee, act)) ∧ liqee.native bm = .ok n1) ∧
      left = r.loss - (n1 - n0) ∧
      (r.insuranceTransfer = fundFor s → 0 < left → r.socialized = left ∧ s'.liqee.indexed = 0) ∧
      (r.insuranceTransfer < fundFor s ∨ left ≤ 0 → r.socialized = 0 ∧ s'.liqee = liqee) := by
  have hS := S_pos
  have h' := h
  obtain ⟨_, _, b, n0, b1, s1, loss1, hb, ho, ha, hp, hs, g1, g2, g3, g4, _⟩ := bankruptcy_ok hpos h
  have hn0 : s.liqee.native b = .ok n0 := by
    simp only [tokenLiqBankruptcy, bind_ok, require_ok, sub_ok] at h'
    obtain ⟨_, _, _, _, b', hb', ⟨n0', loss⟩, h3, _⟩ := h'
    have hb' := getBank_ok' hb'
    rw [hb, Option.some.injEq] at hb'
    subst hb'
    have h4 := (lossOf_ok (hpos b (List.mem_of_getElem? hb)) h3).native
    simp only [lossOf, bind_ok, require_ok, neg_ok, ok_inj, Prod.mk.injEq] at h3
    obtain ⟨n, hn, bs, hbs, i, hi, hb', ha, _, h1, _, h2, nn, ⟨rfl, _⟩, nh, ⟨rfl, _⟩, rfl, rfl⟩ := h3
    rw [hn, ho.native, h4]
  have h0 := ha.nonneg hv
  have hfund : r.insuranceTransfer ≤ fundFor s := ha.fund
  have hcost := ha.cost
  have hfull : r.insuranceTransfer = fundFor s ∨ min r.loss maxLiab * r.ratio / S ≤ r.insuranceTransfer * S := ha.full
  have hrp : 0 < r.ratio := by
    have := ha.nonzero
    omega
  have ht := tdiv_bounds (a := r.insuranceTransfer * S * S) (b := r.ratio) (Int.mul_nonneg (Int.mul_nonneg h0 hS.le) hS.le) hrp
  rw [← ha.liab] at ht
  refine ⟨?_, ?_, ht.1, ht.2.1, ?_⟩
  · intro hle
    refine ⟨?_, hcost⟩
    rcases hfull with e | e
    · rw [e]; exact hle
    · exact e
  · intro hlt
    rcases hfull with e | e
    · exact e
    · have := Int.mul_le_mul_of_nonneg_right hfund hS.le
      omega
  · have hfin : ∀ (liqee : TokenPosition) (left : Int), left = loss1 → liqee = s1.liqee →
        (r.insuranceTransfer = fundFor s → 0 < left → r.socialized = left ∧ s'.liqee.indexed = 0) ∧
        (r.insuranceTransfer < fundFor s ∨ left ≤ 0 → r.socialized = 0 ∧ s'.liqee = liqee) := by
      rintro liqee left rfl rfl
      refine ⟨?_, ?_⟩
      · intro e hl
        obtain ⟨y1, y2⟩ := hs.yes e hl
        exact ⟨y2, (socializeLoss_ok y1).2.2⟩
      · intro hx
        have : ¬ (r.insuranceTransfer = usableInsurance s ∧ 0 < left) := by
          rintro ⟨e1, e2⟩
          have e1 : r.insuranceTransfer = fundFor s := e1
          omega
        obtain ⟨y1, y2, y3⟩ := hs.no this
        exact ⟨y3, y2⟩
    rcases hp with ⟨hz, rfl, rfl, rfl⟩ | ⟨hgt, hp⟩
    · exact ⟨b1, b1, s1.liqee, n0, n0, r.loss, hb, hn0, fun _ => ⟨rfl, rfl, rfl⟩, fun h => by omega, by omega, hfin _ _ rfl rfl⟩
    · obtain ⟨bm, act, n1, e1, e2, e3, e4⟩ := hp.liqee
      exact ⟨b, bm, s1.liqee, n0, n1, loss1, hb, hn0, fun h => by omega, fun _ => ⟨⟨act, e1⟩, e2⟩, e3, hfin _ _ rfl rfl⟩

/-- `C12_amounts_exact` applies to `exBkr`, whose fund of 3000 is exhausted -/
example : (∀ b ∈ exBkr.banks, b.Pos) ∧ 0 ≤ exBkr.insuranceVault ∧ fundFor exBkr = 3000 ∧
    (match tokenLiqBankruptcy exBkrEnv exBkr (5000000 * S) with
      | .ok (_, r) => decide (0 ≤ r.ratio ∧ r.insuranceTransfer = fundFor exBkr ∧ 0 < r.socialized)
      | .error _ => false) = true := by
  refine ⟨?_, by decide, by decide, by decide +kernel⟩
  intro b hb
  rw [List.mem_singleton.mp hb]
  exact exBank_pos

/-- price with all fees of both tokens -/
def allFees (s : TokLiq) : Int := (S + s.liab.fee + s.liab.platformFee) * (S + s.asset.fee + s.asset.platformFee) / S

/-- price with the liqor's fees only -/
def liqorFees (s : TokLiq) : Int := (S + s.liab.fee) * (S + s.asset.fee) / S

/-- what a native unit of debt costs the liqee in quote -/
def debtCost (s : TokLiq) : Int := s.liab.price * allFees s / S

/-- what liquidation-end health gains per native unit of debt repaid: the weighted debt at price `p`, minus the weighted assets given up for it -/
def gainPerUnit (s : TokLiq) (p : Int) : Int := p * s.liab.bank.initLiabWeight / S - debtCost s * s.asset.bank.initAssetWeight / S

/-- **C56, exact amounts** A token liquidation goes as far as its limits allow: unless the requested amount, the debt, or the debt counting perp pnl is reached, one more bit of debt would gain more than
the missing health or cost more than the available assets. The liqee pays, and the liqor receives, the oracle-price equivalent (rounded down once per step) times all fees and times the liqor's fees. -/
theorem C56_amounts_exact {env : TokLiqEnv} {s s' : TokLiq} {maxLiab : I80F48} {r : TokReport} (hs : Sane s) (h : tokenLiqWithToken env s maxLiab = .ok (s', some r)) :
    ∃ le na nl bs il ia bl ba tl base, s.cache.health env.fd .liqEnd = .ok le ∧ s.liqeeAsset.native s.asset.bank = .ok na ∧ s.liqeeLiab.native s.liab.bank = .ok nl ∧
      s.cache.balances .liqEnd = .ok bs ∧ s.cache.tokenIdx s.liab.index = some il ∧ s.cache.tokenIdx s.asset.index = some ia ∧ bs[il]? = some bl ∧ bs[ia]? = some ba ∧
      s.cache.tokens[il]? = some tl ∧
      (gainPerUnit s tl.prices.oracle < 0 → le ≤ 0 → r.liabTransfer = 0) ∧
      (0 < gainPerUnit s tl.prices.oracle → le ≤ 0 →
        0 ≤ r.liabTransfer ∧ r.liabTransfer * gainPerUnit s tl.prices.oracle ≤ -le * S ∧ r.liabTransfer * debtCost s ≤ min na ba * s.asset.price ∧
        (r.liabTransfer = maxLiab ∨ r.liabTransfer = -nl ∨ r.liabTransfer = -bl ∨
          -le * S < (r.liabTransfer + 1) * gainPerUnit s tl.prices.oracle ∨ min na ba * s.asset.price < (r.liabTransfer + 1) * debtCost s + S)) ∧
      base * s.asset.price ≤ r.liabTransfer * s.liab.price ∧ r.liabTransfer * s.liab.price < (base + 1) * s.asset.price + S ∧
      r.assetFromLiqee = base * allFees s / S ∧ r.assetToLiqor = base * liqorFees s / S := by
  have hS := S_pos
  obtain ⟨le, hle, ha⟩ := liq_some h
  obtain ⟨f, na, nl, ml, ma, hf, hL, hA, hR, hm⟩ := action_ok ha
  obtain ⟨bs, il, ia, bl, ba, g1, g2, g3, g4, g5, g6, g7, g8, g9⟩ := hL.balances
  obtain ⟨f1, f2, f3⟩ := feeFactors_ok hf
  obtain ⟨il', tl, ia', ta, t1, t2, _, _, _, hd, hlt⟩ := hA.tok
  obtain ⟨hp, base, hb, _, hto, hfrom, hfee⟩ := assetAmounts_ok hR
  dsimp only at *
  have hlopa := hA.lopa
  rw [g2, Option.some.injEq] at t1
  subst t1
  obtain ⟨s1, s2, s3, s4, s5, s6⟩ := hs
  have ef : f.total = allFees s := f2
  have el : f.liqor = liqorFees s := f1
  have ec : f.lopa = debtCost s := by rw [f3, ef]; rfl
  have eg : healthPerLiab { s with liqeeFlag := ⟨true⟩ } f tl.prices.oracle = gainPerUnit s tl.prices.oracle := by
    unfold healthPerLiab gainPerUnit; rw [ec]
  rw [eg] at hlt hd
  rw [ec] at hlt hlopa
  generalize hl : r.liabTransfer = lt at *
  have hml := hL.mlPos
  have hma := hL.maPos
  have hlt0 : 0 ≤ lt := by omega
  have hap : 0 < s.asset.price := by omega
  have hcost : 0 < debtCost s := by
    have : 0 ≤ debtCost s := by
      unfold debtCost allFees
      exact floor_nonneg (Int.mul_nonneg s6 (floor_nonneg (Int.mul_nonneg (by omega) (by omega))))
    omega
  have hx : 0 ≤ ma * s.asset.price := Int.mul_nonneg hma.le hap.le
  have hposs := tdiv_bounds (a := ma * s.asset.price / S * S) (b := debtCost s) (Int.mul_nonneg (floor_nonneg hx) hS.le) hcost
  have hmf := mulFloor_bounds (ma * s.asset.price)
  have hv0 : 0 ≤ lt * s.liab.price := Int.mul_nonneg hlt0 s6
  have hv := mulFloor_bounds (lt * s.liab.price)
  have hbb := tdiv_bounds (a := lt * s.liab.price / S * S) (b := s.asset.price) (Int.mul_nonneg (floor_nonneg hv0) hS.le) hap
  rw [← hb] at hbb
  refine ⟨le, na, nl, bs, il, ia, bl, ba, tl, base, hle, hL.asset, hL.liab, g1, g2, g3, g4, g5, t2, ?_, ?_, by omega, ?_, by rw [← ef]; exact hfrom, by rw [← el]; exact hto⟩
  · intro hg hle0
    have : Int.tdiv (-le * S) (gainPerUnit s tl.prices.oracle) ≤ 0 := by
      have e : gainPerUnit s tl.prices.oracle = -(-gainPerUnit s tl.prices.oracle) := by omega
      rw [e, Int.tdiv_neg]
      have := (tdiv_bounds (a := -le * S) (b := -gainPerUnit s tl.prices.oracle) (Int.mul_nonneg (by omega) hS.le) (by omega)).2.2
      omega
    omega
  · intro hg hle0
    have hneed := tdiv_bounds (a := -le * S) (b := gainPerUnit s tl.prices.oracle) (Int.mul_nonneg (by omega) hS.le) hg
    generalize Int.tdiv (-le * S) (gainPerUnit s tl.prices.oracle) = needed at hneed hlt
    generalize Int.tdiv (ma * s.asset.price / S * S) (debtCost s) = possible at hposs hlt
    generalize gainPerUnit s tl.prices.oracle = G at *
    have a1 : lt * G ≤ needed * G := Int.mul_le_mul_of_nonneg_right (by omega) hg.le
    have a2 : lt * debtCost s ≤ possible * debtCost s := Int.mul_le_mul_of_nonneg_right (by omega) hcost.le
    rw [← g9]
    refine ⟨hlt0, by omega, by omega, ?_⟩
    have hcase : lt = ml ∨ lt = needed ∨ lt = possible := by omega
    rcases hcase with e | e | e
    · have : ml = maxLiab ∨ ml = -nl ∨ ml = -bl := by omega
      rw [e]
      rcases this with e | e | e
      · exact Or.inl e
      · exact Or.inr (Or.inl e)
      · exact Or.inr (Or.inr (Or.inl e))
    · refine Or.inr (Or.inr (Or.inr (Or.inl ?_)))
      rw [e, Int.add_mul, Int.one_mul]
      omega
    · refine Or.inr (Or.inr (Or.inr (Or.inr ?_)))
      rw [e, Int.add_mul, Int.one_mul]
      omega
  · rw [Int.add_mul, Int.one_mul]
    omega

/-- `C56_amounts_exact` applies to `exLiq` (about 1786 of the 3060 owed): the gain per unit is positive, and the missing health is what limits the amount -/
example : Sane exLiq ∧ 0 < gainPerUnit exLiq (S / 10 * 4) ∧ exLiq.cache.health exLiqEnv.fd .liqEnd = .ok (-72282774019279440) ∧
    (match tokenLiqWithToken exLiqEnv exLiq (1000000 * S) with
      | .ok (_, some r) => decide (72282774019279440 * S < (r.liabTransfer + 1) * gainPerUnit exLiq (S / 10 * 4))
      | _ => false) = true := by
  refine ⟨exLiq_sane, ?_, ?_, ?_⟩ <;> decide +kernel

end Liquidation
end Mango
