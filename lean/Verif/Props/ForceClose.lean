import Verif.Liq.ForceClose
import Verif.Props.HealthRecache
import Verif.Props.PerpLiqPlan
import Verif.Props.Wallet
/-!
# C65: closing borrows of a token by force
-/
namespace Mango
namespace Liquidation
open Fx Health Bank

/-- the parts of a successful call -/
structure FcParts (env : ForceCloseEnv) (s s' : ForceClose) (maxLiab : Int) (r : TokReport) (na nl ol base ffl fft : Int) (ab lb : Bank) (wr : WithdrawResult) (h : Int) : Prop where
  distinct : s.asset.index ≠ s.liab.index
  liqorOk : s.liqorFlag.being = false
  force : s.forceClose = true
  borrowable : s.asset.bank.areBorrowsReduceOnly = false
  ffl_eq : ffl = (S + s.liab.fee) * (S + s.asset.fee) / S
  fft_eq : fft = (S + s.liab.fee + s.liab.platformFee) * (S + s.asset.fee + s.asset.platformFee) / S
  weight : s.asset.bank.initLiabWeight * fft / S ≤ s.liab.bank.initLiabWeight
  asset : s.liqeeAsset.native s.asset.bank = .ok na
  debt : s.liqeeLiab.native s.liab.bank = .ok nl
  debtNeg : nl < 0
  has : s.liqorLiab.native s.liab.bank = .ok ol
  hasPos : 0 < ol
  price : s.asset.price ≠ 0
  lt : r.liabTransfer = max (min (min (maxLiab * S) (-nl)) ol) 0
  base_eq : base = Int.tdiv (r.liabTransfer * s.liab.price / S * S) s.asset.price
  toLiqor : r.assetToLiqor = base * ffl / S
  fromLiqee : r.assetFromLiqee = base * fft / S
  fee : r.fee = r.assetFromLiqee - r.assetToLiqor
  feeRange : inRange (s.asset.bank.collectedFeesNative + r.fee)
  repay : ∃ x, s.liab.bank.depositWithDusting s.liqeeLiab r.liabTransfer env.now = .ok (lb, s'.liqeeLiab, x)
  take : lb.withdrawWithFee s.liqorLiab r.liabTransfer env.now = .ok (s'.liab.bank, s'.liqorLiab, wr)
  give : ∃ x, ({ s.asset.bank with collectedFeesNative := s.asset.bank.collectedFeesNative + r.fee } : Bank).deposit s.liqorAsset r.assetToLiqor env.now = .ok (ab, s'.liqorAsset, x)
  pay : ∃ x, ab.withdrawWithoutFeeWithDusting s.liqeeAsset r.assetFromLiqee env.now = .ok (s'.asset.bank, s'.liqeeAsset, x)
  debtAfter : ∃ n, s'.liqeeLiab.native s'.liab.bank = .ok n
  assetAfter : ∃ n, s'.liqeeAsset.native s'.asset.bank = .ok n
  noLoan : wr.loanAmount = 0
  account : s'.liqee = s.account s'.asset.bank s'.liab.bank s'.liqeeAsset s'.liqeeLiab
  health : accountHealth env.rnd env.fd env.now s'.liqee.banks s'.liqee.ps s'.liqee.os s'.liqee.perps .liqEnd = .ok h
  flag : s'.liqeeFlag = (s.liqeeFlag.maybeRecover h).1
  liqor : ∃ lh, env.liqorHealth s' = .ok lh ∧ 0 ≤ lh
  rest : s' = { s with asset := { s.asset with bank := s'.asset.bank }, liab := { s.liab with bank := s'.liab.bank }, liqee := s'.liqee, liqeeAsset := s'.liqeeAsset, liqeeLiab := s'.liqeeLiab,
                       liqorAsset := s'.liqorAsset, liqorLiab := s'.liqorLiab, liqeeFlag := s'.liqeeFlag }

theorem fc_parts {env : ForceCloseEnv} {s s' : ForceClose} {maxLiab : Int} {r : TokReport} (h : forceCloseBorrows env s maxLiab = .ok (s', r)) :
    ∃ na nl ol base ffl fft ab lb wr h, FcParts env s s' maxLiab r na nl ol base ffl fft ab lb wr h := by
  simp only [forceCloseBorrows, ForceClose.factors, ForceClose.amounts, bind_ok, require_ok, add_ok, mul_ok, div_ok, sub_ok, neg_ok, ok_inj, Prod.mk.injEq] at h
  obtain ⟨_, h1, _, h2, _, h3, _, h4, ⟨ffl, fft⟩, ⟨_, ⟨rfl, _⟩, _, ⟨rfl, _⟩, _, ⟨rfl, _⟩, _, ⟨rfl, _⟩, _, ⟨rfl, _⟩, _, ⟨rfl, _⟩, rfl, rfl⟩, h⟩ := h
  obtain ⟨_, ⟨rfl, _⟩, _, h5, na, hna, nl, hnl, _, h6, ol, hol, _, h7, rr, ⟨_, ⟨rfl, _⟩, _, ⟨rfl, _⟩, _, ⟨hp, rfl, _⟩, _, ⟨rfl, _⟩, _, ⟨rfl, _⟩, _, ⟨rfl, _⟩, rfl⟩, h⟩ := h
  obtain ⟨_, ⟨rfl, hfr⟩, ⟨lb, p1, x1⟩, hd, ⟨lb', p2, wr⟩, hw, n1, hn1, ⟨ab, p3, x3⟩, hdep, ⟨ab', p4, x4⟩, hpay, n2, hn2, _, hl, c, hc, hh, hhe, lh, hlh, _, hlp, rfl, rfl⟩ := h
  dsimp only at *
  refine ⟨na, nl, ol, Int.tdiv (max (min (min (ofInt maxLiab) (-nl)) ol) 0 * s.liab.price / S * S) s.asset.price, (ONE + s.liab.fee) * (ONE + s.asset.fee) / S,
    (ONE + s.liab.fee + s.liab.platformFee) * (ONE + s.asset.fee + s.asset.platformFee) / S, ab, lb, wr, hh, ?_⟩
  constructor
  all_goals first | assumption | rfl | skip
  · exact ⟨_, hd⟩
  · exact ⟨_, hdep⟩
  · exact ⟨_, hpay⟩
  · exact ⟨_, hn1⟩
  · exact ⟨_, hn2⟩
  · simp only [accountHealth, bind_ok]
    exact ⟨c, hc, hhe⟩
  · exact ⟨_, hlh, hlp⟩

/-- the account of the liqee shows the two banks, prices and positions -/
structure ForceClose.Shows (s : ForceClose) : Prop where
  asset : s.liqee.ps[s.kA]? = some ⟨s.asset.index, s.liqeeAsset.indexed⟩
  liab : s.liqee.ps[s.kL]? = some ⟨s.liab.index, s.liqeeLiab.indexed⟩
  assetBank : (s.liqee.banks s.asset.index).bank = s.asset.bank ∧ (s.liqee.banks s.asset.index).oracle = s.asset.price
  liabBank : (s.liqee.banks s.liab.index).bank = s.liab.bank ∧ (s.liqee.banks s.liab.index).oracle = s.liab.price

/-- fees and prices are not negative (bank.rs:406, 423) -/
structure ForceClose.Sane (s : ForceClose) : Prop where
  assetFee : 0 ≤ s.asset.fee
  liabFee : 0 ≤ s.liab.fee
  assetPlatform : 0 ≤ s.asset.platformFee
  liabPlatform : 0 ≤ s.liab.platformFee
  assetPrice : 0 ≤ s.asset.price
  liabPrice : 0 ≤ s.liab.price

/-- **C65, conditions.** Borrows are closed by force only in a token marked for it and for an account that has such borrows, by a liqor that is not being liquidated, brings deposits of the token, makes
no loan and ends with non-negative init health. The token handed over must allow borrows, and its liability weight times the fees must not exceed that of the token repaid. A liquidation of the liqee ends
exactly if its liquidation-end health is above -1. -/
theorem C65_conditions {env : ForceCloseEnv} {s s' : ForceClose} {maxLiab : Int} {r : TokReport} (h : forceCloseBorrows env s maxLiab = .ok (s', r)) :
    s.asset.index ≠ s.liab.index ∧ s.liqorFlag.being = false ∧ s.forceClose = true ∧ s.asset.bank.reduceOnly ≠ 1 ∧ s.asset.bank.reduceOnly ≠ 2 ∧
    s.asset.bank.initLiabWeight * ((S + s.liab.fee + s.liab.platformFee) * (S + s.asset.fee + s.asset.platformFee) / S) / S ≤ s.liab.bank.initLiabWeight ∧
    nativeOf s.liab.bank s.liqeeLiab < 0 ∧ 0 < nativeOf s.liab.bank s.liqorLiab ∧ (∃ lh, env.liqorHealth s' = .ok lh ∧ 0 ≤ lh) ∧
    ∃ health, accountHealth env.rnd env.fd env.now s'.liqee.banks s'.liqee.ps s'.liqee.os s'.liqee.perps .liqEnd = .ok health ∧
      (s'.liqeeFlag.being = true ↔ s.liqeeFlag.being = true ∧ health ≤ -S) := by
  obtain ⟨na, nl, ol, base, ffl, fft, ab, lb, wr, hh, P⟩ := fc_parts h
  have e1 := Wallet.native_is P.debt
  have e2 := Wallet.native_is P.has
  have hw := P.weight
  rw [P.fft_eq] at hw
  have hb := P.borrowable
  have hn := P.debtNeg
  have hp := P.hasPos
  simp only [Bank.areBorrowsReduceOnly, Bool.or_eq_false_iff, beq_eq_false_iff_ne] at hb
  refine ⟨P.distinct, P.liqorOk, P.force, hb.1, hb.2, hw, by omega, by omega, P.liqor, hh, P.health, ?_⟩
  rw [P.flag]
  unfold Account.Liq.maybeRecover
  by_cases hc : s.liqeeFlag.being = true ∧ hh > -Fx.ONE
  · rw [if_pos hc]
    have e : (Fx.ONE : Int) = S := rfl
    simp only [Bool.false_eq_true, false_iff]
    intro hx
    have := hc.2
    omega
  · rw [if_neg hc]
    have e : (Fx.ONE : Int) = S := rfl
    constructor
    · intro hx
      refine ⟨hx, ?_⟩
      by_contra hy
      exact hc ⟨hx, by omega⟩
    · intro hx; exact hx.1

/-- **C65, amounts.** The amount repaid is the smallest of what was asked for, the debt, and what the liqor has. The liqee pays at most its oracle value times (1 + fees of the liab token) times (1 + fees of
the asset token), the liqor receives at most that without platform fees, and never more than the liqee pays; the difference is the fee. Neither position changes sign: the liqee's debt does not become a
deposit, the liqor's deposit not a debt. -/
theorem C65_amounts {env : ForceCloseEnv} {s s' : ForceClose} {maxLiab : Int} {r : TokReport} (hs : s.Sane) (hb : s.liab.bank.Pos) (hr : s.liab.bank.RatesOk) (h : forceCloseBorrows env s maxLiab = .ok (s', r)) :
    r.liabTransfer = max 0 (min (maxLiab * S) (min (-nativeOf s.liab.bank s.liqeeLiab) (nativeOf s.liab.bank s.liqorLiab))) ∧
    0 ≤ r.assetToLiqor ∧ r.assetToLiqor ≤ r.assetFromLiqee ∧ r.fee = r.assetFromLiqee - r.assetToLiqor ∧
    r.assetFromLiqee * s.asset.price * S ≤ r.liabTransfer * s.liab.price * ((S + s.liab.fee + s.liab.platformFee) * (S + s.asset.fee + s.asset.platformFee) / S) ∧
    r.assetToLiqor * s.asset.price * S ≤ r.liabTransfer * s.liab.price * ((S + s.liab.fee) * (S + s.asset.fee) / S) ∧
    s'.liqeeLiab.indexed ≤ 0 ∧ 0 ≤ s'.liqorLiab.indexed := by
  have hS := S_pos
  obtain ⟨na, nl, ol, base, ffl, fft, ab, lb, wr, hh, P⟩ := fc_parts h
  have e1 := Wallet.native_is P.debt
  have e2 := Wallet.native_is P.has
  obtain ⟨s1, s2, s3, s4, s5, s6⟩ := hs
  have hlt := P.lt
  have hdn := P.debtNeg
  have hbase := P.base_eq
  have hto := P.toLiqor
  have hfrom := P.fromLiqee
  have f1 := P.ffl_eq
  have f2 := P.fft_eq
  have hap : 0 < s.asset.price := by have := P.price; omega
  have hfl : 0 ≤ ffl := by rw [f1]; exact floor_nonneg (Int.mul_nonneg (by omega) (by omega))
  have hft : ffl ≤ fft := by
    rw [f1, f2]
    apply floor_mono
    exact Int.mul_le_mul (by omega) (by omega) (by omega) (by omega)
  have hlt0 : 0 ≤ r.liabTransfer := by omega
  have hv0 : 0 ≤ r.liabTransfer * s.liab.price := Int.mul_nonneg hlt0 s6
  have hv := mulFloor_bounds (r.liabTransfer * s.liab.price)
  have hbb := tdiv_bounds (a := r.liabTransfer * s.liab.price / S * S) (b := s.asset.price) (Int.mul_nonneg (floor_nonneg hv0) hS.le) hap
  rw [← hbase] at hbb
  have hbase' : base * s.asset.price ≤ r.liabTransfer * s.liab.price := by omega
  have hto' := mulFloor_bounds (base * ffl)
  have hfrom' := mulFloor_bounds (base * fft)
  rw [← hto] at hto'
  rw [← hfrom] at hfrom'
  have hbound : ∀ (x F : Int), 0 ≤ F → x * S ≤ base * F → x * s.asset.price * S ≤ r.liabTransfer * s.liab.price * F := by
    intro x F hF hx
    have a1 : x * S * s.asset.price ≤ base * F * s.asset.price := Int.mul_le_mul_of_nonneg_right hx hap.le
    have a2 : base * s.asset.price * F ≤ r.liabTransfer * s.liab.price * F := Int.mul_le_mul_of_nonneg_right hbase' hF
    have e1 : x * s.asset.price * S = x * S * s.asset.price := by ring
    have e2 : base * F * s.asset.price = base * s.asset.price * F := by ring
    omega
  obtain ⟨x, hd⟩ := P.repay
  have ef := depositWithDusting_effect hb hd
  have lbPos : lb.Pos := by unfold Bank.Pos; rw [ef.depositIndex, ef.borrowIndex]; exact hb
  refine ⟨by omega, ?_, ?_, P.fee, by rw [← f2]; exact hbound _ _ (by omega) hfrom'.1, by rw [← f1]; exact hbound _ _ hfl hto'.1, ?_, ?_⟩
  · rw [hto]; exact floor_nonneg (Int.mul_nonneg hbb.2.2 hfl)
  · rw [hto, hfrom]; exact floor_mono (Int.mul_le_mul_of_nonneg_left hft hbb.2.2)
  · simp only [depositWithDusting, bind_ok, ok_inj, Prod.mk.injEq] at hd
    obtain ⟨⟨b1, p1, r1⟩, k1, rfl, hp1, _⟩ := hd
    obtain ⟨p2, k2, k3, _⟩ := depositWrapper_ok k1
    obtain ⟨ha, hc⟩ := depositInternal_ok hb k2
    have hi := (native_neg_iff hb P.debt).mp hdn
    rw [← hp1, k3]
    have en := native_ok P.debt
    rw [if_neg (by omega)] at en
    cases hc with
    | add c hp0 hc => omega
    | repay c st nb hp0 hw hc hn0 => dsimp only; omega
    | dust c st nb hp0 hw hc hn0 hd hdust => dsimp only; omega
    | cross c d st nb hp0 hw hc hn0 hd =>
      have h6 : max (s.liqeeLiab.indexed * s.liab.bank.borrowIndex / S + r.liabTransfer) 0 = 0 := by omega
      have hd0 := (divRoundingUp_ok hd (by omega) hb.1).2.2.2.2 h6
      dsimp only
      omega
  · have hw := P.take
    unfold Bank.withdrawWithFee at hw
    refine ((C04_withdraw_excess lbPos (ef.rates hr).2.2 hw).1 ?_).2.1
    have : nativeOf lb s.liqorLiab = nativeOf s.liab.bank s.liqorLiab := by unfold nativeOf; rw [ef.depositIndex, ef.borrowIndex]
    have := P.hasPos
    omega

/-- **C65, ledger.** On the token repaid the instruction is exactly a repayment by the liqee and a withdrawal of the same amount by the liqor; on the other token a withdrawal by the liqee, a deposit by the
liqor, and the difference collected as fee: no tokens enter or leave either bank, so the theorems about token histories (C02, C47, ...) apply. -/
theorem C65_ledger {env : ForceCloseEnv} {s s' : ForceClose} {maxLiab : Int} {r : TokReport} (h : forceCloseBorrows env s maxLiab = .ok (s', r))
    {A L : List Bank} {k m : Nat} (hA : A[k]? = some s.asset.bank) (hL : L[m]? = some s.liab.bank) {ps qs : List TokenPosition} {i j : Nat} (hij : i ≠ j)
    (hpi : ps[i]? = some s.liqeeAsset) (hpj : ps[j]? = some s.liqorAsset) (hqi : qs[i]? = some s.liqeeLiab) (hqj : qs[j]? = some s.liqorLiab) (v w : Int) :
    runOps ⟨A, ps, v⟩ [.collect k r.fee, .pos (.deposit r.assetToLiqor) k j false env.now, .pos (.withdrawWithoutFeeWithDusting r.assetFromLiqee) k i false env.now] =
      .ok ⟨A.set k s'.asset.bank, (ps.set j s'.liqorAsset).set i s'.liqeeAsset, v⟩ ∧
    runOps ⟨L, qs, w⟩ [.pos (.depositWithDusting r.liabTransfer) m i false env.now, .pos (.withdrawWithFee r.liabTransfer) m j false env.now] =
      .ok ⟨L.set m s'.liab.bank, (qs.set i s'.liqeeLiab).set j s'.liqorLiab, w⟩ := by
  obtain ⟨na, nl, ol, base, ffl, fft, ab, lb, wr, hh, P⟩ := fc_parts h
  obtain ⟨_, d1⟩ := P.give
  obtain ⟨_, d2⟩ := P.pay
  obtain ⟨_, d3⟩ := P.repay
  have d4 := P.take
  have hfr := P.feeRange
  have hfee := P.fee
  have hk : k < A.length := by rw [List.getElem?_eq_some_iff] at hA; exact hA.1
  have hmm : m < L.length := by rw [List.getElem?_eq_some_iff] at hL; exact hL.1
  constructor
  · have hadd : Fx.add s.asset.bank.collectedFeesNative r.fee = .ok (s.asset.bank.collectedFeesNative + r.fee) := add_ok.mpr ⟨rfl, hfr⟩
    have st0 : step ⟨A, ps, v⟩ (.collect k r.fee) =
        .ok ⟨A.set k { s.asset.bank with collectedFeesNative := s.asset.bank.collectedFeesNative + r.fee }, ps, v + r.fee⟩ := by
      simp only [step, getBank, hA]
      dsimp only [bind, Except.bind]
      rw [hadd]
    have st1 := step_pos (s := ⟨A.set k { s.asset.bank with collectedFeesNative := s.asset.bank.collectedFeesNative + r.fee }, ps, v + r.fee⟩)
      (op := .deposit r.assetToLiqor) (k := k) (i := j) (now := env.now) (by dsimp only; rw [List.getElem?_set_self hk]) hpj d1
    have st2 := step_pos (s := ⟨(A.set k { s.asset.bank with collectedFeesNative := s.asset.bank.collectedFeesNative + r.fee }).set k ab, ps.set j s'.liqorAsset,
        v + r.fee + (PosOp.deposit r.assetToLiqor).inflow⟩)
      (op := .withdrawWithoutFeeWithDusting r.assetFromLiqee) (k := k) (i := i) (now := env.now)
      (by dsimp only; rw [List.getElem?_set_self (by rw [List.length_set]; exact hk)])
      (by dsimp only; rw [List.getElem?_set_ne (Ne.symm hij)]; exact hpi) d2
    rw [runOps, st0]
    dsimp only [bind, Except.bind]
    rw [runOps, st1]
    dsimp only [bind, Except.bind]
    rw [runOps, st2]
    dsimp only [bind, Except.bind]
    rw [runOps]
    simp only [List.set_set, PosOp.inflow]
    congr 2
    omega
  · have st1 := step_pos (s := ⟨L, qs, w⟩) (op := .depositWithDusting r.liabTransfer) (k := m) (i := i) (now := env.now) hL hqi d3
    have hrun : PosOp.run (.withdrawWithFee r.liabTransfer) lb s.liqorLiab env.now = .ok (s'.liab.bank, s'.liqorLiab, wr.positionIsActive) := by
      simp only [PosOp.run, d4]
      rfl
    have st2 := step_pos (s := ⟨L.set m lb, qs.set i s'.liqeeLiab, w + (PosOp.depositWithDusting r.liabTransfer).inflow⟩) (k := m) (i := j) (now := env.now)
      (by dsimp only; rw [List.getElem?_set_self hmm]) (by dsimp only; rw [List.getElem?_set_ne hij]; exact hqj) hrun
    rw [runOps, st1]
    dsimp only [bind, Except.bind]
    rw [runOps, st2]
    dsimp only [bind, Except.bind]
    rw [runOps]
    simp only [List.set_set, PosOp.inflow]
    congr 2
    omega

/-! ## Health of the liqee -/

/-- a payment, from whatever balance, lowers the balance by at most the amount and one native unit (dust) -/
theorem paid_at_most {b b' bx : Bank} {p p' : TokenPosition} {amt n n' : I80F48} {now : Int} {r : Bool} (hb : b.Pos)
    (h : b.withdrawWithoutFeeWithDusting p amt now = .ok (b', p', r)) (hx1 : bx.depositIndex = b.depositIndex) (hx2 : bx.borrowIndex = b.borrowIndex)
    (hn : p.native b = .ok n) (hn' : p'.native bx = .ok n') : n - n' ≤ amt + S := by
  by_cases hpos : 0 < n
  · exact (pay_native hb h hx1 hx2 hn hn' hpos).2
  have hS := S_pos
  have m0 := native_bounds hn
  have m1 := native_bounds hn'
  rw [hx1, hx2] at m1
  simp only [withdrawWithoutFeeWithDusting, bind_ok, ok_inj, Prod.mk.injEq] at h
  obtain ⟨⟨b1, p1, w⟩, h1, rfl, rfl, _⟩ := h
  obtain ⟨p2, h2, h3, _⟩ := withdrawWrapper_ok h1
  obtain ⟨ha, hc⟩ := withdrawInternal_ok hb h2
  rw [exactValue_congr h3] at m1
  have hdi := hb.1
  have hbi := hb.2
  have up : ∀ y : Int, (n - y) * S < n' * S + S → n - n' ≤ y := by
    intro y hy
    have : (n - y) * S < (n' + 1) * S := by
      have e2 : (n' + 1) * S = n' * S + S := by ring
      omega
    have := Int.lt_of_mul_lt_mul_right this hS.le
    omega
  cases hc with
  | dust hp nn hn0 h0 h4 hd =>
    rw [hn, ok_inj] at hn0
    subst hn0
    rw [exactValue_nonpos (by dsimp only; omega)] at m1
    dsimp only at m1
    simp only [Int.zero_mul] at m1
    have b : (-1) * S < n' * S := by omega
    have b := Int.lt_of_mul_lt_mul_right b hS.le
    omega
  | part hp nn hn0 h0 =>
    rw [hn, ok_inj] at hn0
    subst hn0
    have e : amt = 0 := by omega
    subst e
    have e0 : Int.tdiv ((0 : Int) * S) b.depositIndex = 0 := by simp
    rw [e0] at m1
    have : exactValue b.depositIndex b.borrowIndex { p with indexed := p.indexed - 0 } = exactValue b.depositIndex b.borrowIndex p := by
      apply exactValue_congr; dsimp only; omega
    rw [this] at m1
    have : n - n' ≤ 0 := up 0 (by simp only [Int.sub_zero]; omega)
    omega
  | borrow nn rest tot st nb hn0 hlt hw hrest htot =>
    rw [hn, ok_inj] at hn0
    subst hn0
    have hf : feeOf b false rest = 0 := by unfold feeOf; simp
    rw [hf] at htot
    have htot0 : 0 ≤ tot := by omega
    have t := tdiv_bounds (a := tot * S) (b := b.borrowIndex) (Int.mul_nonneg htot0 hS.le) hbi
    have e4 : tot * S = amt * S := by
      have : tot = amt := by omega
      rw [this]
    have e5 : (n - amt) * S = n * S - amt * S := by ring
    rw [exactValue_nonpos (by dsimp only; omega)] at m1
    dsimp only at m1
    generalize Int.tdiv (tot * S) b.borrowIndex = q at *
    have e3 : (min p.indexed 0 - q) * b.borrowIndex = min p.indexed 0 * b.borrowIndex - q * b.borrowIndex := by ring
    have e6 : n * S ≤ min p.indexed 0 * b.borrowIndex := by
      by_cases hp : p.indexed ≤ 0
      · rw [exactValue_nonpos hp] at m0
        rw [min_eq_left hp]
        omega
      · rw [min_eq_right (by omega), Int.zero_mul]
        have : n * S ≤ 0 * S := Int.mul_le_mul_of_nonneg_right (by omega) hS.le
        omega
    have : n - n' ≤ amt := by
      apply up
      omega
    omega

/-- the account afterwards -/
theorem account_eq {s : ForceClose} (hs : s.Shows) (hne : s.asset.index ≠ s.liab.index) (ab lb : Bank) (pA pL : TokenPosition) :
    s.account ab lb pA pL = { s.liqee with
      banks := fun t => if t = s.asset.index then { s.liqee.banks s.asset.index with bank := ab } else if t = s.liab.index then { s.liqee.banks s.liab.index with bank := lb } else s.liqee.banks t
      ps := (s.liqee.ps.set s.kL ⟨s.liab.index, pL.indexed⟩).set s.kA ⟨s.asset.index, pA.indexed⟩ } := by
  have hk : s.kL ≠ s.kA := by
    intro e
    have h1 := hs.asset
    have h2 := hs.liab
    rw [e, h1] at h2
    injection h2 with h2
    injection h2 with h2 _
    exact hne h2
  dsimp only [ForceClose.account, Upd.state]
  rw [hs.liab]
  dsimp only
  rw [List.getElem?_set_ne hk, hs.asset]

theorem cfg_dep {now : Int} {bi : BankIn} {b b' : Bank} {p p' : TokenPosition} {amt : I80F48} {r : Bool} (hb : b.Pos) (h : b.deposit p amt now = .ok (b', p', r)) :
    SameConfig now { bi with bank := b } { bi with bank := b' } := by
  obtain ⟨q, h', _, _⟩ := depositWrapper_ok h
  obtain ⟨_, hc⟩ := depositInternal_ok hb h'
  cases hc <;> exact ⟨rfl, rfl, rfl, rfl, rfl, rfl, rfl, rfl, rfl⟩

theorem cfg_depD {now : Int} {bi : BankIn} {b b' : Bank} {p p' : TokenPosition} {amt : I80F48} {r : Bool} (hb : b.Pos) (h : b.depositWithDusting p amt now = .ok (b', p', r)) :
    SameConfig now { bi with bank := b } { bi with bank := b' } := by
  simp only [depositWithDusting, bind_ok, ok_inj, Prod.mk.injEq] at h
  obtain ⟨⟨b3, p3, w3⟩, h3, rfl, _, _⟩ := h
  obtain ⟨q, h', _, _⟩ := depositWrapper_ok h3
  obtain ⟨_, hc⟩ := depositInternal_ok hb h'
  dsimp only
  cases hc <;> exact ⟨rfl, rfl, rfl, rfl, rfl, rfl, rfl, rfl, rfl⟩

theorem cfg_wdD {now : Int} {bi : BankIn} {b b' : Bank} {p p' : TokenPosition} {amt : I80F48} {r : Bool} (hb : b.Pos) (h : b.withdrawWithoutFeeWithDusting p amt now = .ok (b', p', r)) :
    SameConfig now { bi with bank := b } { bi with bank := b' } := by
  simp only [withdrawWithoutFeeWithDusting, bind_ok, ok_inj, Prod.mk.injEq] at h
  obtain ⟨⟨b3, p3, w3⟩, h3, rfl, _, _⟩ := h
  obtain ⟨q, h', _, _⟩ := withdrawWrapper_ok h3
  obtain ⟨_, hc⟩ := withdrawInternal_ok hb h'
  dsimp only
  cases hc <;> exact ⟨rfl, rfl, rfl, rfl, rfl, rfl, rfl, rfl, rfl⟩

theorem cfg_wd {now : Int} {bi : BankIn} {b b' : Bank} {p p' : TokenPosition} {amt : I80F48} {r : WithdrawResult} (hb : b.Pos) (h : b.withdrawWithFee p amt now = .ok (b', p', r)) :
    SameConfig now { bi with bank := b } { bi with bank := b' } := by
  obtain ⟨q, h', _, _⟩ := withdrawWrapper_ok h
  obtain ⟨_, hc⟩ := withdrawInternal_ok hb h'
  cases hc <;> exact ⟨rfl, rfl, rfl, rfl, rfl, rfl, rfl, rfl, rfl⟩

theorem cfg_trans {now : Int} {a b c : BankIn} (h : SameConfig now a b) (h' : SameConfig now b c) : SameConfig now a c := by
  obtain ⟨h1, h2, h3, h4, h5, h6, h7, h8, h9⟩ := h
  obtain ⟨k1, k2, k3, k4, k5, k6, k7, k8, k9⟩ := h'
  constructor
  all_goals first | exact h1.trans k1 | exact k1.trans h1 | skip
  all_goals simp only [*]

theorem fc_keeps {env : ForceCloseEnv} {s s' : ForceClose} {maxLiab : Int} {r : TokReport} (hs : s.Shows) (hA : s.asset.bank.Pos) (hL : s.liab.bank.Pos)
    (h : forceCloseBorrows env s maxLiab = .ok (s', r)) :
    SameConfig env.now (s.liqee.banks s.asset.index) (s'.liqee.banks s.asset.index) ∧ SameConfig env.now (s.liqee.banks s.liab.index) (s'.liqee.banks s.liab.index) ∧
    (s'.liqee.banks s.asset.index).bank = s'.asset.bank ∧ (s'.liqee.banks s.liab.index).bank = s'.liab.bank := by
  obtain ⟨na, nl, ol, base, ffl, fft, ab, lb, wr, hh, P⟩ := fc_parts h
  obtain ⟨_, d1⟩ := P.give
  obtain ⟨_, d2⟩ := P.pay
  obtain ⟨_, d3⟩ := P.repay
  have d4 := P.take
  have hacc := P.account
  rw [account_eq hs P.distinct] at hacc
  have ea : s'.liqee.banks s.asset.index = { s.liqee.banks s.asset.index with bank := s'.asset.bank } := by rw [hacc]; simp
  have el : s'.liqee.banks s.liab.index = { s.liqee.banks s.liab.index with bank := s'.liab.bank } := by
    rw [hacc]
    dsimp only
    rw [if_neg (fun e => P.distinct e.symm), if_pos rfl]
  rw [ea, el]
  have ef3 := depositWrapper_effect (b := { s.asset.bank with collectedFeesNative := s.asset.bank.collectedFeesNative + r.fee }) hA d1
  have abPos : ab.Pos := by unfold Bank.Pos; rw [ef3.depositIndex, ef3.borrowIndex]; exact hA
  have ef1 := depositWithDusting_effect hL d3
  have lbPos : lb.Pos := by unfold Bank.Pos; rw [ef1.depositIndex, ef1.borrowIndex]; exact hL
  refine ⟨?_, ?_, rfl, rfl⟩
  · have e : s.liqee.banks s.asset.index = { s.liqee.banks s.asset.index with bank := s.asset.bank } := by rw [← hs.assetBank.1]
    rw [e]
    dsimp only
    exact cfg_trans (b := { s.liqee.banks s.asset.index with bank := { s.asset.bank with collectedFeesNative := s.asset.bank.collectedFeesNative + r.fee } })
      ⟨rfl, rfl, rfl, rfl, rfl, rfl, rfl, rfl, rfl⟩ (cfg_trans (cfg_dep (b := { s.asset.bank with collectedFeesNative := s.asset.bank.collectedFeesNative + r.fee }) hA d1) (cfg_wdD abPos d2))
  · have e : s.liqee.banks s.liab.index = { s.liqee.banks s.liab.index with bank := s.liab.bank } := by rw [← hs.liabBank.1]
    rw [e]
    dsimp only
    exact cfg_trans (cfg_depD hL d3) (cfg_wd lbPos d4)

theorem fc_arith {dH lt fl lp ap fft ilwL ilwA WL WLA : Int} (s : Int) (hs : 0 < s) (hlt : 0 ≤ lt) (hfl : 0 ≤ fl) (hlp : 0 ≤ lp) (hilwA : 0 ≤ ilwA)
    (gain : lt * WL - fl * WLA - s * WLA - 2 * s ≤ s * dH) (hWL : ilwL * lp < WL * s + s) (hWLA : WLA * s ≤ ilwA * ap) (hpay : fl * ap * s ≤ lt * lp * fft) (hw : ilwA * fft < ilwL * s + s) :
    -(lt * (lp + s)) - s * (s * WLA + 2 * s) ≤ s * s * dH := by
  have a1 : lt * (ilwL * lp) ≤ lt * (WL * s + s) := Int.mul_le_mul_of_nonneg_left hWL.le hlt
  have a2 : fl * (WLA * s) ≤ fl * (ilwA * ap) := Int.mul_le_mul_of_nonneg_left hWLA hfl
  have a3 : fl * ap * s * ilwA ≤ lt * lp * fft * ilwA := Int.mul_le_mul_of_nonneg_right hpay hilwA
  have a4 : lt * lp * (ilwA * fft) ≤ lt * lp * (ilwL * s + s) := Int.mul_le_mul_of_nonneg_left hw.le (Int.mul_nonneg hlt hlp)
  have a5 : (fl * (ilwA * ap)) * s ≤ (lt * lp * (ilwL + 1)) * s := by
    have e1 : (fl * (ilwA * ap)) * s = fl * ap * s * ilwA := by ring
    have e2 : lt * lp * fft * ilwA = lt * lp * (ilwA * fft) := by ring
    have e3 : lt * lp * (ilwL * s + s) = (lt * lp * (ilwL + 1)) * s := by ring
    omega
  have a5 := Int.le_of_mul_le_mul_right a5 hs
  have a6 := Int.mul_le_mul_of_nonneg_left gain hs.le
  have e1 : s * (lt * WL - fl * WLA - s * WLA - 2 * s) = lt * (WL * s + s) - lt * s - fl * (WLA * s) - s * (s * WLA + 2 * s) := by ring
  have e2 : s * (s * dH) = s * s * dH := by ring
  have e3 : lt * lp * (ilwL + 1) = lt * (ilwL * lp) + lt * lp := by ring
  have e4 : lt * (lp + s) = lt * lp + lt * s := by ring
  omega

/-- **C65, health.** The liqee's liquidation-end health does not fall, up to rounding (one native unit of the asset token at its liability weight, which is dusted if less than that is left, and about 2^-48
per native unit repaid), if no funds are in spot orders and the amount repaid is a debt also counting free funds in open orders accounts and perp pnl. Without the latter it can fall
(`C65_health_can_fall`), and maintenance health can fall anyway (`C65_maint_health_can_fall`). -/
theorem C65_health {env : ForceCloseEnv} (hfd0 : ∀ p x, env.fd 0 p = .ok x → x = 0) {s s' : ForceClose} {maxLiab : Int} {r : TokReport} (hs : s.Sane) (hsh : s.Shows)
    (hA : s.asset.bank.Pos) (hL : s.liab.bank.Pos) (hrA : s.asset.bank.RatesOk) (hrL : s.liab.bank.RatesOk)
    (wA : 0 ≤ s.asset.bank.initAssetWeight ∧ s.asset.bank.initAssetWeight ≤ s.asset.bank.initLiabWeight) (wL : 0 ≤ s.liab.bank.initAssetWeight ∧ s.liab.bank.initAssetWeight ≤ s.liab.bank.initLiabWeight)
    (d1 : (s.liqee.ps.map (·.tokenIndex)).Nodup) (hn : NoneReserved s.liqee.os) {c : Cache} (hc : accountCache env.rnd env.now s.liqee.banks s.liqee.ps s.liqee.os s.liqee.perps = .ok c)
    (h : forceCloseBorrows env s maxLiab = .ok (s', r)) (hdebt : ∀ t ∈ c.tokens, t.tokenIndex = s.liab.index → r.liabTransfer ≤ -Formula.balance c .liqEnd t) {H H' : I80F48}
    (hH : accountHealth env.rnd env.fd env.now s.liqee.banks s.liqee.ps s.liqee.os s.liqee.perps .liqEnd = .ok H)
    (hH' : accountHealth env.rnd env.fd env.now s'.liqee.banks s'.liqee.ps s'.liqee.os s'.liqee.perps .liqEnd = .ok H') :
    -(r.liabTransfer * (s.liab.price + S)) - S * (S * (s.asset.bank.initLiabWeight * s.asset.price / S) + 2 * S) ≤ S * S * (H' - H) := by
  have hS := S_pos
  obtain ⟨z1, z2, z3, z4, z5, _, z6, _⟩ := C65_amounts hs hL hrL h
  obtain ⟨k1, k2, k3, k4⟩ := fc_keeps hsh hA hL h
  obtain ⟨na, nl, ol, base, ffl, fft, ab, lb, wr, hh, P⟩ := fc_parts h
  have hacc := P.account
  rw [account_eq hsh P.distinct] at hacc
  simp only [accountHealth, bind_ok] at hH hH'
  obtain ⟨c0, hc0, hH⟩ := hH
  obtain ⟨c', hc', hH'⟩ := hH'
  rw [hc, ok_inj] at hc0
  subst hc0
  have hkk : s.kA ≠ s.kL := by
    intro e
    have h1 := hsh.asset
    have h2 := hsh.liab
    rw [← e, h1] at h2
    injection h2 with h2
    injection h2 with h2 _
    exact P.distinct h2
  have eps : s'.liqee.ps = (s.liqee.ps.set s.kL ⟨s.liab.index, s'.liqeeLiab.indexed⟩).set s.kA ⟨s.asset.index, s'.liqeeAsset.indexed⟩ := by rw [hacc]
  have R : Repositioned env.now s.liqee s'.liqee := by
    refine ⟨?_, by rw [hacc], by rw [hacc]⟩
    rw [forall₂_getElem]
    refine ⟨by rw [eps]; simp, ?_⟩
    intro i p p' hp hp'
    rw [eps] at hp'
    by_cases iA : i = s.kA
    · subst iA
      rw [List.getElem?_set_self (by rw [List.length_set]; exact getElem?_lt hp)] at hp'
      rw [hsh.asset] at hp
      injection hp with hp
      injection hp' with hp'
      subst hp; subst hp'
      exact ⟨rfl, k1⟩
    · rw [List.getElem?_set_ne (fun e => iA e.symm)] at hp'
      by_cases iL : i = s.kL
      · subst iL
        rw [List.getElem?_set_self (getElem?_lt hp)] at hp'
        rw [hsh.liab] at hp
        injection hp with hp
        injection hp' with hp'
        subst hp; subst hp'
        exact ⟨rfl, k2⟩
      · rw [List.getElem?_set_ne (fun e => iL e.symm), hp] at hp'
        injection hp' with hp'
        subst hp'
        refine ⟨rfl, ?_⟩
        have n1 : p.tokenIndex ≠ s.asset.index := fun e => iA (nodup_at d1 hp hsh.asset e)
        have n2 : p.tokenIndex ≠ s.liab.index := fun e => iL (nodup_at d1 hp hsh.liab e)
        have : s'.liqee.banks p.tokenIndex = s.liqee.banks p.tokenIndex := by
          rw [hacc]
          dsimp only
          rw [if_neg n1, if_neg n2]
        rw [this]
        exact Wallet.SameConfig.rfl' _
  obtain ⟨tA, tL, hA1, hL1, FA, FL, hch⟩ := two_changed hfd0 d1 R hc hc' hn hkk hsh.asset hsh.liab eps (by
    intro t n1 n2
    dsimp only at n1 n2
    rw [hacc]
    dsimp only
    rw [if_neg n1, if_neg n2]) (h := .liqEnd) (by decide) hH hH'
  dsimp only at FA FL hch
  obtain ⟨na', hna'⟩ := P.assetAfter
  obtain ⟨nl', hnl'⟩ := P.debtAfter
  have nat : ∀ {b : Bank} {p : TokenPosition} {n : I80F48} {bi : BankIn}, p.native b = .ok n → bi.bank = b → nativeAt bi p.indexed = n := by
    intro b p n bi h1 h2
    have := Wallet.native_is h1
    rw [this]
    unfold nativeAt nativeOf
    rw [h2]
    split <;> rfl
  rw [nat P.asset hsh.assetBank.1, nat P.debt hsh.liabBank.1, nat hna' k3, nat hnl' k4] at hch
  have fA1 := FA.initAsset
  have fA2 := FA.initLiab
  have fA3 := FA.oracle
  have fL1 := FL.initAsset
  have fL2 := FL.initLiab
  have fL3 := FL.oracle
  rw [hsh.assetBank.1] at fA1 fA2
  rw [hsh.assetBank.2] at fA3
  rw [hsh.liabBank.1] at fL1 fL2
  rw [hsh.liabBank.2] at fL3
  rw [tokenValue_liqEnd, tokenValue_liqEnd, tokenValue_liqEnd, tokenValue_liqEnd, fA1, fA2, fA3, fL1, fL2, fL3] at hch
  have hd := hdebt tL (List.mem_of_getElem? hL1) FL.index
  generalize Formula.balance c .liqEnd tL = bl at *
  generalize Formula.balance c .liqEnd tA = ba at *
  obtain ⟨_, d1'⟩ := P.give
  obtain ⟨_, d2'⟩ := P.pay
  obtain ⟨_, d3'⟩ := P.repay
  have ef1 := depositWithDusting_effect hL d3'
  have lbPos : lb.Pos := by unfold Bank.Pos; rw [ef1.depositIndex, ef1.borrowIndex]; exact hL
  have hrun : PosOp.run (.withdrawWithFee r.liabTransfer) lb s.liqorLiab env.now = .ok (s'.liab.bank, s'.liqorLiab, wr.positionIsActive) := by
    simp only [PosOp.run, P.take]
    rfl
  have ef2 := PosOp.effect lbPos (ef1.rates hrL).2.2 hrun
  have e1 := Wallet.native_is P.debt
  have rn := (repay_native hL d3' (bx := s'.liab.bank) (by rw [ef2.depositIndex, ef1.depositIndex]) (by rw [ef2.borrowIndex, ef1.borrowIndex]) P.debt hnl' P.debtNeg (by have := P.lt; have := P.debtNeg; omega)).1
  have ef3 := depositWrapper_effect (b := { s.asset.bank with collectedFeesNative := s.asset.bank.collectedFeesNative + r.fee }) hA d1'
  have abPos : ab.Pos := by unfold Bank.Pos; rw [ef3.depositIndex, ef3.borrowIndex]; exact hA
  have ef4 := PosOp.effect (op := .withdrawWithoutFeeWithDusting r.assetFromLiqee) (p := s.liqeeAsset) abPos (ef3.rates hrA).2.2 d2'
  have nab : s.liqeeAsset.native ab = .ok na := by
    rw [← P.asset]
    unfold TokenPosition.native
    rw [ef3.depositIndex, ef3.borrowIndex]
  have pn := paid_at_most abPos d2' (bx := s'.asset.bank) ef4.depositIndex ef4.borrowIndex nab hna'
  obtain ⟨s1, s2, s3, s4, s5, s6⟩ := hs
  have mWL := mulFloor_bounds (s.liab.bank.initLiabWeight * s.liab.price)
  have mWA := mulFloor_bounds (s.asset.bank.initLiabWeight * s.asset.price)
  have hALL : s.liab.bank.initAssetWeight * s.liab.price / S ≤ s.liab.bank.initLiabWeight * s.liab.price / S := floor_mono (Int.mul_le_mul_of_nonneg_right wL.2 s6)
  have hAL0 : 0 ≤ s.liab.bank.initAssetWeight * s.liab.price / S := floor_nonneg (Int.mul_nonneg wL.1 s6)
  have hAAA : s.asset.bank.initAssetWeight * s.asset.price / S ≤ s.asset.bank.initLiabWeight * s.asset.price / S := floor_mono (Int.mul_le_mul_of_nonneg_right wA.2 s5)
  have hAA0 : 0 ≤ s.asset.bank.initAssetWeight * s.asset.price / S := floor_nonneg (Int.mul_nonneg wA.1 s5)
  have hlt0 : 0 ≤ r.liabTransfer := by omega
  generalize s.liab.bank.initAssetWeight * s.liab.price / S = AL at *
  generalize s.liab.bank.initLiabWeight * s.liab.price / S = WL at *
  generalize s.asset.bank.initAssetWeight * s.asset.price / S = AA at *
  generalize s.asset.bank.initLiabWeight * s.asset.price / S = WLA at *
  have gL : r.liabTransfer * WL - S ≤ (tv AL WL (bl + (nl' - nl)) - tv AL WL bl) * S := by
    have b0 := (tv_le (A := AL) (L := WL) (b := bl) hALL).2
    have b1 := tv_mono hAL0 hALL (show bl + r.liabTransfer ≤ bl + (nl' - nl) by omega)
    have b1 := Int.mul_le_mul_of_nonneg_right b1 hS.le
    have e0 : ∀ x y : Int, (x - y) * S = x * S - y * S := fun x y => by ring
    rw [e0]
    have e2 : (bl + r.liabTransfer) * WL = bl * WL + r.liabTransfer * WL := by ring
    by_cases hb : bl + r.liabTransfer < 0
    · have b2 := tv_neg (A := AL) (L := WL) hb
      omega
    · have e3 : bl + r.liabTransfer = 0 := by omega
      have b2 := tv_nonneg (A := AL) (L := WL) hAL0 (show 0 ≤ bl + r.liabTransfer by omega)
      have b3 := Int.mul_nonneg b2 hS.le
      rw [e3, Int.zero_mul] at e2
      omega
  have gA : -(r.assetFromLiqee * WLA) - S * WLA - S ≤ (tv AA WLA (ba + (na' - na)) - tv AA WLA ba) * S := by
    have e0 : ∀ x y : Int, (x - y) * S = x * S - y * S := fun x y => by ring
    rw [e0]
    have b1 := tv_lip (A := AA) (L := WLA) (b := ba - (r.assetFromLiqee + S)) (d := r.assetFromLiqee + S) hAA0 hAAA (by omega)
    have b2 := tv_mono hAA0 hAAA (show ba - (r.assetFromLiqee + S) ≤ ba + (na' - na) by omega)
    have b2 := Int.mul_le_mul_of_nonneg_right b2 hS.le
    rw [Int.sub_add_cancel] at b1
    have e3 : (r.assetFromLiqee + S) * WLA = r.assetFromLiqee * WLA + S * WLA := by ring
    omega
  rw [← P.fft_eq] at z5
  have hw := mulFloor_bounds (s.asset.bank.initLiabWeight * fft)
  have hw2 : s.asset.bank.initLiabWeight * fft < s.liab.bank.initLiabWeight * S + S := by
    have := Int.mul_le_mul_of_nonneg_right P.weight hS.le
    omega
  refine fc_arith (WL := WL) (fft := fft) (ilwL := s.liab.bank.initLiabWeight) S hS hlt0 (by omega) s6 (by omega) ?_ (by omega) (by omega) z5 hw2
  rw [hch]
  generalize tv AL WL (bl + (nl' - nl)) = t1 at *
  generalize tv AL WL bl = t2 at *
  generalize tv AA WLA (ba + (na' - na)) = t3 at *
  generalize tv AA WLA ba = t4 at *
  have e5 : S * (t3 - t4 + (t1 - t2)) = (t3 - t4) * S + (t1 - t2) * S := by ring
  omega

end Liquidation
end Mango
