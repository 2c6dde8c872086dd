import Verif.Props.Settlement
/-!
# C72: what settlements do to health
-/
namespace Mango
namespace Settlement
open Fx Health Bank Liquidation

/-! ## Token movements of a position in use -/

theorem deposit_inuse {b b' : Bank} {p p' : TokenPosition} {amt : I80F48} {now : Int} {r : Bool} (hb : b.Pos) (hu : 0 < p.inUseCount) (h : b.deposit p amt now = .ok (b', p', r)) :
    r = true ∧ nativeOf b p + amt ≤ nativeOf b p' ∧ p'.inUseCount = p.inUseCount := by
  have hd : (!p.isInUse) = false := by unfold TokenPosition.isInUse; simp [hu]
  have h0 := h
  unfold Bank.deposit at h
  rw [hd] at h
  obtain ⟨q, h1, h2, h3⟩ := depositWrapper_ok h
  obtain ⟨_, hc⟩ := depositInternal_ok hb h1
  have hr : r = true := by
    cases hc with
    | add => rfl
    | repay => rfl
    | dust _ _ _ _ _ _ _ _ hdd => exact absurd hdd (by simp)
    | cross => rfl
  subst hr
  refine ⟨rfl, (C03_deposit_rounding hb h).1, ?_⟩
  rw [h3]
  cases hc <;> rfl

theorem withdraw_inuse {b b' : Bank} {p p' : TokenPosition} {amt : I80F48} {now : Int} {r : Bool} (hb : b.Pos) (hu : 0 < p.inUseCount) (h : b.withdrawWithoutFee p amt now = .ok (b', p', r)) :
    nativeOf b p - amt ≤ nativeOf b p' ∧ p'.inUseCount = p.inUseCount := by
  have hd : (!p.isInUse) = false := by unfold TokenPosition.isInUse; simp [hu]
  unfold Bank.withdrawWithoutFee at h
  rw [hd] at h
  simp only [bind_ok, ok_inj, Prod.mk.injEq] at h
  obtain ⟨⟨b1, p1, w⟩, h1, rfl, rfl, _⟩ := h
  obtain ⟨q, h2, h3, h4⟩ := withdrawWrapper_ok h1
  obtain ⟨ha, hc⟩ := withdrawInternal_ok hb h2
  have hS := S_pos
  have hdi := hb.1
  have hbi := hb.2
  refine ⟨?_, by rw [h4]; cases hc <;> rfl⟩
  unfold nativeOf
  rw [h3]
  have up : ∀ x y z : Int, x - z * S ≤ y → x / S - z ≤ y / S := by
    intro x y z hxy
    rw [show x / S - z = (x + (-z) * S) / S by rw [Int.add_mul_ediv_right _ _ (by omega)]; omega]
    exact Int.ediv_le_ediv hS (by rw [Int.neg_mul]; omega)
  cases hc with
  | dust _ _ _ _ _ hdd => exact absurd hdd (by simp)
  | part hp n hn h0 =>
    dsimp only
    have t := tdiv_bounds (a := amt * S) (b := b.depositIndex) (Int.mul_nonneg ha hS.le) hdi
    have tp : 0 ≤ Int.tdiv (amt * S) b.depositIndex := Int.tdiv_nonneg (Int.mul_nonneg ha hS.le) hdi.le
    generalize Int.tdiv (amt * S) b.depositIndex = q at *
    have hn' := native_ok hn
    by_cases hpp : p.indexed > 0
    · rw [if_pos hpp] at hn' ⊢
      have e : (p.indexed - q) * b.depositIndex = p.indexed * b.depositIndex - q * b.depositIndex := by ring
      by_cases hq : p.indexed - q > 0
      · rw [if_pos hq]
        apply up
        rw [e]; omega
      · -- the whole deposit: then it was worth no more than the amount
        rw [if_neg hq]
        have hq0 : 0 ≤ p.indexed - q := by
          have f := mulFloor_bounds (p.indexed * b.depositIndex)
          rw [← hn'] at f
          have : q * b.depositIndex ≤ p.indexed * b.depositIndex := by nlinarith
          have := le_of_mul_le_mul_right this hdi
          omega
        have : p.indexed - q = 0 := by omega
        rw [this]
        simp only [Int.zero_mul, Int.zero_ediv]
        have : p.indexed = q := by omega
        rw [this]
        have : q * b.depositIndex / S ≤ amt := by
          have := Int.ediv_le_ediv hS (show q * b.depositIndex ≤ amt * S by omega)
          rwa [Int.mul_ediv_cancel _ (by omega)] at this
        omega
    · have e0 : p.indexed = 0 := by omega
      rw [if_neg hpp] at hn' ⊢
      rw [e0] at hn' ⊢
      simp only [Int.zero_mul, Int.zero_ediv] at hn' ⊢
      have : amt = 0 := by omega
      have : q = 0 := by
        have hq1 : q * b.depositIndex ≤ 0 := by rw [this] at t; omega
        by_contra hne
        have : 0 < q * b.depositIndex := Int.mul_pos (by omega) hdi
        omega
      rw [this]
      simp
      omega
  | borrow n rest tot st nb hn hlt hw hrest htot =>
    dsimp only
    have hf : feeOf b false rest = 0 := by unfold feeOf; simp
    rw [hf] at htot
    have hn' := native_ok hn
    have htot0 : 0 ≤ tot := by omega
    have t := tdiv_bounds (a := tot * S) (b := b.borrowIndex) (Int.mul_nonneg htot0 hS.le) hbi
    have tp : 0 ≤ Int.tdiv (tot * S) b.borrowIndex := Int.tdiv_nonneg (Int.mul_nonneg htot0 hS.le) hbi.le
    generalize Int.tdiv (tot * S) b.borrowIndex = q at *
    rw [if_neg (show ¬ min p.indexed 0 - q > 0 by omega)]
    have e3 : (min p.indexed 0 - q) * b.borrowIndex = min p.indexed 0 * b.borrowIndex - q * b.borrowIndex := by ring
    by_cases hp : p.indexed > 0
    · rw [if_pos hp] at hn' ⊢
      have : 0 ≤ p.indexed * b.depositIndex / S := Int.ediv_nonneg (Int.mul_nonneg (by omega) hdi.le) hS.le
      rw [← hn', e3, min_eq_right (by omega), Int.zero_mul]
      have : tot = amt - n := by omega
      have f := mulFloor_bounds (0 - q * b.borrowIndex)
      have : (n - amt) * S ≤ 0 - q * b.borrowIndex := by
        have : (n - amt) * S = -(tot * S) := by rw [‹tot = amt - n›]; ring
        omega
      have := Int.ediv_le_ediv hS this
      rwa [Int.mul_ediv_cancel _ (by omega)] at this
    · rw [if_neg hp] at hn' ⊢
      have : p.indexed * b.borrowIndex / S ≤ 0 := Int.ediv_nonpos_of_nonpos_of_neg (Int.mul_nonpos_of_nonpos_of_nonneg (by omega) hbi.le) hS
      rw [e3, min_eq_left (by omega)]
      have : tot = amt := by omega
      apply up
      rw [this] at t
      omega

/-! ## Health when one token position and one perp position move -/

/-- account `i` after an instruction that moved its position in token `ti` (now `t'`) and in market `mi` (now `p'`, which settles in `ti`) -/
structure Moved (now : Int) (s s' : Sys) (i ti mi : Nat) (a a' : Acct) (k j : Nat) (t t' : TokenPosition) (p p' : PerpSlot) : Prop where
  before : s.accts[i]? = some a
  after : s'.accts[i]? = some a'
  ok : a.Ok
  tok : a.toks[k]? = some (ti, t)
  toks : a'.toks = a.toks.set k (ti, t')
  perp : a.perps[j]? = some p
  mkt : p.market = mi ∧ p'.market = mi
  perps : a'.perps = a.perps.set j p'
  os : a'.os = a.os
  bank : SameConfig now (s.banks ti) (s'.banks ti)
  banks : ∀ x, x ≠ ti → s'.banks x = s.banks x
  markets : ∀ x, x ≠ mi → s'.markets x = s.markets x
  market : ∃ f g, s'.markets mi = { s.markets mi with feesAccrued := f, feesSettled := g }
  settle : (s.markets mi).settleTokenIndex = ti

/-- pnl of a perp position for health before positive pnl is weighted -/
def raw (p : PerpInfo) (h : HT) : Int :=
  p.quote + min (Formula.ifExecuted p h p.bidsBaseLots (Formula.liabPrice p.basePrices h)) (Formula.ifExecuted p h (-p.asksBaseLots) (Formula.assetPrice p.basePrices h))

/-- overall weight of positive perp pnl -/
def overall (m : Perp.Market) (h : HT) : Int := if h = .maint then m.maintOverallAssetWeight else m.initOverallAssetWeight

theorem perpValue_raw {m : Perp.Market} {p : Perp.Pos} {o : I80F48} {u : PerpInfo} (P : PerpFor (m, p, o) u) (h : HT) :
    Formula.perpValue u h = PerpForce.weighed (overall m h) (raw u h) := by
  unfold Formula.perpValue PerpForce.weighed raw overall
  obtain ⟨_, _, _, _, e1, e2⟩ := P.weights
  dsimp only at *
  rw [e1, e2]

theorem prices_ext {a b : Prices} (h1 : a.oracle = b.oracle) (h2 : a.stable = b.stable) : a = b := by
  cases a; cases b
  dsimp only at h1 h2
  rw [h1, h2]

theorem paid_raw {m m' : Perp.Market} {p p' : Perp.Pos} {o : I80F48} {x f g : Int} {u u' : PerpInfo} (P : PerpFor (m, p, o) u) (P' : PerpFor (m', p', o) u')
    (hm : m' = { m with feesAccrued := f, feesSettled := g }) (hp : Perp.Paid m p x p') (h : HT) : raw u' h = raw u h + x := by
  obtain ⟨w1, w2, w3, w4, w5, w6⟩ := P.weights
  obtain ⟨v1, v2, v3, v4, v5, v6⟩ := P'.weights
  obtain ⟨s1, s2, s3, s4, s5⟩ := hp.size
  have q := P.quote
  have q' := P'.quote
  have l := P.lots
  have l' := P'.lots
  have b := P.bids
  have b' := P'.bids
  have a := P.asks
  have a' := P'.asks
  have z := P.lotSize
  have z' := P'.lotSize
  have pr : u'.basePrices = u.basePrices := by
    have o1 := P.oracle
    have o2 := P'.oracle
    have o3 := P.stable
    have o4 := P'.stable
    rw [hm] at o4
    dsimp only at *
    exact prices_ext (o2.trans o1.symm) (o4.trans o3.symm)
  subst hm
  dsimp only at *
  have hq := hp.quote
  have hl := hp.long
  have hs := hp.short
  rw [hl, hs] at q'
  have q2 : u'.quote = u.quote + x := by
    rw [q', q, hq, s5]
    unfold Perp.owed
    have z0 : p'.base * (if p'.base > 0 then m.longFunding - m.longFunding else m.shortFunding - m.shortFunding) = 0 := by simp
    rw [z0]
    by_cases h1 : p.base > 0
    · simp only [if_pos h1]; omega
    · by_cases h2 : p.base < 0
      · simp only [if_neg h1, if_pos h2]; omega
      · have : p.base = 0 := by omega
        simp only [this]; simp; omega
  unfold raw
  have hx : ∀ n pr, Formula.ifExecuted u' h n pr = Formula.ifExecuted u h n pr := by
    intro n r
    unfold Formula.ifExecuted
    rw [l', l, z', z, v1, v2, v3, v4, w1, w2, w3, w4, s1, s4, pr]
  rw [hx, hx, q2, b', b, a', a, s2, s3, pr]
  omega

theorem nativeAt_of {b : BankIn} {b' : Bank} (t : TokenPosition) (h1 : b.bank.depositIndex = b'.depositIndex) (h2 : b.bank.borrowIndex = b'.borrowIndex) : nativeAt b t.indexed = nativeOf b' t := by
  unfold nativeAt nativeOf
  rw [h1, h2]
  split <;> rfl

theorem moved_health {e : Env} (hfd0 : ∀ p x, e.fd 0 p = .ok x → x = 0) {s s' : Sys} {i ti mi : Nat} {a a' : Acct} {k j : Nat} {t t' : TokenPosition} {p p' : PerpSlot}
    (M : Moved e.now s s' i ti mi a a' k j t t' p p') {x : Int} (hp : Perp.Paid (s.markets mi) p.pos x p'.pos) {c c' : Cache} (hc : a.cache e s = .ok c) (hc' : a'.cache e s' = .ok c')
    (hn : NoneReserved a.os) :
    ∃ tk u, c.tokens[k]? = some tk ∧ c.tokenIdx ti = some k ∧ PerpFor (s.markets mi, p.pos, e.oracle mi) u ∧ (c.tokens.map (·.tokenIndex)).Nodup ∧
      ∀ (h : HT) (ign : Bool) (H H' : I80F48), h ≠ .init → c.healthI e.fd h ign = .ok H → c'.healthI e.fd h ign = .ok H' →
        H' - H = Formula.tokenValue tk h (balanceI c h ign tk + (nativeOf (s.banks ti).bank t' - nativeOf (s.banks ti).bank t) +
          (counted ign (PerpForce.weighed (overall (s.markets mi) h) (raw u h + x)) - counted ign (PerpForce.weighed (overall (s.markets mi) h) (raw u h)))) - Formula.tokenValue tk h (balanceI c h ign tk) := by
  obtain ⟨f, g, hm⟩ := M.market
  have d1 : (((a.state e s).ps).map (·.tokenIndex)).Nodup := by
    unfold Acct.state
    dsimp only
    rw [List.map_map]
    exact M.ok.toks
  have O : OnePerp e.now (a.state e s) (a'.state e s') k j ⟨ti, t.indexed⟩ t'.indexed (s.markets mi, p.pos, e.oracle mi) (s'.markets mi, p'.pos, e.oracle mi) := by
    unfold Acct.state
    refine ⟨?_, ?_, M.os, M.bank, M.banks, ?_, ?_, M.settle, ?_⟩
    · dsimp only; rw [List.getElem?_map, M.tok]; rfl
    · dsimp only; rw [M.toks, List.map_set]
    · dsimp only; rw [List.getElem?_map, M.perp, Option.map_some, M.mkt.1]
    · dsimp only
      rw [M.perps, List.map_set, M.mkt.2]
      apply List.ext_getElem?
      intro n
      have hj := (List.getElem?_eq_some_iff.mp M.perp).1
      by_cases en : n = j
      · subst en
        rw [List.getElem?_set_self (by simpa using hj), List.getElem?_set_self (by simpa using hj)]
      · rw [List.getElem?_set_ne (fun h => en h.symm), List.getElem?_set_ne (fun h => en h.symm), List.getElem?_map, List.getElem?_map]
        cases hy : a.perps[n]? with
        | none => rfl
        | some y =>
          have : y.market ≠ mi := by
            intro hym
            obtain ⟨hn1, rfl⟩ := List.getElem?_eq_some_iff.mp hy
            have hpj := M.perp
            obtain ⟨hj1, hj2⟩ := List.getElem?_eq_some_iff.mp hpj
            have := (List.Nodup.getElem_inj_iff M.ok.perps (i := n) (j := j) (hi := by simpa using hn1) (hj := by simpa using hj1)).mp (by simp [hj2, M.mkt.1, hym])
            exact en this
          simp only [Option.map_some]
          rw [M.markets _ this]
    · dsimp only; rw [hm]; exact M.settle
  obtain ⟨tk, u, u', h1, h2, _, h4, h5, _, h7, h8⟩ := one_perp hfd0 d1 O hc hc' hn
  refine ⟨tk, u, h1, h2, h4, h7, ?_⟩
  intro h ign H H' hh hH hH'
  have := h8 h ign H H' hh hH hH'
  rw [perpValue_raw h4, perpValue_raw h5, paid_raw h4 h5 hm hp] at this
  have ov : overall (s'.markets mi) h = overall (s.markets mi) h := by rw [hm]; rfl
  rw [ov] at this
  have n1 : nativeAt ((a.state e s).banks ti) t.indexed = nativeOf (s.banks ti).bank t := nativeAt_of t rfl rfl
  have n2 : nativeAt ((a'.state e s').banks ti) t'.indexed = nativeOf (s.banks ti).bank t' := nativeAt_of t' M.bank.depositIndex M.bank.borrowIndex
  dsimp only at this
  rw [n1, n2] at this
  exact this

/-! ## Perp pnl and settled amounts -/

theorem weigh_fall {w v x : Int} (hw : 0 ≤ w) (hw1 : w ≤ S) (hx : 0 ≤ x) : PerpForce.weighed w v - x ≤ PerpForce.weighed w (v - x) := by
  have hS := S_pos
  unfold PerpForce.weighed
  have le : ∀ y : Int, 0 ≤ y → w * y / S ≤ y := by
    intro y hy
    have := Int.ediv_le_ediv hS (show w * y ≤ y * S by nlinarith)
    rwa [Int.mul_ediv_cancel _ (by omega)] at this
  by_cases h1 : v > 0
  · rw [if_pos h1]
    by_cases h2 : v - x > 0
    · rw [if_pos h2]
      have : w * v / S ≤ (w * (v - x) + x * S) / S := Int.ediv_le_ediv hS (by nlinarith)
      rw [Int.add_mul_ediv_right _ _ (by omega)] at this
      omega
    · rw [if_neg h2]
      have := le v (by omega)
      omega
  · rw [if_neg h1, if_neg (by omega)]

theorem counted_false (v : Int) : Health.counted false v = v := by simp [Health.counted]

theorem counted_nonpos {v : Int} (h : v ≤ 0) : Health.counted true v = 0 := by simp [Health.counted]; omega

/-- for an account without pending fills: health counts a perp position at no more than its pnl at the oracle price -/
theorem raw_le_pnl {m : Perp.Market} {p : Perp.Pos} {o : I80F48} {u : PerpInfo} (P : PerpFor (m, p, o) u) (hw : PerpForce.WeightsOk m) (ho : 0 ≤ o) (hb : 0 ≤ p.bids)
    (ht : p.takerBase = 0 ∧ p.takerQuote = 0) (h : HT) : raw u h ≤ pnl m p o := by
  have hS := S_pos
  obtain ⟨w1, w2, w3, w4, _, _⟩ := P.weights
  have q := P.quote
  have l := P.lots
  have b := P.bids
  have z := P.lotSize
  have pr : u.basePrices = ⟨o, m.stablePrice⟩ := by
    have o1 := P.oracle
    have o3 := P.stable
    dsimp only at *
    exact prices_ext o1 o3
  dsimp only at *
  rw [ht.1, Int.add_zero] at l
  rw [ht.2, Int.zero_mul, Int.zero_mul, Int.add_zero] at q
  obtain ⟨pa, pl⟩ := PerpForce.prices_order o m.stablePrice h
  have hwa : 0 ≤ (if h = .maint then m.maintBaseAssetWeight else m.initBaseAssetWeight) ∧ (if h = .maint then m.maintBaseAssetWeight else m.initBaseAssetWeight) ≤ S := by
    split
    · exact hw.maintAsset
    · exact hw.initAsset
  have hwl : S ≤ (if h = .maint then m.maintBaseLiabWeight else m.initBaseLiabWeight) := by
    split
    · exact hw.maintLiab
    · exact hw.initLiab
  have q2 : u.quote = p.quote - Perp.owed m p := by
    rw [q]
    unfold Perp.owed
    by_cases h1 : p.base > 0
    · simp only [if_pos h1]
    · by_cases h2 : p.base < 0
      · simp only [if_neg h1, if_pos h2]
      · have : p.base = 0 := by omega
        simp only [this]; simp
  have key : Formula.ifExecuted u h u.bidsBaseLots (Formula.liabPrice u.basePrices h) ≤ p.base * m.baseLotSize * o := by
    unfold Formula.ifExecuted
    dsimp only
    rw [pr, l, b, z, w1, w2, w3, w4]
    generalize (if h = .maint then m.maintBaseAssetWeight else m.initBaseAssetWeight) = wa at *
    generalize (if h = .maint then m.maintBaseLiabWeight else m.initBaseLiabWeight) = wl at *
    generalize Formula.assetPrice ⟨o, m.stablePrice⟩ h = ap at *
    generalize Formula.liabPrice ⟨o, m.stablePrice⟩ h = lp at *
    have hlot := hw.lot
    have e1 : p.bids * m.baseLotSize * o ≤ p.bids * m.baseLotSize * lp := Int.mul_le_mul_of_nonneg_left pl (Int.mul_nonneg hb hlot.le)
    have v : (if (p.base + p.bids) * m.baseLotSize ≥ 0 then (p.base + p.bids) * m.baseLotSize * wa * ap / S else (p.base + p.bids) * m.baseLotSize * wl * lp / S) ≤ (p.base + p.bids) * m.baseLotSize * o := by
      generalize (p.base + p.bids) * m.baseLotSize = y
      split
      · have h1 : wa * ap ≤ o * S := by nlinarith
        have := Int.ediv_le_ediv hS (show y * wa * ap ≤ (y * o) * S by nlinarith)
        rwa [Int.mul_ediv_cancel _ (by omega)] at this
      · have h1 : o * S ≤ wl * lp := by nlinarith
        have := Int.ediv_le_ediv hS (show y * wl * lp ≤ (y * o) * S by nlinarith)
        rwa [Int.mul_ediv_cancel _ (by omega)] at this
    have e2 : (p.base + p.bids) * m.baseLotSize * o = p.base * m.baseLotSize * o + p.bids * m.baseLotSize * o := by ring
    omega
  unfold raw pnl
  omega

/-! ## The accounts after a pnl settlement -/

theorem nativeOf_congr {b b' : Bank} (h1 : b'.depositIndex = b.depositIndex) (h2 : b'.borrowIndex = b.borrowIndex) (t : TokenPosition) : nativeOf b' t = nativeOf b t := by
  unfold nativeOf; rw [h1, h2]

theorem set_same {α : Type} {l : List α} {k : Nat} {x : α} (h : l[k]? = some x) : l.set k x = l := by
  apply List.ext_getElem?
  intro j
  by_cases e : j = k
  · subst e; rw [List.getElem?_set_self (List.getElem?_eq_some_iff.mp h).1, h]
  · rw [List.getElem?_set_ne (fun h => e h.symm)]

theorem paid_acct {e : Env} {s s' : Sys} (hs : s.Ok) {ti ir : Nat} {fee : I80F48} (hpos : (s.banks ti).bank.Pos) (hf : 0 ≤ fee) (h : paySettler e s ti ir fee = .ok s') {i : Nat} {a : Acct}
    (hi : s.accts[i]? = some a) {k : Nat} {t : TokenPosition} (hk : a.toks[k]? = some (ti, t)) (hu : 0 < t.inUseCount) :
    ∃ t', s'.accts[i]? = some (a.setTok k ti t') ∧ nativeOf (s.banks ti).bank t + (if i = ir then fee else 0) ≤ nativeOf (s.banks ti).bank t' ∧ SameConfig e.now (s.banks ti) (s'.banks ti) := by
  obtain ⟨r, r1, r2, k', t0, t', b, active, P⟩ := paySettler_ok h
  have hcfg : SameConfig e.now (s.banks ti) (s'.banks ti) := by
    rw [P.out]
    unfold Sys.setBank
    dsimp only
    rw [if_pos rfl]
    exact Wallet.deposit_config hpos P.dep
  by_cases ei : i = ir
  · subst ei
    have hr := P.acct
    rw [hi, Option.some.injEq] at hr
    subst hr
    have ha := hs a (List.mem_of_getElem? hi)
    have hens := P.ensure
    unfold Acct.ensureTok at hens
    rw [if_pos (by rw [List.any_eq_true]; exact ⟨_, List.mem_of_getElem? hk, by simp⟩), ok_inj] at hens
    have hens := hens
    subst hens
    have hkk := P.tok
    have ek : k' = k := by
      obtain ⟨l1, e1⟩ := List.getElem?_eq_some_iff.mp hkk
      obtain ⟨l2, e2⟩ := List.getElem?_eq_some_iff.mp hk
      exact (List.Nodup.getElem_inj_iff ha.toks (i := k') (j := k) (hi := by simpa using l1) (hj := by simpa using l2)).mp (by simp [e1, e2])
    subst ek
    rw [hk, Option.some.injEq, Prod.mk.injEq] at hkk
    obtain ⟨_, hkk⟩ := hkk
    subst hkk
    obtain ⟨hact, hn, _⟩ := deposit_inuse hpos hu P.dep
    have hst := P.store
    subst hact
    unfold Acct.store at hst
    simp only [if_true, ok_inj] at hst
    refine ⟨t', ?_, by rw [if_pos rfl]; exact hn, hcfg⟩
    rw [P.out, hst]
    dsimp only
    exact List.getElem?_set_self (List.getElem?_eq_some_iff.mp hi).1
  · refine ⟨t, ?_, by rw [if_neg ei]; omega, hcfg⟩
    rw [P.out]
    dsimp only
    rw [List.getElem?_set_ne (fun h => ei h.symm), hi]
    unfold Acct.setTok
    rw [set_same hk]

/-- the settle token positions of the two accounts are in use, as is kept up for accounts with perp positions (C32) -/
def TokInUse (s : Sys) (i ti : Nat) : Prop := ∀ t, s.tokAt i ti = some t → 0 < t.inUseCount

theorem pnl_moved {e : Env} {s s' : Sys} (hs : s.Ok) {mi ia ib ir : Nat} {amt fee : I80F48} (hflat : 0 ≤ (s.markets mi).settleFeeFlat)
    (hpos : (s.banks (s.markets mi).settleTokenIndex).bank.Pos) (hua : TokInUse s ia (s.markets mi).settleTokenIndex) (hub : TokInUse s ib (s.markets mi).settleTokenIndex)
    (h : settlePnl e s mi ia ib ir = .ok (s', amt, fee)) :
    (∃ a a' k j t t' p p', Moved e.now s s' ia (s.markets mi).settleTokenIndex mi a a' k j t t' p p' ∧ Perp.Paid (s.markets mi) p.pos (-amt) p'.pos ∧
      nativeOf (s.banks (s.markets mi).settleTokenIndex).bank t + (amt - fee) + (if ia = ir then fee else 0) ≤ nativeOf (s.banks (s.markets mi).settleTokenIndex).bank t') ∧
    (∃ b b' k j t t' p p' cb bMax, Moved e.now s s' ib (s.markets mi).settleTokenIndex mi b b' k j t t' p p' ∧ Perp.Paid (s.markets mi) p.pos amt p'.pos ∧
      nativeOf (s.banks (s.markets mi).settleTokenIndex).bank t - amt + (if ib = ir then fee else 0) ≤ nativeOf (s.banks (s.markets mi).settleTokenIndex).bank t' ∧
      b.cache e s = .ok cb ∧ cb.perpMaxSettle e.fd (s.markets mi).settleTokenIndex = .ok bMax ∧ 0 < amt ∧ amt ≤ bMax ∧ amt ≤ -pnl (s.markets mi) p.pos (e.oracle mi)) := by
  obtain ⟨s1, a, b, ja, ka, jb, kb, pa, pb, ta, tb, ca, cb, bMax, le, mt, pa', pb', n, f, b1, b2, ta', tb', ra, rb, P, hp⟩ := settlePnl_ok h
  obtain ⟨o1, m1, k1, l1, t1, q1, ta0, tb0, pa0, pb0⟩ := parts_seen hs P
  obtain ⟨c1, c2, c3, c4, c5, c6⟩ := Perp.C50_settle_pnl hflat P.settle
  obtain ⟨b3, _, _, hd3, _, _, _, k2, m2, _, _, _, _⟩ := paid_seen o1 hp
  obtain ⟨_, u2⟩ := settle_amounts P.settle
  have hne := P.ne
  have ha := hs a (List.mem_of_getElem? P.acctA)
  have hb := hs b (List.mem_of_getElem? P.acctB)
  have la := (List.getElem?_eq_some_iff.mp P.acctA).1
  have lb := (List.getElem?_eq_some_iff.mp P.acctB).1
  have hout := P.out
  have hdep := P.dep
  have hwd := P.wd
  have htA := P.tokA
  have htB := P.tokB
  have hmax := P.max
  generalize hti : (s.markets mi).settleTokenIndex = ti at *
  have iua := hua _ ta0
  have iub := hub _ tb0
  have cfg1 : SameConfig e.now (s.banks ti) { s.banks ti with bank := b1 } := Wallet.deposit_config hpos hdep
  have pos1 : b1.Pos := by
    have := cfg1.depositIndex
    have h2 := cfg1.borrowIndex
    dsimp only at this h2
    unfold Bank.Pos at hpos ⊢
    rw [this, h2]; exact hpos
  have cfg2 : SameConfig e.now { s.banks ti with bank := b1 } { s.banks ti with bank := b2 } := Wallet.withdrawWithoutFee_config (b := { s.banks ti with bank := b1 }) pos1 hwd
  have pos2 : b2.Pos := by
    have := cfg2.depositIndex
    have h2 := cfg2.borrowIndex
    dsimp only at this h2
    unfold Bank.Pos at pos1 ⊢
    rw [this, h2]; exact pos1
  have hk1 : s1.banks ti = { s.banks ti with bank := b2 } := by rw [k1]; unfold Sys.setBank; simp
  have cfg12 : SameConfig e.now (s.banks ti) (s1.banks ti) := by rw [hk1]; exact cfg_trans cfg1 cfg2
  obtain ⟨_, n1, i1⟩ := deposit_inuse hpos iua hdep
  obtain ⟨n2, i2⟩ := withdraw_inuse pos1 iub hwd
  rw [nativeOf_congr cfg1.depositIndex cfg1.borrowIndex, nativeOf_congr cfg1.depositIndex cfg1.borrowIndex] at n2
  have pos1' : (s1.banks ti).bank.Pos := by rw [hk1]; exact pos2
  have hbank : ∀ x, x ≠ ti → s'.banks x = s.banks x := by
    intro x hx
    rw [k2]
    unfold Sys.setBank
    dsimp only
    rw [if_neg hx, k1]
    unfold Sys.setBank
    dsimp only
    rw [if_neg hx]
  have hmk : s'.markets = s.markets := m2.trans m1
  constructor
  · have hA : s1.accts[ia]? = some { (a.setPerp ja ⟨mi, pa', pa.transfers + (n - f)⟩).setTok ka ti ta' with transfers := a.transfers + (n - f) } := by
      rw [hout]; dsimp only
      rw [List.getElem?_set_ne (Ne.symm hne), List.getElem?_set_self la]
    have hAk : ({ (a.setPerp ja ⟨mi, pa', pa.transfers + (n - f)⟩).setTok ka ti ta' with transfers := a.transfers + (n - f) } : Acct).toks[ka]? = some (ti, ta') := by
      unfold Acct.setTok Acct.setPerp
      dsimp only
      exact List.getElem?_set_self (List.getElem?_eq_some_iff.mp htA).1
    obtain ⟨t'', g1, g2, g3⟩ := paid_acct o1 pos1' c5 hp hA hAk (by rw [i1]; exact iua)
    refine ⟨a, _, ka, ja, ta, t'', pa, ⟨mi, pa', pa.transfers + (n - f)⟩, ⟨P.acctA, g1, ha, htA, ?_, P.perpA.1, ⟨P.perpA.2, rfl⟩, rfl, rfl, cfg_trans cfg12 g3, hbank, fun x _ => by rw [hmk], ?_, hti⟩, c1, ?_⟩
    · unfold Acct.setTok Acct.setPerp; dsimp only; rw [List.set_set]
    · rw [hmk]; exact ⟨_, _, rfl⟩
    · rw [nativeOf_congr cfg12.depositIndex cfg12.borrowIndex, nativeOf_congr cfg12.depositIndex cfg12.borrowIndex] at g2
      omega
  · have hB : s1.accts[ib]? = some { (b.setPerp jb ⟨mi, pb', pb.transfers - n⟩).setTok kb ti tb' with transfers := b.transfers - n } := by
      rw [hout]; dsimp only
      rw [List.getElem?_set_self (by simpa using lb)]
    have hBk : ({ (b.setPerp jb ⟨mi, pb', pb.transfers - n⟩).setTok kb ti tb' with transfers := b.transfers - n } : Acct).toks[kb]? = some (ti, tb') := by
      unfold Acct.setTok Acct.setPerp
      dsimp only
      exact List.getElem?_set_self (List.getElem?_eq_some_iff.mp htB).1
    obtain ⟨t'', g1, g2, g3⟩ := paid_acct o1 pos1' c5 hp hB hBk (by rw [i2]; exact iub)
    refine ⟨b, _, kb, jb, tb, t'', pb, ⟨mi, pb', pb.transfers - n⟩, cb, bMax, ⟨P.acctB, g1, hb, htB, ?_, P.perpB.1, ⟨P.perpB.2, rfl⟩, rfl, rfl, cfg_trans cfg12 g3, hbank, fun x _ => by rw [hmk], ?_, hti⟩, c2, ?_,
      P.cacheB, hmax, c3, c4, u2⟩
    · unfold Acct.setTok Acct.setPerp; dsimp only; rw [List.set_set]
    · rw [hmk]; exact ⟨_, _, rfl⟩
    · rw [nativeOf_congr cfg12.depositIndex cfg12.borrowIndex, nativeOf_congr cfg12.depositIndex cfg12.borrowIndex] at g2
      omega

/-! ## Health -/

/-- the settle token's prices and weights as health uses them: not negative, and a debt counts at least what an asset does -/
def PricesOk (t : TokenInfo) (h : HT) : Prop :=
  0 ≤ Formula.assetWeight t h * Formula.assetPrice t.prices h ∧ Formula.assetWeight t h * Formula.assetPrice t.prices h ≤ Formula.liabWeight t h * Formula.liabPrice t.prices h

/-- weighted price of one unit of debt -/
def debtPrice (t : TokenInfo) (h : HT) : Int := Formula.liabWeight t h * Formula.liabPrice t.prices h / S

theorem PricesOk.tokenOk {t : TokenInfo} {h : HT} (o : PricesOk t h) : PerpForce.TokenOk t h := ⟨o.1, by have := o.1; have := o.2; omega⟩

theorem tokenValue_tv (t : TokenInfo) (h : HT) (b : Int) : Formula.tokenValue t h b = tv (Formula.assetWeight t h * Formula.assetPrice t.prices h / S) (debtPrice t h) b := rfl

theorem tokenValue_lip {t : TokenInfo} {h : HT} (o : PricesOk t h) {b b' d : Int} (hd : 0 ≤ d) (hb : b - d ≤ b') : (Formula.tokenValue t h b - Formula.tokenValue t h b') * S ≤ d * debtPrice t h + S := by
  have h1 := PerpForce.tokenValue_mono o.tokenOk hb
  have h2 := tv_lip (b := b - d) (Int.ediv_nonneg o.1 S_pos.le) (Int.ediv_le_ediv S_pos o.2) hd
  rw [Int.sub_add_cancel] at h2
  have h2 : Formula.tokenValue t h b * S ≤ Formula.tokenValue t h (b - d) * S + d * debtPrice t h + S := h2
  have h3 := Int.mul_le_mul_of_nonneg_right h1 S_pos.le
  rw [Int.sub_mul]
  omega

/-- **C72, the profitable account's health.** Settling replaces pnl, which counts at most fully, by tokens: the maintenance and liquidation-end health of `a` falls at most by the fee (valued as a debt) and not at all
if `a` pays itself or there is no fee. (Accounts without funds in spot orders.) -/
theorem C72_profit_health {e : Env} (hfd0 : ∀ p x, e.fd 0 p = .ok x → x = 0) {s s' : Sys} (hs : s.Ok) {mi ia ib ir : Nat} {amt fee : I80F48} (hflat : 0 ≤ (s.markets mi).settleFeeFlat)
    (hpos : (s.banks (s.markets mi).settleTokenIndex).bank.Pos) (hua : TokInUse s ia (s.markets mi).settleTokenIndex) (hub : TokInUse s ib (s.markets mi).settleTokenIndex)
    (h : settlePnl e s mi ia ib ir = .ok (s', amt, fee)) {a a' : Acct} (ha : s.accts[ia]? = some a) (ha' : s'.accts[ia]? = some a') (hn : NoneReserved a.os)
    {c c' : Cache} (hc : a.cache e s = .ok c) (hc' : a'.cache e s' = .ok c') {ht : HT} (hh : ht ≠ .init)
    (hw : 0 ≤ overall (s.markets mi) ht ∧ overall (s.markets mi) ht ≤ S) {tk : TokenInfo} (htk : tk ∈ c.tokens) (hti : tk.tokenIndex = (s.markets mi).settleTokenIndex) (hpr : PricesOk tk ht)
    {H H' : I80F48} (hH : c.health e.fd ht = .ok H) (hH' : c'.health e.fd ht = .ok H') :
    (H - H') * S ≤ fee * debtPrice tk ht + S ∧ (ia = ir ∨ fee = 0 → H ≤ H') := by
  obtain ⟨⟨a0, a0', k, j, t, t', p, p', M, hp, hnat⟩, _⟩ := pnl_moved hs hflat hpos hua hub h
  have S1 := C72_settle_pnl hs hflat h
  have hfee := S1.fee
  have hamt := S1.positive
  have e1 := M.before
  have e2 := M.after
  rw [ha, Option.some.injEq] at e1
  rw [ha', Option.some.injEq] at e2
  subst e1 e2
  obtain ⟨tk0, u, h1, h2, h3, h4, h5⟩ := moved_health hfd0 M hp hc hc' hn
  have htk0 : tk0 = tk := by
    obtain ⟨n, hn⟩ := List.mem_iff_getElem?.mp htk
    have : n = k := by
      have := (findToken_iff h4 hn _).2 hti.symm
      have h2' : c.tokenIdx (s.markets mi).settleTokenIndex = some n := this
      rw [h2, Option.some.injEq] at h2'
      exact h2'.symm
    subst this
    rw [h1, Option.some.injEq] at hn
    exact hn
  subst htk0
  have key := h5 ht false H H' hh hH hH'
  rw [counted_false, counted_false] at key
  have wf := weigh_fall (v := raw u ht) hw.1 hw.2 (show 0 ≤ amt by omega)
  rw [show raw u ht + -amt = raw u ht - amt by omega] at key
  generalize PerpForce.weighed (overall (s.markets mi) ht) (raw u ht - amt) = w' at *
  generalize PerpForce.weighed (overall (s.markets mi) ht) (raw u ht) = w at *
  generalize nativeOf (s.banks (s.markets mi).settleTokenIndex).bank t' = n' at *
  generalize nativeOf (s.banks (s.markets mi).settleTokenIndex).bank t = n at *
  constructor
  · have := tokenValue_lip hpr (b := balanceI c ht false tk0) (b' := balanceI c ht false tk0 + (n' - n) + (w' - w)) hfee.1 (by split at hnat <;> omega)
    have e : H - H' = Formula.tokenValue tk0 ht (balanceI c ht false tk0) - Formula.tokenValue tk0 ht (balanceI c ht false tk0 + (n' - n) + (w' - w)) := by omega
    rw [e]; exact this
  · intro hz
    have := PerpForce.tokenValue_mono hpr.tokenOk (show balanceI c ht false tk0 ≤ balanceI c ht false tk0 + (n' - n) + (w' - w) by
      rcases hz with hz | hz
      · rw [if_pos hz] at hnat; omega
      · split at hnat <;> omega)
    omega

/-- **C72, the losing account's health.** If `b` has no pending fills, its maintenance and liquidation-end health does not fall: the loss it settles counted fully already. -/
theorem C72_loss_health {e : Env} (hfd0 : ∀ p x, e.fd 0 p = .ok x → x = 0) {s s' : Sys} (hs : s.Ok) {mi ia ib ir : Nat} {amt fee : I80F48} (hflat : 0 ≤ (s.markets mi).settleFeeFlat)
    (hpos : (s.banks (s.markets mi).settleTokenIndex).bank.Pos) (hua : TokInUse s ia (s.markets mi).settleTokenIndex) (hub : TokInUse s ib (s.markets mi).settleTokenIndex)
    (h : settlePnl e s mi ia ib ir = .ok (s', amt, fee)) {b b' : Acct} (hb : s.accts[ib]? = some b) (hb' : s'.accts[ib]? = some b') (hn : NoneReserved b.os)
    {c c' : Cache} (hc : b.cache e s = .ok c) (hc' : b'.cache e s' = .ok c') {ht : HT} (hh : ht ≠ .init) (hw : PerpForce.WeightsOk (s.markets mi)) (ho : 0 ≤ e.oracle mi)
    (hp : ∀ p, s.perpAt ib mi = some p → 0 ≤ p.pos.bids ∧ p.pos.takerBase = 0 ∧ p.pos.takerQuote = 0)
    (hpr : ∀ tk ∈ c.tokens, tk.tokenIndex = (s.markets mi).settleTokenIndex → PricesOk tk ht)
    {H H' : I80F48} (hH : c.health e.fd ht = .ok H) (hH' : c'.health e.fd ht = .ok H') : H ≤ H' := by
  obtain ⟨_, b0, b0', k, j, t, t', p, p', cb, bMax, M, hpd, hnat, _, _, hamt, _, hpnl⟩ := pnl_moved hs hflat hpos hua hub h
  have hfee := (C72_settle_pnl hs hflat h).fee
  have e1 := M.before
  have e2 := M.after
  have hpp : s.perpAt ib mi = some p := by
    unfold Sys.perpAt; rw [M.before, ← M.mkt.1]; exact perpOf_at M.ok M.perp
  rw [hb, Option.some.injEq] at e1
  rw [hb', Option.some.injEq] at e2
  subst e1 e2
  obtain ⟨tk, u, h1, h2, h3, h4, h5⟩ := moved_health hfd0 M hpd hc hc' hn
  have htk : tk.tokenIndex = (s.markets mi).settleTokenIndex := ((findToken_iff h4 h1 _).1 h2).symm
  have hpr := hpr tk (List.mem_of_getElem? h1) htk
  have key := h5 ht false H H' hh hH hH'
  rw [counted_false, counted_false] at key
  obtain ⟨p1, p2⟩ := hp p hpp
  have rl := raw_le_pnl h3 hw ho p1 p2 ht
  have z1 : PerpForce.weighed (overall (s.markets mi) ht) (raw u ht + amt) = raw u ht + amt := by unfold PerpForce.weighed; rw [if_neg (by omega)]
  have z2 : PerpForce.weighed (overall (s.markets mi) ht) (raw u ht) = raw u ht := by unfold PerpForce.weighed; rw [if_neg (by omega)]
  rw [z1, z2] at key
  generalize nativeOf (s.banks (s.markets mi).settleTokenIndex).bank t' = n' at *
  generalize nativeOf (s.banks (s.markets mi).settleTokenIndex).bank t = n at *
  have := PerpForce.tokenValue_mono hpr.tokenOk (show balanceI c ht false tk ≤ balanceI c ht false tk + (n' - n) + (raw u ht + amt - raw u ht) by split at hnat <;> omega)
  omega

/-- **C72, spot backing.** Settling does not turn perp losses into unbacked token losses: `b`'s settle health (maintenance health in which perp losses count as zero) was positive before, and afterwards it is more than
-2 units of 2^-48. -/
theorem C72_settle_health {e : Env} (hfd0 : ∀ p x, e.fd 0 p = .ok x → x = 0) {s s' : Sys} (hs : s.Ok) {mi ia ib ir : Nat} {amt fee : I80F48} (hflat : 0 ≤ (s.markets mi).settleFeeFlat)
    (hpos : (s.banks (s.markets mi).settleTokenIndex).bank.Pos) (hua : TokInUse s ia (s.markets mi).settleTokenIndex) (hub : TokInUse s ib (s.markets mi).settleTokenIndex)
    (h : settlePnl e s mi ia ib ir = .ok (s', amt, fee)) {b b' : Acct} (hb : s.accts[ib]? = some b) (hb' : s'.accts[ib]? = some b') (hn : NoneReserved b.os)
    {c c' : Cache} (hc : b.cache e s = .ok c) (hc' : b'.cache e s' = .ok c') (hw : PerpForce.WeightsOk (s.markets mi)) (ho : 0 ≤ e.oracle mi)
    (hp : ∀ p, s.perpAt ib mi = some p → 0 ≤ p.pos.bids ∧ p.pos.takerBase = 0 ∧ p.pos.takerQuote = 0)
    (hpr : ∀ tk ∈ c.tokens, tk.tokenIndex = (s.markets mi).settleTokenIndex → PricesOk tk .maint)
    {H H' : I80F48} (hH : c.healthI e.fd .maint true = .ok H) (hH' : c'.healthI e.fd .maint true = .ok H') : 0 < H ∧ -2 < H' := by
  obtain ⟨_, b0, b0', k, j, t, t', p, p', cb, bMax, M, hpd, hnat, hcb, hmax, hamt, hle, hpnl⟩ := pnl_moved hs hflat hpos hua hub h
  have hfee := (C72_settle_pnl hs hflat h).fee
  have e1 := M.before
  have e2 := M.after
  have hpp : s.perpAt ib mi = some p := by
    unfold Sys.perpAt; rw [M.before, ← M.mkt.1]; exact perpOf_at M.ok M.perp
  rw [hb, Option.some.injEq] at e1
  rw [hb', Option.some.injEq] at e2
  subst e1 e2
  rw [hc, ok_inj] at hcb
  subst hcb
  obtain ⟨tk, u, h1, h2, h3, h4, h5⟩ := moved_health hfd0 M hpd hc hc' hn
  have htk : tk.tokenIndex = (s.markets mi).settleTokenIndex := ((findToken_iff h4 h1 _).1 h2).symm
  have hpr := hpr tk (List.mem_of_getElem? h1) htk
  have key := h5 .maint true H H' (by decide) hH hH'
  obtain ⟨p1, p2⟩ := hp p hpp
  have rl := raw_le_pnl h3 hw ho p1 p2 .maint
  have z1 : PerpForce.weighed (overall (s.markets mi) .maint) (raw u .maint + amt) = raw u .maint + amt := by unfold PerpForce.weighed; rw [if_neg (by omega)]
  have z2 : PerpForce.weighed (overall (s.markets mi) .maint) (raw u .maint) = raw u .maint := by unfold PerpForce.weighed; rw [if_neg (by omega)]
  rw [z1, z2, counted_nonpos (by omega), counted_nonpos (by omega)] at key
  -- the limit
  simp only [Cache.healthI, bind_ok] at hH
  obtain ⟨bs, hbs, hsum⟩ := hH
  simp only [Cache.perpMaxSettle, bind_ok] at hmax
  obtain ⟨bs0, hbs0, v0, hv0, hmax⟩ := hmax
  rw [hbs, ok_inj] at hbs0
  subst hbs0
  rw [hsum, ok_inj] at hv0
  subst hv0
  rw [h2] at hmax
  simp only [bind_ok, Health.at_ok, TokenInfo.assetWeightedPrice, TokenInfo.liabWeightedPrice, mul_ok] at hmax
  obtain ⟨tk1, htk1, bal, hbal, aw, ⟨haw, _⟩, lw, ⟨hlw, _⟩, hmax⟩ := hmax
  rw [h1, Option.some.injEq] at htk1
  subst htk1
  have hb2 := (balancesI_of h4 hbs).2 k _ h1
  rw [hbal, Option.some.injEq] at hb2
  subst hb2
  have haw' : aw = Formula.assetWeight tk .maint * Formula.assetPrice tk.prices .maint / S := haw
  have hlw' : lw = Formula.liabWeight tk .maint * Formula.liabPrice tk.prices .maint / S := hlw
  have haw0 : 0 ≤ aw := by rw [haw']; exact Int.ediv_nonneg hpr.1 S_pos.le
  have hal : aw ≤ lw := by rw [haw', hlw']; exact Int.ediv_le_ediv S_pos hpr.2
  obtain ⟨T1, T2⟩ := C39_taken haw0 hal hmax
  have hHpos : 0 < H := by
    by_contra hcon
    have := T1 (by omega)
    omega
  refine ⟨hHpos, ?_⟩
  obtain ⟨_, T3, _⟩ := T2 hHpos
  have T := T3 amt hle
  generalize nativeOf (s.banks (s.markets mi).settleTokenIndex).bank t' = n' at *
  generalize nativeOf (s.banks (s.markets mi).settleTokenIndex).bank t = n at *
  have hm := PerpForce.tokenValue_mono hpr.tokenOk (show balanceI c .maint true tk - amt ≤ balanceI c .maint true tk + (n' - n) + (0 - 0) by split at hnat <;> omega)
  have tv1 : Formula.tokenValue tk .maint (balanceI c .maint true tk) = priced aw lw (balanceI c .maint true tk) / S := by rw [tokenValue_tv, tv_priced, haw', hlw']; rfl
  have tv2 : Formula.tokenValue tk .maint (balanceI c .maint true tk - amt) = priced aw lw (balanceI c .maint true tk - amt) / S := by rw [tokenValue_tv, tv_priced, haw', hlw']; rfl
  rw [tv2] at hm
  rw [tv1] at key
  have f1 := mulFloor_bounds (priced aw lw (balanceI c .maint true tk))
  have f2 := mulFloor_bounds (priced aw lw (balanceI c .maint true tk - amt))
  generalize priced aw lw (balanceI c .maint true tk - amt) = P1 at *
  generalize priced aw lw (balanceI c .maint true tk) = P0 at *
  have hS := S_pos
  have : (-2) * S < (H + P1 / S - P0 / S) * S := by
    rw [Int.sub_mul, Int.add_mul]
    omega
  have := lt_of_mul_lt_mul_right this hS.le
  omega

end Settlement
end Mango
