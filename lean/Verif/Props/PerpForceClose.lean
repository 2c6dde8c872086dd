import Verif.Props.TradingEx
import Verif.Props.PerpOrder
import Verif.Props.PerpLiqHealth
/-!
# C69: closing perp positions by force (perp_force_close_position)
-/
namespace Mango
namespace PerpForce
open Fx Perp Health

/-- what a forced close does -/
structure Closed (s s' : PSys) (i j : Nat) (price : I80F48) (t : Int) (quote : I80F48) : Prop where
  distinct : i ≠ j
  allowed : s.market.forceClose = true
  positive : 0 < t
  size : t = min (pget s.accts i).base (-(pget s.accts j).base)
  paid : quote = t * s.market.baseLotSize * price
  long : ∃ r, pget s'.accts i = { pget s.accts i with base := (pget s.accts i).base - t, quote := (pget s.accts i).quote + quote, recurring := r }
  short : ∃ r, pget s'.accts j = { pget s.accts j with base := (pget s.accts j).base + t, quote := (pget s.accts j).quote - quote, recurring := r }
  others : ∀ v, v ≠ i → v ≠ j → s'.accts[v]? = s.accts[v]?
  market : s'.market = { s.market with openInterest := s.market.openInterest - 2 * t }
  book : s'.book = s.book
  queue : s'.queue = s.queue

/-- **C69.** Closing by force is only possible in a market marked for it, between a long and a short position. The lots moved are the smaller of the two positions, so that neither changes its sign and at least one becomes
zero; they are paid for at the oracle price, exactly what one account gets the other pays; the open interest falls by twice the lots; orders, pending fills and all other accounts stay as they are. -/
theorem C69_force_close {s s' : PSys} {i j : Nat} {price : I80F48} (h : pstep s (.forceClose i j price) = .ok s') : ∃ t quote, Closed s s' i j price t quote := by
  simp only [pstep, forceCloseOp, bind_ok, require_ok] at h
  obtain ⟨_, hij, _, hfc, h⟩ := h
  split at h
  · next a b ha hb =>
    simp only [bind_ok, getPos_ok, require_ok, ck64_ok, abs64_ok, mul_ok, neg_ok, Prod.exists, ok_inj] at h
    obtain ⟨p, hp, q, hq, _, hpb, _, hqb, qa, ⟨rfl, _⟩, nat, ⟨rfl, _⟩, quote, ⟨rfl, _⟩, nt, ⟨rfl, _⟩, nq, ⟨rfl, _⟩, p', m1, h1, q', m2, h2, rfl⟩ := h
    have t1 := recordTrade_ok h1
    have t2 := recordTrade_ok h2
    obtain ⟨⟨r1, e1⟩, k1⟩ := t1
    obtain ⟨⟨r2, e2⟩, k2⟩ := t2
    have hb' : (s.accts.set i (a.setPos p'))[j]? = some b := by rw [List.getElem?_set_ne hij]; exact hb
    have hpi : pget s.accts i = p := by rw [pget_some ha, posD_some hp]
    have hpj : pget s.accts j = q := by rw [pget_some hb, posD_some hq]
    have ht : max (min p.base |q.base|) 0 = min p.base (-q.base) := by rw [abs_of_neg hqb]; omega
    have hq0 : ∀ x : Int, Fx.ofInt x * price / S = x * price := by
      intro x
      unfold Fx.ofInt
      rw [show x * S * price = x * price * S by ring]
      exact Int.mul_ediv_cancel _ (by have := S_pos; omega)
    refine ⟨max (min p.base |q.base|) 0, _, hij, hfc, ?_, ?_, rfl, ⟨r1, ?_⟩, ⟨r2, ?_⟩, ?_, ?_, rfl, rfl⟩
    · rw [ht]; omega
    · rw [hpi, hpj]; exact ht
    · show pget ((s.accts.set i (a.setPos p')).set j (b.setPos q')) i = _
      rw [pget_set hb', if_neg hij, pget_set ha, if_pos rfl, hpi]
      show p' = _
      rw [e1, hq0]
      rfl
    · show pget ((s.accts.set i (a.setPos p')).set j (b.setPos q')) j = _
      rw [pget_set hb', if_pos rfl, hpj]
      show q' = _
      rw [e2, hq0]
      rfl
    · intro v h3 h4
      show ((s.accts.set i (a.setPos p')).set j (b.setPos q'))[v]? = _
      rw [List.getElem?_set_ne (fun e => h4 e.symm), List.getElem?_set_ne (fun e => h3 e.symm)]
    · show m2 = _
      rw [k2, k1, ht]
      have g1 : |p.base + -min p.base (-q.base)| = p.base - min p.base (-q.base) := by rw [abs_of_nonneg] <;> omega
      have g2 : |q.base + min p.base (-q.base)| = -(q.base + min p.base (-q.base)) := by rw [abs_of_nonpos]; omega
      have g3 : |p.base| = p.base := abs_of_pos hpb
      have g4 : |q.base| = -q.base := abs_of_neg hqb
      simp only [g1, g2, g3, g4]
      congr 1
      omega
  · simp at h

/-- **C69.** In terms of the positions: the long one stays long or becomes zero, the short one stays short or becomes zero, one of them becomes zero, both lose the same number of lots. -/
theorem C69_no_flip {s s' : PSys} {i j : Nat} {price : I80F48} (h : pstep s (.forceClose i j price) = .ok s') :
    let p := pget s.accts i; let p' := pget s'.accts i; let q := pget s.accts j; let q' := pget s'.accts j
    0 < p.base ∧ q.base < 0 ∧ 0 ≤ p'.base ∧ p'.base < p.base ∧ q'.base ≤ 0 ∧ q.base < q'.base ∧ (p'.base = 0 ∨ q'.base = 0) ∧ p.base - p'.base = q'.base - q.base ∧
    p'.quote + q'.quote = p.quote + q.quote ∧ p'.quote - p.quote = (p.base - p'.base) * s.market.baseLotSize * price ∧
    p'.takerBase = p.takerBase ∧ q'.takerBase = q.takerBase ∧ p'.bids = p.bids ∧ p'.asks = p.asks ∧ q'.bids = q.bids ∧ q'.asks = q.asks := by
  obtain ⟨t, quote, C⟩ := C69_force_close h
  intro p p' q q'
  obtain ⟨r1, e1⟩ := C.long
  obtain ⟨r2, e2⟩ := C.short
  have h1 := C.positive
  have h2 := C.size
  have h3 := C.paid
  change p' = { p with base := p.base - t, quote := p.quote + quote, recurring := r1 } at e1
  change q' = { q with base := q.base + t, quote := q.quote - quote, recurring := r2 } at e2
  change t = min p.base (-q.base) at h2
  have hd : p.base - (p.base - t) = t := by ring
  rw [e1, e2]
  dsimp only
  rw [hd]
  refine ⟨by omega, by omega, by omega, by omega, by omega, by omega, by omega, by omega, by omega, by rw [← h3]; ring, rfl, rfl, rfl, rfl, rfl, rfl⟩

/-- weights that can be configured: assets count at most fully, liabilities at least fully -/
structure WeightsOk (m : Market) : Prop where
  maintAsset : 0 ≤ m.maintBaseAssetWeight ∧ m.maintBaseAssetWeight ≤ S
  initAsset : 0 ≤ m.initBaseAssetWeight ∧ m.initBaseAssetWeight ≤ S
  maintLiab : S ≤ m.maintBaseLiabWeight
  initLiab : S ≤ m.initBaseLiabWeight
  maintOverall : 0 ≤ m.maintOverallAssetWeight
  initOverall : 0 ≤ m.initOverallAssetWeight
  lot : 0 < m.baseLotSize

/-- no open orders, no fills to come, funding settled -/
structure Idle (m : Market) (p : Perp.Pos) : Prop where
  taker : p.takerBase = 0 ∧ p.takerQuote = 0
  orders : p.bids = 0 ∧ p.asks = 0
  long : p.longSettled = m.longFunding
  short : p.shortSettled = m.shortFunding

theorem idle_info {m : Market} {p : Perp.Pos} (hi : Idle m p) {price : I80F48} {i : PerpInfo} (h : perpInfoOf m p price = .ok i) :
    i.baseLots = p.base ∧ i.quote = p.quote ∧ i.bidsBaseLots = 0 ∧ i.asksBaseLots = 0 ∧ i.baseLotSize = m.baseLotSize ∧ i.basePrices = ⟨price, m.stablePrice⟩ ∧
    i.maintBaseAssetWeight = m.maintBaseAssetWeight ∧ i.initBaseAssetWeight = m.initBaseAssetWeight ∧ i.maintBaseLiabWeight = m.maintBaseLiabWeight ∧ i.initBaseLiabWeight = m.initBaseLiabWeight ∧
    i.maintOverallAssetWeight = m.maintOverallAssetWeight ∧ i.initOverallAssetWeight = m.initOverallAssetWeight ∧ i.settleTokenIndex = m.settleTokenIndex := by
  simp only [perpInfoOf, bind_ok, ck64_ok, sub_ok, add_ok, ok_inj] at h
  obtain ⟨_, ⟨rfl, _⟩, uf, hu, _, ⟨rfl, _⟩, _, ⟨rfl, _⟩, _, ⟨rfl, _⟩, rfl⟩ := h
  have huf : uf = 0 := by
    rw [unsettledFunding_ok hu]
    rw [hi.long, hi.short]
    simp
  subst huf
  rw [hi.taker.1, hi.taker.2, hi.orders.1, hi.orders.2]
  refine ⟨by simp, ?_, rfl, rfl, rfl, rfl, rfl, rfl, rfl, rfl, rfl, rfl, rfl⟩
  simp [Fx.ofInt]

/-- value of `b` base lots of size `n` -/
def baseValue (b n wa wl pa pl : Int) : Int := if b * n ≥ 0 then b * n * wa * pa / S else b * n * wl * pl / S

theorem baseValue_sell {b n wa wl pa pl pr t : Int} (hn : 0 < n) (h0 : 0 ≤ pr) (hw : 0 ≤ wa ∧ wa ≤ S) (hp : pa ≤ pr) (ht : 0 ≤ t) (htb : t ≤ b) :
    baseValue b n wa wl pa pl ≤ baseValue (b - t) n wa wl pa pl + t * n * pr := by
  unfold baseValue
  rw [if_pos (by have := Int.mul_nonneg (show 0 ≤ b by omega) (le_of_lt hn); omega), if_pos (by have := Int.mul_nonneg (show 0 ≤ b - t by omega) (le_of_lt hn); omega)]
  have hS := S_pos
  rw [← Int.add_mul_ediv_right _ _ (by omega)]
  apply Int.ediv_le_ediv hS
  have hwp : wa * pa ≤ pr * S := by nlinarith
  have htn : 0 ≤ t * n := Int.mul_nonneg ht (le_of_lt hn)
  have := Int.mul_le_mul_of_nonneg_left hwp htn
  calc b * n * wa * pa = (b - t) * n * wa * pa + t * n * (wa * pa) := by ring
    _ ≤ (b - t) * n * wa * pa + t * n * (pr * S) := by omega
    _ = _ := by ring

theorem baseValue_buy {b n wa wl pa pl pr t : Int} (hn : 0 < n) (h0 : 0 ≤ pr) (hw : S ≤ wl) (hp : pr ≤ pl) (ht : 0 ≤ t) (htb : t ≤ -b) :
    baseValue b n wa wl pa pl ≤ baseValue (b + t) n wa wl pa pl - t * n * pr := by
  have hS := S_pos
  have hl : ∀ x : Int, x ≤ 0 → baseValue x n wa wl pa pl = x * n * wl * pl / S := by
    intro x hx
    unfold baseValue
    by_cases hx0 : x = 0
    · subst hx0; simp
    · rw [if_neg]
      have : x * n < 0 := Int.mul_neg_of_neg_of_pos (by omega) hn
      omega
  rw [hl b (by omega), hl (b + t) (by omega)]
  have e : (b + t) * n * wl * pl / S - t * n * pr = ((b + t) * n * wl * pl + (-(t * n * pr)) * S) / S := by
    rw [Int.add_mul_ediv_right _ _ (by omega)]; ring
  rw [e]
  apply Int.ediv_le_ediv hS
  have hwp : pr * S ≤ wl * pl := by nlinarith
  have htn : 0 ≤ t * n := Int.mul_nonneg ht (le_of_lt hn)
  have := Int.mul_le_mul_of_nonneg_left hwp htn
  calc b * n * wl * pl = (b + t) * n * wl * pl - t * n * (wl * pl) := by ring
    _ ≤ (b + t) * n * wl * pl - t * n * (pr * S) := by omega
    _ = _ := by ring

/-- positive pnl is weighted -/
def weighed (w u : Int) : Int := if u > 0 then w * u / S else u

/-- the pnl of an idle position that counts in health -/
theorem idle_value {m : Market} {p : Perp.Pos} (hi : Idle m p) {price : I80F48} {i : PerpInfo} (h : perpInfoOf m p price = .ok i) (ht : HT) :
    Formula.perpValue i ht = weighed (if ht = .maint then m.maintOverallAssetWeight else m.initOverallAssetWeight)
      (p.quote + baseValue p.base m.baseLotSize (if ht = .maint then m.maintBaseAssetWeight else m.initBaseAssetWeight)
        (if ht = .maint then m.maintBaseLiabWeight else m.initBaseLiabWeight) (Formula.assetPrice ⟨price, m.stablePrice⟩ ht) (Formula.liabPrice ⟨price, m.stablePrice⟩ ht)) := by
  obtain ⟨e1, e2, e3, e4, e5, e6, e7, e8, e9, e10, e11, e12, e13⟩ := idle_info hi h
  unfold Formula.perpValue
  dsimp only
  rw [e2, e3, e4, e6, e11, e12]
  have hx : ∀ pr, Formula.ifExecuted i ht 0 pr = baseValue p.base m.baseLotSize (if ht = .maint then m.maintBaseAssetWeight else m.initBaseAssetWeight)
        (if ht = .maint then m.maintBaseLiabWeight else m.initBaseLiabWeight) (Formula.assetPrice ⟨price, m.stablePrice⟩ ht) (Formula.liabPrice ⟨price, m.stablePrice⟩ ht) := by
    intro pr
    unfold Formula.ifExecuted baseValue
    dsimp only
    rw [e1, e5, e6, e7, e8, e9, e10]
    simp
  rw [show (-0 : Int) = 0 from rfl, hx, hx, min_self]
  rfl

theorem weigh_mono {w u u' : Int} (hw : 0 ≤ w) (h : u ≤ u') : weighed w u ≤ weighed w u' := by
  unfold weighed
  have hS := S_pos
  split
  · rw [if_pos (by omega)]
    exact Int.ediv_le_ediv hS (Int.mul_le_mul_of_nonneg_left h hw)
  · split
    · have : 0 ≤ w * u' / S := Int.ediv_nonneg (Int.mul_nonneg hw (by omega)) (le_of_lt hS)
      omega
    · exact h

theorem prices_order (o st : Int) (ht : HT) : Formula.assetPrice ⟨o, st⟩ ht ≤ o ∧ o ≤ Formula.liabPrice ⟨o, st⟩ ht := by
  cases ht <;> simp only [Formula.assetPrice, Formula.liabPrice]
  · constructor <;> split <;> omega
  · exact ⟨le_refl _, le_refl _⟩
  · exact ⟨le_refl _, le_refl _⟩

theorem perpInfoOf_settle {m : Market} {p : Perp.Pos} {price : I80F48} {i : PerpInfo} (h : perpInfoOf m p price = .ok i) : i.settleTokenIndex = m.settleTokenIndex := by
  simp only [perpInfoOf, bind_ok, ok_inj] at h
  obtain ⟨_, _, _, _, _, _, _, _, _, _, rfl⟩ := h
  rfl

/-- **C69.** Closing by force never lowers what the two positions count in health (init, maintenance or liquidation end), if they have no open orders, no pending fills and their funding is settled: the price
received is the oracle price, and positions count at most (assets) or at least (liabilities) that. -/
theorem C69_pnl {s s' : PSys} {i j : Nat} {price : I80F48} (h : pstep s (.forceClose i j price) = .ok s') (hw : WeightsOk s.market) (h0 : 0 ≤ price) {k : Nat} (hk : k = i ∨ k = j)
    (hi : Idle s.market (pget s.accts k)) {a b : PerpInfo} (ha : perpInfoOf s.market (pget s.accts k) price = .ok a) (hb : perpInfoOf s'.market (pget s'.accts k) price = .ok b) (ht : HT) :
    Formula.perpValue a ht ≤ Formula.perpValue b ht := by
  obtain ⟨t, quote, C⟩ := C69_force_close h
  have hm := C.market
  have hi' : Idle s'.market (pget s'.accts k) := by
    rw [hm]
    rcases hk with rfl | rfl
    · obtain ⟨r, e⟩ := C.long
      rw [e]; exact ⟨hi.taker, hi.orders, hi.long, hi.short⟩
    · obtain ⟨r, e⟩ := C.short
      rw [e]; exact ⟨hi.taker, hi.orders, hi.long, hi.short⟩
  rw [idle_value hi ha, idle_value hi' hb, hm]
  dsimp only
  obtain ⟨pa, pl⟩ := prices_order price s.market.stablePrice ht
  have hs := C.size
  have hp := C.positive
  have hwa : 0 ≤ (if ht = .maint then s.market.maintBaseAssetWeight else s.market.initBaseAssetWeight) ∧ (if ht = .maint then s.market.maintBaseAssetWeight else s.market.initBaseAssetWeight) ≤ S := by
    split
    · exact hw.maintAsset
    · exact hw.initAsset
  have hwl : S ≤ (if ht = .maint then s.market.maintBaseLiabWeight else s.market.initBaseLiabWeight) := by
    split
    · exact hw.maintLiab
    · exact hw.initLiab
  apply weigh_mono
  · split
    · exact hw.maintOverall
    · exact hw.initOverall
  · rcases hk with rfl | rfl
    · obtain ⟨r, e⟩ := C.long
      rw [e]
      dsimp only
      have := baseValue_sell (b := (pget s.accts k).base) (wl := if ht = .maint then s.market.maintBaseLiabWeight else s.market.initBaseLiabWeight)
        (pl := Formula.liabPrice ⟨price, s.market.stablePrice⟩ ht) hw.lot h0 hwa pa (show 0 ≤ t by omega) (by omega)
      rw [C.paid]
      omega
    · obtain ⟨r, e⟩ := C.short
      rw [e]
      dsimp only
      have := baseValue_buy (b := (pget s.accts k).base) (wa := if ht = .maint then s.market.maintBaseAssetWeight else s.market.initBaseAssetWeight)
        (pa := Formula.assetPrice ⟨price, s.market.stablePrice⟩ ht) hw.lot h0 hwl pl (show 0 ≤ t by omega) (by omega)
      rw [C.paid]
      omega

/-- weights and prices of a token are not negative -/
def TokenOk (t : TokenInfo) (h : HT) : Prop :=
  0 ≤ Formula.assetWeight t h * Formula.assetPrice t.prices h ∧ 0 ≤ Formula.liabWeight t h * Formula.liabPrice t.prices h

theorem tokenValue_mono {t : TokenInfo} {h : HT} (ok : TokenOk t h) {b b' : Int} (hb : b ≤ b') : Formula.tokenValue t h b ≤ Formula.tokenValue t h b' := by
  have hS := S_pos
  have h1 := Int.ediv_nonneg ok.1 (le_of_lt hS)
  have h2 := Int.ediv_nonneg ok.2 (le_of_lt hS)
  unfold Formula.tokenValue
  by_cases hp : b ≥ 0
  · rw [if_pos hp, if_pos (by omega)]
    exact Int.ediv_le_ediv hS (Int.mul_le_mul_of_nonneg_right hb h1)
  · rw [if_neg hp]
    split
    · have a1 : b * (Formula.liabWeight t h * Formula.liabPrice t.prices h / S) ≤ 0 := Int.mul_nonpos_of_nonpos_of_nonneg (by omega) h2
      have a2 : 0 ≤ b' * (Formula.assetWeight t h * Formula.assetPrice t.prices h / S) := Int.mul_nonneg (by omega) h1
      have a3 : b * (Formula.liabWeight t h * Formula.liabPrice t.prices h / S) / S ≤ 0 := Int.ediv_nonpos_of_nonpos_of_neg a1 hS
      have a4 := Int.ediv_nonneg a2 (le_of_lt hS)
      omega
    · exact Int.ediv_le_ediv hS (Int.mul_le_mul_of_nonneg_right hb h2)

/-- a perp position that counts more, everything else equal -/
theorem health_perp_mono {fd : Health.FDiv} (hfd0 : ∀ p x, fd 0 p = .ok x → x = 0) {c c' : Cache} (hd : (c.tokens.map (·.tokenIndex)).Nodup)
    (hz : ∀ x ∈ c.serums, x.reservedBase = 0 ∧ x.reservedQuote = 0 ∧ 0 ≤ x.reservedQuoteAsBaseHighestBid) {h : HT} (hok : ∀ t ∈ c.tokens, TokenOk t h)
    {k : Nat} {a b : PerpInfo} (hk : c.perps[k]? = some a) (hs : b.settleTokenIndex = a.settleTokenIndex) (hab : Formula.perpValue a h ≤ Formula.perpValue b h)
    (e1 : c'.tokens = c.tokens) (e2 : c'.perps = c.perps.set k b) (e3 : c'.serums = c.serums) {v v' : Int} (hv : c.health fd h = .ok v) (hv' : c'.health fd h = .ok v') : v ≤ v' := by
  rw [Liquidation.health_tokens hfd0 hd hz hv, Liquidation.health_tokens hfd0 (by rw [e1]; exact hd) (by rw [e3]; exact hz) hv', e1]
  apply sumOf_le
  intro t ht
  apply tokenValue_mono (hok t ht)
  unfold Formula.balance
  rw [e2, sumOf_set _ hk, hs]
  split <;> omega

/-- **C69.** So the health of an account without funds in open spot orders does not fall when its idle position is closed by force. -/
theorem C69_health {s s' : PSys} {i j : Nat} {price : I80F48} (h : pstep s (.forceClose i j price) = .ok s') (hw : WeightsOk s.market) (h0 : 0 ≤ price) {k : Nat} (hk : k = i ∨ k = j)
    (hi : Idle s.market (pget s.accts k)) {a b : PerpInfo} (ha : perpInfoOf s.market (pget s.accts k) price = .ok a) (hb : perpInfoOf s'.market (pget s'.accts k) price = .ok b)
    {fd : Health.FDiv} (hfd0 : ∀ p x, fd 0 p = .ok x → x = 0) {c c' : Cache} (hd : (c.tokens.map (·.tokenIndex)).Nodup)
    (hz : ∀ x ∈ c.serums, x.reservedBase = 0 ∧ x.reservedQuote = 0 ∧ 0 ≤ x.reservedQuoteAsBaseHighestBid) {ht : HT} (hok : ∀ t ∈ c.tokens, TokenOk t ht)
    {n : Nat} (hn : c.perps[n]? = some a) (hc' : c' = { c with perps := c.perps.set n b }) {v v' : Int} (hv : c.health fd ht = .ok v) (hv' : c'.health fd ht = .ok v') : v ≤ v' := by
  refine health_perp_mono hfd0 hd hz hok hn ?_ (C69_pnl h hw h0 hk hi ha hb ht) (by rw [hc']) (by rw [hc']) (by rw [hc']) hv hv'
  obtain ⟨t, quote, C⟩ := C69_force_close h
  have f1 := (perpInfoOf_settle ha)
  have f2 := (perpInfoOf_settle hb)
  rw [f1, f2, C.market]

end PerpForce
end Mango
