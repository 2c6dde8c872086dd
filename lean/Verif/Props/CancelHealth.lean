import Verif.Props.Cancel
import Verif.Props.PerpForceClose
import Verif.Props.SettleHealth
/-!
# C74: cancelling perp orders never lowers health; cancelling by force
-/
namespace Mango
namespace PerpCancel
open Fx Perp Book Health PerpForce

theorem executed_eq (i : PerpInfo) (h : HT) (x pr : Int) : Formula.ifExecuted i h x pr =
    baseValue (i.baseLots + x) i.baseLotSize (if h = .maint then i.maintBaseAssetWeight else i.initBaseAssetWeight)
      (if h = .maint then i.maintBaseLiabWeight else i.initBaseLiabWeight) (Formula.assetPrice i.basePrices h) (Formula.liabPrice i.basePrices h) - x * i.baseLotSize * pr := rfl

/-- fewer open bids and asks: the worse of the two cases is not worse than before -/
theorem worse_case {l n wa wl pa pl b b' a a' : Int} (hn : 0 < n) (hp0 : 0 ≤ pa) (hp : pa ≤ pl) (hwa : 0 ≤ wa ∧ wa ≤ S) (hwl : S ≤ wl) (hb : 0 ≤ b' ∧ b' ≤ b) (ha : 0 ≤ a' ∧ a' ≤ a) :
    min (baseValue (l + b) n wa wl pa pl - b * n * pl) (baseValue (l + -a) n wa wl pa pl - -a * n * pa) ≤
    min (baseValue (l + b') n wa wl pa pl - b' * n * pl) (baseValue (l + -a') n wa wl pa pl - -a' * n * pa) := by
  have e1 : ∀ x y z : Int, -x * y * z = -(x * y * z) := by intro x y z; ring
  rw [e1, e1]
  apply le_min
  · by_cases h : 0 ≤ l + b'
    · have := baseValue_sell (b := l + b) (wl := wl) (pl := pl) (pr := pl) (t := b - b') hn (by omega) hwa hp (by omega) (by omega)
      rw [show l + b - (b - b') = l + b' by omega, show (b - b') * n * pl = b * n * pl - b' * n * pl by ring] at this
      exact (min_le_left _ _).trans (by omega)
    · have h1 := baseValue_buy (b := l) (wa := wa) (pa := pa) (pr := pl) (t := b') hn (by omega) hwl (le_refl pl) hb.1 (by omega)
      have h2 := baseValue_buy (b := l + -a) (wa := wa) (pa := pa) (pr := pa) (t := a) hn hp0 hwl hp (by omega) (by omega)
      rw [show l + -a + a = l by omega] at h2
      exact (min_le_right _ _).trans (by omega)
  · by_cases h : l + -a' ≤ 0
    · have := baseValue_buy (b := l + -a) (wa := wa) (pa := pa) (pr := pa) (t := a - a') hn hp0 hwl hp (by omega) (by omega)
      rw [show l + -a + (a - a') = l + -a' by omega, show (a - a') * n * pa = a * n * pa - a' * n * pa by ring] at this
      exact (min_le_right _ _).trans (by omega)
    · have h1 := baseValue_sell (b := l) (wl := wl) (pl := pl) (pr := pa) (t := a') hn hp0 hwa (le_refl pa) ha.1 (by omega)
      have h2 := baseValue_sell (b := l + b) (wl := wl) (pl := pl) (pr := pl) (t := b) hn (by omega) hwa hp (by omega) (by omega)
      rw [show l + b - b = l by omega] at h2
      rw [show l - a' = l + -a' by omega] at h1
      exact (min_le_left _ _).trans (by omega)

/-- asset prices are not negative if oracle and stable price are not -/
theorem asset_nonneg {o st : Int} (h1 : 0 ≤ o) (h2 : 0 ≤ st) (h : HT) : 0 ≤ Formula.assetPrice ⟨o, st⟩ h := by
  cases h <;> simp only [Formula.assetPrice]
  · split <;> omega
  · exact h1
  · exact h1

/-- **C74.** Cancelling (any slots) never lowers what the position counts in health, for init, maintenance and liquidation-end health: health takes the worse of all bids and all asks being executed, and with fewer of
each that is never worse, rounding included. -/
theorem C74_value {s s' : PSys} (hR : Reachable s) (hR' : Reachable s') {u : Nat} {slots : List Nat} (C : Cancelled s s' u slots) (hw : WeightsOk s.market) {price : I80F48} (h0 : 0 ≤ price)
    (hst : 0 ≤ s.market.stablePrice) {a b : PerpInfo}
    (ha : perpInfoOf s.market (pget s.accts u) price = .ok a) (hb : perpInfoOf s'.market (pget s'.accts u) price = .ok b) (ht : HT) :
    Formula.perpValue a ht ≤ Formula.perpValue b ht := by
  obtain ⟨sp, hI⟩ := hR.inv
  obtain ⟨sp', hI'⟩ := hR'.inv
  have A := perpInfoOf_ok (x := (s.market, pget s.accts u, price)) ha
  have B := perpInfoOf_ok (x := (s'.market, pget s'.accts u, price)) hb
  have p1 := C.pos
  have hl : ∀ sd, 0 ≤ lotsIn s.book u slots sd := by
    intro sd
    unfold lotsIn
    apply sumOf_nonneg_mem
    intro l hl
    split
    · have := ((C24_slots hR).1 sd)
      unfold ordersOn at hl
      rw [List.mem_append] at hl
      rcases hl with hl | hl
      · have := (this _ l hl).1; omega
      · have := (this _ l hl).1; omega
    · omega
  have n1 := PerpOrder.lots_nonneg hI' u .bid
  have n2 := PerpOrder.lots_nonneg hI' u .ask
  simp only [Pos.lots] at n1 n2
  have hlb := hl .bid
  have hla := hl .ask
  obtain ⟨a1, a2, a3, a4, a5, a6⟩ := A.weights
  obtain ⟨b1, b2, b3, b4, b5, b6⟩ := B.weights
  have c1 := A.oracle
  have c2 := A.stable
  have c3 := B.oracle
  have c4 := B.stable
  have d1 := A.lotSize
  have d2 := B.lotSize
  have d3 := A.lots
  have d4 := B.lots
  have d5 := A.bids
  have d6 := B.bids
  have d7 := A.asks
  have d8 := B.asks
  have d9 := A.quote
  have d10 := B.quote
  rw [C.market] at b1 b2 b3 b4 b5 b6 c4 d2 d10
  dsimp only at *
  rw [p1] at n1 n2 d4 d6 d8 d10
  dsimp only at n1 n2 d4 d6 d8 d10
  have hpr : a.basePrices = ⟨price, s.market.stablePrice⟩ := by rw [show a.basePrices = ⟨a.basePrices.oracle, a.basePrices.stable⟩ from rfl, c1, c2]
  have hpr' : b.basePrices = ⟨price, s.market.stablePrice⟩ := by rw [show b.basePrices = ⟨b.basePrices.oracle, b.basePrices.stable⟩ from rfl, c3, c4]
  obtain ⟨pa, pl⟩ := prices_order price s.market.stablePrice ht
  have p0 := asset_nonneg h0 hst ht
  show weighed (if ht = .maint then a.maintOverallAssetWeight else a.initOverallAssetWeight) _ ≤ weighed (if ht = .maint then b.maintOverallAssetWeight else b.initOverallAssetWeight) _
  rw [a5, a6, b5, b6]
  apply weigh_mono
  · split
    · exact hw.maintOverall
    · exact hw.initOverall
  · rw [executed_eq, executed_eq, executed_eq, executed_eq, hpr, hpr', a1, a2, a3, a4, b1, b2, b3, b4, d1, d2, d3, d4, d5, d6, d7, d8, d9, d10]
    have := worse_case (l := (pget s.accts u).base + (pget s.accts u).takerBase) (n := s.market.baseLotSize)
      (wa := if ht = .maint then s.market.maintBaseAssetWeight else s.market.initBaseAssetWeight) (wl := if ht = .maint then s.market.maintBaseLiabWeight else s.market.initBaseLiabWeight)
      (pa := Formula.assetPrice ⟨price, s.market.stablePrice⟩ ht) (pl := Formula.liabPrice ⟨price, s.market.stablePrice⟩ ht)
      (b := (pget s.accts u).bids) (b' := (pget s.accts u).bids - lotsIn s.book u slots .bid) (a := (pget s.accts u).asks) (a' := (pget s.accts u).asks - lotsIn s.book u slots .ask)
      hw.lot p0 (pa.trans pl) (by split; exacts [hw.maintAsset, hw.initAsset]) (by split; exacts [hw.maintLiab, hw.initLiab]) ⟨n1, by omega⟩ ⟨n2, by omega⟩
    omega

/-- cancelling does not open a position -/
theorem cancelAll_pos {idx u : Nat} {sideOpt : Option Side} : ∀ (n : Nat) {i limit : Nat} {a a' : PAcct} {b b' : OBook} {p' : Perp.Pos}, cancelAllFrom idx u sideOpt n i limit a b = .ok (a', b') → a'.pos = some p' →
    ∃ p, a.pos = some p := by
  intro n
  induction n with
  | zero =>
    intro i limit a a' b b' p' h hp
    simp only [cancelAllFrom, ok_inj, Prod.mk.injEq] at h
    exact ⟨p', h.1 ▸ hp⟩
  | succ n ih =>
    intro i limit a a' b b' p' h hp
    simp only [cancelAllFrom, bind_ok, getOO_ok] at h
    obtain ⟨oo, hoo, h⟩ := h
    split at h
    · exact ih h hp
    · split at h
      · exact ih h hp
      · simp only [bind_ok, Prod.exists] at h
        obtain ⟨a1, b1, h1, h⟩ := h
        have hstep : ∀ q, a1.pos = some q → ∃ p, a.pos = some p := by
          intro q hq
          split at h1
          · rw [ok_inj, Prod.mk.injEq] at h1
            exact ⟨q, h1.1 ▸ hq⟩
          · unfold cancelBySlot at h1
            simp only [bind_ok, getOO_ok, require_ok, ok_inj, Prod.exists, Prod.mk.injEq] at h1
            obtain ⟨_, _, _, _, _, _, _, _, _, _, hrm, rfl, rfl⟩ := h1
            obtain ⟨_, p, _, _, hp0, _⟩ := removePerpOrder_ok hrm
            exact ⟨p, hp0⟩
        split at h
        · simp at h
        · split at h
          · rw [ok_inj, Prod.mk.injEq] at h
            exact hstep p' (h.1 ▸ hp)
          · obtain ⟨q, hq⟩ := ih h hp
            exact hstep q hq

theorem buildPerps_full {ts : List TokenInfo} : ∀ {l r : List PerpInfo}, buildPerps false ts l = .ok r ↔ r = l := by
  intro l
  induction l with
  | nil => intro r; simp only [buildPerps, ok_inj]; exact eq_comm
  | cons p l ih =>
    intro r
    simp only [buildPerps, Bool.false_eq_true, if_false, bind_ok, ok_inj]
    constructor
    · rintro ⟨_, _, q, hq, rfl⟩
      rw [ih.mp hq]
    · rintro rfl
      exact ⟨(), trivial, l, ih.mpr rfl, rfl⟩

/-- two caches that differ in the position of one market -/
theorem cache_perp {rnd : ℚ → ℚ} {now : Int} {banks : Nat → BankIn} {ps : List Health.Pos} {os : List OpenOrd} {above below : List (Market × Perp.Pos × I80F48)} {x x' : Market × Perp.Pos × I80F48} {c c' : Cache}
    (h : accountCache rnd now banks ps os (above ++ x :: below) = .ok c) (h' : accountCache rnd now banks ps os (above ++ x' :: below) = .ok c') :
    c'.tokens = c.tokens ∧ c'.serums = c.serums ∧
    ∃ i i', perpInfoOf x.1 x.2.1 x.2.2 = .ok i ∧ perpInfoOf x'.1 x'.2.1 x'.2.2 = .ok i' ∧ c.perps[above.length]? = some i ∧ c'.perps = c.perps.set above.length i' := by
  simp only [accountCache, buildCache, bind_ok, ok_inj, buildPerps_full] at h h'
  obtain ⟨vs, h1, pp, h2, ts, h3, tsss, h4, pp', rfl, rfl⟩ := h
  obtain ⟨us, g1, qq, g2, rs, g3, rsss, g4, qq', rfl, rfl⟩ := h'
  rw [h3, ok_inj] at g3
  subst g3
  rw [h4, ok_inj] at g4
  subst g4
  refine ⟨rfl, rfl, ?_⟩
  obtain ⟨a1, y, ha1, hy, rfl⟩ := PerpOrder.mapRes_append.mp h2
  obtain ⟨a2, y', ha2, hy', rfl⟩ := PerpOrder.mapRes_append.mp g2
  rw [ha1, ok_inj] at ha2
  subst ha2
  simp only [mapRes, bind_ok, ok_inj] at hy hy'
  obtain ⟨i, hi, z, hz, rfl⟩ := hy
  obtain ⟨i', hi', z', hz', rfl⟩ := hy'
  rw [hz, ok_inj] at hz'
  subst hz'
  have hlen : a1.length = above.length := (mapRes_ok ha1).length_eq.symm
  refine ⟨i, i', hi, hi', ?_, ?_⟩
  · dsimp only; rw [← hlen]; simp
  · dsimp only; rw [← hlen]; simp

/-- the account's cache after the instruction recomputed the position is the cache computed afresh -/
theorem recompute_account {rnd : ℚ → ℚ} {now : Int} {st : AcctState} {above below : List (Market × Perp.Pos × I80F48)} {m : Market} {p p' : Perp.Pos} {price : I80F48} {c c' : Cache}
    (hd : ((above ++ (m, p, price) :: below).map (·.1.idx)).Nodup)
    (h : accountCache rnd now st.banks st.ps st.os (above ++ (m, p, price) :: below) = .ok c) (h' : c.recomputePerp m p' = .ok c') :
    accountCache rnd now st.banks st.ps st.os (above ++ (m, p', price) :: below) = .ok c' := by
  simp only [accountCache, buildCache, bind_ok, ok_inj, buildPerps_full] at h ⊢
  obtain ⟨vs, h1, pp, h2, ts, h3, ⟨ts', ss⟩, h4, pp', rfl, rfl⟩ := h
  refine ⟨vs, h1, ?_⟩
  obtain ⟨x, y, hx, hy, rfl⟩ := PerpOrder.mapRes_append.mp h2
  simp only [mapRes, bind_ok, ok_inj] at hy
  obtain ⟨i, hi, z, hz, rfl⟩ := hy
  have Fi := perpInfoOf_ok (x := (m, p, price)) hi
  have em : (x ++ i :: z).map (·.perpMarketIndex) = (above ++ (m, p, price) :: below).map (·.1.idx) := by
    have := mapRes_ok h2
    generalize above ++ (m, p, price) :: below = l at this
    generalize x ++ i :: z = q at this
    clear * - this
    induction this with
    | nil => rfl
    | cons hr _ ih => simp only [List.map_cons]; rw [ih, (perpInfoOf_ok hr).market]
  have hlen : x.length = above.length := (mapRes_ok hx).length_eq.symm
  unfold Cache.recomputePerp at h'
  split at h'
  · simp at h'
  · rename_i k hk
    have hget : (x ++ i :: z)[x.length]? = some i := by simp
    have hkx : k = x.length := Health.findIdx_key (by rw [em]; exact hd) hk hget Fi.market
    subst hkx
    simp only [bind_ok, ok_inj] at h'
    obtain ⟨old, ho, j, hj, rfl⟩ := h'
    have ho := Liquidation.at_ok ho
    rw [hget, Option.some.injEq] at ho
    subst ho
    have Fj := perpInfoOf_ok (x := (m, p', i.basePrices.oracle)) hj
    have ej : { j with basePrices := i.basePrices } = j := by
      have f1 := Fj.oracle
      have f2 := Fj.stable
      have f3 := Fi.stable
      dsimp only at f1 f2 f3
      have : i.basePrices = j.basePrices := by
        rw [show i.basePrices = ⟨i.basePrices.oracle, i.basePrices.stable⟩ from rfl, show j.basePrices = ⟨j.basePrices.oracle, j.basePrices.stable⟩ from rfl, f1, f2, f3]
      rw [this]
    rw [ej]
    have hset : (x ++ i :: z).set x.length j = x ++ j :: z := by simp
    rw [hset]
    have f0 := Fi.oracle
    dsimp only at f0
    rw [f0] at hj
    refine ⟨x ++ j :: z, PerpOrder.mapRes_append.mpr ⟨x, j :: z, hx, ?_, rfl⟩, ts, h3, (ts', ss), h4, x ++ j :: z, rfl, rfl⟩
    · simp only [mapRes, bind_ok, ok_inj]
      exact ⟨j, hj, z, hz, rfl⟩

/-- the account's health of kind `k`, computed afresh, with position `p` in the market -/
def healthOf (e : Env) (t : PerpOrder.Rest) (m : Market) (p : Option Perp.Pos) (k : HT) : Res I80F48 :=
  let st := state e t m p
  accountHealth e.rnd e.fd e.now st.banks st.ps st.os st.perps k

/-- the market's settle token has no negative prices or weights in the account's health -/
def SettleOk (e : Env) (t : PerpOrder.Rest) (m : Market) (p : Perp.Pos) (k : HT) : Prop :=
  ∀ c, accountCache e.rnd e.now t.banks t.ps t.os (t.above ++ (m, p, e.price) :: t.below) = .ok c → ∀ tk ∈ c.tokens, tk.tokenIndex = m.settleTokenIndex → TokenOk tk k

/-- **C74.** So cancelling never lowers any of the three healths of an account without funds in open spot orders. -/
theorem C74_health {e : Env} (hfd0 : ∀ p x, e.fd 0 p = .ok x → x = 0) {s s' : PSys} (hR : Reachable s) (hR' : Reachable s') {u : Nat} {slots : List Nat} (C : Cancelled s s' u slots)
    (hw : WeightsOk s.market) (h0 : 0 ≤ e.price) (hst : 0 ≤ s.market.stablePrice) {t : PerpOrder.Rest} (hps : (t.ps.map (·.tokenIndex)).Nodup) (hn : NoneReserved t.os) {k : HT}
    (hok : SettleOk e t s.market (pget s.accts u) k) {H H' : I80F48}
    (hH : healthOf e t s.market (some (pget s.accts u)) k = .ok H) (hH' : healthOf e t s'.market (some (pget s'.accts u)) k = .ok H') : H ≤ H' := by
  simp only [healthOf, state, accountHealth, Option.toList, List.map_cons, List.map_nil, List.append_assoc, List.singleton_append, bind_ok] at hH hH'
  obtain ⟨c, hc, hv⟩ := hH
  obtain ⟨c', hc', hv'⟩ := hH'
  obtain ⟨e1, e2, i, i', hi, hi', hk, e3⟩ := cache_perp hc hc'
  dsimp only at hi hi'
  have hval := C74_value hR hR' C hw h0 hst hi hi' k
  have hz : NoReserved c := noReserved_of hps hc hn
  have hd := (accountCache_for hps hc).2.2.2
  have hs1 := perpInfoOf_settle hi
  have hs2 := perpInfoOf_settle hi'
  rw [C.market] at hs2
  rw [Liquidation.health_tokens hfd0 hd hz hv, Liquidation.health_tokens hfd0 (by rw [e1]; exact hd) (by rw [e2]; exact hz) hv', e1]
  apply Health.sumOf_le
  intro tk htk
  have hbal : Formula.balance c' k tk = Formula.balance c k tk + (if i.settleTokenIndex = tk.tokenIndex then Formula.perpValue i' k - Formula.perpValue i k else 0) := by
    unfold Formula.balance
    rw [e3, sumOf_set _ hk, hs1, hs2]
    split <;> omega
  rw [hbal]
  split
  · rename_i hset
    apply tokenValue_mono (hok c hc tk htk (by rw [← hset, hs1]))
    omega
  · rw [Int.add_zero]

/-- the account may be liquidated: its maintenance health is negative, or it is being liquidated already and has not recovered its liquidation-end health -/
def Liquidatable (e : Env) (t : PerpOrder.Rest) (m : Market) (p : Option Perp.Pos) : Prop :=
  (t.flag.being = false ∧ ∃ h, healthOf e t m p .maint = .ok h ∧ h < 0) ∨ (t.flag.being = true ∧ ∃ h, healthOf e t m p .liqEnd = .ok h ∧ h ≤ -S)

/-- **C74.** Anyone may have an account's orders in a market cancelled, but only if the account is frozen, the market is being closed by force, or the account may be liquidated; otherwise nothing changes (except that
an account that has recovered is no longer marked as being liquidated). What happens is the cancelling of all orders up to the limit (`C74_cancel_all`), and afterwards the account is marked as being liquidated exactly
if it was liquidatable and its liquidation-end health, computed afresh, is still at most -1. -/
theorem C74_force_cancel {e : Env} {s s' : PSys} {u limit : Nat} {t t' : PerpOrder.Rest} {did : Bool} (h : forceCancel e s u t limit = .ok (s', t', did))
    (hd : ((t.above ++ t.below).map (·.1.idx)).Nodup ∧ s.market.idx ∉ (t.above ++ t.below).map (·.1.idx)) :
    ∃ a, s.accts[u]? = some a ∧ t' = { t with flag := t'.flag } ∧
      (did = true ↔ e.frozen = true ∨ s.market.forceClose = true ∨ Liquidatable e t s.market a.pos) ∧
      (did = false → s' = s ∧ t'.flag.being = false) ∧
      (did = true → pstep s (.cancelAll u limit none) = .ok s' ∧ ∃ a' p' h', s'.accts[u]? = some a' ∧ a'.pos = some p' ∧ healthOf e t s'.market a'.pos .liqEnd = .ok h' ∧
        (t'.flag.being = true ↔ Liquidatable e t s.market a.pos ∧ h' ≤ -S)) := by
  unfold forceCancel at h
  split at h
  · simp at h
  · rename_i a ha
    simp only [bind_ok, Prod.exists] at h
    obtain ⟨c, hc, f, r, hl, h⟩ := h
    have hONE : ONE = S := rfl
    have hL : f.being = decide (r = .liquidatable) ∧ (r = .liquidatable ↔ Liquidatable e t s.market a.pos) := by
      unfold Account.Liq.checkLiquidatable at hl
      have hcache : ∀ k v, c.health e.fd k = .ok v → healthOf e t s.market a.pos k = .ok v := by
        intro k v hv
        simp only [healthOf, accountHealth, bind_ok]
        exact ⟨c, hc, hv⟩
      by_cases hb : t.flag.being = true
      · rw [if_pos hb] at hl
        simp only [bind_ok] at hl
        obtain ⟨le, hle, hl⟩ := hl
        have hle' := hcache _ _ hle
        unfold Account.Liq.maybeRecover at hl
        unfold Liquidatable
        rw [hb, hle']
        by_cases hx : le > -ONE
        · simp only [hb, hx, and_self, if_true, ok_inj, Prod.mk.injEq] at hl
          obtain ⟨rfl, rfl⟩ := hl
          refine ⟨by simp, ?_⟩
          simp
          omega
        · simp only [hb, hx, and_false, if_false, ok_inj, Prod.mk.injEq, Bool.false_eq_true] at hl
          obtain ⟨rfl, rfl⟩ := hl
          refine ⟨by simp [hb], ?_⟩
          simp
          omega
      · rw [if_neg hb] at hl
        have hb : t.flag.being = false := by simpa using hb
        simp only [bind_ok] at hl
        obtain ⟨m, hm, hl⟩ := hl
        have hm' := hcache _ _ hm
        unfold Liquidatable
        rw [hb, hm']
        by_cases hx : m ≥ 0
        · rw [if_pos hx] at hl
          simp only [ok_inj, Prod.mk.injEq] at hl
          obtain ⟨rfl, rfl⟩ := hl
          refine ⟨by simp [hb], ?_⟩
          simp
          omega
        · rw [if_neg hx] at hl
          simp only [ok_inj, Prod.mk.injEq] at hl
          obtain ⟨rfl, rfl⟩ := hl
          refine ⟨by simp, ?_⟩
          simp
          omega
    refine ⟨a, ha, ?_⟩
    by_cases hcan : e.frozen = true ∨ r = .liquidatable ∨ s.market.forceClose = true
    · rw [if_pos hcan] at h
      simp only [bind_ok, Prod.exists, ok_inj, Prod.mk.injEq] at h
      obtain ⟨a', b', hcan', p', hp', c', hc', hh, hhe, rfl, rfl, rfl⟩ := h
      have hp'' := getPos_ok.mp hp'
      have hlu : u < s.accts.length := (List.getElem?_eq_some_iff.mp ha).1
      refine ⟨rfl, ?_, by simp, ?_⟩
      · rw [hL.2] at hcan
        simp only [true_iff]
        rcases hcan with x | x | x
        · exact .inl x
        · exact .inr (.inr x)
        · exact .inr (.inl x)
      · intro _
        refine ⟨?_, a', p', hh, by simp [hlu], hp'', ?_, ?_⟩
        · simp only [pstep, cancelOp, ha, hcan', bind, Except.bind]
        · -- the position existed before
          have hpos : ∃ p, a.pos = some p := cancelAll_pos _ hcan' hp''
          obtain ⟨p, hp⟩ := hpos
          simp only [state, hp, Option.toList, List.map_cons, List.map_nil, List.append_assoc, List.singleton_append] at hc
          simp only [healthOf, accountHealth, state, hp'', Option.toList, List.map_cons, List.map_nil, List.append_assoc, List.singleton_append, bind_ok]
          refine ⟨c', ?_, hhe⟩
          refine recompute_account (st := { banks := t.banks, ps := t.ps, os := t.os, perps := [] }) (above := t.above) (below := t.below) ?_ hc hc'
          obtain ⟨d1, d2⟩ := hd
          rw [List.map_append] at d1 d2 ⊢
          rw [List.map_cons]
          exact (List.nodup_middle).mpr (List.nodup_cons.mpr ⟨d2, d1⟩)
        · unfold Account.Liq.maybeRecover
          by_cases hrec : f.being = true ∧ hh > -ONE
          · rw [if_pos hrec]
            simp
            intro _
            omega
          · rw [if_neg hrec]
            dsimp only
            rw [← hL.2]
            have := hL.1
            constructor
            · intro hf
              rw [hf] at this
              refine ⟨by simpa using this.symm, ?_⟩
              have : ¬ hh > -ONE := fun e => hrec ⟨hf, e⟩
              omega
            · rintro ⟨q1, _⟩
              rw [this]; simp [q1]
    · rw [if_neg hcan] at h
      simp only [ok_inj, Prod.mk.injEq] at h
      obtain ⟨rfl, rfl, rfl⟩ := h
      have hnot : ¬ r = .liquidatable := fun e => hcan (.inr (.inl e))
      refine ⟨rfl, ?_, ?_, by simp⟩
      · rw [← hL.2]
        simp only [Bool.false_eq_true, false_iff]
        rintro (x | x | x)
        · exact hcan (.inl x)
        · exact hcan (.inr (.inr x))
        · exact hcan (.inr (.inl x))
      · intro _
        refine ⟨rfl, ?_⟩
        dsimp only
        rw [hL.1]; simp [hnot]

end PerpCancel
end Mango
