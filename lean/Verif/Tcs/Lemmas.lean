import Verif.Tcs.Amount
import Verif.Bank.SystemLemmas
import Mathlib.Algebra.Order.Floor.Ring
/-! Helper lemmas about conditional swaps. -/
namespace Mango.Swap
open Bank Fx

/-! ## Floats -/

/-- What the properties use of f64 rounding: it is monotone, keeps one, and keeps rounded numbers. -/
structure IsFloat (rnd : ℚ → ℚ) : Prop where
  mono : ∀ x y, x ≤ y → rnd x ≤ rnd y
  one : rnd 1 = 1
  zero : rnd 0 = 0
  idem : ∀ x, rnd (rnd x) = rnd x

theorem isFloat_id : IsFloat (fun x => x) := ⟨fun _ _ h => h, rfl, rfl, fun _ => rfl⟩

theorem roundEven_mono {x y : ℚ} (h : x ≤ y) : roundEven x ≤ roundEven y := by
  unfold roundEven
  have hf : ⌊x + 1 / 2⌋ ≤ ⌊y + 1 / 2⌋ := Int.floor_le_floor (by linarith)
  by_cases hx : x + 1 / 2 = (⌊x + 1 / 2⌋ : ℚ) ∧ ⌊x + 1 / 2⌋ % 2 = 1
  · rw [if_pos hx]
    split <;> omega
  · rw [if_neg hx]
    by_cases hy : y + 1 / 2 = (⌊y + 1 / 2⌋ : ℚ) ∧ ⌊y + 1 / 2⌋ % 2 = 1
    · rw [if_pos hy]
      by_contra hc
      have he : ⌊x + 1 / 2⌋ = ⌊y + 1 / 2⌋ := by omega
      apply hx
      have h1 : (⌊x + 1 / 2⌋ : ℚ) ≤ x + 1 / 2 := Int.floor_le _
      refine ⟨le_antisymm ?_ h1, he ▸ hy.2⟩
      rw [he, ← hy.1]
      linarith
    · rw [if_neg hy]; exact hf

theorem toFx_ok {x : ℚ} {y : I80F48} : toFx x = .ok y ↔ y = roundEven (x * S) ∧ inRange (roundEven (x * S)) := ck_ok

theorem toFx_mono {x y : ℚ} {a b : I80F48} (hxy : x ≤ y) (hx : toFx x = .ok a) (hy : toFx y = .ok b) : a ≤ b := by
  rw [toFx_ok] at hx hy
  rw [hx.1, hy.1]
  apply roundEven_mono
  exact mul_le_mul_of_nonneg_right hxy (by norm_num [S])

theorem roundEven_zero : roundEven 0 = 0 := by decide +kernel

theorem roundEven_S : roundEven (1 * S) = S := by decide +kernel

theorem toFx_nonneg {x : ℚ} {a : I80F48} (h : 0 ≤ x) (hx : toFx x = .ok a) : 0 ≤ a := by
  have h0 : toFx 0 = .ok 0 := by decide +kernel
  exact toFx_mono h h0 hx

theorem toFx_le_one {x : ℚ} {a : I80F48} (h : x ≤ 1) (hx : toFx x = .ok a) : a ≤ S := by
  have h0 : toFx 1 = .ok S := by decide +kernel
  exact toFx_mono h hx h0

/-- The price including the maker fee is at least the price. -/
theorem maker_ge {rnd : ℚ → ℚ} (hr : IsFloat rnd) {t : Tcs} {premium : ℚ} (hp : rnd premium = premium) (h0 : 0 ≤ premium)
    (hm : 0 ≤ t.makerFeeRate) : premium ≤ t.makerPrice rnd premium := by
  unfold Tcs.makerPrice
  have h1 : 1 ≤ rnd (1 + t.makerFeeRate) := by
    have := hr.mono 1 (1 + t.makerFeeRate) (by linarith)
    rwa [hr.one] at this
  have h2 : premium ≤ premium * rnd (1 + t.makerFeeRate) := by nlinarith
  have := hr.mono _ _ h2
  rwa [hp] at this

/-! ## Limits -/

theorem clampToU64_nonneg (a : I80F48) : 0 ≤ Fx.clampToU64 a := by
  unfold Fx.clampToU64
  split
  · omega
  · split
    · unfold U64MAX; omega
    · exact floor_nonneg (by omega)

theorem clampToU64_le (a : I80F48) : Fx.clampToU64 a ≤ U64MAX := by
  unfold Fx.clampToU64
  split
  · unfold U64MAX; omega
  · split
    · omega
    · rename_i h
      have : a / S < U64MAX := floor_le_iff.mpr (by omega)
      omega

theorem clampToU64_pos {a n : I80F48} (h0 : 0 < n) (h : n ≤ Fx.clampToU64 a) : n * S ≤ a := by
  unfold Fx.clampToU64 at h
  have hS := S_pos
  split at h
  · omega
  · split at h
    · have : n * S ≤ U64MAX * S := Int.mul_le_mul_of_nonneg_right h hS.le
      omega
    · exact le_floor_iff.mp h

structure BuyLimit (t : Tcs) (pos : I80F48) (b : Bank) (buy : Int) : Prop where
  remaining : t.bought + buy ≤ t.maxBuy
  deposits : t.allowDeposits = false ∨ b.reduceOnly = 1 → 0 < buy → pos < 0 ∧ pos + buy * S < S

theorem maxBuy_ok {t : Tcs} {pos : I80F48} {b : Bank} {m buy : Int} (h : t.maxBuyForPosition pos b = .ok m) (hb : buy ≤ m) :
    0 ≤ m ∧ m ≤ U64MAX ∧ BuyLimit t pos b buy := by
  unfold Tcs.maxBuyForPosition Tcs.remainingBuy at h
  simp only [bind_ok, cku64_ok, ok_inj] at h
  obtain ⟨r, ⟨rfl, hr0, hr1⟩, k, hk, rfl⟩ := h
  split at hk
  · rename_i hf
    rw [ok_inj] at hk
    subst hk
    refine ⟨by unfold U64MAX; omega, by omega, by omega, ?_⟩
    rintro (h1 | h1)
    · rw [h1] at hf; simp at hf
    · obtain ⟨_, hf⟩ := hf
      unfold areDepositsReduceOnly at hf
      rw [h1] at hf; simp at hf
  · simp only [bind_ok, neg_ok, ceil_ok, ok_inj] at hk
    obtain ⟨n, ⟨rfl, _⟩, c, ⟨rfl, _⟩, rfl⟩ := hk
    have hc0 := clampToU64_nonneg (-(- -pos / S) * S)
    refine ⟨by omega, by omega, by omega, ?_⟩
    intro _ hpos
    have h2 := clampToU64_pos (a := -(- -pos / S) * S) hpos (by omega)
    have hS := S_pos
    rw [Int.neg_neg] at h2
    have m := mulFloor_bounds pos
    have h3 : 1 * S ≤ buy * S := Int.mul_le_mul_of_nonneg_right (by omega) hS.le
    have h4 : -(pos / S) * S = -(pos / S * S) := by ring
    rw [h4] at h2
    refine ⟨?_, by omega⟩
    by_contra hc
    have := floor_nonneg (x := pos) (by omega)
    have : 0 * S ≤ pos / S * S := Int.mul_le_mul_of_nonneg_right this hS.le
    omega

structure SellLimit (t : Tcs) (pos : I80F48) (b : Bank) (sell : Int) : Prop where
  remaining : t.sold + sell ≤ t.maxSell
  borrows : t.allowBorrows = false ∨ b.reduceOnly = 1 ∨ b.reduceOnly = 2 → 0 < sell → sell * S ≤ pos

theorem maxSell_ok {t : Tcs} {pos : I80F48} {b : Bank} {m sell : Int} (h : t.maxSellForPosition pos b = .ok m) (hb : sell ≤ m) :
    0 ≤ m ∧ m ≤ U64MAX ∧ SellLimit t pos b sell := by
  unfold Tcs.maxSellForPosition Tcs.remainingSell at h
  simp only [bind_ok, cku64_ok, ok_inj] at h
  obtain ⟨r, ⟨rfl, hr0, hr1⟩, k, hk, rfl⟩ := h
  split at hk
  · rename_i hf
    rw [ok_inj] at hk
    subst hk
    refine ⟨by unfold U64MAX; omega, by omega, by omega, ?_⟩
    rintro (h1 | h1)
    · rw [h1] at hf; simp at hf
    · obtain ⟨_, hf⟩ := hf
      unfold areBorrowsReduceOnly at hf
      rcases h1 with h1 | h1 <;> rw [h1] at hf <;> simp at hf
  · simp only [bind_ok, floor_ok, ok_inj] at hk
    obtain ⟨c, ⟨rfl, _⟩, rfl⟩ := hk
    have hc0 := clampToU64_nonneg (pos / S * S)
    refine ⟨by omega, by omega, by omega, ?_⟩
    intro _ hpos
    have h2 := clampToU64_pos (a := pos / S * S) hpos (by omega)
    have m := mulFloor_bounds pos
    omega

/-- What `trade_amount` guarantees. -/
structure TradeOk (t : Tcs) (price : I80F48) (maxBuy maxSell : Int) (eb es ob os : I80F48) (bb sb : Bank) (buy sell : Int) : Prop where
  buy0 : 0 ≤ buy
  sell0 : 0 ≤ sell
  buyMax : buy ≤ maxBuy
  sellMax : sell ≤ maxSell
  buyLimit : BuyLimit t eb bb buy
  sellLimit : SellLimit t es sb sell
  both : 0 < buy ↔ 0 < sell
  floor : 0 < price → sell = buy * price / S
  pos : 0 < buy → 0 < price
  liqorBorrow : bb.reduceOnly = 1 ∨ bb.reduceOnly = 2 → 0 < buy → buy * S ≤ ob
  liqorDeposit : sb.reduceOnly = 1 → 0 < sell → os < 0 ∧ os + sell * S < S

theorem tradeAmount_ok {t : Tcs} {price : I80F48} {maxBuy maxSell : Int} {eb es ob os : I80F48} {bb sb : Bank} {buy sell : Int}
    (hmb : 0 ≤ maxBuy) (hms : 0 ≤ maxSell) (hp : price ≤ I128MAX)
    (h : tradeAmount t price maxBuy maxSell eb es ob os bb sb = .ok (buy, sell)) :
    TradeOk t price maxBuy maxSell eb es ob os bb sb buy sell := by
  unfold tradeAmount at h
  simp only [bind_ok] at h
  obtain ⟨mb, hmb', rb, hrb, ms, hms', rs, hrs, h⟩ := h
  have l1 := maxBuy_ok hmb' (le_refl _)
  have l2 := maxSell_ok hms' (le_refl _)
  have hrb0 : 0 ≤ rb := by
    split at hrb
    · simp only [bind_ok, ok_inj] at hrb
      obtain ⟨_, _, rfl⟩ := hrb
      exact clampToU64_nonneg _
    · rw [ok_inj] at hrb; subst hrb; unfold U64MAX; omega
  have hrs0 : 0 ≤ rs := by
    split at hrs
    · simp only [bind_ok, ok_inj] at hrs
      obtain ⟨_, _, _, _, rfl⟩ := hrs
      exact clampToU64_nonneg _
    · rw [ok_inj] at hrs; subst hrs; unfold U64MAX; omega
  have key : 0 ≤ buy ∧ 0 ≤ sell ∧ buy ≤ min (min maxBuy mb) rb ∧ sell ≤ min (min maxSell ms) rs ∧ (0 < buy ↔ 0 < sell) ∧
      (0 < price → sell = buy * price / S) ∧ (0 < buy → 0 < price) := by
    rcases inner_price_pos (by omega) (by omega) h with hpos | ⟨hneg, rfl, rfl⟩
    · obtain ⟨b', s', he, f⟩ := inner_total (maxBuy := min (min maxBuy mb) rb) (maxSell := min (min maxSell ms) rs) (p := price)
        (by omega) (by omega) (by omega) (by omega) hpos hp
      rw [he, ok_inj, Prod.mk.injEq] at h
      obtain ⟨rfl, rfl⟩ := h
      exact ⟨f.buy_nonneg, f.sell_nonneg, f.buy_le, f.sell_le, f.both, fun _ => f.sell_floor, fun _ => hpos⟩
    · exact ⟨by omega, by omega, by omega, by omega, by simp, fun h => by omega, fun h => by omega⟩
  obtain ⟨k1, k2, k3, k4, k5, k6, k7⟩ := key
  refine ⟨k1, k2, by omega, by omega, (maxBuy_ok hmb' (by omega)).2.2, (maxSell_ok hms' (by omega)).2.2, k5, k6, k7, ?_, ?_⟩
  · intro hro hb
    rw [if_pos (by unfold areBorrowsReduceOnly; rcases hro with h | h <;> simp [h])] at hrb
    simp only [bind_ok, floor_ok, ok_inj] at hrb
    obtain ⟨f, ⟨rfl, _⟩, rfl⟩ := hrb
    have := clampToU64_pos (a := ob / S * S) hb (by omega)
    have m := mulFloor_bounds ob
    omega
  · intro hro hs
    rw [if_pos (by unfold areDepositsReduceOnly; simp [hro])] at hrs
    simp only [bind_ok, neg_ok, ceil_ok, ok_inj] at hrs
    obtain ⟨n, ⟨rfl, _⟩, c, ⟨rfl, _⟩, rfl⟩ := hrs
    have h2 := clampToU64_pos (a := -(- -os / S) * S) hs (by omega)
    have hS := S_pos
    rw [Int.neg_neg] at h2
    have m := mulFloor_bounds os
    have h3 : 1 * S ≤ sell * S := Int.mul_le_mul_of_nonneg_right (by omega) hS.le
    have h4 : -(os / S) * S = -(os / S * S) := by ring
    rw [h4] at h2
    refine ⟨?_, by omega⟩
    by_contra hc
    have := floor_nonneg (x := os) (by omega)
    have : 0 * S ≤ os / S * S := Int.mul_le_mul_of_nonneg_right this hS.le
    omega

/-! ## The steps of a trigger -/

/-- The amounts of a trade. -/
structure AmountsOk (s : State) (premium : ℚ) (maker : I80F48) (maxBuy maxSell : Int) (t : Trade) : Prop where
  trade : ∃ eb es ob os, s.liqeeBuy.native s.buyBank = .ok eb ∧ s.liqeeSell.native s.sellBank = .ok es ∧
    s.liqorBuy.native s.buyBank = .ok ob ∧ s.liqorSell.native s.sellBank = .ok os ∧
    TradeOk s.tcs maker maxBuy maxSell eb es ob os s.buyBank s.sellBank t.buy t.sell
  premium : ∃ p, toFx premium = .ok p ∧ t.sell - t.makerFee = t.buy * p / S
  makerFee : 0 ≤ t.makerFee
  takerFee : ∃ r, toFx s.tcs.takerFeeRate = .ok r ∧ t.takerFee = (t.sell - t.makerFee) * r / S
  takerFee0 : 0 ≤ t.takerFee
  toLiqor : 0 ≤ t.sell - t.makerFee - t.takerFee

theorem takerFee_ok {t : Tcs} {n f : Int} (h : t.takerFee (n * S) = .ok f) :
    0 ≤ f ∧ f ≤ U64MAX ∧ ∃ r, toFx t.takerFeeRate = .ok r ∧ f = n * r / S := by
  unfold Tcs.takerFee at h
  simp only [bind_ok, mul_ok, floor_ok, cku64_ok] at h
  obtain ⟨r, hr, x, ⟨rfl, _⟩, y, ⟨rfl, _⟩, rfl, h0, h1⟩ := h
  rw [mulInt_floor, toInt_mul] at *
  exact ⟨h0, h1, r, hr, rfl⟩

theorem amounts_ok {s : State} {premium : ℚ} {maker : I80F48} {maxBuy maxSell : Int} {t : Trade}
    (hmb : 0 ≤ maxBuy) (hms : 0 ≤ maxSell) (hp : maker ≤ I128MAX)
    (h : amounts s premium maker maxBuy maxSell = .ok t) : AmountsOk s premium maker maxBuy maxSell t := by
  unfold amounts at h
  simp only [bind_ok, mul_ok, floor_ok, cku64_ok, ok_inj] at h
  obtain ⟨eb, heb, es, hes, ob, hob, os, hos, ⟨buy, sell⟩, htr, p, hpf, x, ⟨rfl, _⟩, y, ⟨rfl, _⟩, base, ⟨rfl, hb0, _⟩, mf, ⟨rfl, hm0, _⟩,
    tf, htf, u, ⟨rfl, ht0, _⟩, rfl⟩ := h
  have tr := tradeAmount_ok hmb hms hp htr
  dsimp only at *
  unfold Fx.ofInt at *
  rw [mulInt_floor] at *
  rw [toInt_mul] at *
  obtain ⟨f0, _, r, hr, hf⟩ := takerFee_ok htf
  refine ⟨⟨eb, es, ob, os, heb, hes, hob, hos, tr⟩, ⟨p, hpf, by dsimp only; omega⟩, hm0, ⟨r, hr, ?_⟩, f0, by dsimp only; omega⟩
  dsimp only
  rw [show sell - (sell - buy * p / S) = buy * p / S by omega]
  exact hf

/-- What the two transfers do. -/
structure ExchangeOk (s s' : State) (t : Trade) (now : Int) (bp sp : I80F48) : Prop where
  tcs : s'.tcs = s.tcs
  flag : s'.liqeeFlag = s.liqeeFlag
  buy : ∃ r, s.buyBank.checkedTransferWithFee s.liqorBuy (Fx.ofInt t.buy) s.liqeeBuy (Fx.ofInt t.buy) now bp =
    .ok (s'.buyBank, s'.liqorBuy, s'.liqeeBuy, r)
  sell : ∃ sb r, s.sellBank.checkedTransferWithFee s.liqeeSell (Fx.ofInt t.sell) s.liqorSell
    (Fx.ofInt (t.sell - t.makerFee - t.takerFee)) now sp = .ok (sb, s'.liqeeSell, s'.liqorSell, r) ∧
    s'.sellBank = { sb with collectedFeesNative := sb.collectedFeesNative + (t.makerFee + t.takerFee) * S }

theorem exchange_ok {s s' : State} {t : Trade} {now : Int} {bp sp : I80F48} (h : exchange s t now bp sp = .ok s') :
    ExchangeOk s s' t now bp sp := by
  unfold exchange at h
  simp only [bind_ok, cku64_ok, add_ok, ok_inj] at h
  obtain ⟨⟨bb, ob, eb, r1⟩, h1, ⟨sb, es, os, r2⟩, h2, f, ⟨rfl, _⟩, cf, ⟨rfl, _⟩, rfl⟩ := h
  exact ⟨rfl, rfl, ⟨r1, h1⟩, sb, r2, h2, rfl⟩

/-- What is recorded on the swap. -/
structure RecordOk (e : Env) (s : State) (t : Trade) (tcs : Tcs) : Prop where
  eq : tcs = { s.tcs with bought := s.tcs.bought + t.buy, sold := s.tcs.sold + t.sell,
                          start := if s.tcs.passedStart e.now then s.tcs.start else e.now }
  boughtMax : s.tcs.bought + t.buy ≤ s.tcs.maxBuy
  soldMax : s.tcs.sold + t.sell ≤ s.tcs.maxSell

theorem record_ok {e : Env} {s : State} {t : Trade} {maker : ℚ} {mf ph qh : I80F48} {tcs : Tcs} {c : Bool}
    (h : record e s t maker mf ph qh = .ok (tcs, c)) : RecordOk e s t tcs := by
  unfold record at h
  simp only [bind_ok, cku64_ok, require_ok, ok_inj, Prod.mk.injEq] at h
  obtain ⟨b, ⟨rfl, _⟩, so, ⟨rfl, _⟩, _, h1, _, h2, nb, _, ns, _, ⟨fb, fs⟩, _, re, _, h3, _⟩ := h
  refine ⟨?_, h1, h2⟩
  rw [← h3]
  by_cases hp : s.tcs.passedStart e.now
  · rw [if_pos hp, if_pos (by exact hp)]
  · rw [if_neg hp, if_neg (by exact hp)]

/-- Everything a successful trigger did. -/
structure TriggerOk (e : Env) (s s' : State) (maxBuy maxSell minBuy : Int) (minTaker : ℚ) (t : Trade) : Prop where
  configured : s.tcs.configured = true
  notExpired : e.now < s.tcs.expiry
  minBuy : minBuy ≤ t.buy
  main : ∃ price premium maker pre post flag s1 preSell postSell,
    e.price = .ok price ∧ s.tcs.checkTriggerable price e.now = .ok () ∧ s.tcs.premiumPrice e.rnd price e.now = .ok premium ∧
    toFx (s.tcs.makerPrice e.rnd premium) = .ok maker ∧ minTaker ≤ s.tcs.takerPrice e.rnd premium ∧
    AmountsOk s premium maker maxBuy maxSell { t with closed := false } ∧
    e.health 0 0 = .ok pre ∧ s.liqeeFlag.checkPre pre e.liqEnd = .ok flag ∧
    exchange s { t with closed := false } e.now e.buyPrice e.sellPrice = .ok s1 ∧
    s.liqeeSell.native s.sellBank = .ok preSell ∧ s1.liqeeSell.native s1.sellBank = .ok postSell ∧
    e.health (Fx.ofInt t.buy) (postSell - preSell) = .ok post ∧ Account.checkPost pre post = .ok () ∧
    ∃ tcs, record e s1 { t with closed := false } (s.tcs.makerPrice e.rnd premium) maker pre post = .ok (tcs, t.closed) ∧
      s' = { s1 with tcs := { tcs with configured := !t.closed }, liqeeFlag := flag }
  liqor : ∃ h, e.liqorHealth = .ok h ∧ 0 ≤ h

theorem trigger_ok {e : Env} {s s' : State} {maxBuy maxSell minBuy : Int} {minTaker : ℚ} {t : Trade}
    (hmb : 0 ≤ maxBuy) (hms : 0 ≤ maxSell)
    (h : trigger e s maxBuy maxSell minBuy minTaker = .ok (s', t)) : TriggerOk e s s' maxBuy maxSell minBuy minTaker t := by
  unfold trigger at h
  simp only [bind_ok, require_ok, sub_ok, ok_inj, Prod.mk.injEq] at h
  obtain ⟨_, h1, _, h2, pre, h3, flag, h4, price, h5, _, h6, premium, h7, maker, h8, _, h9, preSell, h10, t0, h11, s1, h12, postSell, h13,
    sc, ⟨rfl, _⟩, post, h14, _, h15, ⟨tcs, closed⟩, h16, _, h17, lh, h18, _, h19, rfl, rfl⟩ := h
  have hm : maker ≤ I128MAX := by rw [toFx_ok] at h8; rw [h8.1]; exact h8.2.2
  have ha := amounts_ok hmb hms hm h11
  have hc : t0.closed = false := by
    unfold amounts at h11
    simp only [bind_ok, ok_inj] at h11
    obtain ⟨_, _, _, _, _, _, _, _, ⟨_, _⟩, _, _, _, _, _, _, _, _, _, _, _, _, _, _, _, rfl⟩ := h11
    rfl
  have ht : ({ ({ t0 with closed := closed } : Trade) with closed := false } : Trade) = t0 := by
    cases t0; simp only at hc; subst hc; rfl
  refine ⟨h1, by unfold Tcs.isExpired at h2; omega, h17, ?_, lh, h18, h19⟩
  refine ⟨price, premium, maker, pre, post, flag, s1, preSell, postSell, h5, h6, h7, h8, h9, ht ▸ ha, h3, h4, ht ▸ h12, h10, h13,
    h14, h15, tcs, ht ▸ h16, rfl⟩

end Mango.Swap
