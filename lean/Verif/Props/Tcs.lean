import Verif.Tcs.Lemmas
import Verif.Props.Bank2
import Verif.Props.HealthCheck
/-!
# C54: token conditional swaps

Specification. A swap names the most to buy and to sell, over its whole life, the price condition and whether it may create
deposits or borrows. Whoever triggers it, whenever and however often, must stay within all of that; a trade exchanges both tokens
at the price including fees (less than one native token in the owner's favour) or nothing at all.
-/
namespace Mango.Swap
open Bank Fx

/-! ## Amounts -/

/-- C54: for all limits and every positive price the trade amounts are computed (no overflow, no failed assertion), stay in the
limits, are both positive or both zero, the sold amount is the price of the bought amount rounded down, and no other amounts
within the limits would sell more. -/
theorem C54_amounts (maxBuy maxSell : Int) (price : I80F48) (hb0 : 0 ≤ maxBuy) (hb : maxBuy ≤ U64MAX) (hs0 : 0 ≤ maxSell)
    (hs : maxSell ≤ U64MAX) (hp0 : 0 < price) (hp : price ≤ I128MAX) :
    ∃ buy sell, tradeAmountInner maxBuy maxSell price = .ok (buy, sell) ∧
      0 ≤ buy ∧ buy ≤ maxBuy ∧ 0 ≤ sell ∧ sell ≤ maxSell ∧ (0 < buy ↔ 0 < sell) ∧
      sell * S ≤ buy * price ∧ buy * price < sell * S + S ∧
      ∀ b, 0 ≤ b → b ≤ maxBuy → b * price / S ≤ maxSell → b * price / S ≤ sell := by
  obtain ⟨buy, sell, h, f⟩ := inner_total hb0 hb hs0 hs hp0 hp
  have m := mulFloor_bounds (buy * price)
  rw [← f.sell_floor] at m
  exact ⟨buy, sell, h, f.buy_nonneg, f.buy_le, f.sell_nonneg, f.sell_le, f.both, m.1, m.2, f.best_sell⟩

example : tradeAmountInner 10 5 (3 * S / 4) = .ok (7, 5) ∧ tradeAmountInner 50 50 (11 * S / 10) = .ok (46, 50) := by decide +kernel

/-! ## Prices -/

/-- What the floats of a swap satisfy after `create`: fees and limits are not negative. -/
structure Created (t : Tcs) : Prop where
  premium : 0 ≤ t.premiumRate
  maker : 0 ≤ t.makerFeeRate
  taker : 0 ≤ t.takerFeeRate
  lower : 0 ≤ t.lower
  upper : 0 ≤ t.upper

/-- C54: the price of a trade. For all oracle prices: a fixed premium swap trades only while the oracle price is in its range; an
auction only after its start; nothing trades after the expiry. The owner pays the premium price plus maker fee, rounded down to
native tokens; the triggerer's price is at least the one it demanded; maker and taker fee are what is left. -/
theorem C54_trigger_price {e : Env} {s s' : State} {maxBuy maxSell minBuy : Int} {minTaker : ℚ} {t : Trade}
    (hmb : 0 ≤ maxBuy) (hms : 0 ≤ maxSell) (h : trigger e s maxBuy maxSell minBuy minTaker = .ok (s', t)) :
    e.now < s.tcs.expiry ∧ minBuy ≤ t.buy ∧
    ∃ price premium pfx mfx tfx, e.price = .ok price ∧ s.tcs.premiumPrice e.rnd price e.now = .ok premium ∧
      (s.tcs.kind = .fixedPremium → s.tcs.lower ≤ price ∧ price ≤ s.tcs.upper) ∧
      (s.tcs.kind ≠ .fixedPremium → 0 < s.tcs.start ∧ s.tcs.start ≤ e.now) ∧
      minTaker ≤ e.rnd (premium * e.rnd (1 - s.tcs.takerFeeRate)) ∧
      toFx premium = .ok pfx ∧ toFx (e.rnd (premium * e.rnd (1 + s.tcs.makerFeeRate))) = .ok mfx ∧
      toFx s.tcs.takerFeeRate = .ok tfx ∧
      (0 < t.buy ↔ 0 < t.sell) ∧ (0 < t.buy → 0 < mfx) ∧
      t.sell * S ≤ t.buy * max mfx 0 ∧ t.buy * mfx < t.sell * S + S ∧
      t.sell - t.makerFee = t.buy * pfx / S ∧ 0 ≤ t.makerFee ∧
      t.takerFee = (t.sell - t.makerFee) * tfx / S ∧ 0 ≤ t.takerFee ∧ t.makerFee + t.takerFee ≤ t.sell := by
  have o := trigger_ok hmb hms h
  obtain ⟨price, premium, maker, pre, post, flag, s1, ps, qs, h1, h2, h3, h4, h5, ha, _⟩ := o.main
  obtain ⟨eb, es, ob, os, _, _, _, _, tr⟩ := ha.trade
  obtain ⟨pfx, hp1, hp2⟩ := ha.premium
  obtain ⟨tfx, ht1, ht2⟩ := ha.takerFee
  have hm := ha.makerFee
  have hl := ha.toLiqor
  have ht0 := ha.takerFee0
  dsimp only at hp2 ht2 hm hl ht0 tr
  have hS := S_pos
  unfold Tcs.checkTriggerable at h2
  simp only [bind_ok, require_ok] at h2
  obtain ⟨_, _, h2⟩ := h2
  refine ⟨o.notExpired, o.minBuy, price, premium, pfx, maker, tfx, h1, h3, ?_, ?_, h5, hp1, h4, ht1, tr.both, tr.pos, ?_, ?_, hp2, hm,
    ht2, ht0, by omega⟩
  · intro hk
    rw [hk] at h2
    have h2' : s.tcs.priceInRange price := by simpa only [require_ok] using h2
    exact h2'
  · intro hk
    rcases hkk : s.tcs.kind with _ | _ | _
    · exact absurd hkk hk
    all_goals
      rw [hkk] at h2
      have h2' : s.tcs.passedStart e.now := by simpa only [require_ok] using h2
      exact ⟨h2'.1, h2'.2⟩
  · by_cases hpos : 0 < maker
    · have := (mulFloor_bounds (t.buy * maker)).1
      rw [← tr.floor hpos] at this
      rw [max_eq_left hpos.le]; exact this
    · have : ¬ 0 < t.buy := fun hb => hpos (tr.pos hb)
      have h0 : ¬ 0 < t.sell := fun hs => this (tr.both.mpr hs)
      have hb0 := tr.buy0
      have hs0 := tr.sell0
      have e1 : t.buy = 0 := by omega
      have e2 : t.sell = 0 := by omega
      rw [e1, e2]; simp
  · by_cases hpos : 0 < maker
    · have := (mulFloor_bounds (t.buy * maker)).2
      rw [← tr.floor hpos] at this
      exact this
    · have : ¬ 0 < t.buy := fun hb => hpos (tr.pos hb)
      have hb0 := tr.buy0
      have hs0 := tr.sell0
      have e1 : t.buy = 0 := by omega
      rw [e1]
      have : 0 * S ≤ t.sell * S := Int.mul_le_mul_of_nonneg_right hs0 hS.le
      omega

/-- C54: the premium of a premium auction is between none and the full premium, the price of a linear auction between its ends.
For exact arithmetic (`rnd = id`) the bounds are `base .. base * (1 + rate)` and `lower .. upper`. -/
theorem C54_premium_bounds {rnd : ℚ → ℚ} (hr : IsFloat rnd) {t : Tcs} (hc : Created t) {base premium : ℚ} {now : Int}
    (hd0 : 0 ≤ t.duration) (hb : rnd base = base) (hb0 : 0 ≤ base) (hl : rnd t.lower = t.lower) (hu : rnd t.upper = t.upper)
    (h : t.premiumPrice rnd base now = .ok premium) :
    (t.kind = .fixedPremium → premium = rnd (base * rnd (1 + t.premiumRate)) ∧ base ≤ premium) ∧
    (t.kind = .premiumAuction → base ≤ premium ∧ premium ≤ rnd (base * rnd (1 + rnd t.premiumRate))) ∧
    (t.kind = .linearAuction → t.lower ≤ t.upper → t.lower ≤ premium ∧ premium ≤ max t.upper (rnd (t.lower + rnd (t.upper - t.lower)))) := by
  have hp := hc.premium
  have one_le : ∀ x, 0 ≤ x → 1 ≤ rnd (1 + x) := by
    intro x hx
    have := hr.mono 1 (1 + x) (by linarith)
    rwa [hr.one] at this
  have rnd0 : ∀ x, 0 ≤ x → 0 ≤ rnd x := by
    intro x hx
    have := hr.mono 0 x hx
    rwa [hr.zero] at this
  have base_le : ∀ x, 1 ≤ x → base ≤ rnd (base * x) := by
    intro x hx
    have := hr.mono base (base * x) (by nlinarith)
    rwa [hb] at this
  unfold Tcs.premiumPrice at h
  refine ⟨?_, ?_, ?_⟩
  · intro hk
    rw [hk] at h
    dsimp only at h
    rw [ok_inj] at h
    subst h
    exact ⟨rfl, base_le _ (one_le _ hp)⟩
  · intro hk
    rw [hk] at h
    simp only [bind_ok, require_ok, ok_inj] at h
    obtain ⟨_, hst, h⟩ := h
    subst h
    have key : ∀ progress : ℚ, 0 ≤ progress → progress ≤ 1 →
        base ≤ rnd (base * rnd (1 + rnd (progress * t.premiumRate))) ∧
        rnd (base * rnd (1 + rnd (progress * t.premiumRate))) ≤ rnd (base * rnd (1 + rnd t.premiumRate)) := by
      intro pr h0 h1
      have m0 : 0 ≤ pr * t.premiumRate := mul_nonneg h0 hp
      have m1 : pr * t.premiumRate ≤ t.premiumRate := by nlinarith
      refine ⟨base_le _ (one_le _ (rnd0 _ m0)), hr.mono _ _ ?_⟩
      apply mul_le_mul_of_nonneg_left _ hb0
      apply hr.mono
      linarith [hr.mono _ _ m1]
    by_cases hd : t.duration = 0
    · rw [if_pos hd]; exact key 1 (by norm_num) (by norm_num)
    · rw [if_neg hd]
      apply key
      · apply le_min _ (by norm_num)
        apply rnd0
        apply div_nonneg
        · apply rnd0
          have : (0 : ℚ) ≤ ((now - t.startOrNow now : Int) : ℚ) := by exact_mod_cast (by omega)
          exact this
        · exact rnd0 _ (by exact_mod_cast hd0)
      · exact min_le_right _ _
  · intro hk hlu
    rw [hk] at h
    simp only [bind_ok, require_ok] at h
    obtain ⟨_, hst, h⟩ := h
    split at h
    · rename_i hcur
      rw [ok_inj] at h
      subst h
      have d0 : 0 ≤ rnd (t.upper - t.lower) := rnd0 _ (by linarith)
      have hc0 : (0 : ℚ) ≤ ((now - t.start : Int) : ℚ) := by exact_mod_cast (by have := hst.2; omega)
      have hd0 : (0 : ℚ) ≤ (t.duration : ℚ) := by exact_mod_cast (by have := hst.2; omega)
      have p0 : 0 ≤ rnd (rnd (now - t.start : Int) / rnd t.duration) := rnd0 _ (div_nonneg (rnd0 _ hc0) (rnd0 _ hd0))
      have p1 : rnd (rnd (now - t.start : Int) / rnd t.duration) ≤ 1 := by
        have h1 : rnd ((now - t.start : Int) : ℚ) ≤ rnd t.duration := hr.mono _ _ (by exact_mod_cast hcur.le)
        have h2 : rnd ((now - t.start : Int) : ℚ) / rnd t.duration ≤ 1 := div_le_one_of_le₀ h1 (rnd0 _ hd0)
        have := hr.mono _ _ h2
        rwa [hr.one] at this
      generalize rnd (rnd (now - t.start : Int) / rnd t.duration) = pr at *
      have m0 : 0 ≤ pr * rnd (t.upper - t.lower) := mul_nonneg p0 d0
      have m1 : pr * rnd (t.upper - t.lower) ≤ rnd (t.upper - t.lower) := by nlinarith
      have m2 : rnd (pr * rnd (t.upper - t.lower)) ≤ rnd (t.upper - t.lower) := by
        have := hr.mono _ _ m1
        rwa [hr.idem] at this
      refine ⟨?_, le_max_of_le_right (hr.mono _ _ (by linarith))⟩
      have := hr.mono t.lower (t.lower + rnd (pr * rnd (t.upper - t.lower))) (by linarith [rnd0 _ m0])
      rwa [hl] at this
    · rw [ok_inj] at h
      subst h
      exact ⟨hlu, le_max_left _ _⟩

/-- C54: prices of auctions rise: for an unchanged oracle price, the price of a started premium auction never falls with time, and neither does
that of a linear auction before its end; from the end on it is exactly the upper limit. -/
theorem C54_auction_rises {rnd : ℚ → ℚ} (hr : IsFloat rnd) {t : Tcs} (hc : Created t) {base p p' : ℚ} {now now' : Int}
    (hd0 : 0 ≤ t.duration) (hb0 : 0 ≤ base) (hs : 0 < t.start) (hn : now ≤ now')
    (h : t.premiumPrice rnd base now = .ok p) (h' : t.premiumPrice rnd base now' = .ok p') :
    (t.kind = .premiumAuction → p ≤ p') ∧
    (t.kind = .linearAuction → t.lower ≤ t.upper → now' < t.start + t.duration → p ≤ p') ∧
    (t.kind = .linearAuction → t.start + t.duration ≤ now' → p' = t.upper) := by
  have rnd0 : ∀ x, 0 ≤ x → 0 ≤ rnd x := by
    intro x hx
    have := hr.mono 0 x hx
    rwa [hr.zero] at this
  have hdq : (0 : ℚ) ≤ rnd t.duration := rnd0 _ (by exact_mod_cast hd0)
  have prog : ∀ a b : Int, a ≤ b → rnd (rnd (a : Int) / rnd t.duration) ≤ rnd (rnd (b : Int) / rnd t.duration) := by
    intro a b hab
    apply hr.mono
    apply div_le_div_of_nonneg_right _ hdq
    apply hr.mono
    exact_mod_cast hab
  unfold Tcs.premiumPrice at h h'
  refine ⟨?_, ?_, ?_⟩
  · intro hk
    rw [hk] at h h'
    simp only [bind_ok, require_ok, ok_inj] at h h'
    obtain ⟨_, hst, h⟩ := h
    obtain ⟨_, hst', h'⟩ := h'
    subst h
    subst h'
    apply hr.mono
    apply mul_le_mul_of_nonneg_left _ hb0
    apply hr.mono
    have key : ∀ a b : ℚ, a ≤ b → rnd (a * t.premiumRate) ≤ rnd (b * t.premiumRate) := fun a b hab => hr.mono _ _ (mul_le_mul_of_nonneg_right hab hc.premium)
    have e : ∀ n, t.startOrNow n = t.start := by intro n; unfold Tcs.startOrNow; rw [if_pos hs]
    simp only [e]
    have := key (if t.duration = 0 then 1 else min (rnd (rnd (now - t.start : Int) / rnd t.duration)) 1) (if t.duration = 0 then 1 else min (rnd (rnd (now' - t.start : Int) / rnd t.duration)) 1) (by
      split
      · exact le_refl _
      · exact min_le_min_right 1 (prog _ _ (by omega)))
    linarith
  · intro hk hlu hend
    rw [hk] at h h'
    simp only [bind_ok, require_ok] at h h'
    obtain ⟨_, hst, h⟩ := h
    obtain ⟨_, hst', h'⟩ := h'
    rw [if_pos (by omega), ok_inj] at h h'
    subst h
    subst h'
    apply hr.mono
    have := hr.mono _ _ (mul_le_mul_of_nonneg_right (prog (now - t.start) (now' - t.start) (by omega)) (rnd0 _ (by linarith : (0 : ℚ) ≤ t.upper - t.lower)))
    linarith
  · intro hk hend
    rw [hk] at h'
    simp only [bind_ok, require_ok] at h'
    obtain ⟨_, hst', h'⟩ := h'
    rw [if_neg (by omega), ok_inj] at h'
    exact h'.symm

/-- C54: whatever amounts are traded at a price that is not negative, the maker fee and the triggerer's part are computed without underflow: the price with
fee is never below the price without it, and a taker fee of at most 100% is at most the amount. -/
theorem C54_fees_never_underflow {rnd : ℚ → ℚ} (hr : IsFloat rnd) {t : Tcs} (hc : Created t) (htk : t.takerFeeRate ≤ 1)
    {premium : ℚ} (hp : rnd premium = premium) (hp0 : 0 ≤ premium) {pfx mfx rfx : I80F48} {maxBuy maxSell buy sell : Int}
    (h1 : toFx premium = .ok pfx) (h2 : toFx (t.makerPrice rnd premium) = .ok mfx) (h3 : toFx t.takerFeeRate = .ok rfx)
    (hf : Fair maxBuy maxSell mfx buy sell) :
    0 ≤ buy * pfx / S ∧ buy * pfx / S ≤ sell ∧ 0 ≤ buy * pfx / S * rfx / S ∧ buy * pfx / S * rfx / S ≤ buy * pfx / S := by
  have hle := toFx_mono (maker_ge hr hp hp0 hc.maker) h1 h2
  have hp0' := toFx_nonneg hp0 h1
  have hr0 := toFx_nonneg hc.taker h3
  have hr1 := toFx_le_one htk h3
  have hb := hf.buy_nonneg
  have b0 : 0 ≤ buy * pfx / S := floor_nonneg (Int.mul_nonneg hb hp0')
  refine ⟨b0, ?_, floor_nonneg (Int.mul_nonneg b0 hr0), ?_⟩
  · rw [hf.sell_floor]; exact floor_mono (Int.mul_le_mul_of_nonneg_left hle hb)
  · have : buy * pfx / S * rfx / S < buy * pfx / S + 1 := by
      rw [floor_le_iff]
      have := Int.mul_le_mul_of_nonneg_left hr1 b0
      have hS := S_pos
      rw [Int.add_mul]; omega
    omega

/-! ## Limits and flags -/

/-- C54: amounts and flags of a trade, for all balances and banks. -/
theorem C54_trigger_limits {e : Env} {s s' : State} {maxBuy maxSell minBuy : Int} {minTaker : ℚ} {t : Trade}
    (hb : s.buyBank.Pos) (hs : s.sellBank.Pos) (hr : 0 ≤ s.sellBank.loanOriginationFeeRate)
    (hmb : 0 ≤ maxBuy) (hms : 0 ≤ maxSell) (h : trigger e s maxBuy maxSell minBuy minTaker = .ok (s', t)) :
    -- the triggerer's limits, and the swap's
    0 ≤ t.buy ∧ t.buy ≤ maxBuy ∧ 0 ≤ t.sell ∧ t.sell ≤ maxSell ∧
    s'.tcs.bought = s.tcs.bought + t.buy ∧ s'.tcs.bought ≤ s.tcs.maxBuy ∧
    s'.tcs.sold = s.tcs.sold + t.sell ∧ s'.tcs.sold ≤ s.tcs.maxSell ∧
    -- without permission to create deposits (or with a reduce-only bank), only what the owner owes is bought
    (s.tcs.allowDeposits = false ∨ s.buyBank.reduceOnly = 1 → 0 < t.buy →
      nativeOf s.buyBank s.liqeeBuy < 0 ∧ nativeOf s.buyBank s.liqeeBuy + t.buy * S < S) ∧
    -- without permission to create borrows (or with a reduce-only bank), only what the owner has is sold, and no borrow results
    (s.tcs.allowBorrows = false ∨ s.sellBank.reduceOnly = 1 ∨ s.sellBank.reduceOnly = 2 → 0 < t.sell →
      t.sell * S ≤ nativeOf s.sellBank s.liqeeSell ∧ 0 ≤ s'.liqeeSell.indexed) ∧
    -- reduce-only banks limit the triggerer in the same way
    (s.buyBank.reduceOnly = 1 ∨ s.buyBank.reduceOnly = 2 → 0 < t.buy → t.buy * S ≤ nativeOf s.buyBank s.liqorBuy) := by
  have o := trigger_ok hmb hms h
  obtain ⟨price, premium, maker, pre, post, flag, s1, ps, qs, h1, h2, h3, h4, h5, ha, h6, h7, h8, h9, h10, h11, h12, tcs, h13, rfl⟩ := o.main
  obtain ⟨eb, es, ob, os, n1, n2, n3, n4, tr⟩ := ha.trade
  have x := exchange_ok h8
  have r := record_ok h13
  have e1 : eb = nativeOf s.buyBank s.liqeeBuy := native_ok n1
  have e2 : es = nativeOf s.sellBank s.liqeeSell := native_ok n2
  have e3 : ob = nativeOf s.buyBank s.liqorBuy := native_ok n3
  subst e1 e2 e3
  dsimp only at tr
  have rb := r.boughtMax
  have rs := r.soldMax
  have req := r.eq
  rw [x.tcs] at rb rs req
  dsimp only at rb rs req
  subst req
  refine ⟨tr.buy0, tr.buyMax, tr.sell0, tr.sellMax, rfl, rb, rfl, rs, tr.buyLimit.deposits, ?_, tr.liqorBorrow⟩
  intro hf hpos
  have hle := tr.sellLimit.borrows hf hpos
  refine ⟨hle, ?_⟩
  obtain ⟨sb, r2, ht, _⟩ := x.sell
  unfold checkedTransferWithFee transferSource at ht
  simp only [bind_ok, ok_inj, Prod.mk.injEq] at ht
  obtain ⟨⟨b1, q1, w1⟩, ht, _, _, _, _, _, _, _, _, _, _, _, hq, _, _⟩ := ht
  have hne : Fx.ofInt t.sell ≠ 0 := by
    unfold Fx.ofInt
    have hS := S_pos
    have : 1 * S ≤ t.sell * S := Int.mul_le_mul_of_nonneg_right (by omega) hS.le
    omega
  rw [if_pos hne] at ht
  simp only [bind_ok, ok_inj, Prod.mk.injEq] at ht
  obtain ⟨⟨b3, q3, w3⟩, hw, _, _, rfl, rfl, rfl⟩ := ht
  dsimp only at hq ⊢
  rw [← hq]
  exact ((C04_withdraw_excess hs hr hw).1 (by unfold Fx.ofInt; exact hle)).2.1

/-! ## Bookkeeping -/

/-- C54: who pays whom. The triggerer pays exactly the bought amount to the owner; the owner pays exactly the sold amount, of which the
fees go to the bank and the rest to the triggerer (`Effect`, C07, with loan fees and rounding as for every transfer). -/
theorem C54_trigger_ledger {e : Env} {s s' : State} {maxBuy maxSell minBuy : Int} {minTaker : ℚ} {t : Trade}
    (hb : s.buyBank.Pos) (hbr : s.buyBank.RatesOk) (hs : s.sellBank.Pos) (hsr : s.sellBank.RatesOk)
    (hmb : 0 ≤ maxBuy) (hms : 0 ≤ maxSell) (h : trigger e s maxBuy maxSell minBuy minTaker = .ok (s', t)) :
    (∃ b1 a1 a2, Effect s.buyBank s.liqorBuy (-(t.buy * S)) b1 s'.liqorBuy a1 ∧
      Effect b1 s.liqeeBuy (t.buy * S) s'.buyBank s'.liqeeBuy a2) ∧
    (∃ c1 c2 a1 a2, Effect s.sellBank s.liqeeSell (-(t.sell * S)) c1 s'.liqeeSell a1 ∧
      Effect c1 s.liqorSell ((t.sell - t.makerFee - t.takerFee) * S) c2 s'.liqorSell a2 ∧
      s'.sellBank = { c2 with collectedFeesNative := c2.collectedFeesNative + (t.makerFee + t.takerFee) * S }) := by
  have o := trigger_ok hmb hms h
  obtain ⟨price, premium, maker, pre, post, flag, s1, ps, qs, h1, h2, h3, h4, h5, ha, h6, h7, h8, h9, h10, h11, h12, tcs, h13, rfl⟩ := o.main
  have x := exchange_ok h8
  obtain ⟨r1, x1⟩ := x.buy
  obtain ⟨sb, r2, x2, x3⟩ := x.sell
  obtain ⟨b1, e1, e2, _, _⟩ := checkedTransfer_effects hb hbr x1
  obtain ⟨c1, e3, e4, _, _⟩ := checkedTransfer_effects hs hsr x2
  exact ⟨⟨b1, _, _, e1, e2⟩, c1, sb, _, _, e3, e4, x3⟩

/-- C54: neither token is created by a trade: the exact claims of the two parties plus what the bank collected change by rounding only. -/
theorem C54_trigger_conserves {e : Env} {s s' : State} {maxBuy maxSell minBuy : Int} {minTaker : ℚ} {t : Trade}
    (hb : s.buyBank.Pos) (hbr : s.buyBank.RatesOk) (hs : s.sellBank.Pos) (hsr : s.sellBank.RatesOk)
    (hmb : 0 ≤ maxBuy) (hms : 0 ≤ maxSell) (h : trigger e s maxBuy maxSell minBuy minTaker = .ok (s', t)) :
    let claims (b : Bank) (x y : TokenPosition) := exactValue b.depositIndex b.borrowIndex x + exactValue b.depositIndex b.borrowIndex y + feesAndDust b
    claims s.buyBank s.liqeeBuy s.liqorBuy - 2 * S ≤ claims s'.buyBank s'.liqeeBuy s'.liqorBuy ∧
    claims s'.buyBank s'.liqeeBuy s'.liqorBuy ≤ claims s.buyBank s.liqeeBuy s.liqorBuy + 2 * (s.buyBank.depositIndex + s.buyBank.borrowIndex) ∧
    claims s.sellBank s.liqeeSell s.liqorSell - 2 * S ≤ claims s'.sellBank s'.liqeeSell s'.liqorSell ∧
    claims s'.sellBank s'.liqeeSell s'.liqorSell ≤
      claims s.sellBank s.liqeeSell s.liqorSell + 2 * (s.sellBank.depositIndex + s.sellBank.borrowIndex) := by
  obtain ⟨⟨b1, _, _, e1, e2⟩, c1, c2, _, _, e3, e4, hc⟩ := C54_trigger_ledger hb hbr hs hsr hmb hms h
  have u1 := e1.upper
  have l1 := e1.lower
  have u2 := e2.upper
  have l2 := e2.lower
  have u3 := e3.upper
  have l3 := e3.lower
  have u4 := e4.upper
  have l4 := e4.lower
  rw [e1.depositIndex, e1.borrowIndex] at u2 l2
  rw [e3.depositIndex, e3.borrowIndex] at u4 l4
  have f : feesAndDust s'.sellBank = feesAndDust c2 + (t.makerFee + t.takerFee) * S * S := by
    rw [hc]; unfold feesAndDust; dsimp only; ring
  have d1 : s'.sellBank.depositIndex = s.sellBank.depositIndex := by rw [hc]; dsimp only; rw [e4.depositIndex, e3.depositIndex]
  have d2 : s'.sellBank.borrowIndex = s.sellBank.borrowIndex := by rw [hc]; dsimp only; rw [e4.borrowIndex, e3.borrowIndex]
  have g1 : -(t.sell * S) * S + (t.sell - t.makerFee - t.takerFee) * S * S + (t.makerFee + t.takerFee) * S * S = 0 := by ring
  have g2 : -(t.buy * S) * S + t.buy * S * S = 0 := by ring
  intro claims
  dsimp only [claims]
  rw [d1, d2, f, e2.depositIndex, e2.borrowIndex, e1.depositIndex, e1.borrowIndex]
  refine ⟨?_, ?_, ?_, ?_⟩ <;> omega

/-- C54: the owner's health is checked with the new balances (C36), the triggerer's init health is not negative. -/
theorem C54_trigger_health {e : Env} {s s' : State} {maxBuy maxSell minBuy : Int} {minTaker : ℚ} {t : Trade}
    (hmb : 0 ≤ maxBuy) (hms : 0 ≤ maxSell) (h : trigger e s maxBuy maxSell minBuy minTaker = .ok (s', t)) :
    (∃ pre post n n', e.health 0 0 = .ok pre ∧ s.liqeeSell.native s.sellBank = .ok n ∧
      s'.liqeeSell.native s'.sellBank = .ok n' ∧ e.health (t.buy * S) (n' - n) = .ok post ∧ Account.checkPost pre post = .ok ()) ∧
    s'.liqeeFlag.being = false ∧ ∃ lh, e.liqorHealth = .ok lh ∧ 0 ≤ lh := by
  have o := trigger_ok hmb hms h
  obtain ⟨price, premium, maker, pre, post, flag, s1, ps, qs, h1, h2, h3, h4, h5, ha, h6, h7, h8, h9, h10, h11, h12, tcs, h13, rfl⟩ := o.main
  refine ⟨⟨pre, post, ps, qs, h6, h9, h10, h11, h12⟩, ?_, o.liqor⟩
  unfold Account.Liq.checkPre at h7
  simp only [bind_ok, require_ok, ok_inj] at h7
  obtain ⟨a, _, _, hb, rfl⟩ := h7
  exact hb

/-- C54: the swap of an account that was being liquidated is triggered only if its liquidation has ended: the init or the liquidation-end health before is above -1 native quote token. -/
theorem C54_trigger_recovers {e : Env} {s s' : State} {maxBuy maxSell minBuy : Int} {minTaker : ℚ} {t : Trade}
    (hmb : 0 ≤ maxBuy) (hms : 0 ≤ maxSell) (h : trigger e s maxBuy maxSell minBuy minTaker = .ok (s', t)) (hf : s.liqeeFlag.being = true) :
    ∃ v, (e.health 0 0 = .ok v ∨ e.liqEnd = .ok v) ∧ -S < v := by
  obtain ⟨price, premium, maker, pre, post, flag, s1, ps, qs, h1, h2, h3, h4, h5, ha, h6, h7, _⟩ := (trigger_ok hmb hms h).main
  rcases (Account.checkPre_recovers h7).2 hf with g | ⟨l, hl, g⟩
  · exact ⟨pre, Or.inl h6, g⟩
  · exact ⟨l, Or.inr hl, g⟩

/-- Is so little left of the trade that the swap is finished? With a maker price above 1 the sell amount decides, else the buy
amount: it must be at least twice the (whole) price. -/
def Negligible (rnd : ℚ → ℚ) (maker : ℚ) (buy sell : Int) : Prop :=
  (1 < maker ∧ sell < 2 * castU64 maker) ∨ (maker ≤ 1 ∧ buy < 2 * castU64 (rnd (1 / maker)))

/-- C54: when a swap ends. After every trade, what the owner could still trade with someone who has no limits is computed from the new
balances; the swap stays open if and only if that is neither nothing nor negligible and the trade did not push the owner's
health below one million native quote units (one dollar). -/
theorem C54_trigger_done {e : Env} {s s' : State} {maxBuy maxSell minBuy : Int} {minTaker : ℚ} {t : Trade}
    (hmb : 0 ≤ maxBuy) (hms : 0 ≤ maxSell) (h : trigger e s maxBuy maxSell minBuy minTaker = .ok (s', t)) :
    s'.tcs.configured = !t.closed ∧
    ∃ price premium maker pre post n n' nb fb fs, e.price = .ok price ∧ s.tcs.premiumPrice e.rnd price e.now = .ok premium ∧
      toFx (s.tcs.makerPrice e.rnd premium) = .ok maker ∧ e.health 0 0 = .ok pre ∧ s.liqeeSell.native s.sellBank = .ok n ∧
      s'.liqeeSell.native s'.sellBank = .ok n' ∧ s'.liqeeBuy.native s'.buyBank = .ok nb ∧ e.health (t.buy * S) (n' - n) = .ok post ∧
      tradeAmount s'.tcs maker U64MAX U64MAX nb n' Fx.MAX Fx.MIN s'.buyBank s'.sellBank = .ok (fb, fs) ∧
      (t.closed = true ↔ fb = 0 ∨ fs = 0 ∨ (post < pre ∧ post < 1000000 * S) ∨ Negligible e.rnd (s.tcs.makerPrice e.rnd premium) fb fs) := by
  obtain ⟨price, premium, maker, pre, post, flag, s1, ps, qs, h1, h2, h3, h4, h5, ha, h6, h7, h8, h9, h10, h11, h12, tcs, h13, rfl⟩ :=
    (trigger_ok hmb hms h).main
  refine ⟨rfl, price, premium, maker, pre, post, ps, qs, ?_⟩
  have req := (record_ok h13).eq
  unfold record at h13
  simp only [bind_ok, cku64_ok, require_ok, ok_inj, Prod.mk.injEq] at h13
  obtain ⟨_, ⟨rfl, _⟩, _, ⟨rfl, _⟩, _, _, _, _, nb, k1, ns, k2, ⟨fb, fs⟩, k3, re, k4, k5, k6⟩ := h13
  have : ns = qs := by rw [h10] at k2; exact (ok_inj.1 k2).symm
  subst this
  refine ⟨nb, fb, fs, h1, h3, h4, h6, h9, h10, k1, h11, ?_, ?_⟩
  · rw [k5] at k3
    exact k3
  · rw [← k6]
    unfold maxTradeReached at k4
    unfold Negligible Fx.ofInt
    by_cases hm : s.tcs.makerPrice e.rnd premium > 1
    · rw [if_pos hm] at k4
      simp only [bind_ok, cku64_ok, ok_inj] at k4
      obtain ⟨m, ⟨rfl, _⟩, rfl⟩ := k4
      have : ¬ s.tcs.makerPrice e.rnd premium ≤ 1 := not_le.2 hm
      simp only [Bool.or_eq_true, decide_eq_true_eq, this, false_and, or_false, hm, true_and, or_assoc]
    · rw [if_neg hm] at k4
      simp only [bind_ok, cku64_ok, ok_inj] at k4
      obtain ⟨m, ⟨rfl, _⟩, rfl⟩ := k4
      have hn : s.tcs.makerPrice e.rnd premium ≤ 1 := not_lt.1 hm
      have : ¬ 1 < s.tcs.makerPrice e.rnd premium := hm
      simp only [Bool.or_eq_true, decide_eq_true_eq, this, false_and, false_or, hn, true_and, or_assoc]

/-! ## Histories of one swap -/

/-- The life of a swap: its creation, then any triggers and starts, by anyone, at any time, with any balances, banks and prices.
`bought` is what its owner got for it so far, `paid` what it paid (I80F48 bits, with the start incentive, without loan fees). -/
inductive Life (arg : Tcs) : Tcs → Int → Int → Prop
  | create {t : Tcs} {mr tr : ℚ} {now : Int} : CreateArgs arg → Swap.create arg mr tr now = .ok (some t) → Life arg t 0 0
  | trigger {e : Env} {s s' : State} {bought paid mb ms minBuy : Int} {mt : ℚ} {t : Trade} : Life arg s.tcs bought paid →
      0 ≤ mb → 0 ≤ ms → Swap.trigger e s mb ms minBuy mt = .ok (s', t) → Life arg s'.tcs (bought + t.buy) (paid + t.sell * S)
  | start {e : Env} {s s' : State} {bought paid : Int} {inc : I80F48} : Life arg s.tcs bought paid →
      Swap.start e s = .ok (s', inc) → Life arg s'.tcs bought (paid + inc)

structure LifeInv (arg t : Tcs) (bought paid : Int) : Prop where
  maxBuy : t.maxBuy = arg.maxBuy
  maxSell : t.maxSell = arg.maxSell
  kind : t.kind = arg.kind
  allowD : t.allowDeposits = arg.allowDeposits
  allowB : t.allowBorrows = arg.allowBorrows
  expiry : t.expiry = arg.expiry
  b : t.bought = bought
  b0 : 0 ≤ bought
  b1 : bought ≤ arg.maxBuy
  s0 : 0 ≤ t.sold
  s1 : t.sold ≤ arg.maxSell
  sU : arg.maxSell ≤ U64MAX
  p0 : t.sold * S ≤ paid
  p1 : paid < t.sold * S + S
  notStarted : t.kind = .premiumAuction → t.start = 0 → paid = t.sold * S
  created : Created t

theorem start_ok {e : Env} {s s' : State} {inc : I80F48} (h : start e s = .ok (s', inc)) :
    s.tcs.kind = .premiumAuction ∧ s.tcs.start = 0 ∧ 0 < e.now ∧ e.now < s.tcs.expiry ∧
    (∃ price, e.price = .ok price ∧ s.tcs.lower ≤ price ∧ price ≤ s.tcs.upper) ∧
    s'.tcs = { s.tcs with start := e.now, sold := s.tcs.sold + Fx.clampToU64 inc } ∧
    s.tcs.sold + Fx.clampToU64 inc ≤ s.tcs.maxSell ∧ 0 ≤ s.tcs.maxSell - s.tcs.sold ∧
    0 ≤ inc ∧ inc ≤ (s.tcs.maxSell - s.tcs.sold) * S ∧ (0 < inc → inc * e.sellPrice ≤ 1000 * S * S) ∧
    ∃ sb n r, s.sellBank.checkedTransferWithFee s.liqeeSell inc s.liqorSell inc e.now e.sellPrice =
      .ok (sb, s'.liqeeSell, s'.liqorSell, r) ∧ s'.sellBank = sb ∧ s'.liqeeSell.native sb = .ok n ∧ (n < 0 → s.tcs.allowBorrows = true) := by
  unfold start at h
  simp only [bind_ok, require_ok, ok_inj, sub_ok, Prod.mk.injEq, Tcs.checkStartable, cku64_ok] at h
  obtain ⟨_, h1, _, h2, _, h3, pre, h4, flag, h5, price, h6, _, ⟨_, h7, _, h8, _, h9, h10⟩, i, h11, ps, h12, ⟨sb, es, os, r⟩, h13, qs, h14,
    _, h15, ch, ⟨rfl, _⟩, _, h16, so, ⟨rfl, _⟩, _, h17, post, h18, _, h19, rfl, rfl⟩ := h
  unfold incentive Tcs.remainingSell at h11
  simp only [bind_ok, ok_inj, cku64_ok] at h11
  obtain ⟨q, hq, m, ⟨rfl, hm0, hm1⟩, d, hd, rfl⟩ := h11
  have hS := S_pos
  have hn : 0 < e.now := h16.1
  refine ⟨h3, h8, hn, by unfold Tcs.isExpired at h7; omega, ⟨price, h6, h10⟩, rfl, h17, hm0, by omega, ?_, ?_, sb, qs, r, h13, rfl, h14, h15⟩
  · have : 0 ≤ (s.tcs.maxSell - s.tcs.sold) * S := Int.mul_nonneg hm0 hS.le
    unfold Fx.ofInt; omega
  · intro hpos
    rw [div_ok] at hq
    obtain ⟨hne, hq, _⟩ := hq
    have hle : max (min (min q (Fx.ofInt (s.tcs.maxSell - s.tcs.sold))) d) 0 ≤ q := by omega
    by_cases hsp : 0 < e.sellPrice
    · have t := tdiv_bounds (a := Fx.ofInt 1000 * S) (b := e.sellPrice) (by unfold Fx.ofInt; decide) hsp
      rw [← hq] at t
      have := Int.mul_le_mul_of_nonneg_right hle hsp.le
      unfold Fx.ofInt at t this ⊢
      omega
    · exfalso
      have : q ≤ 0 := by
        rw [hq]
        have : Int.tdiv (Fx.ofInt 1000 * S) e.sellPrice = - Int.tdiv (Fx.ofInt 1000 * S) (-e.sellPrice) := by
          rw [Int.tdiv_neg]; omega
        rw [this]
        have := (tdiv_bounds (a := Fx.ofInt 1000 * S) (b := -e.sellPrice) (by unfold Fx.ofInt; decide) (by omega)).2.2
        omega
      omega

theorem life_inv {arg t : Tcs} {bought paid : Int} (h : Life arg t bought paid) : LifeInv arg t bought paid := by
  have hS := S_pos
  induction h with
  | create hargs hc =>
    unfold create at hc
    split at hc
    · simp at hc
    · simp only [bind_ok, require_ok, ok_inj, Option.some.injEq] at hc
      obtain ⟨_, c1, _, c2, _, c3, _, c4, _, c5, rfl⟩ := hc
      obtain ⟨a1, a2, a3, a4, a5, a6⟩ := hargs
      exact ⟨rfl, rfl, rfl, rfl, rfl, rfl, rfl, le_refl _, a1, le_refl _, a3, a4, by simp, by simpa using hS, fun _ _ => by simp,
        ⟨c1, c2, c3, c4, c5⟩⟩
  | @trigger e s s' bought paid mb ms minBuy mt t hl hmb hms ht ih =>
    have o := trigger_ok hmb hms ht
    obtain ⟨price, premium, maker, pre, post, flag, s1, ps, qs, h1, h2, h3, h4, h5, ha, h6, h7, h8, h9, h10, h11, h12, tcs, h13, rfl⟩ := o.main
    obtain ⟨eb, es, ob, os, n1, n2, n3, n4, tr⟩ := ha.trade
    have x := exchange_ok h8
    have r := record_ok h13
    have rb := r.boughtMax
    have rs := r.soldMax
    have req := r.eq
    rw [x.tcs] at rb rs req
    dsimp only at rb rs req tr
    subst req
    have i1 := ih.maxBuy
    have i2 := ih.maxSell
    have i3 := ih.b
    have i4 := ih.b0
    have i5 := ih.s0
    have i6 := ih.p0
    have i7 := ih.p1
    have e1 : (s.tcs.sold + t.sell) * S = s.tcs.sold * S + t.sell * S := by ring
    refine ⟨i1, i2, ih.kind, ih.allowD, ih.allowB, ih.expiry, by dsimp only; omega, by have := tr.buy0; omega, by omega,
      by have := tr.sell0; dsimp only; omega, by dsimp only; omega, ih.sU, ?_, ?_, ?_, ⟨ih.created.1, ih.created.2, ih.created.3, ih.created.4, ih.created.5⟩⟩
    · dsimp only; omega
    · dsimp only; omega
    · dsimp only
      intro hk hst
      have hps : s.tcs.passedStart e.now := by
        unfold Tcs.checkTriggerable at h2
        simp only [bind_ok, hk, require_ok] at h2
        obtain ⟨_, _, h2⟩ := h2
        exact h2
      rw [if_pos hps] at hst
      have := hps.1
      omega
  | @start e s s' bought paid inc hl hs ih =>
    obtain ⟨k1, k2, k3, k4, k5, k6, k7, k8, k9, k10, _⟩ := start_ok hs
    have i1 := ih.maxBuy
    have i2 := ih.maxSell
    have i5 := ih.s0
    have i8 := ih.notStarted k1 k2
    have hU := ih.sU
    have hcl : Fx.clampToU64 inc = inc / S := by
      unfold Fx.clampToU64
      split
      · have : inc = 0 := by omega
        rw [this]; simp
      · split
        · rename_i h1 h2
          have h3 : (s.tcs.maxSell - s.tcs.sold) * S ≤ U64MAX * S := Int.mul_le_mul_of_nonneg_right (by omega) hS.le
          have : inc = U64MAX * S := by omega
          rw [this, Int.mul_ediv_cancel _ (by decide)]
        · rfl
    have m := mulFloor_bounds inc
    have hc0 := floor_nonneg k9
    rw [hcl] at k6 k7
    rw [k6]
    have e1 : (s.tcs.sold + inc / S) * S = s.tcs.sold * S + inc / S * S := by ring
    refine ⟨i1, i2, ih.kind, ih.allowD, ih.allowB, ih.expiry, ih.b, ih.b0, ih.b1, by dsimp only; omega, by dsimp only; omega, hU, ?_, ?_, ?_,
      ⟨ih.created.1, ih.created.2, ih.created.3, ih.created.4, ih.created.5⟩⟩
    · dsimp only; omega
    · dsimp only; omega
    · dsimp only
      intro _ h0
      omega

/-- C54: over its whole life, whoever triggers it and however often, a swap gives its owner at most the maximum it asked to buy and
takes at most the maximum it allowed to sell, the incentive for starting an auction included (up to less than one native token).
The limits, type, flags and expiry never change. -/
theorem C54_life {arg t : Tcs} {bought paid : Int} (h : Life arg t bought paid) :
    0 ≤ bought ∧ bought ≤ arg.maxBuy ∧ 0 ≤ paid ∧ paid < arg.maxSell * S + S ∧
    (arg.kind ≠ .premiumAuction → paid ≤ arg.maxSell * S) ∧
    t.maxBuy = arg.maxBuy ∧ t.maxSell = arg.maxSell ∧ t.kind = arg.kind ∧ t.expiry = arg.expiry ∧
    t.allowDeposits = arg.allowDeposits ∧ t.allowBorrows = arg.allowBorrows ∧
    -- what is left can always be computed
    t.remainingBuy = .ok (arg.maxBuy - bought) ∧ ∃ r, t.remainingSell = .ok r := by
  have hS := S_pos
  have i := life_inv h
  have e1 : t.sold * S ≤ arg.maxSell * S := Int.mul_le_mul_of_nonneg_right i.s1 hS.le
  have e0 : 0 * S ≤ t.sold * S := Int.mul_le_mul_of_nonneg_right i.s0 hS.le
  have p0 := i.p0
  have p1 := i.p1
  have h1 := i.maxBuy
  have h2 := i.maxSell
  have h3 := i.b
  have h4 := i.b0
  have h5 := i.b1
  have h6 := i.s0
  have h7 := i.s1
  have h8 := i.sU
  have hU : arg.maxBuy ≤ U64MAX := by
    clear i e1 e0 p0 p1 h1 h2 h3 h4 h5 h6 h7 h8
    induction h with
    | create ha _ => exact ha.2.1
    | trigger _ _ _ _ ih => exact ih
    | start _ _ ih => exact ih
  have ex : arg.kind ≠ .premiumAuction → paid = t.sold * S := by
    clear i e1 e0 p0 p1 h1 h2 h3 h4 h5 h6 h7 h8 hU
    induction h with
    | create _ hc =>
      intro _
      unfold create at hc
      split at hc
      · simp at hc
      · simp only [bind_ok, require_ok, ok_inj, Option.some.injEq] at hc
        obtain ⟨_, c1, _, c2, _, c3, _, c4, _, c5, rfl⟩ := hc
        simp
    | @trigger e s s' bought paid mb ms minBuy mt t hl hmb hms ht ih =>
      intro hk
      have o := trigger_ok hmb hms ht
      obtain ⟨price, premium, maker, pre, post, flag, s1, ps, qs, h1, h2, h3, h4, h5, ha, h6, h7, h8, h9, h10, h11, h12, tcs, h13, rfl⟩ := o.main
      have x := exchange_ok h8
      have req := (record_ok h13).eq
      rw [x.tcs] at req
      dsimp only at req
      subst req
      rw [ih hk]
      dsimp only
      ring
    | @start e s s' bought paid inc hl hs ih =>
      intro hk
      have := (start_ok hs).1
      rw [(life_inv hl).kind] at this
      exact absurd this hk
  refine ⟨h4, h5, by omega, by omega, fun hk => by rw [ex hk]; exact e1, h1, h2, i.kind, i.expiry, i.allowD, i.allowB, ?_, ?_⟩
  · unfold Tcs.remainingBuy
    rw [cku64_ok]
    omega
  · refine ⟨arg.maxSell - t.sold, ?_⟩
    unfold Tcs.remainingSell
    rw [cku64_ok]
    omega

/-- C54: starting an auction. It happens at most once, only while the price is in range and the swap has not expired; the incentive
is worth at most 1000 native quote units at the oracle price, fits in what may still be sold, and is taken from the owner's deposit unless
the swap may create borrows. -/
theorem C54_start {e : Env} {s s' : State} {inc : I80F48} (hs : s.sellBank.Pos) (hr : s.sellBank.RatesOk)
    (h : start e s = .ok (s', inc)) :
    s.tcs.start = 0 ∧ 0 < s'.tcs.start ∧ s.tcs.kind = .premiumAuction ∧ e.now < s.tcs.expiry ∧
    (∃ price, e.price = .ok price ∧ s.tcs.lower ≤ price ∧ price ≤ s.tcs.upper) ∧
    0 ≤ inc ∧ inc ≤ (s.tcs.maxSell - s.tcs.sold) * S ∧ (0 < inc → inc * e.sellPrice ≤ 1000 * S * S) ∧
    (s.tcs.allowBorrows = false → 0 ≤ s'.liqeeSell.indexed) ∧
    (∃ c1 a1 a2, Effect s.sellBank s.liqeeSell (-inc) c1 s'.liqeeSell a1 ∧
      Effect c1 s.liqorSell inc s'.sellBank s'.liqorSell a2) ∧
    ∀ (e' : Env) (s'' : State), s''.tcs = s'.tcs → ∃ err, start e' s'' = .error err := by
  obtain ⟨k1, k2, k3, k4, k5, k6, k7, k8, k9, k10, k11, sb, n, r, k12, k13, k14, k15⟩ := start_ok h
  obtain ⟨c1, e3, e4, _, _⟩ := checkedTransfer_effects hs hr k12
  rw [← k13] at e4
  refine ⟨k2, by rw [k6]; exact k3, k1, k4, k5, k9, k10, k11, ?_, ⟨c1, _, _, e3, e4⟩, ?_⟩
  · intro hf
    by_contra hc
    have hb' : sb.Pos := by rw [← k13]; unfold Pos; rw [e4.depositIndex, e3.depositIndex, e4.borrowIndex, e3.borrowIndex]; exact hs
    have : n < 0 := (native_neg_iff hb' k14).mpr (by omega)
    have := k15 this
    rw [hf] at this
    simp at this
  · intro e' s'' heq
    cases hc : start e' s'' with
    | error err => exact ⟨err, rfl⟩
    | ok v =>
      exfalso
      obtain ⟨s3, i3⟩ := v
      have := (start_ok hc).2.1
      rw [heq, k6] at this
      dsimp only at this
      omega

end Mango.Swap
