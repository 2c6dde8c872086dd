import Verif.Client.Model
import Verif.Props.ClientSearch
import Verif.Bank.Lemmas
import Verif.Health.Lemmas
/-!
# C70: maximum amounts computed by the client library
-/
namespace Mango
namespace Client
open Fx Health

theorem value_above {target : Cache → Res I80F48} {r : Res Cache} {v t : I80F48} (ht : I128MIN ≤ t) (h : valueOf target r = .ok v) (hv : t < v) :
    ∃ c, r = .ok c ∧ target c = .ok v := by
  cases r with
  | ok c => exact ⟨c, rfl, h⟩
  | error e =>
    unfold valueOf at h
    by_cases he : e = .bankNetBorrowsLimitReached
    · dsimp only at h
      rw [if_pos he, ok_inj] at h
      have : (Fx.MIN : Int) = I128MIN := rfl
      omega
    · dsimp only at h
      rw [if_neg he] at h; exact absurd h (by simp)

/-- borrowing `a` of the token leaves a health cache with health ratio `v`; in particular the net borrow limit allows it -/
def BorrowLeaves (e : Env) (c : Cache) (src : Tok) (a v : I80F48) : Prop :=
  ∃ t b r c', tokenParts e c src.ti = .ok (t, b, r) ∧ cacheAfterBorrow e c src t.prices.oracle a = .ok c' ∧ healthRatio e.fd c' .init = .ok v

/-- borrowing `a` of the token leaves a health ratio of at most `m`, or exceeds the net borrow limit -/
def BorrowTooMuch (e : Env) (c : Cache) (src : Tok) (a m : I80F48) : Prop :=
  ∃ t b r, tokenParts e c src.ti = .ok (t, b, r) ∧
    ((∃ c' v, cacheAfterBorrow e c src t.prices.oracle a = .ok c' ∧ healthRatio e.fd c' .init = .ok v ∧ v ≤ m) ∨
      cacheAfterBorrow e c src t.prices.oracle a = .error .bankNetBorrowsLimitReached)

theorem value_below {target : Cache → Res I80F48} {r : Res Cache} {v t : I80F48} (h : valueOf target r = .ok v) (hv : v ≤ t) :
    (∃ c v, r = .ok c ∧ target c = .ok v ∧ v ≤ t) ∨ r = .error .bankNetBorrowsLimitReached := by
  cases r with
  | ok c => exact Or.inl ⟨c, v, rfl, h, hv⟩
  | error e =>
    unfold valueOf at h
    by_cases he : e = .bankNetBorrowsLimitReached
    · right; rw [he]
    · dsimp only at h
      rw [if_neg he] at h; exact absurd h (by simp)

/-- **C70 (maximum borrow)**: the amount is not negative, borrowing a positive result leaves a health ratio above the wanted one (and respects the net borrow limit), and unless the ratio is
at most the wanted one already or there are neither deposits nor health, one cannot borrow a whole native token more: the ratio left is less than 0.1 above the wanted one, or some amount less than
one native token larger is too much. -/
theorem C70_max_borrow (e : Env) (c : Cache) (src : Tok) (minRatio a : I80F48) (hmin : I128MIN ≤ minRatio) (h : maxBorrowForRatio e c src minRatio = .ok a) :
    0 ≤ a ∧ (a ≠ 0 → ∃ v, BorrowLeaves e c src a v ∧ minRatio < v) ∧
    ((∃ v, healthRatio e.fd c .init = .ok v ∧ v ≤ minRatio ∧ a = 0) ∨
     (∃ t b r lim, tokenParts e c src.ti = .ok (t, b, r) ∧ borrowLimit e c t b = .ok lim ∧ lim ≤ 0 ∧ a = 0) ∨
     (∃ v, BorrowLeaves e c src a v ∧ minRatio < v ∧ v - minRatio < TENTH) ∨
     ∃ y, a ≤ y ∧ y < a + Fx.ONE ∧ BorrowTooMuch e c src y minRatio) := by
  unfold maxBorrowForRatio maxBorrow at h
  simp only [bind_ok] at h
  obtain ⟨v, hv, h⟩ := h
  by_cases h1 : v ≤ minRatio
  · rw [if_pos h1, ok_inj] at h
    subst h
    exact ⟨le_refl _, fun hc => absurd rfl hc, Or.inl ⟨v, hv, h1, rfl⟩⟩
  rw [if_neg h1] at h
  simp only [bind_ok] at h
  obtain ⟨⟨t, b, r⟩, ht, lim, hlim, h⟩ := h
  dsimp only at h hlim
  by_cases h2 : lim ≤ 0
  · rw [if_pos h2, ok_inj] at h
    subst h
    exact ⟨le_refl _, fun hc => absurd rfl hc, Or.inr (Or.inl ⟨t, b, r, lim, ht, hlim, h2, rfl⟩)⟩
  rw [if_neg h2] at h
  obtain ⟨f1, f2, f3, f4⟩ := binary_found (by omega) (by omega) h
  have leaves : ∀ v, borrowValue e c src t.prices.oracle (fun c => healthRatio e.fd c .init) a = .ok v → minRatio < v → BorrowLeaves e c src a v := by
    intro v hv hlt
    obtain ⟨c', hc, hr⟩ := value_above hmin hv hlt
    exact ⟨t, b, r, c', ht, hc, hr⟩
  refine ⟨f1, ?_, Or.inr (Or.inr ?_)⟩
  · intro hne
    rcases f3 with rfl | ⟨v, hv, hlt⟩
    · exact absurd rfl hne
    · exact ⟨v, leaves v hv hlt, hlt⟩
  · rcases f4 with ⟨v, hv, hlt, hn⟩ | ⟨y, w, y1, y2, y3, y4, y5⟩
    · exact Or.inl ⟨v, leaves v hv hlt, hlt, hn⟩
    · exact Or.inr ⟨y, y1, y2, t, b, r, ht, value_below y4 y5⟩

/-- swapping `a` source tokens at the price leaves a cache with value `v` of the wanted function -/
def SwapLeaves (e : Env) (c : Cache) (src tgt : Tok) (price : I80F48) (target : Cache → Res I80F48) (a v : I80F48) : Prop :=
  ∃ c', cacheAfterSwap e c src tgt price a = .ok c' ∧ target c' = .ok v

/-- swapping `a` source tokens leaves a value of at most `m`, or exceeds the net borrow limit -/
def SwapTooMuch (e : Env) (c : Cache) (src tgt : Tok) (price : I80F48) (target : Cache → Res I80F48) (a m : I80F48) : Prop :=
  (∃ c' v, cacheAfterSwap e c src tgt price a = .ok c' ∧ target c' = .ok v ∧ v ≤ m) ∨ cacheAfterSwap e c src tgt price a = .error .bankNetBorrowsLimitReached

/-- the four kinds of answers of the swap computation -/
inductive SwapAnswer (e : Env) (c : Cache) (src tgt : Tok) (price m : I80F48) (target : Cache → Res I80F48) (a : I80F48) : Prop
  /-- swapping always increases health: no limit -/
  | unlimited (s t : TokenInfo) (sb sr tb tr slope : I80F48) (hs : tokenParts e c src.ti = .ok (s, sb, sr)) (ht : tokenParts e c tgt.ti = .ok (t, tb, tr))
      (hsl : finalSlope s t price = .ok slope) (h0 : 0 ≤ slope) (ha : a = Fx.MAX)
  /-- the search for the best amount found no value above the wanted one: the best amount found is the answer -/
  | best (v rm : I80F48) (hv : v ≤ m) (h : findMaximum (swapValue e c src tgt price target) 0 rm TENTH = some (.ok (a, v)))
  /-- the value is above the wanted one but health is negative -/
  | unhealthy (am av h : I80F48) (hm : m < av) (hv : SwapLeaves e c src tgt price target am av) (hh : SwapLeaves e c src tgt price (fun c => c.health e.fd .init) am h ∨ h = Fx.MIN)
      (h0 : h < 0) (ha : a = 0)
  /-- the value is above the wanted one, and cannot be much lower: health is exactly zero, or the value is close to the wanted one, or 0.1 tokens more are too much -/
  | reached (v : I80F48) (hm : m < v) (hv : SwapLeaves e c src tgt price target a v)
      (near : SwapLeaves e c src tgt price (fun c => c.health e.fd .init) a 0 ∨ v - m < TENTH ∨ ∃ y, a ≤ y ∧ y < a + TENTH ∧ SwapTooMuch e c src tgt price target y m)

/-- **C70 (maximum swap)**: a successful answer is not negative and of one of the four kinds. -/
theorem C70_max_swap (e : Env) (c : Cache) (src tgt : Tok) (price m : I80F48) (target : Cache → Res I80F48) (a : I80F48) (hmin : I128MIN ≤ m)
    (h : maxSwapSource e c src tgt price m target = .ok a) : 0 ≤ a ∧ SwapAnswer e c src tgt price m target a := by
  unfold maxSwapSource at h
  simp only [bind_ok] at h
  obtain ⟨⟨s, sb, sr⟩, hs, ⟨t, tb, tr⟩, ht, slope, hsl, h⟩ := h
  dsimp only at hsl h
  by_cases h0 : slope ≥ 0
  · rw [if_pos h0, ok_inj] at h
    exact ⟨by rw [← h]; decide, .unlimited s t sb sr tb tr slope hs ht hsl h0 h.symm⟩
  rw [if_neg h0] at h
  simp only [bind_ok] at h
  obtain ⟨rm, hrm, h⟩ := h
  obtain ⟨x, hx, _, hx3⟩ := C70_find_maximum_ends (swapValue e c src tgt price target) 0 rm TENTH (by decide) 200 (by omega)
  rw [hx] at h
  dsimp only at h
  simp only [bind_ok, require_ok] at h
  obtain ⟨⟨am, av⟩, hxe, _, ham, h⟩ := h
  subst hxe
  obtain ⟨k1, k2, k3⟩ := hx3 am av rfl
  dsimp only at ham h
  by_cases h2 : av ≤ m
  · rw [if_pos h2, ok_inj] at h
    subst h
    exact ⟨ham, .best av rm h2 hx⟩
  rw [if_neg h2] at h
  simp only [bind_ok, require_ok, ok_inj] at h
  obtain ⟨a', hr, _, ha', rfl⟩ := h
  refine ⟨ha', ?_⟩
  have leaves : ∀ x v, swapValue e c src tgt price target x = .ok v → m < v → SwapLeaves e c src tgt price target x v := by
    intro x v hv hlt
    obtain ⟨c', hc, hr⟩ := value_above hmin hv hlt
    exact ⟨c', hc, hr⟩
  have hav : m < av := by omega
  have hamv := leaves am av k3 hav
  unfold swapRight at hr
  simp only [bind_ok] at hr
  obtain ⟨hh, hhv, hr⟩ := hr
  have hcase : SwapLeaves e c src tgt price (fun c => c.health e.fd .init) am hh := by
    obtain ⟨c', hc1, _⟩ := hamv
    rw [hc1] at hhv
    exact ⟨c', hc1, hhv⟩
  by_cases h3 : hh = 0
  · rw [if_pos h3, ok_inj] at hr
    subst hr
    exact .reached av hav hamv (Or.inl (h3 ▸ hcase))
  rw [if_neg h3] at hr
  by_cases h4 : hh < 0
  · rw [if_pos h4, ok_inj] at hr
    exact .unhealthy am av hh hav hamv (Or.inl hcase) h4 hr.symm
  rw [if_neg h4] at hr
  simp only [bind_ok] at hr
  obtain ⟨q, hq, z, hz, r, hscan, hr⟩ := hr
  obtain ⟨s1, ⟨rv, s2, s2'⟩, s3⟩ := C70_scan_right _ _ _ _ hscan
  have hzge : am ≤ z := by
    rw [sub_ok] at hz
    rw [div_ok] at hq
    have h5 : q ≤ 0 := by
      rw [hq.2.1]
      have : Int.tdiv (hh * S) slope = -(Int.tdiv (hh * S) (-slope)) := by rw [Int.tdiv_neg, neg_neg]
      rw [this]
      have := Int.tdiv_nonneg (a := hh * S) (b := -slope) (mul_nonneg (by omega) (le_of_lt S_pos)) (by omega)
      omega
    omega
  have fin : ∀ l lv, am ≤ l → l ≤ r → m < lv → swapValue e c src tgt price target l = .ok lv →
      binarySearch (swapValue e c src tgt price target) l lv r m TENTH = .ok a' → SwapAnswer e c src tgt price m target a' := by
    intro l lv hl hlr hlv hfl hb
    obtain ⟨f1, f2, f3, f4⟩ := binary_found hlr hlv hb
    have hval : ∃ v, swapValue e c src tgt price target a' = .ok v ∧ m < v := by
      rcases f3 with rfl | f3
      · exact ⟨lv, hfl, hlv⟩
      · exact f3
    obtain ⟨v, hv, hlt⟩ := hval
    refine .reached v hlt (leaves a' v hv hlt) (Or.inr ?_)
    rcases f4 with ⟨v', hv', _, hn⟩ | ⟨y, w, y1, y2, y3, y4, y5⟩
    · rw [hv, ok_inj] at hv'
      subst hv'
      exact Or.inl hn
    · exact Or.inr ⟨y, y1, y2, value_below y4 y5⟩
  by_cases h5 : r = z
  · rw [if_pos h5] at hr
    exact fin am av (le_refl _) (by omega) hav k3 hr
  · rw [if_neg h5] at hr
    simp only [bind_ok] at hr
    obtain ⟨zv, hzv, hr⟩ := hr
    obtain ⟨zv', hzv', hlt⟩ := s3 h5
    rw [hzv, ok_inj] at hzv'
    subst hzv'
    exact fin z zv hzge s1 hlt hzv hr

/-- **C70 (limits of a swap)**: with positive prices the limited amount is at most the unlimited one; what has to be borrowed for it is worth at most the quote amount the net borrow limit leaves at
the given source price, and what is deposited beyond paying back is at most what the deposit limit leaves. -/
theorem C70_swap_limits (src tgt : Tok) (srcPrice price u a : I80F48) (hp : 0 < srcPrice) (hq : 0 < price) (h : applyLimits src tgt srcPrice price u = .ok a) :
    ∃ sp tp nb ad, src.pos.native src.bank.bank = .ok sp ∧ tgt.pos.native tgt.bank.bank = .ok tp ∧ src.bank.bank.remainingNetBorrowsQuote srcPrice = .ok nb ∧
      tgt.bank.bank.remainingDepositsUntilLimit = .ok ad ∧ a ≤ u ∧
      (0 ≤ nb → (a - max sp 0) * srcPrice ≤ nb * S) ∧
      (0 < a → a * price / S ≤ ad + max (-tp) 0) := by
  unfold applyLimits at h
  simp only [bind_ok, neg_ok, ok_inj] at h
  obtain ⟨sp, hsp, tp, htp, nb, hnb, anb, hanb, ad, had, ntp, ⟨rfl, _⟩, q, hqd, rfl⟩ := h
  refine ⟨sp, tp, nb, ad, hsp, htp, hnb, had, by omega, ?_, ?_⟩
  · intro hnn
    unfold satDiv at hanb
    rw [if_neg (by omega), ok_inj] at hanb
    have h1 : Int.tdiv (nb * S) srcPrice * srcPrice ≤ nb * S := by
      have := tdiv_bounds (a := nb * S) (b := srcPrice) (mul_nonneg hnn (le_of_lt S_pos)) hp
      exact this.1
    have h0 : 0 ≤ Int.tdiv (nb * S) srcPrice := Int.tdiv_nonneg (mul_nonneg hnn (le_of_lt S_pos)) (le_of_lt hp)
    have h2 : anb ≤ Int.tdiv (nb * S) srcPrice := by
      rw [← hanb]; unfold sat
      have : I128MIN ≤ 0 := by decide
      omega
    have h20 : 0 ≤ anb := by
      rw [← hanb]; unfold sat
      have : (0 : Int) ≤ I128MAX := by decide
      omega
    have h3 : min (min u (satAdd anb (max sp 0))) q - max sp 0 ≤ Int.tdiv (nb * S) srcPrice := by
      have : satAdd anb (max sp 0) ≤ anb + max sp 0 := by
        unfold satAdd sat
        have : I128MIN ≤ 0 := by decide
        omega
      omega
    calc _ ≤ Int.tdiv (nb * S) srcPrice * srcPrice := mul_le_mul_of_nonneg_right h3 (le_of_lt hp)
      _ ≤ _ := h1
  · intro ha
    unfold satDiv at hqd
    rw [if_neg (by omega), ok_inj] at hqd
    generalize hpt : min (satMul (min u (satAdd anb (max sp 0))) price) (satAdd ad (-min tp 0)) = pt at hqd
    have hq0 : 0 < q := by omega
    have hptn : 0 ≤ pt ∨ pt < 0 := by omega
    have key : 0 ≤ pt ∧ q * price ≤ pt * S := by
      rcases hptn with h0 | h0
      · refine ⟨h0, ?_⟩
        have h1 := (tdiv_bounds (a := pt * S) (b := price) (mul_nonneg h0 (le_of_lt S_pos)) hq).1
        have h00 : 0 ≤ Int.tdiv (pt * S) price := Int.tdiv_nonneg (mul_nonneg h0 (le_of_lt S_pos)) (le_of_lt hq)
        have h2 : q ≤ Int.tdiv (pt * S) price := by
          rw [← hqd]; unfold sat
          have : I128MIN ≤ 0 := by decide
          omega
        calc q * price ≤ Int.tdiv (pt * S) price * price := mul_le_mul_of_nonneg_right h2 (le_of_lt hq)
          _ ≤ _ := h1
      · exfalso
        have h1 : Int.tdiv (pt * S) price ≤ 0 := by
          have e1 : Int.tdiv (pt * S) price = -(Int.tdiv (-(pt * S)) price) := by rw [Int.neg_tdiv, neg_neg]
          have := Int.tdiv_nonneg (a := -(pt * S)) (b := price) (by have := mul_neg_of_neg_of_pos h0 S_pos; omega) (le_of_lt hq)
          omega
        have h2 : q ≤ 0 := by
          rw [← hqd]; unfold sat
          have h3 : I128MIN ≤ 0 := by decide
          have h4 : (0 : Int) ≤ I128MAX := by decide
          omega
        omega
    obtain ⟨hp0, hk⟩ := key
    generalize hA : min (min u (satAdd anb (max sp 0))) q = A at ha
    have hle : A * price ≤ pt * S := le_trans (mul_le_mul_of_nonneg_right (show A ≤ q by omega) (le_of_lt hq)) hk
    have h1 : A * price / S ≤ pt := by
      have := floor_mono hle
      rwa [Int.mul_ediv_cancel _ (by decide)] at this
    have h2 : satAdd ad (-min tp 0) ≤ ad + -min tp 0 := by
      unfold satAdd sat at *
      have : I128MIN < 0 := by decide
      omega
    omega

/-- trading `n` lots at the price leaves a health ratio of `v` -/
def TradeLeaves (e : Env) (c : Cache) (market : Nat) (price : I80F48) (bid : Bool) (n : Int) (v : I80F48) : Prop :=
  ∃ k p c', c.perps.findIdx? (fun p => p.perpMarketIndex == market) = some k ∧ c.perps[k]? = some p ∧ cacheAfterTrade c k p price bid n = .ok c' ∧
    healthRatio e.fd c' .init = .ok v

/-- the number of lots that closes the position, if the trade's direction is against it, and 0 otherwise -/
def CloseLots (c : Cache) (market : Nat) (bid : Bool) (st : Int) : Prop :=
  ∃ p, c.perps.find? (fun p => p.perpMarketIndex == market) = some p ∧ st = max 0 (if bid then -p.baseLots else p.baseLots)

/-- the kinds of answers of the perp computation -/
inductive PerpAnswer (e : Env) (c : Cache) (market : Nat) (price : I80F48) (bid : Bool) (m : I80F48) (n : Int) : Prop
  /-- the health ratio is negative to begin with -/
  | unhealthy (r0 : I80F48) (h0 : healthRatio e.fd c .init = .ok r0) (hr : r0 < 0) (h : n = 0)
  /-- the wanted ratio is not exceeded now, and closing the position (`st` lots) only lowers the ratio -/
  | outOfReach (r0 v : I80F48) (st : Int) (h0 : healthRatio e.fd c .init = .ok r0) (hr : r0 ≤ m) (hst : CloseLots c market bid st) (hv : TradeLeaves e c market price bid st v) (hm : v < m)
      (hlow : v < r0) (h : n = 0)
  /-- the wanted ratio can be had by closing the position, but health at that point, looked at without discounting pnl and settle token deposits, is not positive -/
  | noHealth (k si : Nat) (p : PerpInfo) (st : Int) (v hh : I80F48) (hst : CloseLots c market bid st) (hv : TradeLeaves e c market price bid st v) (hm : m ≤ v)
      (hk : c.perps.findIdx? (fun p => p.perpMarketIndex == market) = some k) (hp : c.perps[k]? = some p) (hs : c.tokenIdx p.settleTokenIndex = some si)
      (hhe : startHealth e c k si p price bid st = .ok hh) (h0 : hh ≤ 0) (h : n = 0)
  /-- trading always increases health -/
  | unlimited (k : Nat) (p : PerpInfo) (slope : I80F48) (hk : c.perps.findIdx? (fun p => p.perpMarketIndex == market) = some k) (hp : c.perps[k]? = some p)
      (hs : perpSlope p price bid = .ok slope) (h0 : 0 ≤ slope) (h : n = I64MAX)
  /-- the wanted ratio is out of reach: closing the position is the best and does not lower the ratio -/
  | closing (r0 v : I80F48) (h0 : healthRatio e.fd c .init = .ok r0) (hr : r0 ≤ m) (hst : CloseLots c market bid n) (hv : TradeLeaves e c market price bid n v) (hm : v < m) (h : r0 ≤ v)
  /-- the ratio left is at least the wanted one, and cannot be much lower: it is close, or one lot more is too much -/
  | reached (v : I80F48) (hv : TradeLeaves e c market price bid n v) (h : m ≤ v)
      (near : v - m < TENTH ∨ ∃ w, TradeLeaves e c market price bid (n + 1) w ∧ w ≤ m)

theorem find_of_idx {α : Type} {l : List α} {f : α → Bool} {k : Nat} {p : α} (hk : l.findIdx? f = some k) (hp : l[k]? = some p) : l.find? f = some p := by
  induction l generalizing k with
  | nil => simp at hk
  | cons a l ih =>
    rw [List.findIdx?_cons] at hk
    rw [List.find?_cons]
    by_cases ha : f a = true
    · rw [if_pos ha] at hk
      cases hk
      simp only [List.getElem?_cons_zero] at hp
      rw [ha]; exact hp
    · rw [if_neg ha] at hk
      cases hj : l.findIdx? f with
      | none => rw [hj] at hk; simp at hk
      | some j =>
        rw [hj] at hk
        simp only [Option.map_some, Option.some.injEq] at hk
        subst hk
        simp only [List.getElem?_cons_succ] at hp
        have : f a = false := by simpa using ha
        rw [this]
        exact ih hj hp

theorem trade_zero {c c' : Cache} {k : Nat} {p : PerpInfo} {price : I80F48} {bid : Bool} (hk : c.perps[k]? = some p) (hb : I64MIN ≤ p.baseLots ∧ p.baseLots ≤ I64MAX)
    (hq : inRange p.quote) (h : c' = c) : cacheAfterTrade c k p price bid 0 = .ok c' := by
  subst h
  unfold cacheAfterTrade
  simp only [mul_zero, bind_ok, ck64_ok, mul_ok, sub_ok, ok_inj]
  refine ⟨0, ⟨rfl, by decide⟩, p.baseLots, ⟨by omega, by rw [Int.add_zero]; exact hb⟩, 0, ?_, 0, ?_, 0, ?_, p.quote, ⟨by omega, by rw [Int.sub_zero]; exact hq⟩, ?_⟩
  · have : Fx.ofInt (direction bid) * Fx.ofInt 0 / S = 0 := by unfold Fx.ofInt; simp
    rw [this]; exact ⟨rfl, by unfold inRange; decide⟩
  · rw [zero_mul, Int.zero_ediv]; exact ⟨rfl, by unfold inRange; decide⟩
  · rw [zero_mul, Int.zero_ediv]; exact ⟨rfl, by unfold inRange; decide⟩
  · have : c'.perps.set k p = c'.perps := by
      apply List.ext_getElem?
      intro j
      rw [List.getElem?_set]
      by_cases hj : k = j
      · subst hj
        rw [if_pos rfl]
        have hlt : k < c'.perps.length := by
          by_contra hc
          rw [List.getElem?_eq_none (by omega)] at hk
          exact absurd hk (by simp)
        rw [if_pos hlt, hk]
      · rw [if_neg hj]
    cases c'
    dsimp only at this ⊢
    rw [this]

/-- **C70 (maximum perp trade)**: for a wanted ratio that is not negative and a settle token with non-negative weight and price, a successful answer is not negative and of one of the four kinds. -/
theorem C70_max_perp (e : Env) (c : Cache) (market : Nat) (price m : I80F48) (bid : Bool) (n : Int) (hm : 0 ≤ m)
    (hr : ∀ p ∈ c.perps, (I64MIN ≤ p.baseLots ∧ p.baseLots ≤ I64MAX) ∧ inRange p.quote ∧ 0 ≤ p.baseLotSize)
    (hw : ∀ t ∈ c.tokens, 0 ≤ t.initScaledLiabWeight ∧ 0 ≤ t.prices.liab .init)
    (h : maxPerp e c market price bid m = .ok n) : 0 ≤ n ∧ PerpAnswer e c market price bid m n := by
  unfold maxPerp at h
  simp only [bind_ok] at h
  obtain ⟨r0, hr0, h⟩ := h
  by_cases h1 : r0 < 0
  · rw [if_pos h1, ok_inj] at h
    subst h
    exact ⟨le_refl _, .unhealthy r0 hr0 h1 rfl⟩
  rw [if_neg h1] at h
  cases hk : c.perps.findIdx? (fun p => p.perpMarketIndex == market) with
  | none => rw [hk] at h; exact absurd h (by simp)
  | some k =>
  rw [hk] at h
  simp only [bind_ok] at h
  obtain ⟨p, hp, h⟩ := h
  rw [Health.at_ok] at hp
  have hpm := hr p (List.mem_of_getElem? hp)
  cases hsi : c.tokenIdx p.settleTokenIndex with
  | none => rw [hsi] at h; exact absurd h (by simp)
  | some si =>
  rw [hsi] at h
  simp only [bind_ok] at h
  obtain ⟨t, ht, sl, hsl, h⟩ := h
  rw [Health.at_ok] at ht
  have htw := hw t (List.mem_of_getElem? ht)
  by_cases h2 : sl ≥ 0
  · rw [if_pos h2, ok_inj] at h
    exact ⟨by rw [← h]; decide, .unlimited k p sl hk hp hsl h2 h.symm⟩
  rw [if_neg h2] at h
  simp only [bind_ok] at h
  obtain ⟨lw, hlw, sl', hsl', ⟨st, sr⟩, hco, lots, hlots, hn⟩ := h
  dsimp only at hlots
  have leaves : ∀ j v, tradeRatio e c k p price bid j = .ok v → TradeLeaves e c market price bid j v := by
    intro j v hv
    unfold tradeRatio at hv
    simp only [bind_ok] at hv
    obtain ⟨c', hc', hv⟩ := hv
    exact ⟨k, p, c', hk, hp, hc', hv⟩
  have zero : tradeRatio e c k p price bid 0 = .ok r0 := by
    unfold tradeRatio
    simp only [bind_ok]
    exact ⟨c, trade_zero hp hpm.1 hpm.2.1 rfl, hr0⟩
  -- the start of case 1
  have hst : 0 ≤ st ∧ st ≤ I64MAX ∧ tradeRatio e c k p price bid st = .ok sr := by
    unfold caseOne at hco
    by_cases hcc : (p.baseLots > 0 ∧ bid = false) ∨ (p.baseLots < 0 ∧ bid = true)
    · rw [if_pos hcc] at hco
      simp only [bind_ok, ck64_ok, ok_inj, Prod.mk.injEq] at hco
      obtain ⟨x, ⟨rfl, hx⟩, y, hy, rfl, rfl⟩ := hco
      refine ⟨?_, hx.2, hy⟩
      by_cases hneg : p.baseLots < 0
      · rw [if_pos hneg]; omega
      · rw [if_neg hneg]; omega
    · rw [if_neg hcc, ok_inj, Prod.mk.injEq] at hco
      obtain ⟨rfl, rfl⟩ := hco
      exact ⟨le_refl _, by decide, zero⟩
  have hcl : CloseLots c market bid st := by
    refine ⟨p, find_of_idx hk hp, ?_⟩
    unfold caseOne at hco
    by_cases hcc : (p.baseLots > 0 ∧ bid = false) ∨ (p.baseLots < 0 ∧ bid = true)
    · rw [if_pos hcc] at hco
      simp only [bind_ok, ck64_ok, ok_inj, Prod.mk.injEq] at hco
      obtain ⟨x, ⟨rfl, hx⟩, y, hy, rfl, rfl⟩ := hco
      rcases hcc with ⟨h1, rfl⟩ | ⟨h1, rfl⟩
      · rw [if_neg (by omega)]; simp only [Bool.false_eq_true, if_false]; omega
      · rw [if_pos h1]; simp only [if_true]; omega
    · rw [if_neg hcc, ok_inj, Prod.mk.injEq] at hco
      obtain ⟨rfl, rfl⟩ := hco
      cases bid
      · simp only [Bool.false_eq_true, if_false]
        simp at hcc
        omega
      · simp only [if_true]
        simp at hcc
        omega
  have hS : (S : Int) = 281474976710656 := rfl
  have trunc : ∀ j : Int, Int.tdiv (Fx.ofInt j) S = j := by
    intro j; unfold Fx.ofInt; exact Int.mul_tdiv_cancel _ (by decide)
  rw [ck64_ok] at hn
  obtain ⟨hn, hnr⟩ := hn
  -- results of a search
  have fin : ∀ (l : Int) (lv r : I80F48), 0 ≤ l → tradeRatio e c k p price bid l = .ok lv → m ≤ lv →
      Found (tradeRatioTrunc e c k p price bid) (Fx.ofInt l) r m Fx.ONE lots → 0 ≤ n ∧ PerpAnswer e c market price bid m n := by
    intro l lv r hl hlv hmlv hf
    obtain ⟨f1, f2, f3, f4⟩ := hf
    have hpos : 0 ≤ lots := by unfold Fx.ofInt at f1; rw [hS] at f1; omega
    have ediv : Int.tdiv lots S = lots / S := Int.tdiv_eq_ediv_of_nonneg hpos
    have hn0 : 0 ≤ n := by rw [hn, ediv]; exact Int.ediv_nonneg hpos (by decide)
    have tr : ∀ x v, tradeRatioTrunc e c k p price bid x = .ok v → tradeRatio e c k p price bid (Int.tdiv x S) = .ok v := by
      intro x v hx
      unfold tradeRatioTrunc at hx
      simp only [bind_ok, ck64_ok] at hx
      obtain ⟨y, ⟨rfl, _⟩, hx⟩ := hx
      exact hx
    have hval : ∃ v, tradeRatio e c k p price bid n = .ok v ∧ m ≤ v := by
      rcases f3 with rfl | ⟨v, hv, hlt⟩
      · rw [trunc] at hn
        subst hn
        exact ⟨lv, hlv, hmlv⟩
      · exact ⟨v, by rw [hn]; exact tr _ _ hv, le_of_lt hlt⟩
    obtain ⟨v, hv, hmv⟩ := hval
    refine ⟨hn0, .reached v (leaves n v hv) hmv ?_⟩
    rcases f4 with ⟨v', hv', _, hnear⟩ | ⟨y, w, y1, y2, y3, y4, y5⟩
    · have := tr _ _ hv'
      rw [← hn, hv, ok_inj] at this
      subst this
      exact Or.inl hnear
    · have hty := tr _ _ y4
      rw [Int.tdiv_eq_ediv_of_nonneg (by omega)] at hty
      have hone : (Fx.ONE : Int) = 281474976710656 := rfl
      have hcases : y / S = n ∨ y / S = n + 1 := by rw [hn, ediv]; rw [hS]; omega
      rcases hcases with hc | hc
      · rw [hc, hv, ok_inj] at hty
        subst hty
        left
        have : (TENTH : Int) = 28147497671066 := rfl
        omega
      · rw [hc] at hty
        exact Or.inr ⟨w, leaves _ _ hty, y5⟩
  by_cases h3 : r0 ≤ m ∧ sr < m
  · rw [if_pos h3, ok_inj] at hlots
    by_cases h4 : sr ≥ r0
    · rw [if_pos h4] at hlots
      subst hlots
      rw [trunc] at hn
      subst hn
      exact ⟨hst.1, .closing r0 sr hr0 h3.1 hcl (leaves _ _ hst.2.2) h3.2 h4⟩
    · rw [if_neg h4] at hlots
      subst hlots
      have : n = 0 := by rw [hn]; decide
      exact ⟨by omega, .outOfReach r0 sr st hr0 h3.1 hcl (leaves _ _ hst.2.2) h3.2 (by omega) this⟩
  rw [if_neg h3] at hlots
  by_cases h4 : sr ≥ m
  · rw [if_pos h4] at hlots
    unfold perpCase1 at hlots
    simp only [bind_ok] at hlots
    obtain ⟨hh, hhv, hlots⟩ := hlots
    by_cases h5 : hh ≤ 0
    · rw [if_pos h5, ok_inj] at hlots
      subst hlots
      have : n = 0 := by rw [hn]; decide
      exact ⟨by omega, .noHealth k si p st sr hh hcl (leaves _ _ hst.2.2) h4 hk hp hsi hhv h5 this⟩
    rw [if_neg h5] at hlots
    simp only [bind_ok, mul_ok, sub_ok, add_ok, div_ok, require_ok] at hlots
    obtain ⟨x1, ⟨hx1, _⟩, x2, ⟨hx2, _⟩, q, ⟨hx2n, hq, _⟩, z1, ⟨hz1, _⟩, z, ⟨hz, _⟩, zr, hzr, _, hzr0, hb⟩ := hlots
    have hlw0 : 0 ≤ lw := by
      unfold TokenInfo.liabWeightedPrice at hlw
      rw [mul_ok] at hlw
      rw [hlw.1]
      exact floor_nonneg (mul_nonneg htw.1 htw.2)
    have np : ∀ a b : Int, a ≤ 0 → 0 ≤ b → a * b / S ≤ 0 := by
      intro a b ha hb
      have : a * b ≤ 0 := mul_nonpos_of_nonpos_of_nonneg ha hb
      have := floor_mono this
      simpa using this
    have hsl0 : sl' ≤ 0 := by
      rw [mul_ok] at hsl'
      rw [hsl'.1]
      exact np _ _ (by omega) hlw0
    have hx10 : x1 ≤ 0 := by
      rw [hx1]; exact np _ _ hsl0 (by unfold Fx.ofInt; exact mul_nonneg hpm.2.2 (by decide))
    have hx20 : x2 ≤ 0 := by rw [hx2]; exact np _ _ hx10 (by decide)
    have hq0 : q ≤ 0 := by
      rw [hq]
      have e1 : Int.tdiv (hh * S) x2 = -(Int.tdiv (hh * S) (-x2)) := by rw [Int.tdiv_neg, neg_neg]
      rw [e1]
      have := Int.tdiv_nonneg (a := hh * S) (b := -x2) (mul_nonneg (by omega) (le_of_lt S_pos)) (by omega)
      omega
    have hone : (Fx.ONE : Int) = 281474976710656 := rfl
    exact fin st sr z hst.1 hst.2.2 h4 (binary_found' (by omega) hzr (by omega) hb)
  · rw [if_neg h4] at hlots
    have hge : Fx.ofInt 0 ≤ Fx.ofInt st := by unfold Fx.ofInt; rw [hS]; omega
    have hz : (0 : I80F48) = Fx.ofInt 0 := by decide
    rw [hz] at hlots
    exact fin 0 r0 (Fx.ofInt st) (le_refl _) zero (by omega) (binary_found hge (by omega) hlots)

/-- **C70 (liquidatable)**: an account counts as liquidatable exactly when its maintenance health is negative, or its liquidation-end health once liquidation has begun. -/
theorem C70_is_liquidatable (fd : FDiv) (c : Cache) (being b : Bool) :
    isLiquidatable fd c being = .ok b ↔ ∃ h, c.health fd (if being then .liqEnd else .maint) = .ok h ∧ (b = true ↔ h < 0) := by
  unfold isLiquidatable
  simp only [bind_ok, ok_inj]
  constructor
  · rintro ⟨h, hh, rfl⟩; exact ⟨h, hh, by simp⟩
  · rintro ⟨h, hh, hb⟩; exact ⟨h, hh, by rw [Bool.eq_iff_iff, hb]; simp⟩

/-- **C70 (when nothing can be borrowed)**: the search is given up at once exactly if the account has no deposits of the token and its health is too small to be worth anything at the liability weight. -/
theorem C70_borrow_limit (e : Env) (c : Cache) (t : TokenInfo) (b lim : I80F48) (hw : 0 < t.initScaledLiabWeight) (h : borrowLimit e c t b = .ok lim) :
    ∃ hh, c.health e.fd .init = .ok hh ∧ (lim ≤ 0 ↔ b ≤ 0 ∧ hh * S < t.initScaledLiabWeight) := by
  unfold borrowLimit at h
  simp only [bind_ok, add_ok, Fx.div_ok] at h
  obtain ⟨hh, hhe, q, ⟨_, rfl, _⟩, rfl, _⟩ := h
  refine ⟨hh, hhe, ?_⟩
  have hn : (0 : Int) ≤ max hh 0 * S := mul_nonneg (le_max_right _ _) (le_of_lt S_pos)
  obtain ⟨d1, d2⟩ := tdiv_bounds hn hw
  have d0 : 0 ≤ Int.tdiv (max hh 0 * S) t.initScaledLiabWeight := Int.tdiv_nonneg hn (le_of_lt hw)
  constructor
  · intro hl
    refine ⟨by omega, ?_⟩
    have hz : Int.tdiv (max hh 0 * S) t.initScaledLiabWeight = 0 := by omega
    rw [hz] at d2
    have : hh * S ≤ max hh 0 * S := mul_le_mul_of_nonneg_right (le_max_left _ _) (le_of_lt S_pos)
    omega
  · rintro ⟨h1, h2⟩
    have h3 : max hh 0 * S < t.initScaledLiabWeight := by
      rcases le_total hh 0 with h | h
      · rw [max_eq_right h]; omega
      · rw [max_eq_left h]; exact h2
    by_contra hc
    have hq : 1 ≤ Int.tdiv (max hh 0 * S) t.initScaledLiabWeight := by omega
    have := mul_le_mul_of_nonneg_right hq (le_of_lt hw)
    omega

/-- **C70 (maximum swap within the limits)**: the answer with limits is the answer without them (`C70_max_swap`) cut to what the source token's net borrow limit and the target token's deposit limit leave. -/
theorem C70_max_swap_with_limits (e : Env) (c : Cache) (src tgt : Tok) (srcPrice price m a : I80F48) (hp : 0 < srcPrice) (hq : 0 < price) (h : maxSwapWithLimits e c src tgt srcPrice price m = .ok a) :
    ∃ u sp tp nb ad, maxSwapIgnoringLimits e c src tgt price m = .ok u ∧ src.pos.native src.bank.bank = .ok sp ∧ tgt.pos.native tgt.bank.bank = .ok tp ∧
      src.bank.bank.remainingNetBorrowsQuote srcPrice = .ok nb ∧ tgt.bank.bank.remainingDepositsUntilLimit = .ok ad ∧ a ≤ u ∧
      (0 ≤ nb → (a - max sp 0) * srcPrice ≤ nb * S) ∧ (0 < a → a * price / S ≤ ad + max (-tp) 0) := by
  unfold maxSwapWithLimits at h
  simp only [bind_ok] at h
  obtain ⟨u, hu, h⟩ := h
  obtain ⟨sp, tp, nb, ad, h1⟩ := C70_swap_limits src tgt srcPrice price u a hp hq h
  exact ⟨u, sp, tp, nb, ad, hu, h1⟩

end Client
end Mango
