import Verif.Health.Value
import Verif.Health.FloatDiv
import Verif.Props.HealthState
import Verif.Props.Bank3
/-!
# C92: health never overstates what an account is worth, and the reported equity is right
-/
namespace Mango
namespace Health
open Fx Swap

namespace Worth

/-! ## Specification: what an account is worth at oracle prices, in native quote units -/

/-- oracle price of a token -/
def price (banks : Nat → BankIn) (ti : Nat) : ℚ := ((banks ti).oracle : ℚ) / 2 ^ 48

/-- tokens in a position: deposits positive, borrows negative (rounded down to 2^-48 tokens) -/
def tokens (banks : Nat → BankIn) (p : Pos) : ℚ :=
  ((p.indexed * (if p.indexed > 0 then (banks p.tokenIndex).bank.depositIndex else (banks p.tokenIndex).bank.borrowIndex) / 2 ^ 48 : Int) : ℚ) / 2 ^ 48

/-- everything an open orders account holds -/
def orders (banks : Nat → BankIn) (o : OpenOrd) : ℚ :=
  (o.baseFree + o.baseReserved) * price banks o.base + (o.quoteFree + o.quoteReserved) * price banks o.quote

/-- pnl of a perp position: its quote position less unsettled funding, taker fills not yet processed, and its base position at the oracle price -/
def pnl (x : Perp.Market × Perp.Pos × I80F48) : ℚ :=
  (x.2.1.quote : ℚ) / 2 ^ 48 + x.2.1.takerQuote * x.1.quoteLotSize
    - x.2.1.base * ((if x.2.1.base > 0 then x.1.longFunding - x.2.1.longSettled else x.1.shortFunding - x.2.1.shortSettled : Int) : ℚ) / 2 ^ 48
    + (x.2.1.base + x.2.1.takerBase) * x.1.baseLotSize * ((x.2.2 : ℚ) / 2 ^ 48)

/-- tokens and open orders accounts -/
def spot (banks : Nat → BankIn) (ps : List Pos) (os : List OpenOrd) : ℚ :=
  (ps.map (fun p => tokens banks p * price banks p.tokenIndex)).sum + (os.map (orders banks)).sum

/-- perp positions -/
def perp (banks : Nat → BankIn) (perps : List (Perp.Market × Perp.Pos × I80F48)) : ℚ :=
  (perps.map (fun x => pnl x * price banks x.1.settleTokenIndex)).sum

/-- everything -/
def total (banks : Nat → BankIn) (ps : List Pos) (os : List OpenOrd) (perps : List (Perp.Market × Perp.Pos × I80F48)) : ℚ := spot banks ps os + perp banks perps

/-- allowance for the rounding of one open orders account (`ε`: relative rounding error of floats): only funds reserved by orders cause any -/
def slack (banks : Nat → BankIn) (ε : ℚ) (o : OpenOrd) : ℚ :=
  if o.baseReserved = 0 then o.quoteReserved / 2 ^ 48
  else 4 * ε * (o.baseReserved * price banks o.base) +
    (price banks o.quote + o.quoteReserved + (1 + 4 * ε) * (o.baseReserved * price banks o.base / price banks o.quote) + 1) / 2 ^ 48

/-- a bank as it should be configured: it passes `verify`, asset weights are at most 1 and liability weights at least 1 (`verify` does not check this), prices are positive -/
structure BankOk (b : BankIn) : Prop where
  verified : b.Verified
  shift : Bank.ShiftConfigured b.bank
  initAsset : b.bank.initAssetWeight ≤ S
  initLiab : S ≤ b.bank.initLiabWeight
  asset : b.bank.maintAssetWeight ≤ S ∧ (b.bank.maintWeightShiftDurationInv ≠ 0 → b.bank.maintWeightShiftAssetTarget ≤ S)
  liab : S ≤ b.bank.maintLiabWeight ∧ (b.bank.maintWeightShiftDurationInv ≠ 0 → S ≤ b.bank.maintWeightShiftLiabTarget)
  oracle : 0 < b.oracle
  stable : 0 ≤ b.bank.stablePrice

/-- likewise a perp market and a position in it -/
structure PerpOk (x : Perp.Market × Perp.Pos × I80F48) : Prop where
  asset : (0 ≤ x.1.maintBaseAssetWeight ∧ x.1.maintBaseAssetWeight ≤ S) ∧ 0 ≤ x.1.initBaseAssetWeight ∧ x.1.initBaseAssetWeight ≤ S
  liab : S ≤ x.1.maintBaseLiabWeight ∧ S ≤ x.1.initBaseLiabWeight
  overall : x.1.maintOverallAssetWeight ≤ S ∧ x.1.initOverallAssetWeight ≤ S
  prices : 0 ≤ x.2.2 ∧ 0 ≤ x.1.stablePrice
  lot : 0 ≤ x.1.baseLotSize
  bids : 0 ≤ x.2.1.bids

/-- amounts and order prices are not negative -/
structure OrdersOk (o : OpenOrd) : Prop where
  base : 0 ≤ o.baseReserved
  quote : 0 ≤ o.quoteReserved
  ask : 0 ≤ o.lowestAsk
  bid : 0 ≤ o.highestBidInv

/-! ## Health against worth -/

theorem cast_sumOf {α : Type} (f : α → Int) (l : List α) : ((sumOf f l : Int) : ℚ) = (l.map (fun x => ((f x : Int) : ℚ))).sum := by
  induction l with
  | nil => simp
  | cons a l ih => simp [ih]

theorem sum_le_mem {α : Type} {f g : α → ℚ} {l : List α} (h : ∀ x ∈ l, f x ≤ g x) : (l.map f).sum ≤ (l.map g).sum := by
  induction l with
  | nil => simp
  | cons a l ih =>
    have := ih (fun x hx => h x (by simp [hx]))
    have := h a (by simp)
    simp only [List.map_cons, List.sum_cons]
    linarith

theorem sum_forall₂ {α β : Type} {R : α → β → Prop} {f : α → ℚ} {g : β → ℚ} {l : List α} {m : List β} (h : List.Forall₂ R l m)
    (hfg : ∀ a ∈ l, ∀ b ∈ m, R a b → g b ≤ f a) : (m.map g).sum ≤ (l.map f).sum := by
  induction h with
  | nil => simp
  | cons hab h ih =>
    have := ih (fun a ha b hb => hfg a (by simp [ha]) b (by simp [hb]))
    have := hfg _ (by simp) _ (by simp) hab
    simp only [List.map_cons, List.sum_cons]
    linarith

theorem sum_add_map {α : Type} (f g : α → ℚ) (l : List α) : (l.map (fun x => f x + g x)).sum = (l.map f).sum + (l.map g).sum := by
  induction l with
  | nil => simp
  | cons a l ih => simp only [List.map_cons, List.sum_cons, ih]; ring

theorem sum_mul_map {α : Type} (f : α → ℚ) (c : ℚ) (l : List α) : (l.map (fun x => f x * c)).sum = (l.map f).sum * c := by
  induction l with
  | nil => simp
  | cons a l ih => simp only [List.map_cons, List.sum_cons, ih]; ring

/-- of distinct keys only the matching one counts -/
theorem sum_single {ps : List Pos} (hn : (ps.map (·.tokenIndex)).Nodup) {k : Nat} (hk : ∃ p ∈ ps, p.tokenIndex = k) (P : Nat → Int) (x : Int) :
    sumOf (fun (p : Pos) => (if k = p.tokenIndex then x else 0) * P p.tokenIndex) ps = x * P k := by
  induction ps with
  | nil => obtain ⟨p, hp, _⟩ := hk; cases hp
  | cons q ps ih =>
    simp only [List.map_cons, List.nodup_cons] at hn
    rw [sumOf_cons]
    by_cases hq : k = q.tokenIndex
    · rw [if_pos hq, ← hq]
      rw [sumOf_zero, Int.add_zero]
      intro p hp
      rw [if_neg, Int.zero_mul]
      intro hc
      exact hn.1 (List.mem_map.mpr ⟨p, hp, by rw [← hc, hq]⟩)
    · rw [if_neg hq, Int.zero_mul, Int.zero_add]
      apply ih hn.2
      obtain ⟨p, hp, hpk⟩ := hk
      rcases List.mem_cons.mp hp with rfl | hp
      · exact absurd hpk.symm hq
      · exact ⟨p, hp, hpk⟩

/-- free funds, summed over tokens, are the free funds summed over open orders accounts -/
theorem free_sum {ps : List Pos} (hn : (ps.map (·.tokenIndex)).Nodup) (P : Nat → Int) : ∀ {os : List OpenOrd},
    (∀ o ∈ os, (∃ p ∈ ps, p.tokenIndex = o.base) ∧ ∃ p ∈ ps, p.tokenIndex = o.quote) →
    sumOf (fun (p : Pos) => sumOf (fun o => (if o.base = p.tokenIndex then o.baseFree * S else 0) + (if o.quote = p.tokenIndex then o.quoteFree * S else 0)) os * P p.tokenIndex) ps =
      sumOf (fun o => o.baseFree * S * P o.base + o.quoteFree * S * P o.quote) os := by
  intro os
  induction os with
  | nil => intro _; simp [sumOf_zero]
  | cons o os ih =>
    intro h
    have ih := ih (fun x hx => h x (by simp [hx]))
    obtain ⟨h1, h2⟩ := h o (by simp)
    rw [sumOf_cons, ← ih, ← sum_single hn h1 P (o.baseFree * S), ← sum_single hn h2 P (o.quoteFree * S), ← sumOf_add, ← sumOf_add]
    apply sumOf_congr
    intro p _
    rw [sumOf_cons, Int.add_mul, Int.add_mul]

theorem bank_prudent {rnd : ℚ → ℚ} (hr : IsFloat rnd) {now : Int} {b : BankIn} (B : BankOk b) {os : List OpenOrd} {p : Pos} {t : TokenInfo}
    (ht : TokenFor rnd now b os p t) (h : HT) : t.Prudent h := by
  obtain ⟨s1, s2, s3, s4⟩ := C55_scaled_weights hr B.verified ht
  have hver := B.verified.verify
  simp only [Bank.verify, bind_ok, require_ok] at hver
  obtain ⟨_, _, _, _, _, _, _, _, _, _, _, _, _, _, _, _, _, ha, _, hma, _, hml, _, hil, _, _, _, _, _, _, _, _, _, _, _, _, _, hat, _⟩ := hver
  have a3 := B.initAsset; have a4 := B.initLiab
  have o1 := B.oracle; have o2 := B.stable
  have e1 := ht.initAsset; have e2 := ht.initLiab; have e3 := ht.oracle; have e4 := ht.stable
  have mw : 0 ≤ t.maintAssetWeight ∧ t.maintAssetWeight ≤ S ∧ S ≤ t.maintLiabWeight := by
    have a1 := B.asset; have a2 := B.liab
    by_cases hd : b.bank.maintWeightShiftDurationInv = 0
    · have := ht.maint
      rw [Bank.maintWeights, if_pos (Or.inl hd), ok_inj, Prod.mk.injEq] at this
      omega
    · obtain ⟨b1, b2, _⟩ := Bank.C11_between B.shift ht.maint
      have := a1.2 hd; have := a2.2 hd
      unfold Bank.Between at b1 b2
      omega
  constructor
  · cases h <;> simp only [TokenInfo.assetWeight] <;> omega
  · cases h <;> simp only [TokenInfo.assetWeight] <;> omega
  · cases h <;> simp only [TokenInfo.liabWeight] <;> omega
  · omega
  · omega

theorem perp_prudent {x : Perp.Market × Perp.Pos × I80F48} {i : PerpInfo} (X : PerpOk x) (f : PerpFor x i) (h : HT) : i.Prudent h := by
  obtain ⟨w1, w2, w3, w4, w5, w6⟩ := f.weights
  have := X.asset; have := X.liab; have := X.overall
  constructor
  · cases h <;> simp only [PerpInfo.baseWeight] <;> omega
  · cases h <;> simp only [PerpInfo.baseWeight] <;> omega
  · cases h <;> simp only [PerpInfo.baseWeight] <;> omega
  · cases h <;> simp only [PerpInfo.overallWeight] <;> omega
  · rw [f.oracle]; exact X.prices.1
  · rw [f.stable]; exact X.prices.2
  · rw [f.lotSize]; exact X.lot
  · rw [f.bids]; exact X.bids

/-- what a market's funds count for as quote tokens, at the oracle price and with one unit per token -/
theorem asQuote_le {rnd : ℚ → ℚ} {ε : ℚ} (R : Stable.IsRnd rnd ε) (he : ε ≤ 1 / 5) {s : Serum3Info} {h : HT} {q b : TokenInfo} {y : Int}
    (hb : 0 ≤ s.reservedBase) (b1 : 0 ≤ b.prices.oracle) (b2 : 0 ≤ b.prices.stable) (q1 : 0 < q.prices.oracle)
    (hy : s.allReservedAsQuote (f64Div rnd) h q b = .ok y) :
    (y : ℚ) * q.prices.oracle + y ≤ s.reservedQuote * q.prices.oracle + s.reservedQuote +
      (if s.reservedBase = 0 then 0 else (1 + 4 * ε) * (s.reservedBase * b.prices.oracle) + q.prices.oracle / 2 + ((1 + 4 * ε) * (s.reservedBase * b.prices.oracle / q.prices.oracle) + 1 / 2)) := by
  simp only [Serum3Info.allReservedAsQuote, bind_ok, ite_ok, mul_ok, add_ok] at hy
  obtain ⟨a, ⟨ha, _⟩, o, ho, hy⟩ := hy
  have hyo : y ≤ s.reservedQuote + o := by rcases hy with ⟨_, hy, _⟩ | ⟨_, hy, _⟩ <;> omega
  have ap := Prices.asset_nonneg h b1 b2
  have a0 : 0 ≤ a := by rw [ha]; exact floor_nonneg (Int.mul_nonneg hb ap)
  have lp : q.prices.oracle ≤ q.prices.liab h := Prices.le_liab _ h
  obtain ⟨hl, hn⟩ := f64Div_near R he a0 (by omega) ho
  have hS : (0 : ℚ) < (S : ℚ) := by norm_num [S]
  have qq : (0 : ℚ) < q.prices.oracle := by exact_mod_cast q1
  have lq : (0 : ℚ) < q.prices.liab h := by exact_mod_cast hl
  have lle : (q.prices.oracle : ℚ) ≤ q.prices.liab h := by exact_mod_cast lp
  have hyq : (y : ℚ) ≤ s.reservedQuote + o := by exact_mod_cast hyo
  have fin : (o : ℚ) * q.prices.oracle + o ≤ (if s.reservedBase = 0 then 0 else
      (1 + 4 * ε) * (s.reservedBase * b.prices.oracle) + q.prices.oracle / 2 + ((1 + 4 * ε) * (s.reservedBase * b.prices.oracle / q.prices.oracle) + 1 / 2)) := by
    by_cases h0 : s.reservedBase = 0
    · rw [if_pos h0]
      have : a = 0 := by rw [ha, h0]; simp
      rw [this] at hn
      simp only [Int.cast_zero, zero_mul, zero_div, mul_zero, zero_add] at hn
      have : o ≤ 0 := by
        by_contra hc
        have : (1 : ℚ) ≤ o := by exact_mod_cast (by omega : (1 : Int) ≤ o)
        linarith
      have : (o : ℚ) ≤ 0 := by exact_mod_cast this
      nlinarith
    · rw [if_neg h0]
      have hab : a * S ≤ s.reservedBase * b.prices.oracle := by
        have := mulFloor_bounds (s.reservedBase * b.prices.asset h)
        have := Int.mul_le_mul_of_nonneg_left (Prices.asset_le b.prices h) hb
        rw [ha]; omega
      have habq : (a : ℚ) * S ≤ s.reservedBase * b.prices.oracle := by exact_mod_cast hab
      have aS : (0 : ℚ) ≤ (a : ℚ) * S := by exact_mod_cast Int.mul_nonneg a0 (by decide)
      have e0 := R.eps
      have c0 : 0 ≤ 1 + 4 * ε := by linarith
      have k1 : (a : ℚ) * S / q.prices.liab h ≤ s.reservedBase * b.prices.oracle / q.prices.oracle :=
        div_le_div₀ (le_trans aS habq) habq qq lle
      have k2 := mul_le_mul_of_nonneg_left k1 c0
      have k3 : (o : ℚ) ≤ (1 + 4 * ε) * (s.reservedBase * b.prices.oracle / q.prices.oracle) + 1 / 2 := by linarith
      have k4 := mul_le_mul_of_nonneg_right k3 qq.le
      have k5 : ((1 + 4 * ε) * ((s.reservedBase : ℚ) * b.prices.oracle / q.prices.oracle) + 1 / 2) * q.prices.oracle =
          (1 + 4 * ε) * (s.reservedBase * b.prices.oracle) + q.prices.oracle / 2 := by
        field_simp
      linarith
  have := mul_le_mul_of_nonneg_right hyq qq.le
  nlinarith

/-- **C92** Health of any type never exceeds what the account is worth at oracle prices: its deposits and open orders accounts in full, less its borrows, plus the pnl of its perp
positions, if asset weights are at most 1 and liability weights at least 1. Only funds reserved by open orders make rounding matter, by about 2^-48 of them. -/
theorem C92_health_le_worth {rnd : ℚ → ℚ} {ε : ℚ} (R : Stable.IsRnd rnd ε) (he : ε ≤ 1 / 5) {now : Int} {banks : Nat → BankIn} {ps : List Pos} {os : List OpenOrd}
    {perps : List (Perp.Market × Perp.Pos × I80F48)} {h : HT} {v : I80F48} (distinct : (ps.map (·.tokenIndex)).Nodup) (hB : ∀ p ∈ ps, BankOk (banks p.tokenIndex))
    (hO : ∀ o ∈ os, OrdersOk o) (hX : ∀ x ∈ perps, PerpOk x) (hv : accountHealth rnd (f64Div rnd) now banks ps os perps h = .ok v) :
    (v : ℚ) / 2 ^ 48 ≤ total banks ps os perps + (os.map (slack banks ε)).sum := by
  simp only [accountHealth, bind_ok] at hv
  obtain ⟨c, hc, hv⟩ := hv
  obtain ⟨T, M, X, nd⟩ := accountCache_for distinct hc
  have hr := isFloat_of R
  obtain ⟨P, hPd⟩ : ∃ P : Nat → Int, ∀ ti, P ti = (banks ti).oracle := ⟨_, fun _ => rfl⟩
  -- the pieces of the cache
  have T' : ∀ t ∈ c.tokens, ∃ p ∈ ps, TokenFor rnd now (banks p.tokenIndex) os p t := by
    intro t ht
    obtain ⟨i, hi⟩ := List.mem_iff_getElem?.mp ht
    rw [forall₂_getElem] at T
    have hl := getElem?_lt hi
    have hp : ps[i]? = some (ps[i]'(by omega)) := List.getElem?_eq_getElem (by omega)
    exact ⟨_, List.mem_of_getElem? hp, T.2 i _ t hp hi⟩
  have tp : ∀ t ∈ c.tokens, t.Prudent h ∧ 0 < t.prices.oracle ∧ t.prices.oracle = P t.tokenIndex ∧ ∃ p ∈ ps, p.tokenIndex = t.tokenIndex := by
    intro t ht
    obtain ⟨p, hp, f⟩ := T' t ht
    have := (hB p hp).oracle
    exact ⟨bank_prudent hr (hB p hp) f h, by rw [f.oracle]; exact this, by rw [f.oracle, hPd, f.index], p, hp, f.index.symm⟩
  have pp : ∀ i ∈ c.perps, i.Prudent h := by
    intro i hi
    obtain ⟨k, hk⟩ := List.mem_iff_getElem?.mp hi
    rw [forall₂_getElem] at X
    have hl := getElem?_lt hk
    have hx : perps[k]? = some (perps[k]'(by omega)) := List.getElem?_eq_getElem (by omega)
    exact perp_prudent (hX _ (List.mem_of_getElem? hx)) (X.2 k _ i hx hk) h
  have ms : ∀ s ∈ c.serums, ∃ o ∈ os, MarketFor c.tokens o s := by
    intro s hs
    obtain ⟨k, hk⟩ := List.mem_iff_getElem?.mp hs
    rw [forall₂_getElem] at M
    have hl := getElem?_lt hk
    have hx : os[k]? = some (os[k]'(by omega)) := List.getElem?_eq_getElem (by omega)
    exact ⟨_, List.mem_of_getElem? hx, M.2 k _ s hx hk⟩
  have nn : c.MarketsNonNeg := by
    intro s hs
    obtain ⟨o, ho, f⟩ := ms s hs
    have O := hO o ho
    exact ⟨by rw [f.reservedBase]; exact Int.mul_nonneg O.base (by decide), by rw [f.reservedQuote]; exact Int.mul_nonneg O.quote (by decide),
      by rw [f.lowestAsk]; exact Int.mul_nonneg O.base O.ask, by rw [f.highestBid]; exact Int.mul_nonneg O.quote O.bid⟩
  simp only [Cache.health, bind_ok] at hv
  obtain ⟨bs, hbs, hv⟩ := hv
  obtain ⟨mr, rs, hres, _⟩ := healthSum_ok hv
  have main := healthSum_value (f64Div_ok hr) (fun t ht => (tp t ht).1) nn (balancesI_ok hbs).1 hv hres
  have bal := balances_value pp (fun t ht => le_of_lt (tp t ht).2.1) hbs
  obtain ⟨l1, _, _, d⟩ := reservations_ok hres
  have oAt : ∀ k t, c.tokens[k]? = some t → oracleAt c k = t.prices.oracle := by
    intro k t hk; unfold oracleAt; rw [hk]
  -- tokens
  have hos : ∀ o ∈ os, (∃ p ∈ ps, p.tokenIndex = o.base) ∧ ∃ p ∈ ps, p.tokenIndex = o.quote := by
    intro o ho
    obtain ⟨k, hk⟩ := List.mem_iff_getElem?.mp ho
    have M' := M
    rw [forall₂_getElem] at M'
    have hl := getElem?_lt hk
    have hx : c.serums[k]? = some (c.serums[k]'(by omega)) := List.getElem?_eq_getElem (by omega)
    have f := M'.2 k o _ hk hx
    obtain ⟨t, h1, h2⟩ := f.base
    obtain ⟨u, h3, h4⟩ := f.quote
    obtain ⟨_, _, _, p, hp, hpt⟩ := tp t (List.mem_of_getElem? h1)
    obtain ⟨_, _, _, p', hp', hpt'⟩ := tp u (List.mem_of_getElem? h3)
    exact ⟨⟨p, hp, by rw [hpt, h2]⟩, p', hp', by rw [hpt', h4]⟩
  have k1 : ((sumOf (fun (t : TokenInfo) => t.balanceSpot * t.prices.oracle) c.tokens : Int) : ℚ) ≤
      (ps.map (fun p => tokens banks p * price banks p.tokenIndex)).sum * (S * S) + (os.map (fun o => (o.baseFree * price banks o.base + o.quoteFree * price banks o.quote) * ((S : ℚ) * S))).sum := by
    have e1 : ((sumOf (fun (t : TokenInfo) => t.balanceSpot * t.prices.oracle) c.tokens : Int) : ℚ) ≤
        (ps.map (fun p => tokens banks p * price banks p.tokenIndex * ((S : ℚ) * S) +
          ((sumOf (fun o => (if o.base = p.tokenIndex then o.baseFree * S else 0) + (if o.quote = p.tokenIndex then o.quoteFree * S else 0)) os * P p.tokenIndex : Int) : ℚ))).sum := by
      rw [cast_sumOf]
      apply sum_forall₂ T
      intro p _ t _ f
      rw [f.balance, f.oracle, hPd]
      apply le_of_eq
      have hS : (2 : Int) ^ 48 = S := by decide
      unfold tokens price
      rw [hS]
      have hq : (2 : ℚ) ^ 48 = (S : ℚ) := by norm_num [S]
      rw [hq]
      have h0 : (S : ℚ) ≠ 0 := by norm_num [S]
      push_cast
      field_simp
    rw [sum_add_map, sum_mul_map, ← cast_sumOf, free_sum distinct P hos, cast_sumOf (fun o : OpenOrd => o.baseFree * S * P o.base + o.quoteFree * S * P o.quote)] at e1
    refine le_trans e1 (le_of_eq ?_)
    congr 1
    congr 1
    apply List.map_congr_left
    intro o _
    rw [hPd, hPd]
    unfold price
    have hq : (2 : ℚ) ^ 48 = (S : ℚ) := by norm_num [S]
    rw [hq]
    have h0 : (S : ℚ) ≠ 0 := by norm_num [S]
    push_cast
    field_simp
  -- perps
  have k2 : ((sumOf (fun p => (p.quote + p.baseLots * p.baseLotSize * p.basePrices.oracle) * (match c.tokenIdx p.settleTokenIndex with | some i => oracleAt c i | none => 0)) c.perps : Int) : ℚ) ≤
      perp banks perps * (S * S) := by
    unfold perp
    rw [cast_sumOf, ← sum_mul_map]
    apply sum_forall₂ X
    intro x _ i hi f
    obtain ⟨⟨j, hj⟩, _⟩ := (balancesI_ok hbs).2.2 i hi
    obtain ⟨t, ht, hti⟩ := findToken_mem (ts := c.tokens) hj
    have e1 : oracleAt c j = (banks x.1.settleTokenIndex).oracle := by
      rw [oAt j t ht, (tp t (List.mem_of_getElem? ht)).2.2.1, hPd, hti, f.settle]
    rw [hj]
    dsimp only
    rw [e1, f.quote, f.lots, f.lotSize, f.oracle]
    apply le_of_eq
    unfold pnl price
    have hq : (2 : ℚ) ^ 48 = (S : ℚ) := by norm_num [S]
    rw [hq]
    have h0 : (S : ℚ) ≠ 0 := by norm_num [S]
    push_cast
    field_simp
  -- orders
  have k3 : ((sumOf (fun (x : Serum3Info × Serum3Reserved) => x.2.asQuote * oracleAt c x.1.quoteIdx + x.2.asQuote) (c.serums.zip rs) : Int) : ℚ) ≤
      (os.map (fun o => (o.baseReserved * price banks o.base + o.quoteReserved * price banks o.quote + slack banks ε o) * ((S : ℚ) * S))).sum := by
    have e1 : ((sumOf (fun (x : Serum3Info × Serum3Reserved) => x.2.asQuote * oracleAt c x.1.quoteIdx + x.2.asQuote) (c.serums.zip rs) : Int) : ℚ) ≤
        ((c.serums.zip rs).map (fun x => (x.1.reservedQuote : ℚ) * oracleAt c x.1.quoteIdx + x.1.reservedQuote +
          (if x.1.reservedBase = 0 then 0 else (1 + 4 * ε) * (x.1.reservedBase * oracleAt c x.1.baseIdx) + (oracleAt c x.1.quoteIdx : ℚ) / 2 +
            ((1 + 4 * ε) * (x.1.reservedBase * oracleAt c x.1.baseIdx / oracleAt c x.1.quoteIdx) + 1 / 2)))).sum := by
      rw [cast_sumOf]
      apply sum_le_mem
      intro x hx
      obtain ⟨q, b, hq, hb, _, h4⟩ := d x hx
      have hqm := tp q (List.mem_of_getElem? hq)
      have hbm := tp b (List.mem_of_getElem? hb)
      rw [oAt _ _ hq, oAt _ _ hb]
      have := asQuote_le R he (nn x.1 (mem_zip_fst hx)).base hbm.1.oracle hbm.1.stable hqm.2.1 h4
      push_cast
      exact this
    refine le_trans e1 ?_
    have e2 : ∀ (g : Serum3Info → ℚ), ((c.serums.zip rs).map (fun x => g x.1)).sum = (c.serums.map g).sum := by
      intro g
      have : (c.serums.zip rs).map (fun x => g x.1) = ((c.serums.zip rs).map Prod.fst).map g := by rw [List.map_map]; rfl
      rw [this, List.map_fst_zip (by omega)]
    rw [e2 (fun s => (s.reservedQuote : ℚ) * oracleAt c s.quoteIdx + s.reservedQuote +
          (if s.reservedBase = 0 then 0 else (1 + 4 * ε) * (s.reservedBase * oracleAt c s.baseIdx) + (oracleAt c s.quoteIdx : ℚ) / 2 +
            ((1 + 4 * ε) * (s.reservedBase * oracleAt c s.baseIdx / oracleAt c s.quoteIdx) + 1 / 2)))]
    apply sum_forall₂ M
    intro o ho s _ f
    obtain ⟨t, h1, h2⟩ := f.base
    obtain ⟨u, h3, h4⟩ := f.quote
    have ob : oracleAt c s.baseIdx = (banks o.base).oracle := by rw [oAt _ _ h1, (tp t (List.mem_of_getElem? h1)).2.2.1, hPd, h2]
    have oq : oracleAt c s.quoteIdx = (banks o.quote).oracle := by rw [oAt _ _ h3, (tp u (List.mem_of_getElem? h3)).2.2.1, hPd, h4]
    have qpos : 0 < (banks o.quote).oracle := by rw [← oq, oAt _ _ h3]; exact (tp u (List.mem_of_getElem? h3)).2.1
    have O := hO o ho
    rw [ob, oq, f.reservedBase, f.reservedQuote]
    have hq : (2 : ℚ) ^ 48 = (S : ℚ) := by norm_num [S]
    have h0 : (0 : ℚ) < (S : ℚ) := by norm_num [S]
    have q0 : (0 : ℚ) < ((banks o.quote).oracle : ℚ) := by exact_mod_cast qpos
    unfold slack price
    rw [hq]
    by_cases hb0 : o.baseReserved = 0
    · rw [if_pos (by rw [hb0]; simp), if_pos hb0, hb0]
      apply le_of_eq
      push_cast
      field_simp
      ring
    · rw [if_neg (by intro hh; rcases Int.mul_eq_zero.mp hh with hh | hh; exact hb0 hh; exact absurd hh (by decide)), if_neg hb0]
      push_cast
      have e3 : (o.baseReserved : ℚ) * S * (banks o.base).oracle / (banks o.quote).oracle = o.baseReserved * ((banks o.base).oracle / S) / ((banks o.quote).oracle / S) * S := by
        field_simp
      rw [e3]
      generalize o.baseReserved * (((banks o.base).oracle : ℚ) / S) / ((banks o.quote).oracle / S) = z
      have e4 : ((o.baseReserved : ℚ) * ((banks o.base).oracle / S) + o.quoteReserved * ((banks o.quote).oracle / S) +
          (4 * ε * (o.baseReserved * ((banks o.base).oracle / S)) + ((banks o.quote).oracle / S + o.quoteReserved + (1 + 4 * ε) * z + 1) / S)) * (S * S) =
          (o.quoteReserved * S * (banks o.quote).oracle + o.quoteReserved * S) + ((1 + 4 * ε) * (o.baseReserved * S * (banks o.base).oracle) + (banks o.quote).oracle
            + ((1 + 4 * ε) * (z * S) + S)) := by
        field_simp
        ring
      rw [e4]
      have : (1 : ℚ) / 2 ≤ S := by norm_num [S]
      linarith
  have fin : (v : ℚ) * S ≤ (total banks ps os perps + (os.map (slack banks ε)).sum) * (S * S) := by
    have m1 : (v : ℚ) * S ≤ ((sumOf (fun k => balAt bs k * oracleAt c k) (List.range c.tokens.length) : Int) : ℚ) +
      ((sumOf (fun (x : Serum3Info × Serum3Reserved) => x.2.asQuote * oracleAt c x.1.quoteIdx + x.2.asQuote) (c.serums.zip rs) : Int) : ℚ) := by exact_mod_cast main
    have m2 : ((sumOf (fun k => balAt bs k * oracleAt c k) (List.range c.tokens.length) : Int) : ℚ) ≤
      ((sumOf (fun (t : TokenInfo) => t.balanceSpot * t.prices.oracle) c.tokens : Int) : ℚ) +
      ((sumOf (fun p => (p.quote + p.baseLots * p.baseLotSize * p.basePrices.oracle) * (match c.tokenIdx p.settleTokenIndex with | some i => oracleAt c i | none => 0)) c.perps : Int) : ℚ) := by
      exact_mod_cast bal
    have m3 : (os.map (fun o => (o.baseFree * price banks o.base + o.quoteFree * price banks o.quote) * ((S : ℚ) * S))).sum +
        (os.map (fun o => (o.baseReserved * price banks o.base + o.quoteReserved * price banks o.quote + slack banks ε o) * ((S : ℚ) * S))).sum =
        ((os.map (orders banks)).sum + (os.map (slack banks ε)).sum) * (S * S) := by
      rw [← sum_add_map, ← sum_add_map, ← sum_mul_map]
      congr 1
      apply List.map_congr_left
      intro o _
      unfold orders
      ring
    unfold total spot
    have m4 : ((ps.map (fun p => tokens banks p * price banks p.tokenIndex)).sum + (os.map (orders banks)).sum + perp banks perps + (os.map (slack banks ε)).sum) * ((S : ℚ) * S) =
        (ps.map (fun p => tokens banks p * price banks p.tokenIndex)).sum * (S * S) + perp banks perps * (S * S) + ((os.map (orders banks)).sum + (os.map (slack banks ε)).sum) * (S * S) := by ring
    rw [m4]
    linarith
  have h0 : (0 : ℚ) < (S : ℚ) := by norm_num [S]
  have hq : (2 : ℚ) ^ 48 = (S : ℚ) := by norm_num [S]
  rw [hq, div_le_iff₀ h0]
  rw [← mul_assoc] at fin
  exact le_of_mul_le_mul_right fin h0

end Worth
end Health
end Mango
