import Verif.Bots.Trigger
import Verif.Props.Tcs
import Mathlib.Order.Bounds.Basic
/-!
# C90: which conditional swaps the liquidator triggers, and how much of them
-/
namespace Mango
namespace Trigger
open Fx Swap

/-! ## Specification -/

/-- amounts of the sold token: within the amount that ignores the limits, what the owner borrows in addition (and the liquidator deposits) is at most `borrows` and at most `deposits` -/
def SellFits (pos : I80F48) (cap borrows deposits : Int) : Set Int :=
  {x | 0 ≤ x ∧ x ≤ cap ∧ (0 < x * S - max pos 0 → x * S - max pos 0 ≤ borrows * S ∧ x * S - max pos 0 ≤ deposits * S)}

/-- amounts of the bought token: if the liquidator borrows it, what is left of it after the owner's debt is repaid is at most `borrows` and at most `deposits` -/
def BuyFits (borrowed : Prop) (pos : I80F48) (cap borrows deposits : Int) : Set Int :=
  {x | 0 ≤ x ∧ x ≤ cap ∧ (borrowed → 0 < x * S + min pos 0 → x * S + min pos 0 ≤ borrows * S ∧ x * S + min pos 0 ≤ deposits * S)}

/-- the liquidator borrows the tokens that it gives -/
abbrev Borrowed (c : Cfg) (v : View) : Prop := c.mode = .borrowBuy ∧ v.buyTok ≠ c.collateral

/-- the rule of the comments: pairs with a forbidden token are left alone, and if there is a list of allowed tokens one of the two must be in it -/
abbrev MayTouch (c : Cfg) (buy sell : Nat) : Prop :=
  buy ∉ c.forbiddenTokens ∧ sell ∉ c.forbiddenTokens ∧ (c.onlyTokens = [] ∨ buy ∈ c.onlyTokens ∨ sell ∈ c.onlyTokens)

/-! ## Lemmas -/

theorem clamp_nonneg (x : Int) : 0 ≤ clampToU64 x := by
  unfold clampToU64
  have := S_pos
  split
  · omega
  · split
    · decide
    · exact Int.ediv_nonneg (by omega) (by omega)

theorem clamp_le (x : Int) : clampToU64 x ≤ U64MAX := by
  unfold clampToU64
  have := S_pos
  split
  · decide
  · split
    · omega
    · have h : x < U64MAX * S := by omega
      exact le_of_lt (floor_le_iff.2 h)

/-- whole tokens are clamped to a room exactly if they fit -/
theorem le_clamp {n x : Int} (h0 : 0 < n) (h1 : n ≤ U64MAX) : n ≤ clampToU64 x ↔ n * S ≤ x := by
  unfold clampToU64
  have hs := S_pos
  have : 0 < n * S := Int.mul_pos h0 hs
  split
  · constructor <;> intro <;> omega
  · split
    · rename_i h2
      have : n * S ≤ U64MAX * S := Int.mul_le_mul_of_nonneg_right h1 (by omega)
      constructor <;> intro <;> omega
    · exact le_floor_iff

theorem ceilU64_spec {x y : Int} (h : ceilU64 x = .ok y) (hx : x ≤ U64MAX * S) :
    0 ≤ y ∧ x ≤ y * S ∧ (0 < y → y * S < x + S) ∧ y ≤ U64MAX := by
  unfold ceilU64 at h
  simp only [bind_ok, ceil_ok, ok_inj] at h
  obtain ⟨c, ⟨rfl, _⟩, rfl⟩ := h
  have hs := S_pos
  set k := -((-x) / S) with hk
  have hb := mulFloor_bounds (-x)
  have hneg : k * S = -((-x) / S * S) := by rw [hk]; ring
  have hkU : k ≤ U64MAX := by
    by_contra hc
    have : (U64MAX + 1) * S ≤ k * S := Int.mul_le_mul_of_nonneg_right (by omega) (by omega)
    have e : (U64MAX + 1) * S = U64MAX * S + S := by ring
    omega
  have hcl : clampToU64 (k * S) = max 0 k := by
    unfold clampToU64
    by_cases h0 : k * S ≤ 0
    · rw [if_pos h0]
      have : k ≤ 0 := by
        by_contra hc
        have := Int.mul_pos (show 0 < k by omega) hs
        omega
      omega
    · rw [if_neg h0]
      have hkp : 0 < k := by
        by_contra hc
        have := Int.mul_nonpos_of_nonpos_of_nonneg (show k ≤ 0 by omega) (le_of_lt hs)
        omega
      split
      · rename_i h2
        have : U64MAX ≤ k := by
          by_contra hc
          have : k * S ≤ (U64MAX - 1) * S := Int.mul_le_mul_of_nonneg_right (by omega) (by omega)
          have e : (U64MAX - 1) * S = U64MAX * S - S := by ring
          omega
        omega
      · rw [Int.mul_ediv_cancel _ (by omega)]
        omega
  rw [hcl]
  have hmS : k * S ≤ max 0 k * S := Int.mul_le_mul_of_nonneg_right (by omega) (by omega)
  refine ⟨by omega, by omega, ?_, ?_⟩
  · intro h0
    rw [show max 0 k = k by omega]
    omega
  · have : (0 : Int) ≤ U64MAX := by decide
    omega

theorem reduce_ok {m need avail y : Int} (h : reduce m need avail = .ok y) : y = m - (need - min need avail) ∧ 0 ≤ y := by
  unfold reduce at h
  simp only [bind_ok, cku64_ok] at h
  obtain ⟨o, ⟨rfl, _⟩, rfl, h1, _⟩ := h
  exact ⟨rfl, h1⟩

/-- one reduction: the greatest amount that fits; `off` is what does not count -/
theorem reduce_spec {m need avail y : Int} {off : Int} (hoff : 0 ≤ off) (_hm : 0 ≤ m) (hav : 0 ≤ avail) (hmU : m ≤ U64MAX)
    (hn : ceilU64 (m * S - off) = .ok need) (h : reduce m need avail = .ok y) :
    0 ≤ y ∧ y ≤ m ∧ (0 < y * S - off → y * S - off ≤ avail * S) ∧ ∀ x, x ≤ m → y < x → avail * S < x * S - off := by
  obtain ⟨rfl, hy⟩ := reduce_ok h
  have hs := S_pos
  have hmS : m * S ≤ U64MAX * S := Int.mul_le_mul_of_nonneg_right hmU (by omega)
  obtain ⟨n0, n1, n2, _⟩ := ceilU64_spec hn (by omega)
  refine ⟨hy, by omega, ?_, ?_⟩
  · intro _
    by_cases hc : need ≤ avail
    · have : need * S ≤ avail * S := Int.mul_le_mul_of_nonneg_right hc (by omega)
      rw [show m - (need - min need avail) = m by omega]
      omega
    · rw [show m - (need - min need avail) = m - need + avail by omega]
      have : (m - need + avail) * S = m * S - need * S + avail * S := by ring
      omega
  · intro x hx hyx
    by_cases hc : need ≤ avail
    · omega
    · have h3 : (m - need + avail + 1) * S ≤ x * S := Int.mul_le_mul_of_nonneg_right (by omega) (by omega)
      have e : (m - need + avail + 1) * S = m * S - need * S + avail * S + S := by ring
      have := n2 (by omega)
      omega

theorem greatest_mono {P : Set Int} {y : Int} (h1 : y ∈ P) (h2 : ∀ x ∈ P, x ≤ y) : IsGreatest P y := ⟨h1, fun x hx => h2 x hx⟩

/-! ## Theorems -/

/-- **C90**: the amounts are the largest that fit the borrow and deposit limits of the two banks, or the swap is skipped, which happens only if the limits leave less than a dollar's worth of more than a dollar -/
theorem C90_limits {c : Cfg} {v : View} {maxBuy maxSell : Int} {r : Option (Int × Int)}
    (hb : 0 ≤ maxBuy ∧ maxBuy ≤ U64MAX) (hs : 0 ≤ maxSell ∧ maxSell ≤ U64MAX)
    (h : limited c v maxBuy maxSell = .ok r) :
    ∃ bb sb bd sd buy sell bt st : Int, availableBorrows v.buyBank v.buyPrice = .ok bb ∧ availableBorrows v.sellBank v.sellPrice = .ok sb ∧
      v.buyBank.remainingDepositsUntilLimit = .ok bd ∧ v.sellBank.remainingDepositsUntilLimit = .ok sd ∧
      Fx.div (ofInt 1000000) v.buyPrice = .ok bt ∧ Fx.div (ofInt 1000000) v.sellPrice = .ok st ∧
      IsGreatest (BuyFits (Borrowed c v) v.buyPos maxBuy bb (clampToU64 bd)) buy ∧
      IsGreatest (SellFits v.sellPos maxSell sb (clampToU64 sd)) sell ∧
      (r = none ↔ (buy * S < bt ∧ bt < maxBuy * S) ∨ (sell * S < st ∧ st < maxSell * S)) ∧
      (r ≠ none → r = some (buy, sell)) := by
  unfold limited at h
  simp only [bind_ok] at h
  obtain ⟨bb, hbb, sb, hsb, x1, hx1, sbo, hsbo, x2, hx2, bbo, hbbo, s1, hs1, b1, hb1, rb, hrb, rs, hrs, x3, hx3, lbd, hlbd, x4, hx4, sde, hsde, sell, hsell, buy, hbuy, bt, hbt, st, hst, h⟩ := h
  obtain ⟨rfl, _⟩ := sub_ok.1 hx1
  obtain ⟨rfl, _⟩ := sub_ok.1 hx4
  obtain ⟨rfl, _⟩ := add_ok.1 hx2
  obtain ⟨rfl, _⟩ := add_ok.1 hx3
  have hS := S_pos
  have hbb0 : 0 ≤ bb := by
    unfold availableBorrows at hbb
    simp only [bind_ok, ok_inj] at hbb
    obtain ⟨_, _, _, _, rfl⟩ := hbb
    exact clamp_nonneg _
  have hsb0 : 0 ≤ sb := by
    unfold availableBorrows at hsb
    simp only [bind_ok, ok_inj] at hsb
    obtain ⟨_, _, _, _, rfl⟩ := hsb
    exact clamp_nonneg _
  -- sell side
  obtain ⟨a1, a2, a3, a4⟩ := reduce_spec (off := max v.sellPos 0) (by omega) hs.1 hsb0 hs.2 hsbo hs1
  obtain ⟨c1, c2, c3, c4⟩ := reduce_spec (off := max v.sellPos 0) (by omega) a1 (clamp_nonneg rs) (by omega) hsde hsell
  have hsellG : IsGreatest (SellFits v.sellPos maxSell sb (clampToU64 rs)) sell := by
    have hle : sell * S ≤ s1 * S := Int.mul_le_mul_of_nonneg_right c2 (by omega)
    refine greatest_mono ⟨c1, by omega, fun hp => ⟨?_, c3 hp⟩⟩ ?_
    · have := a3 (by omega)
      omega
    · rintro x ⟨hx0, hxm, hx⟩
      by_contra hc
      have hmul : sb * S ≥ 0 := Int.mul_nonneg hsb0 (by omega)
      have hmul' : clampToU64 rs * S ≥ 0 := Int.mul_nonneg (clamp_nonneg rs) (by omega)
      by_cases hxs : x ≤ s1
      · have := c4 x hxs (by omega)
        have := hx (by omega)
        omega
      · have := a4 x hxm (by omega)
        have := hx (by omega)
        omega
  -- buy side
  have hbuyG : IsGreatest (BuyFits (Borrowed c v) v.buyPos maxBuy bb (clampToU64 rb)) buy := by
    by_cases hB : Borrowed c v
    · have hlb : liqorBorrows c v maxBuy = maxBuy := by
        unfold liqorBorrows
        rw [hB.1]
        simp only
        rw [if_neg hB.2]
      rw [hlb] at hbbo hbuy
      have e1 : Fx.ofInt maxBuy + min v.buyPos 0 = maxBuy * S - (- min v.buyPos 0) := by unfold Fx.ofInt; ring
      have e2 : Fx.ofInt b1 + min v.buyPos 0 = b1 * S - (- min v.buyPos 0) := by unfold Fx.ofInt; ring
      rw [e1] at hbbo
      rw [e2] at hlbd
      obtain ⟨a1, a2, a3, a4⟩ := reduce_spec (off := - min v.buyPos 0) (by omega) hb.1 hbb0 hb.2 hbbo hb1
      have hl : lbd ≤ b1 := by
        have h1 : b1 * S ≤ U64MAX * S := Int.mul_le_mul_of_nonneg_right (by omega) (by omega)
        obtain ⟨q0, _, q2, _⟩ := ceilU64_spec hlbd (by omega)
        by_contra hc
        have h2 : (b1 + 1) * S ≤ lbd * S := Int.mul_le_mul_of_nonneg_right (by omega) (by omega)
        have e : (b1 + 1) * S = b1 * S + S := by ring
        have := q2 (by omega)
        omega
      rw [show min lbd (min maxBuy b1) = lbd by omega] at hbuy
      obtain ⟨c1, c2, c3, c4⟩ := reduce_spec (off := - min v.buyPos 0) (by omega) a1 (clamp_nonneg rb) (by omega) hlbd hbuy
      have hle : buy * S ≤ b1 * S := Int.mul_le_mul_of_nonneg_right c2 (by omega)
      refine greatest_mono ⟨c1, by omega, fun _ hp => ⟨?_, ?_⟩⟩ ?_
      · have := a3 (by omega)
        omega
      · have := c3 (by omega)
        omega
      · rintro x ⟨hx0, hxm, hx⟩
        by_contra hc
        have hmul : bb * S ≥ 0 := Int.mul_nonneg hbb0 (by omega)
        have hmul' : clampToU64 rb * S ≥ 0 := Int.mul_nonneg (clamp_nonneg rb) (by omega)
        by_cases hxs : x ≤ b1
        · have := c4 x hxs (by omega)
          have := hx hB (by omega)
          omega
        · have := a4 x hxm (by omega)
          have := hx hB (by omega)
          omega
    · have hlb : liqorBorrows c v maxBuy = 0 := by
        unfold liqorBorrows
        split
        · rename_i hm
          rw [if_pos]
          by_contra hne
          exact hB ⟨hm, hne⟩
        · rfl
        · rfl
      rw [hlb] at hbbo hbuy
      have hz : Fx.ofInt 0 + min v.buyPos 0 ≤ 0 := by unfold Fx.ofInt; omega
      obtain ⟨q0, _, q2, _⟩ := ceilU64_spec hbbo (le_trans hz (by decide))
      have hq : bbo = 0 := by
        by_contra hc
        have h1 : 1 * S ≤ bbo * S := Int.mul_le_mul_of_nonneg_right (by omega) (by omega)
        have := q2 (by omega)
        omega
      obtain ⟨rfl, hb1'⟩ := reduce_ok hb1
      have hb1e : maxBuy - (bbo - min bbo bb) = maxBuy := by omega
      rw [hb1e] at hlbd hbuy
      obtain ⟨rfl, _⟩ := reduce_ok hbuy
      have hl0 : 0 ≤ lbd := by
        have h1 : maxBuy * S ≤ U64MAX * S := Int.mul_le_mul_of_nonneg_right hb.2 (by omega)
        have e : Fx.ofInt maxBuy = maxBuy * S := rfl
        exact (ceilU64_spec hlbd (by rw [e]; omega)).1
      have := clamp_nonneg rb
      have hfin : maxBuy - (min lbd (min 0 maxBuy) - min (min lbd (min 0 maxBuy)) (clampToU64 rb)) = maxBuy := by omega
      rw [hfin]
      exact greatest_mono ⟨hb.1, le_refl _, fun hB' => absurd hB' hB⟩ (fun x hx => hx.2.1)
  refine ⟨bb, sb, rb, rs, buy, sell, bt, st, hbb, hsb, hrb, hrs, hbt, hst, hbuyG, hsellG, ?_, ?_⟩
  · split at h
    · rename_i hc
      rw [ok_inj] at h
      subst h
      simp only [true_iff]
      exact hc
    · rename_i hc
      rw [ok_inj] at h
      subst h
      exact ⟨fun hn => (by cases hn), fun hc' => absurd hc' hc⟩
  · intro hn
    split at h
    · rw [ok_inj] at h
      exact absurd h.symm hn
    · rw [ok_inj] at h
      exact h.symm

theorem ceilU64_total {x : Int} (h : inRange x) (hx : x ≤ U64MAX * S) : ∃ y, ceilU64 x = .ok y := by
  have hb := mulFloor_bounds (-x)
  have hneg : -((-x) / S) * S = -((-x) / S * S) := by ring
  have hr : inRange (-((-x) / S) * S) := by
    unfold inRange at h ⊢
    rw [hneg]
    have : U64MAX * S + S ≤ I128MAX := by decide
    omega
  unfold ceilU64
  rw [show Fx.ceil x = .ok (-((-x) / S) * S) from ceil_ok.2 ⟨rfl, hr⟩]
  exact ⟨_, rfl⟩

theorem reduce_total {m need avail : Int} (h0 : 0 ≤ need) (h1 : need ≤ m) (hm : m ≤ U64MAX) (ha : 0 ≤ avail) : ∃ y, reduce m need avail = .ok y := by
  unfold reduce
  rw [show cku64 (need - min need avail) = .ok (need - min need avail) from cku64_ok.2 ⟨rfl, by omega, by omega⟩]
  exact ⟨_, cku64_ok.2 ⟨rfl, by omega, by omega⟩⟩

theorem ceilU64_le {m off y : Int} (hm : 0 ≤ m) (hmU : m ≤ U64MAX) (ho : 0 ≤ off) (h : ceilU64 (m * S - off) = .ok y) : 0 ≤ y ∧ y ≤ m := by
  have hS := S_pos
  have hmS : m * S ≤ U64MAX * S := Int.mul_le_mul_of_nonneg_right hmU (by omega)
  obtain ⟨q0, _, q2, _⟩ := ceilU64_spec h (by omega)
  refine ⟨q0, ?_⟩
  by_contra hc
  have h2 : (m + 1) * S ≤ y * S := Int.mul_le_mul_of_nonneg_right (by omega) (by omega)
  have e : (m + 1) * S = m * S + S := by ring
  have := q2 (by omega)
  omega

/-- **C90, no panic** The subtractions of the sizing never underflow, whatever the positions: it only fails where a limit itself or a dollar's worth of a token cannot be computed -/
theorem C90_total {c : Cfg} {v : View} {maxBuy maxSell bb sb bd sd bt st : Int}
    (hb : 0 ≤ maxBuy ∧ maxBuy ≤ U64MAX) (hs : 0 ≤ maxSell ∧ maxSell ≤ U64MAX) (hp : inRange v.buyPos) (hq : inRange v.sellPos)
    (h1 : availableBorrows v.buyBank v.buyPrice = .ok bb) (h2 : availableBorrows v.sellBank v.sellPrice = .ok sb)
    (h3 : v.buyBank.remainingDepositsUntilLimit = .ok bd) (h4 : v.sellBank.remainingDepositsUntilLimit = .ok sd)
    (h5 : Fx.div (ofInt 1000000) v.buyPrice = .ok bt) (h6 : Fx.div (ofInt 1000000) v.sellPrice = .ok st) :
    ∃ r, limited c v maxBuy maxSell = .ok r := by
  have hS := S_pos
  have hbb0 : 0 ≤ bb := by
    have h1' := h1
    unfold availableBorrows at h1'
    simp only [bind_ok, ok_inj] at h1'
    obtain ⟨_, _, _, _, rfl⟩ := h1'
    exact clamp_nonneg _
  have hsb0 : 0 ≤ sb := by
    have h1' := h2
    unfold availableBorrows at h1'
    simp only [bind_ok, ok_inj] at h1'
    obtain ⟨_, _, _, _, rfl⟩ := h1'
    exact clamp_nonneg _
  have hlb : 0 ≤ liqorBorrows c v maxBuy ∧ liqorBorrows c v maxBuy ≤ maxBuy := by
    unfold liqorBorrows
    split
    · split <;> omega
    · omega
    · omega
  set lb := liqorBorrows c v maxBuy with hlbd
  have big : U64MAX * S ≤ I128MAX := by decide
  unfold inRange at hp hq
  have rS : ∀ m : Int, 0 ≤ m → m ≤ U64MAX → 0 ≤ m * S ∧ m * S ≤ U64MAX * S := fun m h0 hU =>
    ⟨Int.mul_nonneg h0 (by omega), Int.mul_le_mul_of_nonneg_right hU (by omega)⟩
  have subR : ∀ m : Int, 0 ≤ m → m ≤ U64MAX → inRange (m * S - max v.sellPos 0) := fun m h0 hU => by
    have := rS m h0 hU
    have : I128MIN = - I128MAX - 1 := by decide
    unfold inRange; omega
  have addR : ∀ m : Int, 0 ≤ m → m ≤ U64MAX → inRange (m * S - (- min v.buyPos 0)) := fun m h0 hU => by
    have := rS m h0 hU
    have : I128MIN ≤ 0 := by decide
    unfold inRange; omega
  have subE : ∀ m : Int, 0 ≤ m → m ≤ U64MAX → Fx.sub (ofInt m) (max v.sellPos 0) = .ok (m * S - max v.sellPos 0) := fun m h0 hU =>
    sub_ok.2 ⟨rfl, subR m h0 hU⟩
  have addE : ∀ m : Int, 0 ≤ m → m ≤ U64MAX → Fx.add (ofInt m) (min v.buyPos 0) = .ok (m * S - (- min v.buyPos 0)) := fun m h0 hU => by
    have e : ofInt m + min v.buyPos 0 = m * S - (- min v.buyPos 0) := by unfold ofInt; ring
    exact add_ok.2 ⟨e.symm, by rw [e]; exact addR m h0 hU⟩
  obtain ⟨sbo, hsbo⟩ := ceilU64_total (subR maxSell hs.1 hs.2) (by have := rS maxSell hs.1 hs.2; omega)
  obtain ⟨p0, p1⟩ := ceilU64_le hs.1 hs.2 (by omega) hsbo
  obtain ⟨bbo, hbbo⟩ := ceilU64_total (addR lb hlb.1 (by omega)) (by have := rS lb hlb.1 (by omega); omega)
  obtain ⟨p2, p3⟩ := ceilU64_le hlb.1 (by omega) (by omega) hbbo
  obtain ⟨s1, hs1⟩ := reduce_total p0 p1 hs.2 hsb0
  obtain ⟨b1, hb1⟩ := reduce_total p2 (by omega : bbo ≤ maxBuy) hb.2 hbb0
  obtain ⟨es1, hs10⟩ := reduce_ok hs1
  obtain ⟨eb1, hb10⟩ := reduce_ok hb1
  obtain ⟨lbd, hlbd'⟩ := ceilU64_total (addR b1 hb10 (by omega)) (by have := rS b1 hb10 (by omega); omega)
  obtain ⟨p4, p5⟩ := ceilU64_le hb10 (by omega) (by omega) hlbd'
  obtain ⟨sde, hsde⟩ := ceilU64_total (subR s1 hs10 (by omega)) (by have := rS s1 hs10 (by omega); omega)
  obtain ⟨p6, p7⟩ := ceilU64_le hs10 (by omega) (by omega) hsde
  obtain ⟨sell, hsell⟩ := reduce_total p6 p7 (by omega) (clamp_nonneg sd)
  obtain ⟨buy, hbuy⟩ := reduce_total (need := min lbd (min lb b1)) (by omega) (by omega : _ ≤ b1) (by omega) (clamp_nonneg bd)
  refine ⟨if (buy * S < bt ∧ maxBuy * S > bt) ∨ (sell * S < st ∧ maxSell * S > st) then none else some (buy, sell), ?_⟩
  unfold limited
  simp only [bind_ok]
  refine ⟨bb, h1, sb, h2, _, subE maxSell hs.1 hs.2, sbo, hsbo, _, addE lb hlb.1 (by omega), bbo, hbbo, s1, hs1, b1, hb1, bd, h3, sd, h4, _, addE b1 hb10 (by omega), lbd, hlbd',
    _, subE s1 hs10 (by omega), sde, hsde, sell, hsell, buy, hbuy, bt, h5, st, h6, ?_⟩
  split <;> rfl

/-- the bank with `x` more net borrows -/
def borrowMore (b : Bank) (x : Int) : Bank := { b with netBorrowsInWindow := b.netBorrowsInWindow + x }

/-- **C90, borrow room** If the stable price is not above the oracle price and net borrows are not negative, then borrowing up to the computed room keeps the bank within its net borrow limit -/
theorem C90_borrow_room {b : Bank} {price : I80F48} {room x : Int} (hp : 0 < price) (hst : b.stablePrice ≤ price) (hn : 0 ≤ b.netBorrowsInWindow)
    (hl : 0 ≤ b.netBorrowLimitPerWindowQuote ∧ b.netBorrowLimitPerWindowQuote ≤ I64MAX) (hroom : availableBorrows b price = .ok room)
    (hok : b.checkNetBorrows price = .ok ()) (hx : 0 ≤ x ∧ x ≤ room) : (borrowMore b x).checkNetBorrows price = .ok () := by
  have hS := S_pos
  have hmax : max price b.stablePrice = price := by omega
  unfold availableBorrows Bank.remainingNetBorrowsQuote at hroom
  unfold Bank.checkNetBorrows Bank.remainingNetBorrowsQuote at hok
  rw [if_neg (by omega)] at hroom hok
  simp only [bind_ok, hmax, mulInt_ok, sub_ok] at hroom hok
  obtain ⟨r, ⟨q, ⟨rfl, _⟩, rfl, hr⟩, h2⟩ := hok
  have hr0 : ¬ (ofInt b.netBorrowLimitPerWindowQuote - price * b.netBorrowsInWindow < 0) := by
    intro hc
    rw [if_pos hc] at h2
    cases h2
  obtain ⟨r, ⟨q, ⟨rfl, _⟩, rfl, _⟩, z, hz, h3⟩ := hroom
  have hkey : price * x ≤ ofInt b.netBorrowLimitPerWindowQuote - price * b.netBorrowsInWindow := by
    unfold Client.satDiv at hz
    rw [if_neg (by omega), ok_inj] at hz
    rw [ok_inj] at h3
    by_cases hx0 : x = 0
    · subst hx0; rw [Int.mul_zero]; omega
    · set rem := ofInt b.netBorrowLimitPerWindowQuote - price * b.netBorrowsInWindow with hrem
      have hxU : x ≤ U64MAX := by
        have := clamp_le z
        omega
      have hxz : x * S ≤ z := (le_clamp (by omega) hxU).1 (by omega)
      have ht : Int.tdiv (rem * S) price = rem * S / price := Int.tdiv_eq_ediv_of_nonneg (Int.mul_nonneg (by omega) (by omega))
      have hxt : x * S ≤ rem * S / price := by
        rw [← ht]
        unfold Client.sat at hz
        have : 0 < x * S := Int.mul_pos (by omega) hS
        have : I128MIN ≤ 0 := by decide
        omega
      have h4 : x * S * price ≤ rem * S := (Int.le_ediv_iff_mul_le hp).1 hxt
      have h5 : price * x * S ≤ rem * S := by
        rw [show price * x * S = x * S * price by ring]; exact h4
      exact Int.le_of_mul_le_mul_right h5 hS
  have e : price * (b.netBorrowsInWindow + x) = price * b.netBorrowsInWindow + price * x := by ring
  have hpn : 0 ≤ price * b.netBorrowsInWindow := Int.mul_nonneg (by omega) hn
  have hpx : 0 ≤ price * x := Int.mul_nonneg (by omega) hx.1
  have hlS : 0 ≤ ofInt b.netBorrowLimitPerWindowQuote ∧ ofInt b.netBorrowLimitPerWindowQuote ≤ I64MAX * S :=
    ⟨Int.mul_nonneg hl.1 (by omega), Int.mul_le_mul_of_nonneg_right hl.2 (by omega)⟩
  have big : I64MAX * S ≤ I128MAX := by decide
  have small : I128MIN ≤ 0 := by decide
  have h6 : inRange (price * (b.netBorrowsInWindow + x)) := by unfold inRange; omega
  have h7 : inRange (ofInt b.netBorrowLimitPerWindowQuote - price * (b.netBorrowsInWindow + x)) := by unfold inRange; omega
  unfold Bank.checkNetBorrows Bank.remainingNetBorrowsQuote borrowMore
  dsimp only
  rw [if_neg (by omega)]
  simp only [bind_ok, hmax, mulInt_ok, sub_ok]
  refine ⟨_, ⟨_, ⟨rfl, h6⟩, rfl, h7⟩, ?_⟩
  rw [if_neg (by omega)]

/-- **C90, borrow room, the other way** The bot's room is all there is: one more token than the room breaks the limit (so no allowed execution is cut) -/
theorem C90_borrow_room_tight {b : Bank} {price : I80F48} {room : Int} (hp : 0 < price) (hst : b.stablePrice ≤ price) (hn : 0 ≤ b.netBorrowsInWindow)
    (hl : 0 ≤ b.netBorrowLimitPerWindowQuote) (hroom : availableBorrows b price = .ok room) (hlt : room < U64MAX)
    (hok : b.checkNetBorrows price = .ok ()) : (borrowMore b (room + 1)).checkNetBorrows price ≠ .ok () := by
  have hS := S_pos
  have hmax : max price b.stablePrice = price := by omega
  unfold availableBorrows Bank.remainingNetBorrowsQuote at hroom
  unfold Bank.checkNetBorrows Bank.remainingNetBorrowsQuote at hok
  rw [if_neg (by omega)] at hroom hok
  simp only [bind_ok, hmax, mulInt_ok, sub_ok] at hroom hok
  obtain ⟨r, ⟨q, ⟨rfl, _⟩, rfl, hr⟩, h2⟩ := hok
  have hr0 : ¬ (ofInt b.netBorrowLimitPerWindowQuote - price * b.netBorrowsInWindow < 0) := by
    intro hc
    rw [if_pos hc] at h2
    cases h2
  obtain ⟨r, ⟨q, ⟨rfl, _⟩, rfl, _⟩, z, hz, h3⟩ := hroom
  unfold Client.satDiv at hz
  rw [if_neg (by omega), ok_inj] at hz
  rw [ok_inj] at h3
  set rem := ofInt b.netBorrowLimitPerWindowQuote - price * b.netBorrowsInWindow with hrem
  have hroom0 : 0 ≤ room := by rw [← h3]; exact clamp_nonneg _
  have hnot : ¬ (room + 1) * S ≤ z := fun hc => by
    have := (le_clamp (n := room + 1) (x := z) (by omega) (by omega)).2 hc
    omega
  have ht : Int.tdiv (rem * S) price = rem * S / price := Int.tdiv_eq_ediv_of_nonneg (Int.mul_nonneg (by omega) (by omega))
  have hq0 : 0 ≤ rem * S / price := Int.ediv_nonneg (Int.mul_nonneg (by omega) (by omega)) (by omega)
  have hz' : rem * S / price < (room + 1) * S := by
    have h8 : (room + 1) * S ≤ U64MAX * S := Int.mul_le_mul_of_nonneg_right (by omega) (by omega)
    have big : U64MAX * S ≤ I128MAX := by decide
    have small : I128MIN ≤ 0 := by decide
    rw [← ht] at hq0 ⊢
    unfold Client.sat at hz
    omega
  have h4 : rem * S < (room + 1) * S * price := (Int.ediv_lt_iff_lt_mul hp).1 hz'
  have h5 : rem * S < price * (room + 1) * S := by
    rw [show price * (room + 1) * S = (room + 1) * S * price by ring]; exact h4
  have h6 : rem < price * (room + 1) := Int.lt_of_mul_lt_mul_right h5 (by omega)
  intro hc
  unfold Bank.checkNetBorrows Bank.remainingNetBorrowsQuote borrowMore at hc
  dsimp only at hc
  rw [if_neg (by omega)] at hc
  simp only [bind_ok, hmax, mulInt_ok, sub_ok] at hc
  obtain ⟨r, ⟨q, ⟨rfl, _⟩, rfl, _⟩, h7⟩ := hc
  have e : price * (b.netBorrowsInWindow + (room + 1)) = price * b.netBorrowsInWindow + price * (room + 1) := by ring
  rw [if_pos (by omega)] at h7
  cases h7

/-- the check of the pair is right -/
theorem pairAllowed_iff (c : Cfg) (buy sell : Nat) : pairAllowed c buy sell = true ↔ MayTouch c buy sell := by
  unfold pairAllowed MayTouch
  split
  · simp_all
  · split
    · simp_all
    · split
      · simp_all
      · split
        · simp_all
        · split <;> simp_all

/-- **C90, interesting** A swap that has not expired is taken up only if the configuration lets the liquidator touch the token it buys, if the program would let it be triggered at this price, and if the price the taker gets is not
below the oracle price and pays for the estimated cost of the opposite trade and the wanted profit -/
theorem C90_interesting {rnd : ℚ → ℚ} {c : Cfg} {t : Tcs} {buyTok sellTok : Nat} {base : ℚ} {now : Int} {bc sc : Option ℚ} :
    interesting rnd c t buyTok sellTok base now bc sc = .ok true ↔
      (now ≥ t.expiry ∨ (buyTok ∉ c.forbiddenTokens ∧ (c.onlyTokens = [] ∨ buyTok ∈ c.onlyTokens) ∧ t.checkTriggerable base now = .ok () ∧
        ∃ premium b s, t.premiumPrice rnd base now = .ok premium ∧ bc = some b ∧ sc = some s ∧ t.takerPrice rnd premium ≥ base ∧
          t.takerPrice rnd premium ≥ rnd (rnd (base * rnd (b * s)) * rnd (1 + c.profitFraction)))) := by
  unfold interesting
  by_cases he : t.isExpired now
  · rw [if_pos he]
    exact ⟨fun _ => Or.inl he, fun _ => rfl⟩
  · rw [if_neg he]
    have he' : ¬ now ≥ t.expiry := he
    simp only [he', false_or]
    by_cases ha : pairAllowed c buyTok buyTok = false
    · rw [if_pos ha]
      have : ¬ MayTouch c buyTok buyTok := by rw [← pairAllowed_iff, ha]; simp
      unfold MayTouch at this
      constructor
      · intro h; simp at h
      · rintro ⟨h1, h2, _⟩
        exact absurd ⟨h1, h1, by tauto⟩ this
    · rw [if_neg ha]
      have ha' : MayTouch c buyTok buyTok := by rw [← pairAllowed_iff]; simpa using ha
      have h12 : buyTok ∉ c.forbiddenTokens ∧ (c.onlyTokens = [] ∨ buyTok ∈ c.onlyTokens) := ⟨ha'.1, by have := ha'.2.2; tauto⟩
      cases hc : t.checkTriggerable base now with
      | error e => simp
      | ok u =>
        simp only [h12.1, h12.2, not_false_eq_true, true_and]
        unfold plausible
        simp only [bind_ok]
        constructor
        · rintro ⟨p, hp, h⟩
          by_cases hlt : t.takerPrice rnd p < base
          · rw [if_pos hlt] at h; simp at h
          · rw [if_neg hlt] at h
            split at h
            · rename_i b s
              rw [ok_inj, decide_eq_true_eq] at h
              exact ⟨p, b, s, hp, rfl, rfl, not_lt.1 hlt, h⟩
            · cases h
        · rintro ⟨p, b, s, hp, rfl, rfl, h1, h2⟩
          refine ⟨p, hp, ?_⟩
          rw [if_neg (not_lt.2 h1)]
          simp only [ok_inj, decide_eq_true_eq]
          exact h2

/-- **finding** The token that is sold is never looked at: whatever the lists say about it, the answer is the same -/
theorem C90_sold_token_ignored (rnd : ℚ → ℚ) (c : Cfg) (t : Tcs) (buyTok s s' : Nat) (base : ℚ) (now : Int) (bc sc : Option ℚ) :
    interesting rnd c t buyTok s base now bc sc = interesting rnd c t buyTok s' base now bc sc := rfl

theorem quoteVolume_ok {v : View} {buy sell : Int} {q : I80F48} (h : quoteVolume v buy sell = .ok q) : q ≤ buy * v.buyPrice ∧ q ≤ sell * v.sellPrice := by
  have hS := S_pos
  unfold quoteVolume at h
  simp only [bind_ok, mul_ok, ok_inj] at h
  obtain ⟨b, ⟨rfl, _⟩, s, ⟨rfl, _⟩, rfl⟩ := h
  have e1 : ofInt buy * v.buyPrice / S = buy * v.buyPrice := by
    rw [show ofInt buy * v.buyPrice = buy * v.buyPrice * S by unfold ofInt; ring]
    exact Int.mul_ediv_cancel _ (by omega)
  have e2 : ofInt sell * v.sellPrice / S = sell * v.sellPrice := by
    rw [show ofInt sell * v.sellPrice = sell * v.sellPrice * S by unfold ofInt; ring]
    exact Int.mul_ediv_cancel _ (by omega)
  omega

theorem clamp_mul_le {x : Int} (h : 0 ≤ x) : clampToU64 x * S ≤ x := by
  have hS := S_pos
  unfold clampToU64
  split
  · omega
  · split
    · rename_i h2; exact h2
    · exact (mulFloor_bounds x).1

/-- **C90, size** What is executed: at most what the owner's side allows and what the liquidator can provide, worth at most the configured amount at the oracle price; the volume counts at most the value of either side; and the
taker price pays for the quoted price of the opposite trade plus the wanted profit, which is also required of the program -/
theorem C90_size {rnd rnd32 : ℚ → ℚ} {c : Cfg} {v : View} {exec : Option (Int × Int)} {taker : I80F48} {avail : Mode → Res I80F48} {ask : Mode → I80F48 → ℚ → Res Quote} {p : Prepared}
    (hb : 0 < v.buyPrice) (hs : 0 < v.sellPrice) (hm : 0 ≤ c.maxTrigger) (hexec : ∀ b s, exec = some (b, s) → 0 ≤ b ∧ 0 ≤ s)
    (h : prepare rnd rnd32 c v exec taker avail ask = .ok (some p)) :
    ∃ (buy sell : Int) (a amount : I80F48) (price : ℚ), exec = some (buy, sell) ∧ avail p.mode = .ok a ∧ ask p.mode amount (rnd (toF rnd taker / rnd (1 + c.profitFraction))) = .ok (.quote price) ∧
      0 < p.maxBuy ∧ p.maxBuy ≤ buy ∧ p.maxBuy * S ≤ a ∧ p.maxBuy * v.buyPrice ≤ c.maxTrigger * S ∧
      0 < p.maxSell ∧ p.maxSell = sell ∧
      0 ≤ p.volume ∧ p.volume ≤ c.maxTrigger ∧ p.volume * S ≤ p.maxBuy * v.buyPrice ∧ p.volume * S ≤ p.maxSell * v.sellPrice ∧
      p.minTakerPrice = rnd32 (rnd (price * rnd (1 + c.profitFraction))) ∧ p.minTakerPrice ≤ rnd32 ((taker : ℚ) / S) := by
  have hS := S_pos
  unfold prepare at h
  cases exec with
  | none => simp at h
  | some e =>
    obtain ⟨buy, sell⟩ := e
    obtain ⟨hb0, hs0⟩ := hexec buy sell rfl
    simp only [bind_ok] at h
    obtain ⟨mode, _, a, ha, mt, hmt, h⟩ := h
    by_cases hz : sell = 0 ∨ min (clampToU64 (min a mt)) buy = 0
    · rw [if_pos hz] at h; simp at h
    rw [if_neg hz] at h
    simp only [bind_ok] at h
    obtain ⟨volume, hvol, amount, _, q, hq, h⟩ := h
    cases q with
    | bad _ => simp at h
    | quote price =>
      simp only at h
      split at h
      · simp at h
      rename_i hprice
      simp only [bind_ok, ok_inj, Option.some.injEq] at h
      obtain ⟨b, _, rfl⟩ := h
      dsimp only
      have hcl := clamp_nonneg (min a mt)
      have hpos : 0 < min (clampToU64 (min a mt)) buy := by omega
      have hmin0 : 0 ≤ min a mt := by
        by_contra hc
        have : clampToU64 (min a mt) = 0 := by unfold clampToU64; rw [if_pos (by omega)]
        omega
      have hle := clamp_mul_le hmin0
      have h1 : min (clampToU64 (min a mt)) buy * S ≤ clampToU64 (min a mt) * S := Int.mul_le_mul_of_nonneg_right (by omega) (by omega)
      obtain ⟨hmt1, hmt2⟩ : mt * v.buyPrice ≤ ofInt c.maxTrigger * S ∧ 0 ≤ mt := by
        have hq0 : 0 ≤ ofInt c.maxTrigger * S := Int.mul_nonneg (Int.mul_nonneg hm (by omega)) (by omega)
        obtain ⟨_, rfl, _⟩ := div_ok.1 hmt
        rw [Int.tdiv_eq_ediv_of_nonneg hq0]
        exact ⟨Int.ediv_mul_le _ (by omega), Int.ediv_nonneg hq0 (by omega)⟩
      have hbuyval : min (clampToU64 (min a mt)) buy * v.buyPrice ≤ c.maxTrigger * S := by
        have h2 : min (clampToU64 (min a mt)) buy * S * v.buyPrice ≤ mt * v.buyPrice := Int.mul_le_mul_of_nonneg_right (by omega) (by omega)
        have h3 : min (clampToU64 (min a mt)) buy * v.buyPrice * S ≤ c.maxTrigger * S * S := by
          rw [show min (clampToU64 (min a mt)) buy * v.buyPrice * S = min (clampToU64 (min a mt)) buy * S * v.buyPrice by ring]
          exact le_trans h2 hmt1
        exact Int.le_of_mul_le_mul_right h3 hS
      obtain ⟨hv1, hv2⟩ := quoteVolume_ok hvol
      have hv0 : 0 ≤ volume := by
        unfold quoteVolume at hvol
        simp only [bind_ok, mul_ok, ok_inj] at hvol
        obtain ⟨x, ⟨rfl, _⟩, y, ⟨rfl, _⟩, rfl⟩ := hvol
        exact le_min (Int.ediv_nonneg (Int.mul_nonneg (Int.mul_nonneg (by omega) (by omega)) (by omega)) (by omega))
          (Int.ediv_nonneg (Int.mul_nonneg (Int.mul_nonneg (by omega) (by omega)) (by omega)) (by omega))
      have hcv := clamp_mul_le hv0
      have hcv0 := clamp_nonneg volume
      refine ⟨buy, sell, a, amount, price, rfl, ha, hq, hpos, by omega, by omega, hbuyval, by omega, rfl, hcv0, ?_, by omega, by omega, rfl, not_lt.1 hprice⟩
      have : clampToU64 volume * S ≤ c.maxTrigger * S := by omega
      exact Int.le_of_mul_le_mul_right this hS

/-- **C90, volume** The volume by which swaps are ordered and budgeted is at most the value of either side at the oracle prices -/
theorem C90_volume {c : Cfg} {t : Tcs} {v : View} {search : I80F48} {q : Int} (h : maxVolume c t v search = .ok (some q)) :
    ∃ buy sell, maxLiqeeExecution c t v search = .ok (some (buy, sell)) ∧ (0 < q → q * S ≤ buy * v.buyPrice ∧ q * S ≤ sell * v.sellPrice) := by
  have hS := S_pos
  unfold maxVolume at h
  simp only [bind_ok] at h
  obtain ⟨r, hr, h⟩ := h
  cases r with
  | none => simp at h
  | some e =>
    obtain ⟨buy, sell⟩ := e
    simp only [bind_ok, floor_ok, ok_inj, Option.some.injEq] at h
    obtain ⟨w, hw, f, ⟨rfl, _⟩, rfl⟩ := h
    refine ⟨buy, sell, hr, fun hq => ?_⟩
    obtain ⟨h1, h2⟩ := quoteVolume_ok hw
    have h0 : 0 ≤ w / S * S := by
      by_contra hc
      have : clampToU64 (w / S * S) = 0 := by unfold clampToU64; rw [if_pos (by omega)]
      omega
    have := clamp_mul_le h0
    have := (mulFloor_bounds w).1
    omega

/-- **finding** Expired swaps, which are only closed, are skipped as well while the limits leave no room for an execution -/
theorem C90_expired_waits {rnd : ℚ → ℚ} {c : Cfg} {t : Tcs} {v : View} {base : ℚ} {now : Int} {bc sc : Option ℚ} {search : I80F48} (he : now ≥ t.expiry)
    (hl : maxLiqeeExecution c t v search = .ok none) : listed rnd c t v base now bc sc search = .ok none := by
  unfold listed interesting
  rw [if_pos (show t.isExpired now from he)]
  simp only [bind_ok]
  exact ⟨true, rfl, by simp only [if_true]; unfold maxVolume; rw [hl]; rfl⟩

theorem isGreatest_le {P : Set Int} {y b : Int} (h : IsGreatest P y) (hb : ∀ x ∈ P, x ≤ b) : y ≤ b := hb y h.1

/-- **C90, owner** Never more than the owner's health (the search), the rest of the order, and the order's permissions allow: without permission to borrow (or with a bank in reduce-only mode) at most what the owner has is sold, without
permission to deposit at most what the owner owes is bought (rounded up) -/
theorem C90_owner {c : Cfg} {t : Tcs} {v : View} {search : I80F48} {buy sell : Int} (h : maxLiqeeExecution c t v search = .ok (some (buy, sell))) :
    0 ≤ buy ∧ 0 ≤ sell ∧ sell * S ≤ search ∧ sell ≤ t.maxSell - t.sold ∧ buy ≤ t.maxBuy - t.bought ∧
    ((t.allowBorrows = false ∨ v.sellBank.areBorrowsReduceOnly = true) → sell * S ≤ max v.sellPos 0) ∧
    ((t.allowDeposits = false ∨ v.buyBank.areDepositsReduceOnly = true) → 0 < buy → buy * S < - v.buyPos + S) := by
  have hS := S_pos
  unfold maxLiqeeExecution at h
  simp only [bind_ok, floor_ok, cku64_ok] at h
  obtain ⟨f, ⟨rfl, _⟩, m, ⟨rfl, hm0, hmU⟩, ms, hms, mb, hmb, h⟩ := h
  have hf : toInt (search / S * S) = search / S := by unfold toInt; exact Int.mul_ediv_cancel _ (by omega)
  rw [hf] at hm0 hmU h
  have hms' : 0 ≤ ms ∧ ms ≤ t.maxSell - t.sold ∧ ((t.allowBorrows = false ∨ v.sellBank.areBorrowsReduceOnly = true) → ms * S ≤ max v.sellPos 0) := by
    unfold Tcs.maxSellForPosition Tcs.remainingSell at hms
    simp only [bind_ok, cku64_ok] at hms
    obtain ⟨r, ⟨rfl, r0, rU⟩, w, hw, hms⟩ := hms
    rw [ok_inj] at hms
    by_cases hc : t.allowBorrows = true ∧ v.sellBank.areBorrowsReduceOnly = false
    · rw [if_pos hc, ok_inj] at hw
      have : (0 : Int) ≤ U64MAX := by decide
      refine ⟨by omega, by omega, fun hd => ?_⟩
      rcases hd with hd | hd
      · rw [hd] at hc; simp at hc
      · rw [hd] at hc; simp at hc
    · rw [if_neg hc] at hw
      simp only [bind_ok, floor_ok, ok_inj] at hw
      obtain ⟨g, ⟨rfl, _⟩, rfl⟩ := hw
      have h0 := clamp_nonneg (v.sellPos / S * S)
      refine ⟨by omega, by omega, fun _ => ?_⟩
      by_cases hp : 0 ≤ v.sellPos / S * S
      · have h1 := clamp_mul_le hp
        have h2 := (mulFloor_bounds v.sellPos).1
        have h3 : ms * S ≤ clampToU64 (v.sellPos / S * S) * S := Int.mul_le_mul_of_nonneg_right (by omega) (by omega)
        omega
      · have : clampToU64 (v.sellPos / S * S) = 0 := by unfold clampToU64; rw [if_pos (by omega)]
        have h4 : ms = 0 := by omega
        rw [h4]; omega
  have hmb' : 0 ≤ mb ∧ mb ≤ U64MAX ∧ mb ≤ t.maxBuy - t.bought ∧ ((t.allowDeposits = false ∨ v.buyBank.areDepositsReduceOnly = true) → 0 < mb → mb * S < - v.buyPos + S) := by
    unfold Tcs.maxBuyForPosition Tcs.remainingBuy at hmb
    simp only [bind_ok, cku64_ok] at hmb
    obtain ⟨r, ⟨rfl, r0, rU⟩, w, hw, hmb⟩ := hmb
    rw [ok_inj] at hmb
    by_cases hc : t.allowDeposits = true ∧ v.buyBank.areDepositsReduceOnly = false
    · rw [if_pos hc, ok_inj] at hw
      have : (0 : Int) ≤ U64MAX := by decide
      refine ⟨by omega, by omega, by omega, fun hd => ?_⟩
      rcases hd with hd | hd
      · rw [hd] at hc; simp at hc
      · rw [hd] at hc; simp at hc
    · rw [if_neg hc] at hw
      simp only [bind_ok, neg_ok, ceil_ok, ok_inj] at hw
      obtain ⟨n, ⟨rfl, _⟩, g, ⟨rfl, _⟩, rfl⟩ := hw
      have h0 := clamp_nonneg (-(- -v.buyPos / S) * S)
      refine ⟨by omega, by omega, by omega, fun _ hp => ?_⟩
      have hpos : 0 ≤ -(- -v.buyPos / S) * S := by
        by_contra hcn
        have : clampToU64 (-(- -v.buyPos / S) * S) = 0 := by unfold clampToU64; rw [if_pos (by omega)]
        omega
      have h1 := clamp_mul_le hpos
      have h2 := (mulFloor_bounds (- -v.buyPos)).2
      have h3 : mb * S ≤ clampToU64 (-(- -v.buyPos / S) * S) * S := Int.mul_le_mul_of_nonneg_right (by omega) (by omega)
      have e : -(- -v.buyPos / S) * S = -(- -v.buyPos / S * S) := by ring
      omega
  obtain ⟨m0, m1, m2⟩ := hms'
  obtain ⟨b0, bU, b1, b2⟩ := hmb'
  obtain ⟨_, _, _, _, buy', sell', _, _, _, _, _, _, _, _, hB, hSl, _, hr⟩ := C90_limits (r := some (buy, sell)) ⟨b0, bU⟩ ⟨by omega, by omega⟩ h
  have heq := hr (by simp)
  simp only [Option.some.injEq, Prod.mk.injEq] at heq
  obtain ⟨rfl, rfl⟩ := heq
  have hb1 := hB.1.1
  have hb2 := hB.1.2.1
  have hs1 := hSl.1.1
  have hs2 := hSl.1.2.1
  have hsS : sell * S ≤ search / S * S := Int.mul_le_mul_of_nonneg_right (by omega) (by omega)
  have hsM : sell * S ≤ ms * S := Int.mul_le_mul_of_nonneg_right (by omega) (by omega)
  have hbM : buy * S ≤ mb * S := Int.mul_le_mul_of_nonneg_right (by omega) (by omega)
  have := (mulFloor_bounds search).1
  refine ⟨hb1, hs1, by omega, by omega, by omega, fun hd => ?_, fun hd hp => ?_⟩
  · have := m2 hd; omega
  · have := b2 hd (by omega); omega

/-- **C90, mode** The configured way of getting the bought token is used, except that borrowing the sold token falls back on swapping collateral: it is done only if the bank of the sold token lets new borrows be made and its net borrow
limit leaves room for the whole volume -/
theorem C90_mode {rnd rnd32 : ℚ → ℚ} {c : Cfg} {v : View} {exec : Option (Int × Int)} {taker : I80F48} {avail : Mode → Res I80F48} {ask : Mode → I80F48 → ℚ → Res Quote} {p : Prepared}
    (hb : 0 < v.buyPrice) (hs : 0 < v.sellPrice) (hm : 0 ≤ c.maxTrigger) (hexec : ∀ b s, exec = some (b, s) → 0 ≤ b ∧ 0 ≤ s)
    (h : prepare rnd rnd32 c v exec taker avail ask = .ok (some p)) :
    (p.mode = c.mode ∨ (c.mode = .swapSell ∧ p.mode = .swapCollateral)) ∧
    (c.mode = .swapSell → ∃ room, v.sellBank.remainingNetBorrowsQuote v.sellPrice = .ok room ∧
      (p.mode = .swapSell → v.sellBank.areBorrowsReduceOnly = false ∧ p.volume * S ≤ room) ∧
      (p.mode = .swapCollateral → v.sellBank.areBorrowsReduceOnly = true ∨ room < c.maxTrigger * S)) := by
  obtain ⟨buy, sell, _, _, _, he, _, _, _, hle, _, _, hsp, hse, hv0, hvm, hvb, hvs, _⟩ := C90_size hb hs hm hexec h
  subst he
  unfold prepare at h
  simp only [bind_ok] at h
  obtain ⟨mode, hmode, a, ha, mt, hmt, h⟩ := h
  have hpm : p.mode = mode := by
    split at h
    · simp at h
    · simp only [bind_ok] at h
      obtain ⟨_, _, _, _, q, _, h⟩ := h
      cases q with
      | bad _ => simp at h
      | quote price =>
        simp only at h
        split at h
        · simp at h
        · simp only [bind_ok, ok_inj, Option.some.injEq] at h
          obtain ⟨_, _, rfl⟩ := h
          rfl
  rw [hpm]
  unfold effectiveMode at hmode
  cases hc : c.mode with
  | borrowBuy => rw [hc] at hmode; simp only [ok_inj] at hmode; subst hmode; simp
  | swapCollateral => rw [hc] at hmode; simp only [ok_inj] at hmode; subst hmode; simp
  | swapSell =>
    rw [hc] at hmode
    simp only [bind_ok] at hmode
    obtain ⟨room, hroom, q, hq, hmode⟩ := hmode
    have hq' : buy * v.buyPrice ≤ q ∨ sell * v.sellPrice ≤ q := by
      unfold quoteVolume at hq
      simp only [bind_ok, mul_ok, ok_inj] at hq
      obtain ⟨b, ⟨rfl, _⟩, s, ⟨rfl, _⟩, rfl⟩ := hq
      have e1 : ofInt buy * v.buyPrice / S = buy * v.buyPrice := by
        rw [show ofInt buy * v.buyPrice = buy * v.buyPrice * S by unfold ofInt; ring]
        exact Int.mul_ediv_cancel _ (by have := S_pos; omega)
      have e2 : ofInt sell * v.sellPrice / S = sell * v.sellPrice := by
        rw [show ofInt sell * v.sellPrice = sell * v.sellPrice * S by unfold ofInt; ring]
        exact Int.mul_ediv_cancel _ (by have := S_pos; omega)
      omega
    split at hmode
    · rename_i hcond
      rw [ok_inj] at hmode
      subst hmode
      refine ⟨Or.inr ⟨rfl, rfl⟩, fun _ => ⟨room, hroom, fun h => (by cases h), fun _ => ?_⟩⟩
      rcases hcond with h1 | h1
      · exact Or.inl h1
      · right
        have e : ofInt c.maxTrigger = c.maxTrigger * S := rfl
        omega
    · rename_i hcond
      rw [ok_inj] at hmode
      subst hmode
      rw [not_or] at hcond
      refine ⟨Or.inl rfl, fun _ => ⟨room, hroom, fun _ => ⟨by simpa using hcond.1, ?_⟩, fun h => (by cases h)⟩⟩
      have e : ofInt c.maxTrigger = c.maxTrigger * S := rfl
      have h1 : p.volume * S ≤ c.maxTrigger * S := Int.mul_le_mul_of_nonneg_right hvm (by have := S_pos; omega)
      have h2 : p.maxBuy * v.buyPrice ≤ buy * v.buyPrice := Int.mul_le_mul_of_nonneg_right hle (by omega)
      rw [hse] at hvs
      omega

/-- **C90, listed** Swaps are listed for execution exactly if they are interesting and something can be executed -/
theorem C90_listed {rnd : ℚ → ℚ} {c : Cfg} {t : Tcs} {v : View} {base : ℚ} {now : Int} {bc sc : Option ℚ} {search : I80F48} {q : Int} :
    listed rnd c t v base now bc sc search = .ok (some q) ↔ interesting rnd c t v.buyTok v.sellTok base now bc sc = .ok true ∧ maxVolume c t v search = .ok (some q) := by
  unfold listed
  simp only [bind_ok]
  constructor
  · rintro ⟨b, hb, h⟩
    cases b
    · simp at h
    · exact ⟨hb, by simpa using h⟩
  · rintro ⟨h1, h2⟩
    exact ⟨true, h1, by simpa using h2⟩

/-! ## Examples: a bank with a limit of 300 quote on net borrows and 5250 on deposits of which 5000 (and a bit) are there; the bought token is worth 2, the sold 1 million per native unit -/

def exBank : Bank := { depositIndex := S, borrowIndex := S, indexedDeposits := 5000 * S, indexedBorrows := 0, netBorrowLimitPerWindowQuote := 300000000, depositLimit := 5250 }
def exView : View := { buyTok := 1, sellTok := 2, buyBank := exBank, sellBank := exBank, buyPrice := 2000000 * S, sellPrice := 1000000 * S, buyPos := -30 * S, sellPos := 100 * S }

/-- the owner owes 30 of the bought token: 180 can be bought (150 borrowed by the liquidator, limit 300 dollars at 2 dollars); the owner has 100 of the sold: 349 can be sold (249 deposited, although 300 could be borrowed) -/
example : limited {} exView 1000 2000 = .ok (some (180, 349)) := by decide +kernel
example : limited { mode := .swapSell } exView 1000 2000 = .ok (some (1000, 349)) := by decide +kernel
example : limited { collateral := 1 } exView 1000 50 = .ok (some (1000, 50)) := by decide +kernel
/-- no room at all: the swap is skipped, unless it is small anyway -/
example : limited {} { exView with sellPos := 0, sellBank := { exBank with netBorrowsInWindow := 300 } } 1000 2000 = .ok none := by decide +kernel
example : limited {} { exView with sellPos := 0, sellBank := { exBank with netBorrowsInWindow := 300 } } 1000 1 = .ok (some (180, 0)) := by decide +kernel

/-- the hypotheses of `C90_borrow_room` and `C90_borrow_room_tight` -/
example : availableBorrows exBank (2000000 * S) = .ok 150 ∧ exBank.checkNetBorrows (2000000 * S) = .ok () ∧ exBank.stablePrice ≤ 2000000 * S := by decide +kernel

/-- the hypotheses of `C90_total` -/
example : inRange exView.buyPos ∧ inRange exView.sellPos ∧ exView.buyBank.remainingDepositsUntilLimit = .ok (250 * S - 1) ∧ Fx.div (ofInt 1000000) exView.buyPrice = .ok (S / 2) := ⟨⟨by decide, by decide⟩, ⟨by decide, by decide⟩, by decide +kernel⟩

/-- **finding** The room is computed at the oracle price; the program uses the stable price if that is higher: with a stable price of 4, filling the room of 150 tokens breaks the limit. -/
theorem C90_stable_price_ignored : ∃ (b : Bank) (price : I80F48) (room : Int), 0 < price ∧ 0 ≤ b.netBorrowsInWindow ∧ b.checkNetBorrows price = .ok () ∧ availableBorrows b price = .ok room ∧
    (borrowMore b room).checkNetBorrows price = .error .bankNetBorrowsLimitReached :=
  ⟨{ exBank with stablePrice := 4000000 * S }, 2000000 * S, 150, by decide +kernel⟩

/-- **finding** If more was repaid than borrowed in the window, the room is taken as unlimited although the limit holds for what is then borrowed -/
theorem C90_negative_net_borrows : ∃ (b : Bank) (price : I80F48) (room : Int), 0 < price ∧ b.stablePrice ≤ price ∧ b.netBorrowsInWindow = -1 ∧ b.checkNetBorrows price = .ok () ∧ availableBorrows b price = .ok room ∧
    10000 ≤ room ∧ (borrowMore b 152).checkNetBorrows price = .error .bankNetBorrowsLimitReached :=
  ⟨{ exBank with netBorrowsInWindow := -1 }, 2000000 * S, 302231454903657293, by decide +kernel⟩

def exTcs : Tcs :=
  { kind := .fixedPremium, maxBuy := 1000, maxSell := 2000, expiry := 1000, lower := 1, upper := 3, premiumRate := 1 / 4,
    takerFeeRate := 1 / 16, makerFeeRate := 1 / 16, allowDeposits := true, allowBorrows := true, start := 0, duration := 0 }

example : interesting id {} exTcs 1 2 2 7 (some 1) (some 1) = .ok true := by decide +kernel
example : interesting id { profitFraction := 1 / 4 } exTcs 1 2 2 7 (some 1) (some 1) = .ok false := by decide +kernel
/-- **finding** A swap that sells a forbidden token is taken up; one that sells a token of the list of allowed ones is not -/
theorem C90_forbidden_sold : interesting id { forbiddenTokens := [2] } exTcs 1 2 2 7 (some 1) (some 1) = .ok true ∧ ¬ MayTouch { forbiddenTokens := [2] } 1 2 ∧
    interesting id { onlyTokens := [2] } exTcs 1 2 2 7 (some 1) (some 1) = .ok false ∧ MayTouch { onlyTokens := [2] } 1 2 := by decide +kernel

/-- at most 100 dollars at once: 50 tokens of the 180 are bought; the quote must not be above 2, which pays for itself with the wanted profit of 1/8 -/
example : prepare id id { maxTrigger := 100000000, profitFraction := 1 / 8, minBuyFraction := 1 / 2 } exView (some (180, 349)) (9 * S / 4) (fun _ => .ok (70 * S)) (fun _ _ p => if p = 2 then .ok (.quote 2) else .error .panic) =
    .ok (some ⟨.borrowBuy, 100000000, 50, 349, 25, 9 / 4⟩) := by decide +kernel
/-- selling cannot be done by borrowing first if the bank has not got enough room -/
example : (prepare id id { mode := .swapSell, maxTrigger := 400000000 } exView (some (1000, 349)) (9 * S / 4) (fun _ => .ok (700 * S)) (fun _ _ _ => .ok (.quote 2))).map (·.map (·.mode)) = .ok (some .swapCollateral) := by decide +kernel
example : maxLiqeeExecution {} exTcs exView (3000 * S) = .ok (some (180, 349)) ∧ maxVolume {} exTcs exView (3000 * S) = .ok (some 349000000) := by decide +kernel
example : maxLiqeeExecution {} { exTcs with expiry := 5 } { exView with sellPos := 0, sellBank := { exBank with netBorrowsInWindow := 300 } } (3000 * S) = .ok none := by decide +kernel

end Trigger
end Mango
