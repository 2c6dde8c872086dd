import Verif.Props.HealthSkip
import Verif.Props.HealthEx
/-!
# Concrete accounts for C40
-/
namespace Mango
namespace Health
open Fx

/-- quote (linear), a volatile token, and a third one whose oracle is unusable -/
def skView : Nat → View
  | 0 => ⟨exQuote, ONE, ONE, false⟩
  | 1 => ⟨exToken 1 0, ONE, ONE, false⟩
  | _ => ⟨exToken 2 0, ONE, ONE, true⟩
def skPos : List Pos := [⟨0, ofInt (-300)⟩, ⟨1, ofInt 100⟩, ⟨2, ofInt 10⟩]
def skOrders : List OpenOrd := [⟨1, 0, 2, 3, 10, 50, 0, 0, 0, false⟩, ⟨2, 0, 4, 5, 6, 7, 0, 0, 1, false⟩]

theorem sk_hyps : (skPos.map (·.tokenIndex)).Nodup ∧ ViewOk skView skPos .init ∧ (∀ o ∈ skOrders, o.NonNeg) ∧ (∀ o ∈ skOrders, o.base ≠ o.quote) := by
  refine ⟨by decide, ?_, ?_, by decide⟩
  · intro p hp
    simp only [skPos, List.mem_cons, List.not_mem_nil, or_false] at hp
    rcases hp with rfl | rfl | rfl <;> refine ⟨by constructor <;> decide, by decide⟩
  · intro o ho
    simp only [skOrders, List.mem_cons, List.not_mem_nil, or_false] at ho
    rcases ho with rfl | rfl <;> constructor <;> decide

/-- both caches can be built; the skipped one leaves out token 2 and its market: healths -217 and about -158.5 -/
theorem sk_healths :
    (do let c ← buildCache skView true skPos skOrders [exPerp]; c.health Fx.div .init : Res Int) = .ok (ofInt (-217)) ∧
    (do let c ← buildCache skView false skPos skOrders [exPerp]; c.health Fx.div .init : Res Int) = .ok (-44613783808638980) := by
  decide +kernel

/-- its only token used by two markets is the quote token, which is linear: the full cache meets the restriction of C40 -/
theorem sk_unshared : ∀ c, buildCache skView false skPos skOrders [exPerp] = .ok c →
    ∀ rs, Unshared c.tokens .init (c.serums.zip rs) := by
  intro c hc rs k
  have hc' : buildCache skView false skPos skOrders [exPerp] =
    .ok (⟨[{ exQuote with balanceSpot := ofInt (-292) }, exToken 1 102, exToken 2 14], 
      [⟨ofInt 10, ofInt 50, 0, 0, 1, 0, 0, false⟩, ⟨ofInt 6, ofInt 7, 0, 0, 2, 0, 1, false⟩], [exPerp]⟩) := by decide +kernel
  rw [hc'] at hc; simp at hc; subst hc
  match k with
  | 0 => left; intro t ht; simp at ht; subst ht; decide
  | 1 =>
    right
    match rs with
    | [] => simp
    | [a] => simp
    | a :: b :: _ => simp [part, conv]
  | k + 2 =>
    right
    match rs with
    | [] => simp
    | [a] => simp
    | a :: b :: _ => simp [part, conv]

/-! ## The restriction is needed -/

/-- `shQ` is the shared quote token with different weights as asset and as liability; token 2's oracle is unusable -/
def shView : Nat → View
  | 0 => ⟨shQ, ONE, ONE, false⟩
  | 1 => ⟨shA, ONE, ONE, false⟩
  | 2 => ⟨{ shB with prices := ⟨ONE, ONE⟩ }, ONE, ONE, true⟩
  | _ => ⟨shC, ONE, ONE, false⟩
def shPos : List Pos := [⟨0, ofInt (-100)⟩, ⟨1, ofInt (-1000)⟩, ⟨2, 0⟩, ⟨3, ofInt 1280⟩]
/-- 100 quote bidding for token 1, and 100 quote bidding for token 2 -/
def shOrders : List OpenOrd := [⟨1, 0, 0, 0, 0, 100, 0, 0, 0, false⟩, ⟨2, 0, 0, 0, 0, 100, 0, 0, 1, false⟩]

/-- **C40 is false without the restriction**, although the code comments promise it (health/cache.rs: "guaranteed to be less"): all
parameters are sane, the only skipped position is empty, yet the health computed while skipping token 2 (30) exceeds the full health (-20):
dropping the market on token 2 lowers the possible quote balance, so the other market's bids count at the liability weight. -/
theorem C40_can_exceed_with_shared_token :
    ViewOk shView shPos .init ∧
    (do let c ← buildCache shView true shPos shOrders []; c.health Fx.div .init : Res Int) = .ok (ofInt 30) ∧
    (do let c ← buildCache shView false shPos shOrders []; c.health Fx.div .init : Res Int) = .ok (ofInt (-20)) := by
  refine ⟨?_, by decide +kernel, by decide +kernel⟩
  intro p hp
  simp only [shPos, List.mem_cons, List.not_mem_nil, or_false] at hp
  rcases hp with rfl | rfl | rfl | rfl <;> refine ⟨by constructor <;> decide, by decide⟩

end Health
end Mango
