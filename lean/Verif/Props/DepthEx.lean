import Verif.Props.Depth
import Verif.Props.MatchEx
/-! # Concrete cases for C76: two bids, 5 lots at 100 and 5 lots at 40 -/
namespace Mango
namespace Perp
open Book Fx

def dxOf {α : Type} (r : Res α) : Option α := r.toOption

example : offersOf (exSp .bid) .bid 7 100 = [⟨40, 5⟩, ⟨100, 5⟩] := by decide +kernel
example : dxOf ((exSt.book.get .bid).quantityAtPrice 50 7 100) = some 5 ∧ dxOf ((exSt.book.get .bid).quantityAtPrice 40 7 100) = some 10 := by decide +kernel
example : dxOf ((exSt.book.get .bid).bestPrice 7 100) = some (some 100) := by decide +kernel
example : dxOf ((exSt.book.get .bid).impactPrice 5 7 100) = some (some 100) ∧ dxOf ((exSt.book.get .bid).impactPrice 6 7 100) = some (some 40) ∧
    dxOf ((exSt.book.get .bid).impactPrice 11 7 100) = some none := by decide +kernel
example : dxOf ((exSt.book.get .bid).matchedAmount 7 7 100) = some (some 580) := by decide +kernel
-- finding 36: the quantity for 530 is 5 lots, which bring in only 500
example : dxOf ((exSt.book.get .bid).matchedQuantity 530 7 100) = some (some 5) ∧ dxOf ((exSt.book.get .bid).matchedAmount 5 7 100) = some (some 500) ∧
    dxOf ((exSt.book.get .bid).matchedAmount 6 7 100) = some (some 540) := by decide +kernel
-- C76_order: selling 7 lots down to 30 brings in 580
example : Setup exSell exSt exSp ∧ (∀ c, ∀ l ∈ (exSp exSell.side.invert).get c, l.owner ≠ 3) ∧ exSell.isPostOnly = false := by
  refine ⟨exSetup ⟨by decide, by decide, by simp only [exSell]; decide⟩ (by decide) (by decide), ?_, by decide⟩
  intro c l hl
  cases c <;> simp [exSp, exSell, Side.invert, SpecSide.get] at hl
  rcases hl with rfl | rfl <;> decide
example : (match newOrder exSell (100 * S) 3 7 10 exSt with
    | .ok (_, s') => (tradedBase s'.queue.toList, tradedQuote s'.queue.toList)
    | .error _ => (0, 0)) = (7, 580) := by decide +kernel
example : dxOf (exSt.market.nativePriceToLot (100 * S)) = some 100 ∧ (dxOf (exSell.price 7 100 exSt.book)).map (·.1) = some 30 := by decide +kernel

end Perp
end Mango
