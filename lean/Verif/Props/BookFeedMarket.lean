import Verif.Props.BookFeedHub
import Verif.Props.Depth
import Mathlib.Order.Monotone.Basic
import Mathlib.Algebra.BigOperators.Group.List.Basic
/-!
# C78: the order book feed of the program's own books

The service reads a book account with `iter_valid` (orderbook_filter.rs:386-409), which is modelled in Book/Side, and converts lots to f64 prices and quantities.
-/
namespace Mango
namespace BookFeed

def Side.toBook : Side → Book.Side
  | .bid => .bid
  | .ask => .ask

/-- what the service reads from the book accounts; `uiP`, `uiQ`: conversion of lots (mango-feeds-lib/src/lib.rs:88-107) -/
def marketView (uiP uiQ : Int → ℚ) (sd : Side) (bk : Perp.OBook) (oracle : Int) (now : Nat) : Option (List Order) :=
  match (bk.get sd.toBook).validItems now oracle with
  | .ok xs => some (xs.map (fun i => { price := uiP i.price, quantity := uiQ i.leaf.quantity, owner := i.leaf.owner }))
  | .error _ => none

/-- **C78** The service can always read the book accounts of a market, and finds, sorted, exactly the orders that can trade. -/
theorem C78_book {bk : Perp.OBook} {sp : Book.Side → Book.SpecSide} (hL : Perp.LiveBook bk sp) {uiP : Int → ℚ} (hm : Monotone uiP) (uiQ : Int → ℚ) (sd : Side) (oracle : Int) (now : Nat) :
    ∃ l, marketView uiP uiQ sd bk oracle now = some l ∧ Sorted l ∧
      (l.map (fun o => (o.price, o.quantity))).Perm ((Perp.offersOf (sp sd.toBook) sd.toBook now oracle).map (fun q => (uiP q.price, uiQ q.lots))) := by
  obtain ⟨xs, h1, _, h3, h4, _⟩ := Perp.valid_items hL sd.toBook now oracle
  refine ⟨_, by unfold marketView; rw [h1], ?_, ?_⟩
  · unfold Perp.Ranked at h4
    rw [List.pairwise_map] at h4
    unfold Sorted
    cases sd with
    | bid =>
      right
      rw [List.map_map, List.pairwise_map]
      refine h4.imp (fun h => ?_)
      simp only [Side.toBook, Book.Side.isPriceBetter, decide_eq_false_iff_not, Perp.quoteOf] at h
      exact hm (by omega)
    | ask =>
      left
      rw [List.map_map, List.pairwise_map]
      refine h4.imp (fun h => ?_)
      simp only [Side.toBook, Book.Side.isPriceBetter, decide_eq_false_iff_not, Perp.quoteOf] at h
      exact hm (by omega)
  · have := h3.map (fun q => (uiP q.price, uiQ q.lots))
    rw [List.map_map] at this ⊢
    exact this

/-- the states of a market's books -/
abbrev LiveBooks := { bk : Perp.OBook // ∃ sp, Perp.LiveBook bk sp }

/-- for the feed of a market the hypothesis of `C78_subscriber` holds -/
theorem C78_market_sorts {uiP : Int → ℚ} (hm : Monotone uiP) (uiQ : Int → ℚ) :
    Sorts (fun sd (bk : LiveBooks) (o : Int) now => marketView uiP uiQ sd bk.1 o now) := by
  intro sd b o now l h
  obtain ⟨sp, hL⟩ := b.2
  obtain ⟨l', h1, h2, _⟩ := C78_book hL hm uiQ sd o now
  simp only at h
  rw [h1] at h; injection h with h; rw [← h]; exact h2

/-- **C78** With exact sums, the quantity of a level is the sum of the quantities of the orders that can trade at that price. -/
theorem C78_level {bk : Perp.OBook} {sp : Book.Side → Book.SpecSide} (hL : Perp.LiveBook bk sp) {uiP : Int → ℚ} (hm : Monotone uiP) (uiQ : Int → ℚ) (sd : Side) (oracle : Int) (now : Nat)
    {l : List Order} (h : marketView uiP uiQ sd bk oracle now = some l) (p : ℚ) :
    depth id l p = (((Perp.offersOf (sp sd.toBook) sd.toBook now oracle).filter (fun q => decide (uiP q.price = p))).map (fun q => uiQ q.lots)).sum := by
  obtain ⟨l', h1, _, h3⟩ := C78_book hL hm uiQ sd oracle now
  rw [h] at h1; injection h1 with h1; subst h1
  have ht : ∀ qs : List ℚ, ∀ a, qs.foldl (fun a x => id (a + x)) a = a + qs.sum := by
    intro qs
    induction qs with
    | nil => intro a; simp
    | cons x qs ih => intro a; rw [List.foldl_cons, ih, List.sum_cons]; simp [add_assoc]
  have e1 : depth id l p = (((l.map (fun o => (o.price, o.quantity))).filter (fun x => decide (x.1 = p))).map Prod.snd).sum := by
    unfold depth total
    rw [ht, zero_add]
    congr 1
    rw [List.filter_map, List.map_map]
    rfl
  rw [e1, ((h3.filter (fun x => decide (x.1 = p))).map Prod.snd).sum_eq, List.filter_map, List.map_map]
  rfl

end BookFeed
end Mango
