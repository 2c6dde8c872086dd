import Verif.Props.MatchFull
/-!
# C76: what the book says about its depth, and what an order then gets

`offersOf` lists the orders of a side that can trade, straight from the set of resting orders; the queries are compared with sums
over that list.
-/
namespace Mango
namespace Perp
open Book Fx

/-- an order that can trade: its price and its lots -/
structure Quote where
  price : Int
  lots : Int
  deriving DecidableEq, Repr

/-- price of a resting order -/
def priceAt (oracle : Int) (c : Comp) (l : Leaf) : Int :=
  match c with
  | .fixed => (l.priceData : Int)
  | .pegged => pegPrice oracle l

/-- whether it can trade now -/
def tradable (side : Side) (now : Nat) (oracle : Int) (c : Comp) (l : Leaf) : Bool :=
  !decide (timedOut l now) &&
  match c with
  | .fixed => true
  | .pegged => pegVisible oracle l && !(decide (l.pegLimit ≠ -1) && side.isPriceBetter (pegPrice oracle l) l.pegLimit)

/-- the orders of a side that can trade, in no particular order -/
def offersOf (s : SpecSide) (side : Side) (now : Nat) (oracle : Int) : List Quote :=
  ((s.fixedL.map (fun l => (Comp.fixed, l)) ++ s.peggedL.map (fun l => (Comp.pegged, l))).filter (fun x => tradable side now oracle x.1 x.2)).map
    (fun x => ⟨priceAt oracle x.1 x.2, x.2.quantity⟩)

/-- lots offered at `p` or better -/
def depth (side : Side) (p : Int) (qs : List Quote) : Int := sumOf (fun q => if side.isPriceBetter p q.price = true then 0 else q.lots) qs
/-- lots offered at prices strictly better than `p` -/
def better (side : Side) (p : Int) (qs : List Quote) : Int := sumOf (fun q => if side.isPriceBetter q.price p = true then q.lots else 0) qs
/-- their total price -/
def betterWorth (side : Side) (p : Int) (qs : List Quote) : Int := sumOf (fun q => if side.isPriceBetter q.price p = true then q.lots * q.price else 0) qs

/-! ## the walk over the sorted orders -/

def quoteOf (i : Item) : Quote := ⟨i.price, i.leaf.quantity⟩

/-- best first -/
def Ranked (side : Side) (qs : List Quote) : Prop := qs.Pairwise (fun a b => side.isPriceBetter b.price a.price = false)

/-- price of the first `n` lots -/
def payFor : List Quote → Int → Option Int
  | [], _ => none
  | q :: rest, n => if n ≤ q.lots then some (n * q.price) else (payFor rest (n - q.lots)).map (· + q.lots * q.price)
/-- lots that `a` pays for -/
def lotsFor : List Quote → Int → Option Int
  | [], _ => none
  | q :: rest, a => if a ≤ q.lots * q.price then some (a / q.price) else (lotsFor rest (a - q.lots * q.price)).map (· + q.lots)

def QPos (qs : List Quote) : Prop := ∀ q ∈ qs, 0 < q.lots ∧ 1 ≤ q.price

theorem better_irrefl (side : Side) (p : Int) : side.isPriceBetter p p = false := by cases side <;> simp [Side.isPriceBetter]
theorem better_trans {side : Side} {p q r : Int} (h1 : side.isPriceBetter p q = true) (h2 : side.isPriceBetter r q = false) : side.isPriceBetter p r = true := by
  cases side <;> simp only [Side.isPriceBetter, decide_eq_true_eq, decide_eq_false_iff_not] at * <;> omega

theorem quantity_aux {side : Side} {limit : Int} : ∀ {xs : List Item} {sum r : Int}, Ranked side (xs.map quoteOf) →
    BookSide.quantityAtPriceAux side limit xs sum = .ok r → r = sum + depth side limit (xs.map quoteOf) := by
  intro xs
  induction xs with
  | nil => intro sum r _ h; simp only [BookSide.quantityAtPriceAux, ok_inj] at h; simp [depth, h]
  | cons i rest ih =>
    intro sum r hR h
    rw [List.map_cons] at hR ⊢
    obtain ⟨h1, h2⟩ := List.pairwise_cons.mp hR
    unfold BookSide.quantityAtPriceAux at h
    by_cases hb : side.isPriceBetter limit i.price = true
    · rw [if_pos hb, ok_inj] at h
      subst h
      have : depth side limit (quoteOf i :: rest.map quoteOf) = 0 := by
        unfold depth
        apply sumOf_zero
        intro q hq
        rcases List.mem_cons.mp hq with rfl | hq
        · rw [if_pos]; exact hb
        · rw [if_pos]; exact better_trans hb (h1 q hq)
      omega
    · rw [if_neg hb] at h
      simp only [bind_ok, ck64_ok] at h
      obtain ⟨s, ⟨rfl, _⟩, h⟩ := h
      rw [ih h2 h]
      unfold depth
      rw [sumOf_cons, if_neg (by simpa [quoteOf] using hb)]
      simp only [quoteOf]; omega

theorem depth_nonneg {side : Side} {p : Int} {qs : List Quote} (h : QPos qs) : 0 ≤ depth side p qs := by
  unfold depth
  apply sumOf_nonneg_mem
  intro q hq
  have := (h q hq).1
  split <;> omega

theorem depth_le {side : Side} {p : Int} {qs : List Quote} (h : QPos qs) : depth side p qs ≤ sumOf Quote.lots qs := by
  induction qs with
  | nil => simp [depth]
  | cons q rest ih =>
    have := ih (fun x hx => h x (by simp [hx]))
    have h0 := (h q (by simp)).1
    unfold depth at *
    rw [sumOf_cons, sumOf_cons]
    split <;> omega

theorem impact_aux {side : Side} {quantity : Int} : ∀ {xs : List Item} {sum : Int} {r : Option Int}, QPos (xs.map quoteOf) → Ranked side (xs.map quoteOf) →
    sum < quantity → BookSide.impactPriceAux quantity xs sum = .ok r →
    (r = none ∧ sum + sumOf Quote.lots (xs.map quoteOf) < quantity) ∨
    ∃ p, r = some p ∧ p ∈ (xs.map quoteOf).map Quote.price ∧ quantity ≤ sum + depth side p (xs.map quoteOf) ∧ sum + better side p (xs.map quoteOf) < quantity := by
  intro xs
  induction xs with
  | nil => intro sum r _ _ hq h; simp only [BookSide.impactPriceAux, ok_inj] at h; left; exact ⟨h.symm, by simpa using hq⟩
  | cons i rest ih =>
    intro sum r hp hR hq h
    rw [List.map_cons] at hR hp ⊢
    obtain ⟨h1, h2⟩ := List.pairwise_cons.mp hR
    have hp' : QPos (rest.map quoteOf) := fun x hx => hp x (by simp [hx])
    have h0 := (hp _ List.mem_cons_self).1
    unfold BookSide.impactPriceAux at h
    simp only [bind_ok, ck64_ok] at h
    obtain ⟨s, ⟨rfl, _⟩, h⟩ := h
    simp only [quoteOf] at h0
    by_cases hs : sum + i.leaf.quantity ≥ quantity
    · rw [if_pos hs, ok_inj] at h
      subst h
      right
      have hd := depth_nonneg (side := side) (p := i.price) hp'
      have hb : ∀ q ∈ quoteOf i :: rest.map quoteOf, side.isPriceBetter q.price i.price = false := by
        intro q hq
        rcases List.mem_cons.mp hq with rfl | hq
        · exact better_irrefl _ _
        · exact h1 q hq
      have hbz : better side i.price (quoteOf i :: rest.map quoteOf) = 0 := by
        unfold better; apply sumOf_zero; intro q hq; rw [if_neg (by simp [hb q hq])]
      refine ⟨i.price, rfl, by simp [quoteOf], ?_, by omega⟩
      · unfold depth at *
        rw [sumOf_cons, if_neg (by simp [quoteOf, better_irrefl])]
        simp only [quoteOf] at *; omega
    · rw [if_neg hs] at h
      rcases ih hp' h2 (by omega) h with ⟨rfl, hl⟩ | ⟨p, rfl, hm, hde, hbe⟩
      · left
        refine ⟨rfl, ?_⟩
        rw [sumOf_cons]; simp only [quoteOf] at *; omega
      · right
        have hge : side.isPriceBetter p i.price = false := by
          obtain ⟨q, hq, rfl⟩ := List.mem_map.mp hm
          exact h1 q hq
        refine ⟨p, rfl, by rw [List.map_cons]; exact List.mem_cons_of_mem _ hm, ?_, ?_⟩
        · unfold depth at *
          have hge' : ¬ side.isPriceBetter p (quoteOf i).price = true := by rw [show (quoteOf i).price = i.price from rfl, hge]; simp
          rw [sumOf_cons, if_neg hge', show (quoteOf i).lots = i.leaf.quantity from rfl]
          omega
        · unfold better at *
          rw [sumOf_cons, show (quoteOf i).lots = i.leaf.quantity from rfl]
          by_cases hb : side.isPriceBetter (quoteOf i).price p = true
          · rw [if_pos hb]; omega
          · rw [if_neg hb]; omega

/-- the first `n` lots cost: everything better than some price in full, and the rest at that price -/
theorem pay_spec {side : Side} : ∀ {qs : List Quote} {n : Int}, QPos qs → Ranked side qs → 0 < n →
    (payFor qs n = none ∧ sumOf Quote.lots qs < n) ∨
    ∃ p, (∃ q ∈ qs, q.price = p) ∧ n ≤ depth side p qs ∧ better side p qs < n ∧
      payFor qs n = some (betterWorth side p qs + (n - better side p qs) * p) := by
  intro qs
  induction qs with
  | nil => intro n _ _ hn; left; exact ⟨rfl, by simpa using hn⟩
  | cons q rest ih =>
    intro n hp hR hn
    obtain ⟨h1, h2⟩ := List.pairwise_cons.mp hR
    have hp' : QPos rest := fun x hx => hp x (by simp [hx])
    have h0 := (hp _ List.mem_cons_self).1
    by_cases hs : n ≤ q.lots
    · right
      have hd := depth_nonneg (side := side) (p := q.price) hp'
      have hb : ∀ x ∈ q :: rest, side.isPriceBetter x.price q.price = false := by
        intro x hx
        rcases List.mem_cons.mp hx with rfl | hx
        · exact better_irrefl _ _
        · exact h1 x hx
      have hbz : better side q.price (q :: rest) = 0 := by
        unfold better; apply sumOf_zero; intro x hx; rw [if_neg (by simp [hb x hx])]
      have hwz : betterWorth side q.price (q :: rest) = 0 := by
        unfold betterWorth; apply sumOf_zero; intro x hx; rw [if_neg (by simp [hb x hx])]
      refine ⟨q.price, ⟨q, by simp, rfl⟩, ?_, by omega, ?_⟩
      · unfold depth at *
        rw [sumOf_cons, if_neg (by simp [better_irrefl])]
        omega
      · rw [hbz, hwz]
        unfold payFor
        rw [if_pos hs]; simp
    · rcases ih hp' h2 (show 0 < n - q.lots by omega) with ⟨hr, hl⟩ | ⟨p, ⟨x, hx, rfl⟩, hde, hbe, hpay⟩
      · left
        refine ⟨by unfold payFor; rw [if_neg hs, hr]; rfl, ?_⟩
        rw [sumOf_cons]; omega
      · right
        have hge := h1 x hx
        refine ⟨x.price, ⟨x, List.mem_cons_of_mem _ hx, rfl⟩, ?_, ?_, ?_⟩
        · unfold depth at *
          rw [sumOf_cons, if_neg (by simp [hge])]
          omega
        · unfold better at *
          rw [sumOf_cons]
          by_cases hb : side.isPriceBetter q.price x.price = true
          · rw [if_pos hb]; omega
          · rw [if_neg hb]; omega
        · unfold payFor
          rw [if_neg hs, hpay]
          unfold betterWorth better
          rw [sumOf_cons, sumOf_cons]
          simp only [Option.map_some, Option.some.injEq]
          by_cases hb : side.isPriceBetter q.price x.price = true
          · rw [if_pos hb, if_pos hb]; ring
          · rw [if_neg hb, if_neg hb]
            have : q.price = x.price := by
              cases side <;> simp only [Side.isPriceBetter, decide_eq_true_eq, decide_eq_false_iff_not] at * <;> omega
            rw [this]; ring

theorem amount_aux {quantity : Int} : ∀ {xs : List Item} {sq sa : Int} {r : Option Int},
    BookSide.matchedAmountAux quantity xs sq sa = .ok r → r = (payFor (xs.map quoteOf) (quantity - sq)).map (· + sa) := by
  intro xs
  induction xs with
  | nil => intro sq sa r h; simp only [BookSide.matchedAmountAux, ok_inj] at h; subst h; rfl
  | cons i rest ih =>
    intro sq sa r h
    unfold BookSide.matchedAmountAux at h
    simp only [bind_ok, ck64_ok] at h
    obtain ⟨q, ⟨rfl, _⟩, v, ⟨rfl, _⟩, a, ⟨rfl, _⟩, e, ⟨rfl, _⟩, h⟩ := h
    rw [List.map_cons]
    unfold payFor
    by_cases he : sq + i.leaf.quantity - quantity ≥ 0
    · rw [if_pos he] at h
      simp only [bind_ok, ck64_ok, ok_inj] at h
      obtain ⟨x, ⟨rfl, _⟩, y, ⟨rfl, _⟩, rfl⟩ := h
      rw [if_pos (by simp only [quoteOf]; omega)]
      simp only [quoteOf, Option.map_some, Option.some.injEq]; ring
    · rw [if_neg he] at h
      rw [if_neg (by simp only [quoteOf]; omega), ih h, Option.map_map]
      have e : quantity - sq - (quoteOf i).lots = quantity - (sq + i.leaf.quantity) := by simp only [quoteOf]; omega
      rw [e]
      congr 1
      funext z
      simp only [quoteOf, Function.comp]; ring

theorem lots_aux {amount : Int} : ∀ {xs : List Item} {sq sa : Int} {r : Option Int}, QPos (xs.map quoteOf) → sa < amount →
    BookSide.matchedQuantityAux amount xs sq sa = .ok r → r = (lotsFor (xs.map quoteOf) (amount - sa)).map (· + sq) := by
  intro xs
  induction xs with
  | nil => intro sq sa r _ _ h; simp only [BookSide.matchedQuantityAux, ok_inj] at h; subst h; rfl
  | cons i rest ih =>
    intro sq sa r hp hs h
    rw [List.map_cons] at hp
    have hp' : QPos (rest.map quoteOf) := fun x hx => hp x (by simp [hx])
    have h1 := (hp _ List.mem_cons_self).2
    simp only [quoteOf] at h1
    unfold BookSide.matchedQuantityAux at h
    simp only [bind_ok, ck64_ok] at h
    obtain ⟨q, ⟨rfl, _⟩, v, ⟨rfl, _⟩, a, ⟨rfl, _⟩, e, ⟨rfl, _⟩, h⟩ := h
    rw [List.map_cons]
    unfold lotsFor
    by_cases he : sa + i.leaf.quantity * i.price - amount ≥ 0
    · rw [if_pos he] at h
      simp only [if_neg (show ¬ i.price = 0 by omega), bind_ok, ck64_ok, ok_inj] at h
      obtain ⟨t, ⟨rfl, _⟩, t', ⟨rfl, _⟩, d, rfl, y, ⟨rfl, _⟩, rfl⟩ := h
      rw [if_pos (by simp only [quoteOf]; omega)]
      simp only [quoteOf, Option.map_some, Option.some.injEq]
      rw [Int.tdiv_eq_ediv_of_nonneg (by omega)]
      have hq := Int.mul_ediv_add_emod (amount - sa) i.price
      rw [Int.mul_comm] at hq
      have hm := Int.emod_lt_of_pos (amount - sa) (show 0 < i.price by omega)
      have hm0 := Int.emod_nonneg (amount - sa) (show i.price ≠ 0 by omega)
      have key : (sa + i.leaf.quantity * i.price - amount + i.price - 1) / i.price = i.leaf.quantity - (amount - sa) / i.price := by
        have e : sa + i.leaf.quantity * i.price - amount + i.price - 1 =
            (i.price - 1 - (amount - sa) % i.price) + (i.leaf.quantity - (amount - sa) / i.price) * i.price := by
          have : (i.leaf.quantity - (amount - sa) / i.price) * i.price = i.leaf.quantity * i.price - (amount - sa) / i.price * i.price := by ring
          omega
        rw [e, Int.add_mul_ediv_right _ _ (by omega), Int.ediv_eq_zero_of_lt (by omega) (by omega)]; omega
      rw [key]; ring
    · rw [if_neg he] at h
      rw [if_neg (by simp only [quoteOf]; omega), ih hp' (by omega) h, Option.map_map]
      have e : amount - sa - (quoteOf i).lots * (quoteOf i).price = amount - (sa + i.leaf.quantity * i.price) := by simp only [quoteOf]; omega
      rw [e]
      congr 1
      funext z
      simp only [quoteOf, Function.comp]; ring

theorem payFor_pos : ∀ {qs : List Quote} {n a : Int}, QPos qs → 0 < n → payFor qs n = some a → 0 < a := by
  intro qs
  induction qs with
  | nil => intro n a _ _ h; simp [payFor] at h
  | cons q rest ih =>
    intro n a hp hn h
    obtain ⟨h1, h2⟩ := hp q List.mem_cons_self
    unfold payFor at h
    by_cases hc : n ≤ q.lots
    · rw [if_pos hc, Option.some.injEq] at h
      rw [← h]; exact Int.mul_pos hn (by omega)
    · rw [if_neg hc, Option.map_eq_some_iff] at h
      obtain ⟨b, hb, rfl⟩ := h
      have := ih (fun x hx => hp x (by simp [hx])) (by omega) hb
      have := Int.mul_pos h1 (show 0 < q.price by omega)
      omega

theorem lotsFor_spec : ∀ {qs : List Quote} {a n : Int}, QPos qs → 0 < a → lotsFor qs a = some n →
    0 ≤ n ∧ (0 < n → ∃ c, payFor qs n = some c ∧ c ≤ a) ∧ ∀ c', payFor qs (n + 1) = some c' → a < c' := by
  intro qs
  induction qs with
  | nil => intro a n _ _ h; simp [lotsFor] at h
  | cons q rest ih =>
    intro a n hp ha h
    obtain ⟨h1, h2⟩ := hp q List.mem_cons_self
    have hp' : QPos rest := fun x hx => hp x (by simp [hx])
    unfold lotsFor at h
    by_cases hc : a ≤ q.lots * q.price
    · rw [if_pos hc, Option.some.injEq] at h
      subst h
      have hd := Int.mul_ediv_add_emod a q.price
      have hm := Int.emod_lt_of_pos a (show 0 < q.price by omega)
      have hm0 := Int.emod_nonneg a (show q.price ≠ 0 by omega)
      rw [Int.mul_comm] at hd
      have hn0 : 0 ≤ a / q.price := Int.ediv_nonneg (by omega) (by omega)
      have hle : a / q.price ≤ q.lots := by
        have : a / q.price ≤ (q.lots * q.price) / q.price := Int.ediv_le_ediv (by omega) hc
        rwa [Int.mul_ediv_cancel _ (by omega)] at this
      refine ⟨hn0, ?_, ?_⟩
      · intro _
        refine ⟨_, by unfold payFor; rw [if_pos hle], by omega⟩
      · intro c' hc'
        unfold payFor at hc'
        by_cases hl : a / q.price + 1 ≤ q.lots
        · rw [if_pos hl, Option.some.injEq] at hc'
          have : (a / q.price + 1) * q.price = a / q.price * q.price + q.price := by ring
          omega
        · rw [if_neg hl, Option.map_eq_some_iff] at hc'
          obtain ⟨b, hb, rfl⟩ := hc'
          have := payFor_pos hp' (by omega) hb
          omega
    · rw [if_neg hc, Option.map_eq_some_iff] at h
      obtain ⟨n', hn', rfl⟩ := h
      obtain ⟨i1, i2, i3⟩ := ih hp' (by omega) hn'
      refine ⟨by omega, ?_, ?_⟩
      · intro _
        by_cases h0 : n' = 0
        · subst h0
          refine ⟨q.lots * q.price, by unfold payFor; rw [if_pos (by omega)]; simp, by omega⟩
        · obtain ⟨c, hc1, hc2⟩ := i2 (by omega)
          refine ⟨c + q.lots * q.price, ?_, by omega⟩
          unfold payFor
          rw [if_neg (by omega), show n' + q.lots - q.lots = n' by omega, hc1]; rfl
      · intro c' hc'
        unfold payFor at hc'
        rw [if_neg (by omega), show n' + q.lots + 1 - q.lots = n' + 1 by omega, Option.map_eq_some_iff] at hc'
        obtain ⟨b, hb, rfl⟩ := hc'
        have := i3 b hb
        omega

/-! ## the sorted orders are the offers -/

theorem item_tradable {s : SpecSide} {side : Side} {now : Nat} {oracle : Int} {xs : List Item} (hO : Offers s side now oracle xs) {i : Item} (hi : i ∈ xs) :
    i.price = priceAt oracle i.comp i.leaf ∧ i.isValid = tradable side now oracle i.comp i.leaf := by
  have hk := hO.ok i hi
  unfold itemOK at hk
  cases hc : i.comp with
  | fixed =>
    rw [hc] at hk
    simp only at hk
    refine ⟨hk.1, ?_⟩
    unfold Item.isValid tradable
    rw [hk.2]
    by_cases ht : timedOut i.leaf now
    · rw [if_pos ht]; simp [ht]
    · rw [if_neg ht]; simp [ht]
  | pegged =>
    have hm : (i.comp, i.leaf) ∈ xs.map (fun i => (i.comp, i.leaf)) := List.mem_map.mpr ⟨i, hi, rfl⟩
    have hv : pegVisible oracle i.leaf = true := by
      have := hO.perm.subset hm
      rw [List.mem_append, List.mem_map, List.mem_map] at this
      rcases this with ⟨l, _, e⟩ | ⟨l, hl, e⟩
      · simp only [Prod.mk.injEq] at e; rw [hc] at e; simp at e
      · simp only [Prod.mk.injEq] at e; rw [← e.2]; exact (List.mem_filter.mp hl).2
    rw [hc] at hk
    simp only at hk
    refine ⟨hk.1, ?_⟩
    unfold Item.isValid tradable
    rw [hk.2, hv, ← hk.1]
    by_cases ht : timedOut i.leaf now
    · rw [if_pos (.inl ht)]; simp [ht]
    · by_cases hl : i.leaf.pegLimit ≠ -1 ∧ side.isPriceBetter i.price i.leaf.pegLimit = true
      · rw [if_pos (.inr hl)]; simp [hl.1, hl.2]
      · rw [if_neg (by rintro (h | h); exact ht h; exact hl h)]
        by_cases h1 : i.leaf.pegLimit = -1
        · simp [ht, h1]
        · have : side.isPriceBetter i.price i.leaf.pegLimit = false := by
            cases hb : side.isPriceBetter i.price i.leaf.pegLimit with
            | false => rfl
            | true => exact absurd ⟨h1, hb⟩ hl
          simp [ht, this]

theorem valid_offers {s : SpecSide} {side : Side} {now : Nat} {oracle : Int} {xs : List Item} (hO : Offers s side now oracle xs) :
    ((xs.filter Item.isValid).map quoteOf).Perm (offersOf s side now oracle) ∧ Ranked side ((xs.filter Item.isValid).map quoteOf) := by
  constructor
  · have e1 : (xs.filter Item.isValid).map quoteOf =
        ((xs.map (fun i => (i.comp, i.leaf))).filter (fun x => tradable side now oracle x.1 x.2)).map (fun x => (⟨priceAt oracle x.1 x.2, x.2.quantity⟩ : Quote)) := by
      rw [List.filter_map, List.map_map]
      have hf : xs.filter Item.isValid = xs.filter ((fun x : Comp × Leaf => tradable side now oracle x.1 x.2) ∘ fun i => (i.comp, i.leaf)) := by
        apply List.filter_congr
        intro i hi
        exact (item_tradable hO hi).2
      rw [← hf]
      apply List.map_congr_left
      intro i hi
      simp only [Function.comp, quoteOf, (item_tradable hO (List.mem_filter.mp hi).1).1]
    rw [e1]
    unfold offersOf
    apply List.Perm.map
    refine (hO.perm.filter _).trans (List.Perm.of_eq ?_)
    rw [List.filter_append, List.filter_append]
    congr 1
    rw [List.filter_map, List.filter_map, List.filter_filter]
    congr 1
    apply List.filter_congr
    intro l _
    simp only [Function.comp, tradable]
    cases pegVisible oracle l <;> simp
  · unfold Ranked
    rw [List.pairwise_map]
    refine (hO.sorted.sublist List.filter_sublist).imp ?_
    intro a b h
    unfold priorTo at h
    simp only [quoteOf]
    cases side <;> simp only [Side.isPriceBetter, decide_eq_true_eq, decide_eq_false_iff_not] at h ⊢ <;> omega

variable {bk : OBook} {sp : Side → SpecSide} {side : Side} {now : Nat} {oracle : Int}

theorem valid_items (hL : LiveBook bk sp) (side : Side) (now : Nat) (oracle : Int) : ∃ xs : List Item, (bk.get side).validItems now oracle = .ok xs ∧ (bk.get side).side = side ∧
    (xs.map quoteOf).Perm (offersOf (sp side) side now oracle) ∧ Ranked side (xs.map quoteOf) ∧ QPos (xs.map quoteOf) := by
  obtain ⟨xs, x1, hO, _⟩ := items_offers (hL.is.sim side) (hL.is.good side) now oracle
  rw [hL.is.side] at hO
  obtain ⟨h1, h2⟩ := valid_offers hO
  refine ⟨xs.filter Item.isValid, ?_, hL.is.side side, h1, h2, ?_⟩
  · unfold BookSide.validItems; rw [x1]; rfl
  · intro q hq
    obtain ⟨i, hi, rfl⟩ := List.mem_map.mp hq
    have := offers_pos hO (hL.pos _) (hL.one _) i (List.mem_filter.mp hi).1
    exact this

theorem depth_perm {p : Int} {a b : List Quote} (h : a.Perm b) : depth side p a = depth side p b := sumOf_perm _ h
theorem better_perm {p : Int} {a b : List Quote} (h : a.Perm b) : better side p a = better side p b := sumOf_perm _ h
theorem betterWorth_perm {p : Int} {a b : List Quote} (h : a.Perm b) : betterWorth side p a = betterWorth side p b := sumOf_perm _ h

/-- **C76 (depth).** The quantity reported for a price is the total size of the orders that can trade at that price or a better one. -/
theorem C76_quantity (hL : LiveBook bk sp) {limit r : Int} (h : (bk.get side).quantityAtPrice limit now oracle = .ok r) :
    r = depth side limit (offersOf (sp side) side now oracle) := by
  obtain ⟨xs, h1, h2, h3, h4, h5⟩ := valid_items hL side now oracle
  unfold BookSide.quantityAtPrice at h
  rw [h1, h2] at h
  simp only [bind, Except.bind] at h
  rw [quantity_aux h4 h, depth_perm h3]; omega

/-- **C76 (best price).** -/
theorem C76_best (hL : LiveBook bk sp) : ∃ r, (bk.get side).bestPrice now oracle = .ok r ∧
    (r = none ↔ offersOf (sp side) side now oracle = []) ∧
    ∀ p, r = some p → (∃ q ∈ offersOf (sp side) side now oracle, q.price = p) ∧ ∀ q ∈ offersOf (sp side) side now oracle, side.isPriceBetter q.price p = false := by
  obtain ⟨xs, h1, h2, h3, h4, h5⟩ := valid_items hL side now oracle
  refine ⟨xs.head?.map Item.price, ?_, ?_, ?_⟩
  · unfold BookSide.bestPrice; rw [h1]; rfl
  · cases xs with
    | nil => simp only [List.head?_nil, Option.map_none, true_iff]; exact List.nil_perm.mp h3
    | cons i rest =>
      simp only [List.head?_cons, Option.map_some, reduceCtorEq, false_iff]
      intro e
      rw [e] at h3
      have := h3.length_eq
      simp at this
  · intro p hp
    cases xs with
    | nil => simp at hp
    | cons i rest =>
      simp only [List.head?_cons, Option.map_some, Option.some.injEq] at hp
      subst hp
      refine ⟨⟨quoteOf i, h3.subset (by simp), rfl⟩, ?_⟩
      intro q hq
      have := h3.symm.subset hq
      rw [List.map_cons] at this h4
      rcases List.mem_cons.mp this with rfl | hm
      · exact better_irrefl _ _
      · exact (List.pairwise_cons.mp h4).1 q hm

/-- **C76 (impact price).** For a positive quantity the impact price is missing exactly when the side does not hold that quantity;
otherwise it is the price of an order that can trade, at least the quantity is offered at it or better, and less than the quantity
at all better prices. -/
theorem C76_impact (hL : LiveBook bk sp) {n : Int} {r : Option Int} (hn : 0 < n) (h : (bk.get side).impactPrice n now oracle = .ok r) :
    (r = none ↔ sumOf Quote.lots (offersOf (sp side) side now oracle) < n) ∧
    ∀ p, r = some p → (∃ q ∈ offersOf (sp side) side now oracle, q.price = p) ∧ n ≤ depth side p (offersOf (sp side) side now oracle) ∧
      better side p (offersOf (sp side) side now oracle) < n := by
  obtain ⟨xs, h1, h2, h3, h4, h5⟩ := valid_items hL side now oracle
  unfold BookSide.impactPrice at h
  rw [h1] at h
  simp only [bind, Except.bind] at h
  rw [← sumOf_perm _ h3]
  rcases impact_aux h5 h4 hn h with ⟨rfl, hl⟩ | ⟨p, rfl, hm, hd, hb⟩
  · exact ⟨⟨fun _ => by omega, fun _ => rfl⟩, fun p hp => by simp at hp⟩
  · refine ⟨⟨fun e => by simp at e, fun e => ?_⟩, ?_⟩
    · have := depth_le (side := side) (p := p) h5; omega
    · intro p' hp'
      simp only [Option.some.injEq] at hp'
      subst hp'
      rw [← depth_perm h3, ← better_perm h3]
      obtain ⟨q, hq, e⟩ := List.mem_map.mp hm
      exact ⟨⟨q, h3.subset hq, e⟩, by omega, by omega⟩

/-- **C76 (amount).** The amount reported for a positive quantity is missing exactly when the side does not hold the quantity; otherwise
it is the price of the best way to trade the quantity: all orders better than some price in full, and the rest at that price, where at
least the quantity is offered at that price or better and less than it at better prices. -/
theorem C76_amount (hL : LiveBook bk sp) {n : Int} {r : Option Int} (hn : 0 < n) (h : (bk.get side).matchedAmount n now oracle = .ok r) :
    (r = none ↔ sumOf Quote.lots (offersOf (sp side) side now oracle) < n) ∧
    ∀ a, r = some a → ∃ p, (∃ q ∈ offersOf (sp side) side now oracle, q.price = p) ∧
      n ≤ depth side p (offersOf (sp side) side now oracle) ∧ better side p (offersOf (sp side) side now oracle) < n ∧
      a = betterWorth side p (offersOf (sp side) side now oracle) + (n - better side p (offersOf (sp side) side now oracle)) * p := by
  obtain ⟨xs, h1, h2, h3, h4, h5⟩ := valid_items hL side now oracle
  unfold BookSide.matchedAmount at h
  rw [if_neg (by omega)] at h
  rw [h1] at h
  simp only [bind, Except.bind] at h
  have hr := amount_aux h
  rw [Int.sub_zero] at hr
  rw [← sumOf_perm _ h3]
  rcases pay_spec h5 h4 hn with ⟨e, hl⟩ | ⟨p, ⟨q, hq, hqp⟩, hd, hb, e⟩
  · rw [e] at hr
    subst hr
    exact ⟨⟨fun _ => hl, fun _ => rfl⟩, fun a ha => by simp at ha⟩
  · rw [e] at hr
    subst hr
    refine ⟨⟨fun e => by simp at e, fun e => ?_⟩, ?_⟩
    · have := depth_le (side := side) (p := p) h5; omega
    · intro a ha
      refine ⟨p, ⟨q, h3.subset hq, hqp⟩, ?_⟩
      rw [← depth_perm h3, ← better_perm h3, ← betterWorth_perm h3]
      simp only [Option.map_some, Option.some.injEq] at ha
      exact ⟨hd, hb, by omega⟩

theorem worth_nonneg {qs : List Quote} (h : QPos qs) : 0 ≤ sumOf (fun q : Quote => q.lots * q.price) qs := by
  apply sumOf_nonneg_mem
  intro q hq
  obtain ⟨h1, h2⟩ := h q hq
  exact Int.mul_nonneg (by omega) (by omega)

theorem lotsFor_none : ∀ {qs : List Quote} {a : Int}, QPos qs → 0 < a → (lotsFor qs a = none ↔ sumOf (fun q : Quote => q.lots * q.price) qs < a) := by
  intro qs
  induction qs with
  | nil => intro a _ ha; simpa [lotsFor] using ha
  | cons q rest ih =>
    intro a hp ha
    have hp' : QPos rest := fun x hx => hp x (by simp [hx])
    have := worth_nonneg hp'
    unfold lotsFor
    rw [sumOf_cons]
    by_cases hc : a ≤ q.lots * q.price
    · rw [if_pos hc]
      simp only [reduceCtorEq, false_iff]; omega
    · rw [if_neg hc, Option.map_eq_none_iff, ih hp' (by omega)]; omega

/-- **C76 (quantity for an amount).** The quantity reported for a positive amount is missing exactly when all orders together are worth
less than the amount. -/
theorem C76_matched_none (hL : LiveBook bk sp) {amt : Int} {r : Option Int} (ha : 0 < amt) (h : (bk.get side).matchedQuantity amt now oracle = .ok r) :
    r = none ↔ sumOf (fun q : Quote => q.lots * q.price) (offersOf (sp side) side now oracle) < amt := by
  obtain ⟨xs, h1, h2, h3, h4, h5⟩ := valid_items hL side now oracle
  unfold BookSide.matchedQuantity at h
  rw [if_neg (by omega), h1] at h
  simp only [bind, Except.bind] at h
  have hr := lots_aux h5 ha h
  rw [Int.sub_zero] at hr
  rw [hr, Option.map_eq_none_iff, lotsFor_none h5 ha, sumOf_perm _ h3]

/-- **C76 (quantity for an amount).** The quantity reported for an amount is the largest that costs at most the amount. (The comment in
the code says at least: finding 36.) -/
theorem C76_matched_quantity (hL : LiveBook bk sp) {amt n : Int} (ha : 0 < amt) (h : (bk.get side).matchedQuantity amt now oracle = .ok (some n)) :
    0 ≤ n ∧
    (0 < n → ∀ r, (bk.get side).matchedAmount n now oracle = .ok r → ∃ c, r = some c ∧ c ≤ amt) ∧
    ∀ c', (bk.get side).matchedAmount (n + 1) now oracle = .ok (some c') → amt < c' := by
  obtain ⟨xs, h1, h2, h3, h4, h5⟩ := valid_items hL side now oracle
  unfold BookSide.matchedQuantity at h
  rw [if_neg (by omega), h1] at h
  simp only [bind, Except.bind] at h
  have hr := lots_aux h5 ha h
  rw [Int.sub_zero] at hr
  have hl : lotsFor (xs.map quoteOf) amt = some n := by
    rw [eq_comm, Option.map_eq_some_iff] at hr
    obtain ⟨m, hm, e⟩ := hr
    rw [hm]; congr 1; omega
  obtain ⟨s1, s2, s3⟩ := lotsFor_spec h5 ha hl
  refine ⟨s1, ?_, ?_⟩
  · intro h0 r hr
    unfold BookSide.matchedAmount at hr
    rw [if_neg (by omega), h1] at hr
    simp only [bind, Except.bind] at hr
    have := amount_aux hr
    obtain ⟨c, hc, hc'⟩ := s2 h0
    rw [Int.sub_zero, hc] at this
    exact ⟨c, by simpa using this, hc'⟩
  · intro c' hr
    unfold BookSide.matchedAmount at hr
    rw [if_neg (by omega), h1] at hr
    simp only [bind, Except.bind] at hr
    have := amount_aux hr
    rw [Int.sub_zero] at this
    apply s3
    rw [eq_comm, Option.map_eq_some_iff] at this
    obtain ⟨m, hm, e⟩ := this
    rw [hm]; congr 1; omega

/-! ## an order gets what the book reported -/

def validQuotes (xs : List Item) : List Quote := (xs.filter Item.isValid).map quoteOf

theorem validQuotes_cons_valid {i : Item} {xs : List Item} (h : i.isValid = true) : validQuotes (i :: xs) = quoteOf i :: validQuotes xs := by
  simp [validQuotes, h]
theorem validQuotes_cons_invalid {i : Item} {xs : List Item} (h : i.isValid = false) : validQuotes (i :: xs) = validQuotes xs := by
  simp [validQuotes, h]

theorem within_iff {side : Side} {q p : Int} : side.isPriceWithinLimit q p = true ↔ side.invert.isPriceBetter p q = false := by
  cases side <;> simp [Side.isPriceWithinLimit, Side.isPriceBetter, Side.invert]

theorem trace_shut {c : MCtx} {s s' : MState} {items : List Item} {acts : List Act} (h : Trace c s items acts s') (ho : ¬ s.open) : s' = s := by
  cases h
  case nil => rfl
  case full => rfl
  all_goals exact absurd (by assumption) ho

theorem trace_pays {c : MCtx} {s s' : MState} {items : List Item} {acts : List Act} (h : Trace c s items acts s') :
    ∀ {a : Int}, QPos (validQuotes items) → Ranked c.order.side.invert (validQuotes items) → 0 < s.remBase → c.order.isPostOnly = false →
    s.remBase ≤ depth c.order.side.invert c.price (validQuotes items) → payFor (validQuotes items) s.remBase = some a → a ≤ s.remQuote →
    (validQuotes items).length ≤ s.limit → (∀ i ∈ items, i.leaf.owner ≠ c.taker) → s'.remBase = 0 ∧ s'.remQuote = s.remQuote - a := by
  induction h with
  | nil s => intro a _ _ _ _ _ hp; simp [validQuotes, payFor] at hp
  | full s i rest ho =>
    intro a hQ _ h0 _ _ hp ha
    have := payFor_pos hQ h0 hp
    exact absurd (show s.open from fun hc => by omega) ho
  | outside s i rest _ hv hw =>
    intro a _ hR h0 _ hd
    exfalso
    rw [validQuotes_cons_valid hv] at hd hR
    have hb : c.order.side.invert.isPriceBetter c.price i.price = true := by
      cases hb : c.order.side.invert.isPriceBetter c.price i.price with
      | true => rfl
      | false => rw [within_iff.mpr hb] at hw; simp at hw
    have : depth c.order.side.invert c.price (quoteOf i :: validQuotes rest) = 0 := by
      unfold depth
      apply sumOf_zero
      intro q hq
      rcases List.mem_cons.mp hq with rfl | hq
      · rw [if_pos]; exact hb
      · rw [if_pos]; exact better_trans hb ((List.pairwise_cons.mp hR).1 q hq)
    omega
  | noQuote s i rest ho hv hw hpo hl hi hq =>
    intro a hQ hR h0 _ hd hp ha
    exfalso
    rw [validQuotes_cons_valid hv] at hQ hp
    obtain ⟨q1, q2⟩ := hQ _ List.mem_cons_self
    simp only [quoteOf] at q1 q2
    have hQ' : QPos (validQuotes rest) := fun x hx => hQ x (by simp [hx])
    have hge : i.price ≤ s.remQuote := by
      refine le_trans ?_ ha
      unfold payFor at hp
      by_cases hc : s.remBase ≤ (quoteOf i).lots
      · rw [if_pos hc, Option.some.injEq] at hp
        rw [← hp]
        have := Int.mul_le_mul_of_nonneg_right (show (1:Int) ≤ s.remBase by omega) (show 0 ≤ i.price by omega)
        simp only [quoteOf]; omega
      · rw [if_neg hc, Option.map_eq_some_iff] at hp
        obtain ⟨b, hb, rfl⟩ := hp
        have := payFor_pos hQ' (by omega) hb
        have := Int.mul_le_mul_of_nonneg_right (show (1:Int) ≤ i.leaf.quantity by omega) (show 0 ≤ i.price by omega)
        simp only [quoteOf]; omega
    rw [Int.tdiv_eq_ediv_of_nonneg (by omega)] at hq
    have := (Int.le_ediv_iff_mul_le (c := i.price) (a := 1) (b := s.remQuote) (by omega)).mpr (by omega)
    omega
  | block s i rest _ hv hw hb =>
    intro a _ _ _ hpo _ _ _ hl
    exfalso
    rw [validQuotes_cons_valid hv] at hl
    simp only [List.length_cons] at hl
    rcases hb with hb | hb
    · rw [hpo] at hb; simp at hb
    · omega
  | ignore s i rest acts s' _ hv _ _ ih =>
    intro a hQ hR h0 hpo hd hp ha hl hw
    rw [validQuotes_cons_invalid hv] at *
    exact ih hQ hR h0 hpo hd hp ha hl (fun j hj => hw j (by simp [hj]))
  | drop s i rest acts s' q _ hv _ _ _ ih =>
    intro a hQ hR h0 hpo hd hp ha hl hw
    rw [validQuotes_cons_invalid hv] at *
    exact ih hQ hR h0 hpo hd hp ha hl (fun j hj => hw j (by simp [hj]))
  | cancel s i rest acts s' q _ _ he _ _ _ ih =>
    intro a _ _ _ _ _ _ _ _ hw
    exact absurd he.symm (hw i (by simp))
  | fill s i rest acts s' q base ho hm hst hbase hq hpush ht ih =>
    intro a hQ hR h0 hpo hd hp ha hl hw
    have hv : i.isValid = true := hm.1
    rw [validQuotes_cons_valid hv] at hQ hR hd hp hl
    obtain ⟨q1, q2⟩ := hQ _ List.mem_cons_self
    simp only [quoteOf] at q1 q2
    have hQ' : QPos (validQuotes rest) := fun x hx => hQ x (by simp [hx])
    obtain ⟨hR1, hR2⟩ := List.pairwise_cons.mp hR
    unfold payFor at hp
    have hrq : 0 ≤ s.remQuote := by
      by_cases hc : s.remBase ≤ (quoteOf i).lots
      · rw [if_pos hc, Option.some.injEq] at hp
        have := Int.mul_nonneg (show 0 ≤ s.remBase by omega) (show 0 ≤ (quoteOf i).price by simp only [quoteOf]; omega)
        omega
      · rw [if_neg hc, Option.map_eq_some_iff] at hp
        obtain ⟨b, hb, rfl⟩ := hp
        have := payFor_pos hQ' (by omega) hb
        have := Int.mul_nonneg (show 0 ≤ (quoteOf i).lots by simp only [quoteOf]; omega) (show 0 ≤ (quoteOf i).price by simp only [quoteOf]; omega)
        omega
    rw [Int.tdiv_eq_ediv_of_nonneg hrq] at hbase
    by_cases hc : s.remBase ≤ (quoteOf i).lots
    · rw [if_pos hc, Option.some.injEq] at hp
      simp only [quoteOf] at hc hp
      have hle := (Int.le_ediv_iff_mul_le (c := i.price) (a := s.remBase) (b := s.remQuote) (by omega)).mpr (by omega)
      have hb : base = s.remBase := by omega
      rw [trace_shut ht (fun hc => hc (.inl (by simp only; omega)))]
      simp only
      rw [hb]; omega
    · rw [if_neg hc, Option.map_eq_some_iff] at hp
      obtain ⟨b, hb, rfl⟩ := hp
      have hbp := payFor_pos hQ' (by omega) hb
      simp only [quoteOf] at hc hb ha
      have hle := (Int.le_ediv_iff_mul_le (c := i.price) (a := i.leaf.quantity) (b := s.remQuote) (by omega)).mpr (by omega)
      have hbs : base = i.leaf.quantity := by omega
      have hdep : depth c.order.side.invert c.price (quoteOf i :: validQuotes rest) ≤ i.leaf.quantity + depth c.order.side.invert c.price (validQuotes rest) := by
        unfold depth
        rw [sumOf_cons]
        have : (if c.order.side.invert.isPriceBetter c.price (quoteOf i).price = true then 0 else (quoteOf i).lots) ≤ i.leaf.quantity := by
          split
          · omega
          · exact le_refl _
        omega
      have := ih (a := b) hQ' hR2 (by simp only; omega) hpo (by simp only; omega) (by simp only; rw [hbs]; exact hb) (by simp only; rw [hbs]; omega)
        (by simp only; simp only [List.length_cons] at hl; omega) (fun j hj => hw j (by simp [hj]))
      refine ⟨this.1, ?_⟩
      rw [this.2]
      simp only [hbs, quoteOf]; omega

variable {o : Order} {oracleNative : I80F48} {taker limit : Nat} {s s' : NOState} {r : Option Nat}

/-- **C76 (an order gets the reported amount).** If the opposite side reports the amount `a` for the order's quantity, and the depth at
the order's price is at least that quantity, then an order whose quote limit is at least `a`, whose match limit is at least the number
of orders that can trade and whose owner has no order on the opposite side trades exactly its quantity for exactly `a` quote lots. -/
theorem C76_order (hS : Setup o s sp) (h : newOrder o oracleNative taker now limit s = .ok (r, s')) (hpo : o.isPostOnly = false)
    (hor : s.market.nativePriceToLot oracleNative = .ok oracle) {p d a : Int} {k : Nat} (hp : o.price now oracle s.book = .ok (p, k))
    (hd : (s.book.get o.side.invert).quantityAtPrice p now oracle = .ok d) (hdn : o.maxBase ≤ d)
    (ha : (s.book.get o.side.invert).matchedAmount o.maxBase now oracle = .ok (some a)) (haq : a ≤ o.maxQuote)
    (hl : (offersOf (sp o.side.invert) o.side.invert now oracle).length ≤ limit)
    (hown : ∀ c, ∀ l ∈ (sp o.side.invert).get c, l.owner ≠ taker) :
    ∃ evs, s'.queue.toList = s.queue.toList ++ evs ∧ tradedBase evs = o.maxBase ∧ tradedQuote evs = a := by
  obtain ⟨P⟩ := place hS h
  have ho := P.e_oracle
  rw [hor, ok_inj] at ho
  subst ho
  have hpr := P.e_price
  rw [hp, ok_inj] at hpr
  obtain ⟨rfl, rfl⟩ := Prod.mk.inj hpr
  obtain ⟨evs, e1, e2, e3, _⟩ := P.traded
  refine ⟨evs, e1, ?_⟩
  have hn : 0 < o.maxBase := by
    unfold BookSide.matchedAmount at ha
    by_contra hc
    rw [if_pos (by omega), ok_inj] at ha
    simp at ha
  obtain ⟨v1, v2⟩ := valid_offers P.offers
  have hdep := C76_quantity hS.live hd
  have hitems : (s.book.get o.side.invert).validItems now P.oracle = .ok (P.items.filter Item.isValid) := by
    unfold BookSide.validItems; rw [P.e_items]; rfl
  unfold BookSide.matchedAmount at ha
  rw [if_neg (by omega), hitems] at ha
  simp only [bind, Except.bind] at ha
  have hpay := amount_aux ha
  rw [Int.sub_zero] at hpay
  have hpay' : payFor (validQuotes P.items) o.maxBase = some a := by
    rw [eq_comm, Option.map_eq_some_iff] at hpay
    obtain ⟨b, hb, e⟩ := hpay
    rw [show a = b by omega]; exact hb
  have hQ : QPos (validQuotes P.items) := by
    intro q hq
    obtain ⟨i, hi, rfl⟩ := List.mem_map.mp hq
    exact offers_pos P.offers (hS.live.pos _) (hS.live.one _) i (List.mem_filter.mp hi).1
  have hown' : ∀ i ∈ P.items, i.leaf.owner ≠ taker := by
    intro i hi
    exact hown _ _ (P.offers.mem hi)
  have := trace_pays P.trace hQ v2 hn hpo (by simp only; unfold validQuotes; rw [depth_perm v1]; omega) hpay' haq
    (by simp only; rw [show (validQuotes P.items).length = _ from v1.length_eq]; exact hl) hown'
  simp only at this
  omega

end Perp
end Mango
