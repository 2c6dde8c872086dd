import Verif.Health.Spec
/-! Rounding bounds: computed health against the exact worth. -/
namespace Mango
namespace Health
open Fx

/-- two roundings down of `b * (w * p)` where the weighted price is rounded first -/
theorem two_floors_wp {b w p : Int} :
    (0 ≤ b → b * (w * p) - b * S - S * S ≤ b * (w * p / S) / S * (S * S) ∧ b * (w * p / S) / S * (S * S) ≤ b * (w * p)) ∧
    (b < 0 → b * (w * p) - S * S ≤ b * (w * p / S) / S * (S * S) ∧ b * (w * p / S) / S * (S * S) ≤ b * (w * p) + (-b) * S) := by
  have hS := S_pos
  obtain ⟨h1, h2⟩ := mulFloor_bounds (w * p)
  generalize hq : w * p / S = q at *
  obtain ⟨h3, h4⟩ := mulFloor_bounds (b * q)
  generalize b * q / S = v at *
  have e : v * (S * S) = v * S * S := by rw [Int.mul_assoc]
  have h5 : v * S * S ≤ b * q * S := Int.mul_le_mul_of_nonneg_right h3 (Int.le_of_lt hS)
  have h6 : b * q * S ≤ (v * S + S) * S := Int.mul_le_mul_of_nonneg_right (Int.le_of_lt h4) (Int.le_of_lt hS)
  rw [Int.add_mul] at h6
  rw [e]
  have e2 : b * q * S = b * (q * S) := Int.mul_assoc _ _ _
  constructor
  · intro hb
    have h7 : b * (q * S) ≤ b * (w * p) := Int.mul_le_mul_of_nonneg_left h1 hb
    have h8 : b * (w * p) ≤ b * (q * S + S) := Int.mul_le_mul_of_nonneg_left (Int.le_of_lt h2) hb
    rw [Int.mul_add] at h8
    omega
  · intro hb
    have h7 : b * (w * p) ≤ b * (q * S) := Int.mul_le_mul_of_nonpos_left (by omega) h1
    have h8 : b * (q * S + S) ≤ b * (w * p) := Int.mul_le_mul_of_nonpos_left (by omega) (Int.le_of_lt h2)
    rw [Int.mul_add] at h8
    rw [Int.neg_mul]
    omega

/-- computed contribution of one token against its exact worth -/
theorem contribution_bounds {t : TokenInfo} {h : HT} {b v : Int} (hh : t.contribution h b = .ok v) :
    worth t h b - max b 0 * S - S * S ≤ v * (S * S) ∧ v * (S * S) ≤ worth t h b + max (-b) 0 * S := by
  have e := contribution_ok hh
  unfold worth
  by_cases hb : b < 0
  · rw [if_pos hb] at e ⊢
    rw [e]
    have := (two_floors_wp (b := b) (w := t.liabWeight h) (p := t.prices.liab h)).2 hb
    have e1 : max b 0 = 0 := by omega
    have e2 : max (-b) 0 = -b := by omega
    rw [e1, e2]; omega
  · rw [if_neg hb] at e ⊢
    rw [e]
    have := (two_floors_wp (b := b) (w := t.assetWeight h) (p := t.prices.asset h)).1 (by omega)
    have e1 : max b 0 = b := by omega
    have e2 : max (-b) 0 = 0 := by omega
    rw [e1, e2]; omega

/-- two roundings down of `a * w * p` where the amount is weighted first -/
theorem two_floors_aw {a w p : Int} (hp : 0 ≤ p) :
    a * (w * p) - p * S - S * S ≤ a * w / S * p / S * (S * S) ∧ a * w / S * p / S * (S * S) ≤ a * (w * p) := by
  have hS := S_pos
  obtain ⟨h1, h2⟩ := mulFloor_bounds (a * w)
  generalize a * w / S = q at *
  obtain ⟨h3, h4⟩ := mulFloor_bounds (q * p)
  generalize q * p / S = v at *
  have e : v * (S * S) = v * S * S := by rw [Int.mul_assoc]
  have h5 : v * S * S ≤ q * p * S := Int.mul_le_mul_of_nonneg_right h3 (Int.le_of_lt hS)
  have h6 : q * p * S ≤ (v * S + S) * S := Int.mul_le_mul_of_nonneg_right (Int.le_of_lt h4) (Int.le_of_lt hS)
  rw [Int.add_mul] at h6
  have e2 : q * p * S = q * S * p := by rw [Int.mul_right_comm]
  have e3 : a * (w * p) = a * w * p := by rw [Int.mul_assoc]
  have h7 : q * S * p ≤ a * w * p := Int.mul_le_mul_of_nonneg_right h1 hp
  have h8 : a * w * p ≤ (q * S + S) * p := Int.mul_le_mul_of_nonneg_right (Int.le_of_lt h2) hp
  rw [Int.add_mul, Int.mul_comm S p] at h8
  rw [e, e3]
  omega

/-- rounding of one serum effect -/
def effSlack (t : TokenInfo) (h : HT) : Int := (t.prices.asset h + t.prices.liab h) * S + 2 * (S * S)

theorem effect_bounds {t : TokenInfo} {h : HT} (s : t.Sane h) {bal mr r e : Int} (hr : 0 ≤ r) (hh : Serum3Info.effect t h bal mr r = .ok e) :
    worth t h (bal + mr) - worth t h (bal + mr - r) - effSlack t h ≤ e * (S * S) ∧
    e * (S * S) ≤ worth t h (bal + mr) - worth t h (bal + mr - r) := by
  simp only [Serum3Info.effect, bind_ok, add_ok, mul_ok] at hh
  obtain ⟨mb, ⟨hmb, _⟩, ⟨a, l⟩, h1, x, ⟨hx, _⟩, x2, ⟨hx2, _⟩, y, ⟨hy, _⟩, y2, ⟨hy2, _⟩, he, _⟩ := hh
  subst hmb
  have hal : worth t h (bal + mr) - worth t h (bal + mr - r) =
      a * (t.assetWeight h * t.prices.asset h) + l * (t.liabWeight h * t.prices.liab h) := by
    unfold worth
    simp only [ite_ok, bind_ok, sub_ok] at h1
    rcases h1 with ⟨hc, h1⟩ | ⟨hc, ⟨hc2, h1⟩ | ⟨hc2, l', ⟨hl, _⟩, h1⟩⟩
    · simp at h1
      rw [if_neg (by omega), if_neg (by omega), ← h1.1, ← h1.2, ← Int.sub_mul]
      simp only [Int.zero_mul, Int.add_zero]
      congr 1; omega
    · simp at h1
      rw [if_pos (by omega), if_pos (by omega), ← h1.1, ← h1.2, ← Int.sub_mul]
      simp only [Int.zero_mul, Int.zero_add]
      congr 1; omega
    · simp at h1
      rw [if_neg (by omega), if_pos (by omega), ← h1.1, ← h1.2, hl, Int.sub_eq_add_neg, ← Int.neg_mul]
      congr 2; omega
  rw [hal]
  have e1 := two_floors_aw (a := a) (w := t.assetWeight h) (p := t.prices.asset h) s.ap
  have e2 := two_floors_aw (a := l) (w := t.liabWeight h) (p := t.prices.liab h) s.lp
  rw [← hx, ← hx2] at e1
  rw [← hy, ← hy2] at e2
  unfold effSlack
  rw [he, Int.add_mul, Int.add_mul]
  omega

/-- non-negative amounts of a market -/
structure Serum3Info.NonNeg (s : Serum3Info) : Prop where
  base : 0 ≤ s.reservedBase
  quote : 0 ≤ s.reservedQuote
  ask : 0 ≤ s.reservedBaseAsQuoteLowestAsk
  bid : 0 ≤ s.reservedQuoteAsBaseHighestBid

/-- what the theorems use of the f64 division: it is monotone on non-negative numbers -/
structure FdOk (fd : FDiv) : Prop where
  nonneg : ∀ a b x, 0 ≤ a → 0 ≤ b → fd a b = .ok x → 0 ≤ x
  mono : ∀ a a' b b' x y, 0 ≤ a → a ≤ a' → 0 ≤ b' → b' ≤ b → fd a b = .ok x → fd a' b' = .ok y → x ≤ y

theorem reserved_nonneg {fd : FDiv} (hfd : FdOk fd) {s : Serum3Info} (hs : s.NonNeg) {h : HT} {q b : TokenInfo} (sq : q.Sane h) (sb : b.Sane h)
    {x y : Int} (hx : s.allReservedAsBase fd h q b = .ok x) (hy : s.allReservedAsQuote fd h q b = .ok y) :
    0 ≤ x ∧ 0 ≤ y := by
  have := hs.base; have := hs.quote; have := hs.ask; have := hs.bid
  simp only [Serum3Info.allReservedAsBase, Serum3Info.allReservedAsQuote, bind_ok, ite_ok, mul_ok, add_ok] at hx hy
  obtain ⟨v, ⟨hv, _⟩, o, ho, hx⟩ := hx
  obtain ⟨v', ⟨hv', _⟩, o', ho', hy⟩ := hy
  have e1 := hfd.nonneg _ _ _ (by rw [hv]; exact floor_nonneg (Int.mul_nonneg hs.quote sq.ap)) sb.lp ho
  have e2 := hfd.nonneg _ _ _ (by rw [hv']; exact floor_nonneg (Int.mul_nonneg hs.base sb.ap)) sq.lp ho'
  constructor
  · rcases hx with ⟨_, hx, _⟩ | ⟨_, hx, _⟩ <;> omega
  · rcases hy with ⟨_, hy, _⟩ | ⟨_, hy, _⟩ <;> omega

theorem reserveStep_ok {fd : FDiv} {c : Cache} {h : HT} {mr mr' : List Int} {s : Serum3Info} {r : Serum3Reserved}
    (hh : c.reserveStep fd h mr s = .ok (mr', r)) :
    mr'.length = mr.length ∧ (∀ k b, mr[k]? = some b → mr'[k]? = some (b + part (s, r) k)) ∧
    ∃ q b, c.tokens[s.quoteIdx]? = some q ∧ c.tokens[s.baseIdx]? = some b ∧
      s.allReservedAsBase fd h q b = .ok r.asBase ∧ s.allReservedAsQuote fd h q b = .ok r.asQuote := by
  simp only [Cache.reserveStep, bind_ok, at_ok, add_ok] at hh
  obtain ⟨q, hq, b, hb, rb, hrb, rq, hrq, x, hx, x', ⟨hx', _⟩, y, hy, y', ⟨hy', _⟩, h1⟩ := hh
  simp at h1
  obtain ⟨e1, e2⟩ := h1
  subst e1; subst e2
  refine ⟨by simp, ?_, q, b, hq, hb, hrb, hrq⟩
  intro k v hv
  rw [at_set hy]
  rw [at_set hx] at hy
  rw [at_set hx]
  simp only [part, conv]
  by_cases h1 : k = s.quoteIdx
  · subst h1
    simp only [if_true]
    by_cases h2 : s.quoteIdx = s.baseIdx
    · simp only [h2, if_true] at hy ⊢
      rw [← h2] at hx
      rw [hx] at hv; simp at hv
      omega
    · have h3 : ¬ s.baseIdx = s.quoteIdx := fun e => h2 e.symm
      simp only [h2, h3, if_false] at hy ⊢
      rw [hy] at hv; simp at hv
      omega
  · have h4 : ¬ s.quoteIdx = k := fun e => h1 e.symm
    simp only [h1, h4, if_false]
    by_cases h2 : k = s.baseIdx
    · subst h2
      simp only [if_true]
      rw [hx] at hv; simp at hv
      omega
    · have h3 : ¬ s.baseIdx = k := fun e => h2 e.symm
      simp only [h2, h3, if_false]
      simpa using hv

theorem reserveLoop_ok {fd : FDiv} {c : Cache} {h : HT} : ∀ {ss : List Serum3Info} {mr mr' : List Int} {rs : List Serum3Reserved},
    c.reserveLoop fd h mr ss = .ok (mr', rs) →
    rs.length = ss.length ∧ mr'.length = mr.length ∧
    (∀ k b, mr[k]? = some b → mr'[k]? = some (b + sumOf (fun x => part x k) (ss.zip rs))) ∧
    ∀ x ∈ ss.zip rs, ∃ q b, c.tokens[x.1.quoteIdx]? = some q ∧ c.tokens[x.1.baseIdx]? = some b ∧
      x.1.allReservedAsBase fd h q b = .ok x.2.asBase ∧ x.1.allReservedAsQuote fd h q b = .ok x.2.asQuote := by
  intro ss
  induction ss with
  | nil => intro mr mr' rs hh; simp [Cache.reserveLoop] at hh; obtain ⟨rfl, rfl⟩ := hh; simp
  | cons s ss ih =>
    intro mr mr' rs hh
    simp only [Cache.reserveLoop, bind_ok] at hh
    obtain ⟨⟨mr1, r⟩, h1, ⟨mr2, rs2⟩, h2, h3⟩ := hh
    simp at h3
    obtain ⟨rfl, rfl⟩ := h3
    obtain ⟨a1, a2, a3⟩ := reserveStep_ok h1
    obtain ⟨b1, b2, b3, b4⟩ := ih h2
    dsimp only at a1 a2 a3 b1 b2 b3 b4
    refine ⟨by simp [b1], by omega, ?_, ?_⟩
    · intro k b hb
      have := b3 k _ (a2 k b hb)
      rw [this]; simp [Int.add_assoc]
    · intro x hx
      simp only [List.zip_cons_cons, List.mem_cons] at hx
      rcases hx with rfl | hx
      · exact a3
      · exact b4 x hx

/-- balance of the token at position `k` -/
def balAt (bs : List Int) (k : Nat) : Int := bs.getD k 0

theorem balAt_eq {bs : List Int} {k : Nat} {b : Int} (h : bs[k]? = some b) : balAt bs k = b := by
  unfold balAt; rw [List.getD_eq_getElem?_getD, h]; rfl

theorem reservations_ok {fd : FDiv} {c : Cache} {h : HT} {mr : List Int} {rs : List Serum3Reserved} (hh : c.reservations fd h = .ok (mr, rs)) :
    rs.length = c.serums.length ∧ mr.length = c.tokens.length ∧
    (∀ k, k < c.tokens.length → balAt mr k = sumOf (fun x => part x k) (c.serums.zip rs)) ∧
    ∀ x ∈ c.serums.zip rs, ∃ q b, c.tokens[x.1.quoteIdx]? = some q ∧ c.tokens[x.1.baseIdx]? = some b ∧
      x.1.allReservedAsBase fd h q b = .ok x.2.asBase ∧ x.1.allReservedAsQuote fd h q b = .ok x.2.asQuote := by
  obtain ⟨a, b, c1, d⟩ := reserveLoop_ok hh
  refine ⟨a, by simpa using b, ?_, d⟩
  intro k hk
  have := c1 k 0 (by simp [List.getElem?_replicate, hk])
  rw [balAt_eq this]; simp

/-- a value of the element at position `k` (0 beyond the end) -/
def atD {α : Type} (ts : List α) (k : Nat) (f : α → Int) : Int :=
  match ts[k]? with
  | some t => f t
  | none => 0

/-- a sum over two zipped lists, as a sum over positions -/
theorem sum_zip_range {α : Type} (f : α → Int → Int) : ∀ (ts : List α) (bs : List Int), bs.length = ts.length →
    sumOf (fun x => f x.1 x.2) (ts.zip bs) =
      sumOf (fun k => atD ts k (fun t => f t (balAt bs k))) (List.range ts.length) := by
  intro ts
  induction ts with
  | nil => intro bs _; simp
  | cons t ts ih =>
    intro bs hl
    cases bs with
    | nil => simp at hl
    | cons b bs =>
      have := ih bs (by simpa using hl)
      simp only [List.zip_cons_cons, sumOf_cons, List.length_cons, List.range_succ_eq_map, this, sumOf_map]
      simp [balAt, atD]

theorem sumOf_mul {α : Type} (f : α → Int) (c : Int) (l : List α) : sumOf f l * c = sumOf (fun x => f x * c) l := by
  induction l with
  | nil => simp
  | cons a l ih => rw [sumOf_cons, sumOf_cons, Int.add_mul, ih]

/-- rounding allowance for the tokens: what their computed contributions may fall short of the exact worth -/
def tokenSlack (bs : List Int) (n : Nat) : Int := sumOf (fun k => max (balAt bs k) 0 * S + S * S) (List.range n)
/-- what they may exceed it by -/
def tokenExcess (bs : List Int) (n : Nat) : Int := sumOf (fun k => max (-balAt bs k) 0 * S) (List.range n)

theorem tokens_bounds {ts : List TokenInfo} {h : HT} {bs : List Int} (hl : bs.length = ts.length)
    (hv : ∀ x ∈ ts.zip bs, ∃ v, x.1.contribution h x.2 = .ok v) :
    let s := sumOf (fun (x : TokenInfo × Int) => val (x.1.contribution h x.2)) (ts.zip bs)
    totalWorth ts h (balAt bs) - tokenSlack bs ts.length ≤ s * (S * S) ∧ s * (S * S) ≤ totalWorth ts h (balAt bs) + tokenExcess bs ts.length := by
  intro s
  have e : s * (S * S) = sumOf (fun k => atD ts k (fun t => val (t.contribution h (balAt bs k))) * (S * S)) (List.range ts.length) := by
    have h1 := sum_zip_range (fun t b => val (t.contribution h b)) ts bs hl
    have : s = _ := h1
    rw [this]
    rw [sumOf_mul]
  have key : ∀ k ∈ List.range ts.length, ∀ X : Int, X = atD ts k (fun t => val (t.contribution h (balAt bs k))) →
      worthAt ts h k (balAt bs k) - (max (balAt bs k) 0 * S + S * S) ≤ X * (S * S) ∧
      X * (S * S) ≤ worthAt ts h k (balAt bs k) + max (-balAt bs k) 0 * S := by
    intro k hk X hX
    have hk : k < ts.length := List.mem_range.mp hk
    have hk2 : k < bs.length := by omega
    unfold atD at hX
    rw [List.getElem?_eq_getElem hk] at hX
    simp only at hX
    have hb : balAt bs k = bs[k] := balAt_eq (List.getElem?_eq_getElem hk2)
    obtain ⟨v, h1⟩ := hv (ts[k], bs[k]) (by
      apply List.mem_of_getElem? (i := k)
      rw [List.getElem?_zip_eq_some]
      simp [hk, hk2])
    rw [hb] at hX ⊢
    rw [val_ok h1] at hX
    have := contribution_bounds h1
    dsimp only at this
    unfold worthAt
    rw [List.getElem?_eq_getElem hk]
    simp only
    subst hX
    omega
  rw [e]
  constructor
  · unfold totalWorth tokenSlack
    have : sumOf (fun k => worthAt ts h k (balAt bs k) - (max (balAt bs k) 0 * S + S * S)) (List.range ts.length) ≤
        sumOf (fun k => atD ts k (fun t => val (t.contribution h (balAt bs k))) * (S * S)) (List.range ts.length) :=
      sumOf_le (fun k hk => (key k hk _ rfl).1)
    have e2 := sumOf_add (fun k => worthAt ts h k (balAt bs k) - (max (balAt bs k) 0 * S + S * S)) (fun k => max (balAt bs k) 0 * S + S * S) (List.range ts.length)
    simp only [Int.sub_add_cancel] at e2
    omega
  · unfold totalWorth tokenExcess
    rw [← sumOf_add]
    exact sumOf_le (fun k hk => (key k hk _ rfl).2)

/-- rounding allowance for one market -/
def marketSlack (ts : List TokenInfo) (h : HT) (x : Serum3Info × Serum3Reserved) : Int :=
  (match ts[x.1.baseIdx]? with | some t => effSlack t h | none => 0) + (match ts[x.1.quoteIdx]? with | some t => effSlack t h | none => 0)

theorem effSlack_nonneg {t : TokenInfo} {h : HT} (s : t.Sane h) : 0 ≤ effSlack t h := by
  unfold effSlack
  have := s.ap; have := s.lp
  have : 0 ≤ (t.prices.asset h + t.prices.liab h) * S := Int.mul_nonneg (by omega) (by decide)
  have : 0 ≤ S * S := by decide
  omega

/-- a market's contribution: at most the exact effect on either side, and at least that on one side up to rounding -/
theorem market_bounds {ts : List TokenInfo} {h : HT} (sane : AllSane ts h) {bs mr : List Int} {s : Serum3Info} {r : Serum3Reserved} {v : Int}
    (hb : 0 ≤ r.asBase) (hq : 0 ≤ r.asQuote)
    (hh : s.contribution h ts bs mr r = .ok v) :
    (∀ d, v * (S * S) ≤ exactEffect ts h (fun k => balAt bs k + balAt mr k) (s, r) d) ∧
    (∃ d, exactEffect ts h (fun k => balAt bs k + balAt mr k) (s, r) d ≤ v * (S * S) + marketSlack ts h (s, r)) ∧ 0 ≤ v := by
  have hms : 0 ≤ marketSlack ts h (s, r) := by
    unfold marketSlack
    have key : ∀ k : Nat, 0 ≤ (match ts[k]? with | some t => effSlack t h | none => 0) := by
      intro k; split
      · rename_i t ht; exact effSlack_nonneg (sane t (List.mem_of_getElem? ht))
      · simp
    have := key s.baseIdx; have := key s.quoteIdx
    simp only; omega
  have hnn : ∀ d, 0 ≤ exactEffect ts h (fun k => balAt bs k + balAt mr k) (s, r) d := by
    intro d
    unfold exactEffect
    have h0 : 0 ≤ convAmt (s, r) d := by cases d <;> simpa [convAmt]
    have := worthAt_mono sane (convIdx (s, r) d) (u := balAt bs (convIdx (s, r) d) + balAt mr (convIdx (s, r) d) - convAmt (s, r) d)
      (v := balAt bs (convIdx (s, r) d) + balAt mr (convIdx (s, r) d)) (by omega)
    dsimp only
    omega
  simp only [Serum3Info.contribution, ite_ok] at hh
  rcases hh with ⟨hc, hh⟩ | ⟨hc, hh⟩
  · simp at hh; subst hh
    refine ⟨by intro d; simpa using hnn d, ?_, by omega⟩
    rcases hc with h0 | h0
    · refine ⟨true, ?_⟩
      simp [exactEffect, convAmt, h0]; exact hms
    · refine ⟨false, ?_⟩
      simp [exactEffect, convAmt, h0]; exact hms
  · simp only [bind_ok, at_ok] at hh
    obtain ⟨bt, hbt, qt, hqt, bb, hbb, bm, hbm, qb, hqb, qm, hqm, eb, heb, eq, heq, hv⟩ := hh
    simp at hv
    have sb := sane bt (List.mem_of_getElem? hbt)
    have sq := sane qt (List.mem_of_getElem? hqt)
    have b1 := effect_bounds sb hb heb
    have b2 := effect_bounds sq hq heq
    have E1 : exactEffect ts h (fun k => balAt bs k + balAt mr k) (s, r) true = worth bt h (bb + bm) - worth bt h (bb + bm - r.asBase) := by
      simp [exactEffect, convIdx, convAmt, worthAt, hbt, balAt_eq hbb, balAt_eq hbm]
    have E2 : exactEffect ts h (fun k => balAt bs k + balAt mr k) (s, r) false = worth qt h (qb + qm) - worth qt h (qb + qm - r.asQuote) := by
      simp [exactEffect, convIdx, convAmt, worthAt, hqt, balAt_eq hqb, balAt_eq hqm]
    have hs : marketSlack ts h (s, r) = effSlack bt h + effSlack qt h := by
      simp [marketSlack, hbt, hqt]
    have n1 := effSlack_nonneg sb
    have n2 := effSlack_nonneg sq
    have hSS : 0 < S * S := by decide
    have m1 : v * (S * S) ≤ eb * (S * S) := Int.mul_le_mul_of_nonneg_right (by omega) (Int.le_of_lt hSS)
    have m2 : v * (S * S) ≤ eq * (S * S) := Int.mul_le_mul_of_nonneg_right (by omega) (Int.le_of_lt hSS)
    refine ⟨?_, ?_, ?_⟩
    · intro d
      cases d
      · rw [E2]; omega
      · rw [E1]; omega
    · by_cases hle : eb ≤ eq
      · refine ⟨true, ?_⟩
        have : v = eb := by omega
        rw [E1, hs, this]; omega
      · refine ⟨false, ?_⟩
        have : v = eq := by omega
        rw [E2, hs, this]; omega
    · -- each computed effect is a sum of non-negative roundings
      have hpos : ∀ {t : TokenInfo} {bal m rr e : Int}, t.Sane h → 0 ≤ rr → Serum3Info.effect t h bal m rr = .ok e → 0 ≤ e := by
        intro t bal m rr e st hr he
        simp only [Serum3Info.effect, bind_ok, add_ok, mul_ok] at he
        obtain ⟨mb, ⟨hmb, _⟩, ⟨a, l⟩, h1, x, ⟨hx, _⟩, x2, ⟨hx2, _⟩, y, ⟨hy, _⟩, y2, ⟨hy2, _⟩, he, _⟩ := he
        have hal : 0 ≤ a ∧ 0 ≤ l := by
          simp only [ite_ok, bind_ok, sub_ok] at h1
          rcases h1 with ⟨hc, h1⟩ | ⟨hc, ⟨hc2, h1⟩ | ⟨hc2, l', ⟨hl, _⟩, h1⟩⟩
          · simp at h1; omega
          · simp at h1; omega
          · simp at h1; omega
        have p1 : 0 ≤ x := by rw [hx]; exact floor_nonneg (Int.mul_nonneg hal.1 st.aw)
        have p2 : 0 ≤ x2 := by rw [hx2]; exact floor_nonneg (Int.mul_nonneg p1 st.ap)
        have p3 : 0 ≤ y := by rw [hy]; exact floor_nonneg (Int.mul_nonneg hal.2 st.lw)
        have p4 : 0 ≤ y2 := by rw [hy2]; exact floor_nonneg (Int.mul_nonneg p3 st.lp)
        omega
      have := hpos sb hb heb
      have := hpos sq hq heq
      omega

end Health
end Mango
