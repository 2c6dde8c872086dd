import Verif.Misc.Collateral
import Verif.Props.HealthUpdate
import Verif.Bank.Effect
import Mathlib.Tactic.Ring
import Mathlib.Tactic.Linarith
/-!
# Collateral fees (C62)
-/
namespace Mango
namespace Collateral
open Fx Health

/-! ## When a charge is due -/

/-- several calls of the instruction, each with the group's interval and the time: the seconds charged for, with the interval -/
def calls : Int → List (Int × Int) → Res (Int × List (Int × Int))
  | last, [] => .ok (last, [])
  | last, (interval, now) :: xs => do
    let (l, s) ← due interval last now
    let (l, rest) ← calls l xs
    .ok (l, (match s with | some d => [(interval, d)] | none => []) ++ rest)

/-- times do not decrease, from `t` on -/
def Later : Int → List (Int × Int) → Prop
  | _, [] => True
  | t, (_, now) :: xs => t ≤ now ∧ Later now xs

/-- time of the last call -/
def endTime : Int → List (Int × Int) → Int
  | t, [] => t
  | _, (_, now) :: xs => endTime now xs

theorem due_ok {interval last now l : Int} {s : Option Int} (h : due interval last now = .ok (l, s)) :
    (s = none ∧ (l = 0 ∨ l = last ∨ l = now)) ∨ (last ≠ 0 ∧ interval ≠ 0 ∧ last + interval ≤ now ∧ l = now ∧ s = some (min (now - last) (2 * interval))) := by
  unfold due at h
  by_cases h1 : interval = 0
  · rw [if_pos h1] at h
    simp only [ok_inj, Prod.mk.injEq] at h
    exact Or.inl ⟨h.2.symm, Or.inl h.1.symm⟩
  · rw [if_neg h1] at h
    by_cases h2 : last = 0
    · rw [if_pos h2] at h
      simp only [ok_inj, Prod.mk.injEq] at h
      exact Or.inl ⟨h.2.symm, Or.inr (Or.inr h.1.symm)⟩
    · rw [if_neg h2] at h
      simp only [bind_ok, cku64_ok] at h
      obtain ⟨n, ⟨rfl, _⟩, h⟩ := h
      by_cases h3 : now < last + interval
      · rw [if_pos h3] at h
        simp only [ok_inj, Prod.mk.injEq] at h
        exact Or.inl ⟨h.2.symm, Or.inr (Or.inl h.1.symm)⟩
      · rw [if_neg h3] at h
        simp only [bind_ok, cku64_ok] at h
        obtain ⟨d, ⟨rfl, _⟩, m, ⟨rfl, _⟩, h⟩ := h
        simp only [ok_inj, Prod.mk.injEq] at h
        exact Or.inr ⟨h2, h1, by omega, h.1.symm, h.2.symm⟩

theorem endTime_ge {t : Int} {xs : List (Int × Int)} (h : Later t xs) : t ≤ endTime t xs := by
  induction xs generalizing t with
  | nil => exact Int.le_refl _
  | cons y ys ih => exact Int.le_trans h.1 (ih h.2)

theorem calls_bound {last t : Int} {xs : List (Int × Int)} {l : Int} {ds : List (Int × Int)} (ht : 0 < t) (hl : last = 0 ∨ last ≤ t) (hx : Later t xs) (hi : ∀ x ∈ xs, 0 ≤ x.1)
    (h : calls last xs = .ok (l, ds)) :
    (∀ x ∈ ds, 0 < x.1 ∧ x.1 ≤ x.2 ∧ x.2 ≤ 2 * x.1) ∧ sumOf (·.2) ds ≤ endTime t xs - (if last = 0 then t else last) := by
  induction xs generalizing last t l ds with
  | nil =>
    simp only [calls, ok_inj, Prod.mk.injEq] at h
    rw [← h.2]
    simp only [List.not_mem_nil, false_implies, implies_true, true_and, sumOf_nil, endTime]
    split <;> omega
  | cons x xs ih =>
    obtain ⟨iv, now⟩ := x
    obtain ⟨hx1, hx2⟩ := hx
    simp only [calls, bind_ok] at h
    obtain ⟨⟨l1, s⟩, h1, ⟨l2, rest⟩, h2, h⟩ := h
    simp only [ok_inj, Prod.mk.injEq] at h
    obtain ⟨-, rfl⟩ := h
    have hi0 := hi (iv, now) (by simp)
    have d := due_ok h1
    dsimp only at h2 hi0
    have hl1 : l1 = 0 ∨ l1 ≤ now := by
      rcases d with ⟨_, rfl | rfl | rfl⟩ | ⟨_, _, _, rfl, _⟩ <;> omega
    obtain ⟨b1, b2⟩ := ih (t := now) (by omega) hl1 hx2 (fun x hx => hi x (List.mem_cons_of_mem _ hx)) h2
    have he : endTime t ((iv, now) :: xs) = endTime now xs := rfl
    have hend : now ≤ endTime now xs := endTime_ge hx2
    rw [he]
    rcases d with ⟨rfl, d⟩ | ⟨d1, d2, d3, rfl, rfl⟩
    · refine ⟨by simpa using b1, ?_⟩
      simp only [List.nil_append]
      refine Int.le_trans b2 ?_
      split_ifs <;> omega
    · refine ⟨?_, ?_⟩
      · intro x hx
        simp only [List.singleton_append, List.mem_cons] at hx
        rcases hx with rfl | hx
        · dsimp only; omega
        · exact b1 x hx
      · simp only [List.singleton_append, sumOf_cons]
        have : (if l1 = 0 then l1 else l1) = l1 := by split <;> rfl
        rw [if_neg d1]
        rw [this] at b2
        omega

/-- **C62.** However often and whenever the instruction is called, and however the interval changes: the seconds charged for add up to no more than the time that has passed since the first call (or
the charge before it), and every single charge is for one to two intervals. -/
theorem C62_time {last t : Int} {xs : List (Int × Int)} {l : Int} {ds : List (Int × Int)} (ht : 0 < t) (hl : last = 0 ∨ last ≤ t) (hx : Later t xs) (hi : ∀ x ∈ xs, 0 ≤ x.1)
    (h : calls last xs = .ok (l, ds)) :
    (∀ x ∈ ds, x.1 ≤ x.2 ∧ x.2 ≤ 2 * x.1) ∧ sumOf (·.2) ds ≤ endTime t xs - (if last = 0 then t else last) := by
  obtain ⟨h1, h2⟩ := calls_bound ht hl hx hi h
  exact ⟨fun x hx => (h1 x hx).2, h2⟩

/-! ## Amounts, as plain arithmetic -/

/-- position `k` of the token list is token `t` -/
def isAt (c : Cache) (k : Nat) (t : TokenInfo) : Bool := (c.tokens[k]?).any (fun u => u.tokenIndex == t.tokenIndex)

/-- what the account holds of a token if its spot orders were closed: the balance that counts for maintenance health plus the funds in orders -/
def held (c : Cache) (t : TokenInfo) : Int :=
  Formula.balance c .maint t + sumOf (fun s => (if isAt c s.baseIdx t then s.reservedBase else 0) + (if isAt c s.quoteIdx t then s.reservedQuote else 0)) c.serums

/-- its maintenance health -/
def worth (c : Cache) (t : TokenInfo) : Int := Formula.tokenValue t .maint (held c t)

def assetHealth (c : Cache) : Int := sumOf (fun t => max (worth c t) 0) c.tokens
def liabHealth (c : Cache) : Int := sumOf (fun t => max (-worth c t) 0) c.tokens

/-- part of the assets used as collateral: liabilities over assets, at most 1 -/
def used (c : Cache) : Int := min (liabHealth c * S / assetHealth c) S

/-- fee on one asset: balance × used part × days × daily rate -/
def assetFeeOf (c : Cache) (seconds : Int) (x : Item) (t : TokenInfo) : Int :=
  if x.rate ≤ 0 ∨ x.bank.maintAssetWeight = 0 ∨ held c t ≤ 0 then 0
  else held c t * (used c * (seconds * INV_DAY) / S) / S * Swap.roundEven (x.rate * S) / S

/-- all fees in quote -/
def totalOf (c : Cache) (seconds : Int) (xs : List Item) : Int := sumOf (fun x => assetFeeOf c seconds x.1 x.2 * x.2.prices.oracle / S) (xs.zip c.tokens)

/-- share of the fees borrowed in a token: by its part of the liabilities -/
def liabFeeOf (c : Cache) (total : Int) (t : TokenInfo) : Int :=
  if worth c t ≥ 0 then 0 else (-worth c t * S / liabHealth c * total / S) * S / t.prices.oracle

/-- price of the token in which a perp market settles, as the code finds it -/
def settlePrice (c : Cache) (p : PerpInfo) : Int := (c.tokens[p.settleTokenIndex]?.map (·.prices.oracle)).getD 0

/-- value of a perp base position -/
def baseValue (c : Cache) (p : PerpInfo) : Int := p.baseLots * p.baseLotSize * S * p.basePrices.oracle / S * settlePrice c p / S

/-- liabilities at oracle prices -/
def liabsMarked (c : Cache) : Int :=
  sumOf (fun t => if t.balanceSpot < 0 then -(t.balanceSpot * t.prices.oracle / S) else 0) c.tokens +
  sumOf (fun p => (if p.quote < 0 then -(p.quote * settlePrice c p / S) else 0) + (if baseValue c p < 0 then -baseValue c p else 0)) c.perps

/-! ## The code computes these -/

theorem foldRes_inv {α β : Type} {f : β → α → Res β} {I : β → List α → Prop} {b b' : β} {l : List α} (h : Cache.foldRes f b l = .ok b') (h0 : I b l)
    (hs : ∀ b a as b', I b (a :: as) → f b a = .ok b' → I b' as) : I b' [] := by
  induction l generalizing b with
  | nil => simp only [Cache.foldRes, ok_inj] at h; rw [← h]; exact h0
  | cons a as ih =>
    simp only [Cache.foldRes, bind_ok] at h
    obtain ⟨b1, h1, h⟩ := h
    exact ih h (hs _ _ _ _ h0 h1)

theorem isAt_iff {c : Cache} (hd : (c.tokens.map (·.tokenIndex)).Nodup) {i k : Nat} {t : TokenInfo} (hi : c.tokens[i]? = some t) (hk : k < c.tokens.length) : isAt c k t = true ↔ k = i := by
  unfold isAt
  rw [List.getElem?_eq_getElem hk]
  simp only [Option.any_some, beq_iff_eq]
  constructor
  · intro e; exact nodup_at hd (List.getElem?_eq_getElem hk) hi e
  · rintro rfl
    rw [List.getElem?_eq_getElem hk] at hi
    injection hi with hi
    rw [hi]

theorem set_get {l : List Int} {k i : Nat} {x : Int} (hk : k < l.length) : (l.set k x)[i]? = if k = i then some x else l[i]? := by
  rw [List.getElem?_set]
  by_cases h : k = i
  · subst h; simp [hk]
  · simp [h]

theorem balances_eq {c : Cache} {bs : List Int} (hd : (c.tokens.map (·.tokenIndex)).Nodup) (h : balances c = .ok bs) : bs = c.tokens.map (held c) := by
  simp only [balances, bind_ok] at h
  obtain ⟨b0, h0, h⟩ := h
  obtain ⟨l0, g0⟩ := Formula.balances_of hd h0
  have key := foldRes_inv (I := fun b ss => b.length = c.tokens.length ∧ ∀ i t, c.tokens[i]? = some t →
      ∃ v, b[i]? = some v ∧ v + sumOf (fun s => (if isAt c s.baseIdx t then s.reservedBase else 0) + (if isAt c s.quoteIdx t then s.reservedQuote else 0)) ss = held c t) h
    ⟨l0, fun i t ht => ⟨_, g0 i t ht, rfl⟩⟩ ?_
  · obtain ⟨k1, k2⟩ := key
    apply List.ext_getElem?
    intro i
    rw [List.getElem?_map]
    cases ht : c.tokens[i]? with
    | none =>
      rw [List.getElem?_eq_none_iff] at ht
      rw [List.getElem?_eq_none (by omega)]
      rfl
    | some t =>
      obtain ⟨v, h1, h2⟩ := k2 i t ht
      rw [h1]
      simpa using h2
  · intro b s ss b' ⟨i1, i2⟩ hs
    simp only [addReserved, bind_ok, Health.at_ok, add_ok, ok_inj] at hs
    obtain ⟨x, hx, y, ⟨rfl, _⟩, q, hq, r, ⟨rfl, _⟩, rfl⟩ := hs
    have lx := getElem?_lt hx
    have lq := getElem?_lt hq
    rw [List.length_set] at lq
    refine ⟨by simp [i1], ?_⟩
    intro i t ht
    obtain ⟨v, h1, h2⟩ := i2 i t ht
    rw [sumOf_cons] at h2
    have e1 := isAt_iff hd ht (k := s.baseIdx) (by omega)
    have e2 := isAt_iff hd ht (k := s.quoteIdx) (by omega)
    rw [set_get (by simpa using lq), set_get lx]
    rw [set_get lx] at hq
    by_cases c1 : s.baseIdx = i
    · rw [if_pos (e1.mpr c1)] at h2
      subst c1
      rw [h1] at hx
      injection hx with hx
      subst hx
      by_cases c2 : s.quoteIdx = s.baseIdx
      · rw [if_pos (e2.mpr c2)] at h2
        rw [if_pos c2.symm] at hq
        injection hq with hq
        subst hq
        exact ⟨_, by rw [if_pos c2], by omega⟩
      · rw [if_neg (fun z => c2 (e2.mp z))] at h2
        exact ⟨_, by rw [if_neg c2, if_pos rfl], by omega⟩
    · rw [if_neg (fun z => c1 (e1.mp z))] at h2
      by_cases c2 : s.quoteIdx = i
      · rw [if_pos (e2.mpr c2)] at h2
        subst c2
        rw [if_neg c1, h1] at hq
        injection hq with hq
        subst hq
        exact ⟨_, by rw [if_pos rfl], by omega⟩
      · rw [if_neg (fun z => c2 (e2.mp z))] at h2
        exact ⟨v, by rw [if_neg c2, if_neg c1]; exact h1, by omega⟩

theorem zip_map {α β : Type} (f : α → β) (l : List α) : l.zip (l.map f) = l.map (fun a => (a, f a)) := by
  induction l with
  | nil => rfl
  | cons a l ih => simp [ih]

theorem healths_eq {c : Cache} {l : List TokenInfo} {a0 l0 a1 l1 : Int} (h : Cache.foldRes addHealth (a0, l0) (l.map (fun t => (t, held c t))) = .ok (a1, l1)) :
    a1 = a0 + sumOf (fun t => max (worth c t) 0) l ∧ l1 = l0 + sumOf (fun t => max (-worth c t) 0) l := by
  induction l generalizing a0 l0 with
  | nil => simp only [List.map_nil, Cache.foldRes, ok_inj, Prod.mk.injEq] at h; simp [h.1, h.2]
  | cons t ts ih =>
    simp only [List.map_cons, Cache.foldRes, bind_ok, addHealth] at h
    obtain ⟨⟨a2, l2⟩, ⟨v, hv, h1⟩, h2⟩ := h
    have e := Formula.tokenValue_of hv
    change v = worth c t at e
    obtain ⟨i1, i2⟩ := ih h2
    rw [i1, i2, sumOf_cons, sumOf_cons]
    by_cases hp : v > 0
    · rw [if_pos hp] at h1
      simp only [bind_ok, add_ok, ok_inj, Prod.mk.injEq] at h1
      obtain ⟨_, ⟨rfl, _⟩, rfl, rfl⟩ := h1
      omega
    · rw [if_neg hp] at h1
      simp only [bind_ok, sub_ok, ok_inj, Prod.mk.injEq] at h1
      obtain ⟨_, ⟨rfl, _⟩, rfl, rfl⟩ := h1
      omega

theorem lookup_eq {c : Cache} (hd : (c.tokens.map (·.tokenIndex)).Nodup) {ti : Nat} {t t' : TokenInfo} {b : Int} (h : lookup c (c.tokens.map (held c)) ti = .ok (t, b)) (ht : t' ∈ c.tokens)
    (hti : t'.tokenIndex = ti) : t = t' ∧ b = held c t' := by
  unfold lookup at h
  split at h
  · simp at h
  · rename_i i hi
    simp only [bind_ok, Health.at_ok, ok_inj, Prod.mk.injEq] at h
    obtain ⟨u, hu, v, hv, rfl, rfl⟩ := h
    rw [List.getElem?_map, hu] at hv
    simp only [Option.map_some, Option.some.injEq] at hv
    obtain ⟨j, hj, rfl⟩ := List.getElem_of_mem ht
    have := findIdx_key (f := (·.tokenIndex)) hd (by simpa [Cache.tokenIdx] using hi) (List.getElem?_eq_getElem hj) hti
    subst this
    rw [List.getElem?_eq_getElem hj] at hu
    injection hu with hu
    subst hu
    exact ⟨rfl, hv.symm⟩

theorem assetFee_eq {c : Cache} (hd : (c.tokens.map (·.tokenIndex)).Nodup) {sec fee : Int} {x : Item} {t : TokenInfo} (ht : t ∈ c.tokens) (hti : t.tokenIndex = x.token)
    (h : assetFee c (c.tokens.map (held c)) (used c * (sec * INV_DAY) / S) x = .ok fee) : fee = assetFeeOf c sec x t ∧ (0 ≤ held c t → fee ≤ held c t) := by
  unfold assetFee at h
  unfold assetFeeOf
  by_cases h1 : x.rate ≤ 0 ∨ x.bank.maintAssetWeight = 0
  · rw [if_pos h1, ok_inj] at h
    rw [if_pos (by tauto)]
    omega
  · rw [if_neg h1] at h
    simp only [bind_ok] at h
    obtain ⟨⟨u, b⟩, hl, h⟩ := h
    obtain ⟨rfl, rfl⟩ := lookup_eq hd hl ht hti
    dsimp only at h
    by_cases h2 : held c u ≤ 0
    · rw [if_pos h2, ok_inj] at h
      rw [if_pos (by tauto)]
      omega
    · rw [if_neg h2] at h
      rw [if_neg (by tauto)]
      simp only [bind_ok, mul_ok, Swap.toFx_ok, require_ok, ok_inj] at h
      obtain ⟨y, ⟨rfl, _⟩, r, ⟨rfl, _⟩, f, ⟨rfl, _⟩, _, h3, rfl⟩ := h
      exact ⟨rfl, fun _ => h3⟩

theorem assetFees_eq {c : Cache} (hd : (c.tokens.map (·.tokenIndex)).Nodup) {sec t0 t1 : Int} {xs ys : List Item} {ts : List TokenInfo} (hts : ∀ t ∈ ts, t ∈ c.tokens)
    (hm : xs.map (·.token) = ts.map (·.tokenIndex)) (h : assetFees c (c.tokens.map (held c)) (used c * (sec * INV_DAY) / S) t0 xs = .ok (t1, ys)) :
    t1 = t0 + sumOf (fun x => assetFeeOf c sec x.1 x.2 * x.2.prices.oracle / S) (xs.zip ts) ∧
    ys = List.zipWith (fun x t => { x with collected := x.collected + assetFeeOf c sec x t }) xs ts := by
  induction xs generalizing ts t0 ys with
  | nil =>
    simp only [assetFees, ok_inj, Prod.mk.injEq] at h
    obtain ⟨rfl, rfl⟩ := h
    simp
  | cons x xs ih =>
    cases ts with
    | nil => simp at hm
    | cons t ts =>
      simp only [List.map_cons, List.cons.injEq] at hm
      simp only [assetFees, bind_ok, mul_ok, add_ok] at h
      obtain ⟨fee, hf, ⟨u, b⟩, hl, v, ⟨rfl, _⟩, tot, ⟨rfl, _⟩, col, ⟨rfl, _⟩, ⟨t2, zs⟩, h2, h⟩ := h
      simp only [ok_inj, Prod.mk.injEq] at h
      obtain ⟨rfl, rfl⟩ := h
      obtain ⟨rfl, rfl⟩ := lookup_eq hd hl (hts t (by simp)) hm.1.symm
      obtain ⟨i1, i2⟩ := ih (fun t ht => hts t (List.mem_cons_of_mem _ ht)) hm.2 h2
      obtain ⟨e, -⟩ := assetFee_eq hd (hts u (by simp)) hm.1.symm hf
      subst e
      rw [i1, i2]
      simp only [List.zip_cons_cons, sumOf_cons, List.zipWith_cons_cons]
      exact ⟨by omega, trivial⟩

/-- an item after its share of the fees -/
structure Paid (now : Int) (x y : Item) (fee : Int) : Prop where
  none_ : fee = 0 ∧ y = x ∨ ∃ b p r, x.bank.withdrawWithoutFee x.pos fee now = .ok (b, p, r) ∧ y = { x with bank := { b with collectedFeesNative := b.collectedFeesNative + fee }, pos := p }

theorem liabFee_eq {c : Cache} (hd : (c.tokens.map (·.tokenIndex)).Nodup) {total now fee : Int} {x y : Item} {t : TokenInfo} (ht : t ∈ c.tokens) (hti : t.tokenIndex = x.token)
    (hl0 : 0 < liabHealth c) (ht0 : 0 ≤ total) (hp : 0 ≤ t.prices.oracle) (h : liabFee c (c.tokens.map (held c)) (liabHealth c) total now x = .ok (y, fee)) :
    fee = liabFeeOf c total t ∧ Paid now x y fee ∧ (worth c t < 0 → 0 < t.prices.oracle) ∧ (worth c t ≥ 0 → y = x) := by
  simp only [liabFee, bind_ok] at h
  obtain ⟨⟨u, b⟩, hl, v, hv, h⟩ := h
  obtain ⟨rfl, rfl⟩ := lookup_eq hd hl ht hti
  have e := Formula.tokenValue_of hv
  change v = worth c u at e
  subst e
  unfold liabFeeOf
  by_cases h1 : worth c u ≥ 0
  · rw [if_pos h1] at h ⊢
    simp only [ok_inj, Prod.mk.injEq] at h
    obtain ⟨rfl, rfl⟩ := h
    exact ⟨rfl, ⟨Or.inl ⟨rfl, rfl⟩⟩, fun z => by omega, fun _ => rfl⟩
  · rw [if_neg h1] at h ⊢
    simp only [bind_ok, div_ok, mul_ok, add_ok, ok_inj, Prod.mk.injEq] at h
    obtain ⟨q, ⟨_, rfl, _⟩, s, hs, y0, ⟨rfl, _⟩, f, ⟨hp0, rfl, _⟩, ⟨b1, p1, r⟩, hw, col, ⟨rfl, _⟩, rfl, rfl⟩ := h
    have hS := S_pos
    have hsv : s = -worth c u * S / liabHealth c := by
      simp only [Fx.abs, ck_ok] at hs
      have e1 : Int.tdiv (worth c u * S) (liabHealth c) = -(-worth c u * S / liabHealth c) := by
        have : worth c u * S = -(-worth c u * S) := by ring
        rw [this, Int.neg_tdiv, Int.tdiv_eq_ediv_of_nonneg (by nlinarith)]
      have e2 : 0 ≤ -worth c u * S / liabHealth c := Int.ediv_nonneg (by nlinarith) (by omega)
      rw [e1] at hs
      generalize -worth c u * S / liabHealth c = z at *
      obtain ⟨hs, _⟩ := hs
      rw [hs]
      split <;> omega
    subst hsv
    have n1 : 0 ≤ -worth c u * S / liabHealth c := Int.ediv_nonneg (by nlinarith) (by omega)
    have n2 : 0 ≤ -worth c u * S / liabHealth c * total / S := Int.ediv_nonneg (by positivity) (by omega)
    have e3 : Int.tdiv (-worth c u * S / liabHealth c * total / S * S) u.prices.oracle = -worth c u * S / liabHealth c * total / S * S / u.prices.oracle :=
      Int.tdiv_eq_ediv_of_nonneg (by positivity)
    rw [e3] at hw ⊢
    exact ⟨rfl, ⟨Or.inr ⟨b1, p1, r, hw, rfl⟩⟩, fun _ => by omega, fun z => absurd z h1⟩

theorem liabFees_eq {c : Cache} (hd : (c.tokens.map (·.tokenIndex)).Nodup) {total now : Int} (hl0 : 0 < liabHealth c) (ht0 : 0 ≤ total) (hp : ∀ t ∈ c.tokens, 0 ≤ t.prices.oracle)
    {xs ys : List Item} {fs : List Int} {ts : List TokenInfo} (hts : ∀ t ∈ ts, t ∈ c.tokens) (hm : xs.map (·.token) = ts.map (·.tokenIndex))
    (h : liabFees c (c.tokens.map (held c)) (liabHealth c) total now xs = .ok (ys, fs)) :
    fs = ts.map (liabFeeOf c total) ∧ ys.length = xs.length ∧ (∀ (i : Nat) x y t, xs[i]? = some x → ys[i]? = some y → ts[i]? = some t →
      Paid now x y (liabFeeOf c total t) ∧ (worth c t < 0 → 0 < t.prices.oracle) ∧ (worth c t ≥ 0 → y = x)) := by
  induction xs generalizing ts ys fs with
  | nil =>
    simp only [liabFees, ok_inj, Prod.mk.injEq] at h
    obtain ⟨rfl, rfl⟩ := h
    cases ts with
    | nil => simp
    | cons t ts => simp at hm
  | cons x xs ih =>
    cases ts with
    | nil => simp at hm
    | cons t ts =>
      simp only [List.map_cons, List.cons.injEq] at hm
      simp only [liabFees, bind_ok] at h
      obtain ⟨⟨y, f⟩, h1, ⟨zs, gs⟩, h2, h⟩ := h
      simp only [ok_inj, Prod.mk.injEq] at h
      obtain ⟨rfl, rfl⟩ := h
      obtain ⟨i1, i2, i3⟩ := ih (fun t ht => hts t (List.mem_cons_of_mem _ ht)) hm.2 h2
      obtain ⟨e1, e2, e3, e4⟩ := liabFee_eq hd (hts t (by simp)) hm.1.symm hl0 ht0 (hp t (hts t (by simp))) h1
      refine ⟨by rw [e1, i1]; rfl, by simp [i2], ?_⟩
      intro i a b t' ha hb ht'
      cases i with
      | zero =>
        simp only [List.getElem?_cons_zero, Option.some.injEq] at ha hb ht'
        subst ha hb ht'
        rw [← e1]
        exact ⟨e2, e3, e4⟩
      | succ i =>
        simp only [List.getElem?_cons_succ] at ha hb ht'
        exact i3 i a b t' ha hb ht'

theorem assetHealth_nonneg (c : Cache) : 0 ≤ assetHealth c := sumOf_nonneg (fun _ => by omega)
theorem liabHealth_nonneg (c : Cache) : 0 ≤ liabHealth c := sumOf_nonneg (fun _ => by omega)

theorem usage_eq {c : Cache} {r : Option (I80F48 × I80F48 × I80F48)} {liabs : I80F48 × I80F48} (hm : c.markedToMarket = .ok liabs) (h : usage c (c.tokens.map (held c)) = .ok r) :
    (r = none ∧ (liabs.2 < 100000000 * S ∨ assetHealth c = 0 ∨ liabHealth c = 0)) ∨
    (r = some (assetHealth c, liabHealth c, used c) ∧ 100000000 * S ≤ liabs.2 ∧ 0 < assetHealth c ∧ 0 < liabHealth c) := by
  simp only [usage, bind_ok] at h
  obtain ⟨al, h0, h⟩ := h
  rw [hm, ok_inj] at h0
  subst h0
  obtain ⟨as_, lb⟩ := liabs
  dsimp only at h ⊢
  by_cases h1 : lb < ofInt 100000000
  · rw [if_pos h1, ok_inj] at h
    unfold ofInt at h1
    exact Or.inl ⟨h.symm, Or.inl (by omega)⟩
  · rw [if_neg h1] at h
    unfold ofInt at h1
    rw [zip_map] at h
    simp only [bind_ok] at h
    obtain ⟨⟨a, l⟩, h2, h⟩ := h
    obtain ⟨e1, e2⟩ := healths_eq h2
    rw [Int.zero_add] at e1 e2
    change a = assetHealth c at e1
    change l = liabHealth c at e2
    subst e1 e2
    dsimp only at h
    have n1 := assetHealth_nonneg c
    have n2 := liabHealth_nonneg c
    by_cases h3 : assetHealth c = 0 ∨ liabHealth c = 0
    · rw [if_pos h3, ok_inj] at h
      exact Or.inl ⟨h.symm, Or.inr h3⟩
    · rw [if_neg h3] at h
      simp only [bind_ok, div_ok, ok_inj] at h
      obtain ⟨q, ⟨_, rfl, _⟩, h⟩ := h
      have hS := S_pos
      rw [Int.tdiv_eq_ediv_of_nonneg (by positivity)] at h
      have n3 : 0 ≤ liabHealth c * S / assetHealth c := Int.ediv_nonneg (by positivity) (by omega)
      refine Or.inr ⟨?_, by omega, by omega, by omega⟩
      rw [← h]
      have : min (max (liabHealth c * S / assetHealth c) 0) ONE = used c := by
        unfold used
        have : (ONE : Int) = S := rfl
        rw [this, max_eq_left n3]
      rw [this]

theorem foldRes_pair {α : Type} {f : I80F48 × I80F48 → α → Res (I80F48 × I80F48)} {g : α → Int} (hs : ∀ a al al', f al a = .ok al' → al'.2 = al.2 + g a) {l : List α} {al al' : I80F48 × I80F48}
    (h : Cache.foldRes f al l = .ok al') : al'.2 = al.2 + sumOf g l := by
  induction l generalizing al with
  | nil => simp only [Cache.foldRes, ok_inj] at h; rw [← h]; simp
  | cons a as ih =>
    simp only [Cache.foldRes, bind_ok] at h
    obtain ⟨b1, h1, h⟩ := h
    have := hs _ _ _ h1
    have := ih h
    rw [sumOf_cons]
    omega

theorem marked_eq {c : Cache} {al : I80F48 × I80F48} (h : c.markedToMarket = .ok al) : al.2 = liabsMarked c := by
  simp only [Cache.markedToMarket, bind_ok] at h
  obtain ⟨a1, h1, a2, h2, h3⟩ := h
  have e1 := foldRes_pair (g := fun t => if t.balanceSpot < 0 then -(t.balanceSpot * t.prices.oracle / S) else 0) (by
    intro t x y hxy
    simp only [Cache.markToken, bind_ok, mul_ok] at hxy
    obtain ⟨v, ⟨rfl, _⟩, hxy⟩ := hxy
    by_cases hn : t.balanceSpot < 0
    · rw [if_pos hn] at hxy ⊢
      simp only [bind_ok, sub_ok, ok_inj] at hxy
      obtain ⟨l, ⟨rfl, _⟩, rfl⟩ := hxy
      dsimp only; omega
    · rw [if_neg hn] at hxy ⊢
      simp only [bind_ok, add_ok, ok_inj] at hxy
      obtain ⟨l, ⟨rfl, _⟩, rfl⟩ := hxy
      dsimp only; omega) h1
  have e2 := foldRes_pair (g := fun _ => 0) (by
    intro s x y hxy
    simp only [Cache.markSerum, bind_ok, ok_inj] at hxy
    obtain ⟨_, _, _, _, _, _, _, _, _, _, _, _, rfl⟩ := hxy
    simp) h2
  have e3 := foldRes_pair (g := fun p => (if p.quote < 0 then -(p.quote * settlePrice c p / S) else 0) + (if baseValue c p < 0 then -baseValue c p else 0)) (by
    intro p x y hxy
    simp only [Cache.markPerp, bind_ok, Health.at_ok] at hxy
    obtain ⟨t, ht, qv, hqv, al1, hal, n, hn, u, hu, v, hv, hxy⟩ := hxy
    have es : settlePrice c p = t.prices.oracle := by simp [settlePrice, ht]
    rw [mul_ok] at hqv hu hv
    rw [ck64_ok] at hn
    have eb : v = baseValue c p := by
      unfold baseValue
      rw [hv.1, hu.1, hn.1, es]
      rfl
    have eq : qv = p.quote * settlePrice c p / S := by rw [hqv.1, es]
    rw [← eq, ← eb]
    have k1 : al1.2 = x.2 + (if p.quote < 0 then -qv else 0) := by
      by_cases hq : p.quote < 0
      · rw [if_pos hq] at hal ⊢
        simp only [bind_ok, sub_ok, ok_inj] at hal
        obtain ⟨l, ⟨rfl, _⟩, rfl⟩ := hal
        dsimp only; omega
      · rw [if_neg hq] at hal ⊢
        simp only [bind_ok, add_ok, ok_inj] at hal
        obtain ⟨l, ⟨rfl, _⟩, rfl⟩ := hal
        dsimp only; omega
    have k2 : y.2 = al1.2 + (if v < 0 then -v else 0) := by
      by_cases hq : v < 0
      · rw [if_pos hq] at hxy ⊢
        simp only [bind_ok, sub_ok, ok_inj] at hxy
        obtain ⟨l, ⟨rfl, _⟩, rfl⟩ := hxy
        dsimp only; omega
      · rw [if_neg hq] at hxy ⊢
        simp only [bind_ok, add_ok, ok_inj] at hxy
        obtain ⟨l, ⟨rfl, _⟩, rfl⟩ := hxy
        dsimp only; omega
    omega) h3
  unfold liabsMarked
  have z : sumOf (fun _ : Serum3Info => (0 : Int)) c.serums = 0 := sumOf_zero (fun _ _ => rfl)
  rw [z] at e2
  have : ((0, 0) : I80F48 × I80F48).2 = 0 := rfl
  rw [this] at e1
  omega

/-! ## The claims -/

theorem used_bounds {c : Cache} (h1 : 0 < assetHealth c) : 0 ≤ used c ∧ used c ≤ S ∧ used c * assetHealth c ≤ liabHealth c * S := by
  have hS := S_pos
  have n2 := liabHealth_nonneg c
  unfold used
  have n3 : 0 ≤ liabHealth c * S / assetHealth c := Int.ediv_nonneg (by positivity) (by omega)
  have n4 := Int.ediv_mul_le (liabHealth c * S) (b := assetHealth c) (by omega)
  refine ⟨by omega, by omega, ?_⟩
  calc min (liabHealth c * S / assetHealth c) S * assetHealth c ≤ liabHealth c * S / assetHealth c * assetHealth c := Int.mul_le_mul_of_nonneg_right (by omega) (by omega)
    _ ≤ _ := n4

theorem assetFeeOf_bounds {c : Cache} (h1 : 0 < assetHealth c) {sec : Int} (hs : 0 ≤ sec) (x : Item) (t : TokenInfo) : 0 ≤ assetFeeOf c sec x t ∧
    (0 < assetFeeOf c sec x t → 0 < x.rate ∧ 0 < held c t) ∧
    86400 * S * S * assetFeeOf c sec x t ≤ max (held c t) 0 * used c * sec * max (Swap.roundEven (x.rate * S)) 0 := by
  obtain ⟨u0, u1, _⟩ := used_bounds h1
  have hS := S_pos
  unfold assetFeeOf
  by_cases hc : x.rate ≤ 0 ∨ x.bank.maintAssetWeight = 0 ∨ held c t ≤ 0
  · rw [if_pos hc]
    refine ⟨Int.le_refl _, by omega, ?_⟩
    have : 0 ≤ max (held c t) 0 * used c * sec * max (Swap.roundEven (x.rate * S)) 0 := by positivity
    omega
  · rw [if_neg hc]
    push Not at hc
    obtain ⟨hr, _, hh⟩ := hc
    have r0 : 0 ≤ Swap.roundEven (x.rate * S) := by
      have := Swap.roundEven_mono (x := 0) (y := x.rate * S) (by positivity)
      have z : Swap.roundEven 0 = 0 := by decide +kernel
      omega
    rw [max_eq_left (by omega), max_eq_left r0]
    generalize Swap.roundEven (x.rate * S) = r at *
    generalize held c t = b at *
    generalize hu : used c = u at *
    have i0 : (INV_DAY : Int) * 86400 ≤ S := by decide
    have i1 : (0 : Int) ≤ INV_DAY := by decide
    generalize INV_DAY = inv at *
    have sc0 : 0 ≤ u * (sec * inv) / S := Int.ediv_nonneg (by positivity) (by omega)
    have sc := Int.ediv_mul_le (u * (sec * inv)) (b := S) (by omega)
    generalize u * (sec * inv) / S = scl at *
    have y0 : 0 ≤ b * scl / S := Int.ediv_nonneg (by positivity) (by omega)
    have y1 := Int.ediv_mul_le (b * scl) (b := S) (by omega)
    generalize b * scl / S = y at *
    have f0 : 0 ≤ y * r / S := Int.ediv_nonneg (by positivity) (by omega)
    have f1 := Int.ediv_mul_le (y * r) (b := S) (by omega)
    generalize y * r / S = f at *
    refine ⟨f0, fun _ => ⟨hr, hh⟩, ?_⟩
    have a1 : f * S * S ≤ b * scl * r := by
      calc f * S * S ≤ y * r * S := Int.mul_le_mul_of_nonneg_right f1 (by omega)
        _ = y * S * r := by ring
        _ ≤ b * scl * r := Int.mul_le_mul_of_nonneg_right y1 r0
    have a2 : b * scl * r * S * 86400 ≤ b * u * sec * r * S := by
      calc b * scl * r * S * 86400 = b * r * 86400 * (scl * S) := by ring
        _ ≤ b * r * 86400 * (u * (sec * inv)) := Int.mul_le_mul_of_nonneg_left sc (by positivity)
        _ = b * u * sec * r * (inv * 86400) := by ring
        _ ≤ b * u * sec * r * S := Int.mul_le_mul_of_nonneg_left i0 (by positivity)
    have a3 : 86400 * S * S * f * S ≤ b * u * sec * r * S := by
      calc 86400 * S * S * f * S = f * S * S * (S * 86400) := by ring
        _ ≤ b * scl * r * (S * 86400) := Int.mul_le_mul_of_nonneg_right a1 (by positivity)
        _ = b * scl * r * S * 86400 := by ring
        _ ≤ _ := a2
    exact Int.le_of_mul_le_mul_right a3 hS

theorem totalOf_nonneg {c : Cache} (h1 : 0 < assetHealth c) {sec : Int} (hs : 0 ≤ sec) (hp : ∀ t ∈ c.tokens, 0 ≤ t.prices.oracle) (xs : List Item) : 0 ≤ totalOf c sec xs := by
  apply sumOf_nonneg_mem
  rintro ⟨x, t⟩ hx
  have := (assetFeeOf_bounds h1 hs x t).1
  have := hp t (List.of_mem_zip hx).2
  exact Int.ediv_nonneg (by positivity) (by have := S_pos; omega)

/-- **C62.** When the account is charged: only after the interval has passed, only if its liabilities at oracle prices reach 100 dollars and it has both assets and liabilities. The fees on the
assets add up to `totalOf` (balance × part used as collateral × days × daily rate, rounded down), and each liability token is debited its share `liabFeeOf`, which its bank collects. The other
positions do not change. -/
theorem C62_charge {c : Cache} (hd : (c.tokens.map (·.tokenIndex)).Nodup) (hp : ∀ t ∈ c.tokens, 0 ≤ t.prices.oracle) {interval last now last' : Int} (hi : 0 ≤ interval) {xs ys : List Item} {r : Report}
    (hm : xs.map (·.token) = c.tokens.map (·.tokenIndex)) (h : chargeCollateralFees c interval last now xs = .ok (last', ys, some r)) :
    (last' = now ∧ 0 < interval ∧ last + interval ≤ now ∧ r.seconds = min (now - last) (2 * interval)) ∧
    100000000 * S ≤ liabsMarked c ∧ 0 < assetHealth c ∧ 0 < liabHealth c ∧ r.assetHealth = assetHealth c ∧ r.liabHealth = liabHealth c ∧
    r.total = totalOf c r.seconds xs ∧ r.fees = c.tokens.map (liabFeeOf c r.total) ∧ ys.length = xs.length ∧
    ∀ (i : Nat) x y t, xs[i]? = some x → ys[i]? = some y → c.tokens[i]? = some t →
      Paid now { x with collected := x.collected + assetFeeOf c r.seconds x t } y (liabFeeOf c r.total t) ∧ (worth c t < 0 → 0 < t.prices.oracle) ∧
      (worth c t ≥ 0 → y = { x with collected := x.collected + assetFeeOf c r.seconds x t }) := by
  simp only [chargeCollateralFees, bind_ok] at h
  obtain ⟨⟨l1, s⟩, h1, h⟩ := h
  rcases due_ok h1 with ⟨rfl, _⟩ | ⟨d1, d2, d3, d4, rfl⟩
  · simp at h
  · simp only [bind_ok, ok_inj, Prod.mk.injEq, charge] at h
    obtain ⟨⟨ys', r'⟩, ⟨time, ht, bs, hb, us, hu, h⟩, rfl, rfl, rfl⟩ := h
    rw [balances_eq hd hb] at h hu
    rw [mul_ok] at ht
    have et : time = min (now - last) (2 * interval) * INV_DAY := by
      rw [ht.1]
      unfold ofInt
      have : min (now - last) (2 * interval) * S * INV_DAY = min (now - last) (2 * interval) * INV_DAY * S := by ring
      rw [this, Int.mul_ediv_cancel _ (by decide)]
    have hs0 : 0 ≤ min (now - last) (2 * interval) := by omega
    generalize hsec : min (now - last) (2 * interval) = sec at *
    have ⟨mk, hmk⟩ : ∃ al, c.markedToMarket = .ok al := by
      simp only [usage, bind_ok] at hu
      obtain ⟨al, h0, _⟩ := hu
      exact ⟨al, h0⟩
    rcases usage_eq hmk hu with ⟨rfl, _⟩ | ⟨rfl, u1, u2, u3⟩
    · simp at h
    · rw [marked_eq hmk] at u1
      simp only [bind_ok, mul_ok, ok_inj, Prod.mk.injEq, Option.some.injEq] at h
      obtain ⟨scl, ⟨rfl, _⟩, ⟨total, zs⟩, h2, ⟨ws, fees⟩, h3, rfl, rfl⟩ := h
      rw [et] at h2
      obtain ⟨e1, e2⟩ := assetFees_eq hd (fun t ht => ht) hm h2
      rw [Int.zero_add] at e1
      change total = totalOf c sec xs at e1
      dsimp only at h3
      have hm' : zs.map (·.token) = c.tokens.map (·.tokenIndex) := by
        rw [← hm, e2]
        apply List.ext_getElem?
        intro i
        rw [List.getElem?_map, List.getElem?_map, List.getElem?_zipWith]
        have hlen : xs.length = c.tokens.length := by simpa using congrArg List.length hm
        cases hx : xs[i]? with
        | none => rfl
        | some x =>
          rw [List.getElem?_eq_getElem (l := c.tokens) (i := i) (by have := getElem?_lt hx; omega)]
          rfl
      have e3 := liabFees_eq hd u3 (by rw [e1]; exact totalOf_nonneg u2 hs0 hp xs) hp (fun t ht => ht) hm' h3
      obtain ⟨e3, e4, e5⟩ := e3
      refine ⟨⟨d4, by omega, d3, rfl⟩, u1, u2, u3, rfl, rfl, e1, e3, ?_, ?_⟩
      · have hlen : xs.length = c.tokens.length := by simpa using congrArg List.length hm
        rw [e4, e2, List.length_zipWith]
        omega
      · intro i x y t hx hy ht
        refine e5 i _ y t ?_ hy ht
        rw [e2, List.getElem?_zipWith, hx, ht]

/-- **C62.** What is charged is bounded: the value of all borrowed fees is at most the value of the fees on the assets, and each of those is at most balance × part used as collateral (at most 1 and
at most liabilities over assets) × seconds / 86400 × daily rate. Each share is exact up to one last-place unit of the share, of its value and of the native amount. -/
theorem C62_bounds {c : Cache} (hp : ∀ t ∈ c.tokens, 0 ≤ t.prices.oracle) (hw : ∀ t ∈ c.tokens, worth c t < 0 → 0 < t.prices.oracle) (h1 : 0 < assetHealth c) (h2 : 0 < liabHealth c) {sec : Int}
    (hs : 0 ≤ sec) (xs : List Item) :
    let total := totalOf c sec xs
    sumOf (fun t => liabFeeOf c total t * t.prices.oracle) c.tokens ≤ total * S ∧
    total * S ≤ sumOf (fun x => assetFeeOf c sec x.1 x.2 * x.2.prices.oracle) (xs.zip c.tokens) ∧
    (∀ x t, 86400 * S * S * assetFeeOf c sec x t ≤ max (held c t) 0 * used c * sec * max (Swap.roundEven (x.rate * S)) 0) ∧
    used c ≤ S ∧ used c * assetHealth c ≤ liabHealth c * S ∧
    (∀ t ∈ c.tokens, worth c t < 0 → 0 ≤ liabFeeOf c total t ∧ liabFeeOf c total t * t.prices.oracle * liabHealth c ≤ -worth c t * total * S ∧
      -worth c t * total * S < (liabFeeOf c total t * t.prices.oracle + t.prices.oracle + S + total) * liabHealth c) := by
  intro total
  have hS := S_pos
  have ht0 : 0 ≤ total := totalOf_nonneg h1 hs hp xs
  obtain ⟨u0, u1, u2⟩ := used_bounds h1
  have per : ∀ t ∈ c.tokens, worth c t < 0 → 0 ≤ liabFeeOf c total t ∧ liabFeeOf c total t * t.prices.oracle * liabHealth c ≤ -worth c t * total * S ∧
      -worth c t * total * S < (liabFeeOf c total t * t.prices.oracle + t.prices.oracle + S + total) * liabHealth c := by
    intro t ht hneg
    have p0 := hw t ht hneg
    unfold liabFeeOf
    rw [if_neg (by omega)]
    generalize hz : -worth c t = z at *
    have z0 : 0 < z := by omega
    generalize liabHealth c = l at *
    generalize t.prices.oracle = p at *
    have s0 : 0 ≤ z * S / l := Int.ediv_nonneg (by positivity) (by omega)
    have s1 := Int.ediv_mul_le (z * S) (b := l) (by omega)
    have s2 := Int.lt_ediv_add_one_mul_self (z * S) h2
    generalize z * S / l = sh at *
    have y0 : 0 ≤ sh * total / S := Int.ediv_nonneg (by positivity) (by omega)
    have y1 := Int.ediv_mul_le (sh * total) (b := S) (by omega)
    have y2 := Int.lt_ediv_add_one_mul_self (sh * total) hS
    generalize sh * total / S = y at *
    have f0 : 0 ≤ y * S / p := Int.ediv_nonneg (by positivity) (by omega)
    have f1 := Int.ediv_mul_le (y * S) (b := p) (by omega)
    have f2 := Int.lt_ediv_add_one_mul_self (y * S) p0
    generalize y * S / p = f at *
    refine ⟨f0, ?_, ?_⟩
    · calc f * p * l ≤ sh * total * l := Int.mul_le_mul_of_nonneg_right (by omega) (by omega)
        _ = sh * l * total := by ring
        _ ≤ z * S * total := Int.mul_le_mul_of_nonneg_right s1 ht0
        _ = _ := by ring
    · have k1 : sh * total < f * p + p + S := by nlinarith
      have k2 : z * S * total ≤ (sh + 1) * l * total := Int.mul_le_mul_of_nonneg_right (by omega) ht0
      have k3 : (sh * total) * l < (f * p + p + S) * l := Int.mul_lt_mul_of_pos_right k1 h2
      nlinarith
  refine ⟨?_, ?_, fun x t => (assetFeeOf_bounds h1 hs x t).2.2, u1, u2, per⟩
  · have key : sumOf (fun t => liabFeeOf c total t * t.prices.oracle * liabHealth c) c.tokens ≤ sumOf (fun t => max (-worth c t) 0 * (total * S)) c.tokens := by
      apply sumOf_le
      intro t ht
      by_cases hneg : worth c t < 0
      · have := (per t ht hneg).2.1
        rw [max_eq_left (by omega)]
        calc _ ≤ _ := this
          _ = _ := by ring
      · have : liabFeeOf c total t = 0 := by unfold liabFeeOf; rw [if_pos (by omega)]
        rw [this]
        have : 0 ≤ max (-worth c t) 0 * (total * S) := by positivity
        omega
    have e1 : ∀ (k : Int) (f : TokenInfo → Int) (l : List TokenInfo), sumOf (fun t => f t * k) l = sumOf f l * k := by
      intro k f l
      induction l with
      | nil => simp
      | cons a l ih => rw [sumOf_cons, sumOf_cons, ih]; ring
    rw [e1, e1] at key
    change _ * liabHealth c ≤ liabHealth c * (total * S) at key
    rw [Int.mul_comm (liabHealth c)] at key
    exact Int.le_of_mul_le_mul_right key h2
  · change totalOf c sec xs * S ≤ _
    unfold totalOf
    generalize xs.zip c.tokens = l
    induction l with
    | nil => simp
    | cons a l ih =>
      rw [sumOf_cons, sumOf_cons, Int.add_mul]
      have := Int.ediv_mul_le (assetFeeOf c sec a.1 a.2 * a.2.prices.oracle) (b := S) (by omega)
      omega

/-- **C62.** If nothing is charged, no position and no bank changes. -/
theorem C62_nothing {c : Cache} {interval last now last' : Int} {xs ys : List Item} (h : chargeCollateralFees c interval last now xs = .ok (last', ys, none)) : ys = xs := by
  simp only [chargeCollateralFees, bind_ok] at h
  obtain ⟨⟨l1, s⟩, h1, h⟩ := h
  cases s with
  | none => simp only [ok_inj, Prod.mk.injEq] at h; exact h.2.1.symm
  | some sec =>
    simp only [bind_ok, ok_inj, Prod.mk.injEq, charge] at h
    obtain ⟨⟨ys', r'⟩, ⟨time, ht, bs, hb, us, hu, h⟩, rfl, rfl, rfl⟩ := h
    cases us with
    | none => simp only [ok_inj, Prod.mk.injEq] at h; exact h.1.symm
    | some z =>
      obtain ⟨a, l, u⟩ := z
      simp only [bind_ok, ok_inj, Prod.mk.injEq, reduceCtorEq, and_false, exists_false] at h

/-- **C62.** The bank collects what the account is debited: no value is created or lost beyond the rounding of a position update. -/
theorem C62_ledger {now fee : Int} {x y : Item} (hb : x.bank.Pos) (hr : 0 ≤ x.bank.loanOriginationFeeRate) (h : Paid now x y fee) : ∃ active, Bank.Effect x.bank x.pos 0 y.bank y.pos active := by
  rcases h.none_ with ⟨_, rfl⟩ | ⟨b, p, r, hw, rfl⟩
  · exact ⟨true, Bank.Effect.refl hb⟩
  · refine ⟨r, ?_⟩
    have e := Bank.withdrawWithoutFee_effect hb hr hw
    have hS := S_pos
    have hf : Bank.feesAndDust { b with collectedFeesNative := b.collectedFeesNative + fee } = Bank.feesAndDust b + fee * S := by
      unfold Bank.feesAndDust
      ring
    refine ⟨e.deposits, e.borrows, e.depositIndex, e.borrowIndex, e.rates, e.closed, e.inUse, ?_, ?_⟩
    · have := e.upper; dsimp only; rw [hf]; linarith
    · have := e.lower; dsimp only; rw [hf]; linarith

end Collateral
end Mango
