import Verif.Props.SerumPrices
/-!
# C60: the potential tokens of a bank are those of the open orders accounts
-/
namespace Mango
namespace Serum
open Fx Bank

/-- potential tokens remembered for an open orders account -/
def Orders.pot (s : Orders) : Tok → Int
  | .base => s.potentialBase
  | .quote => s.potentialQuote
def Orders.tok (s : Orders) : Tok → Nat
  | .base => s.base
  | .quote => s.quote

/-- how the counter of a bank moves when the amount of one account goes from `old` to `new` -/
def moved (p old new : Int) : Int := if new ≥ old then p + (new - old) else max 0 (p - (old - new))

theorem updatePotentialSerumTokens_pot {b b' : Bank} {o n : Int} (h : b.updatePotentialSerumTokens o n = .ok b') : b'.potentialSerumTokens = moved b.potentialSerumTokens o n := by
  unfold Bank.updatePotentialSerumTokens at h
  unfold moved
  split at h
  · next hc =>
    rw [if_pos hc]
    simp only [bind_ok, ok_inj, cku64_ok] at h
    obtain ⟨s, ⟨rfl, _⟩, rfl⟩ := h
    rfl
  · next hc =>
    rw [if_neg hc]
    simp only [ok_inj] at h
    rw [← h]

theorem moved_cases (p old new : Int) : (old ≤ new ∧ moved p old new = p + (new - old)) ∨ (new < old ∧ moved p old new = max 0 (p - (old - new))) := by
  unfold moved
  by_cases h : new ≥ old
  · left; rw [if_pos h]; exact ⟨h, rfl⟩
  · right; rw [if_neg h]; exact ⟨by omega, rfl⟩

theorem moved_self (p o : Int) : moved p o o = p := by unfold moved; simp

theorem newPotential_nonneg {rnd : ℚ → ℚ} {s : Orders} {o : OO} {n : Int} : (newPotentialBase rnd s o = .ok n → 0 ≤ n) ∧ (newPotentialQuote rnd s o = .ok n → 0 ≤ n) := by
  constructor
  · intro h
    simp only [newPotentialBase, bind_ok, cku64_ok] at h
    obtain ⟨r, _, h⟩ := h
    omega
  · intro h
    simp only [newPotentialQuote, bind_ok, cku64_ok] at h
    obtain ⟨r, _, h⟩ := h
    omega

theorem updatePotential_pot {rnd : ℚ → ℚ} {s s' : Orders} {base quote base' quote' : Option Bank} {o : OO} (h : updatePotential rnd s base quote o = .ok (s', base', quote')) :
    (∀ b, (base = none ∨ base = some b) → (base'.getD b).potentialSerumTokens = moved b.potentialSerumTokens s.potentialBase s'.potentialBase) ∧
    (∀ b, (quote = none ∨ quote = some b) → (quote'.getD b).potentialSerumTokens = moved b.potentialSerumTokens s.potentialQuote s'.potentialQuote) ∧
    (0 ≤ s.potentialBase → 0 ≤ s'.potentialBase) ∧ (0 ≤ s.potentialQuote → 0 ≤ s'.potentialQuote) := by
  simp only [updatePotential, bind_ok] at h
  obtain ⟨nb, h1, nq, h2, b1, h3, q1, h4, h⟩ := h
  simp only [ok_inj, Prod.mk.injEq] at h
  obtain ⟨rfl, rfl, rfl⟩ := h
  refine ⟨?_, ?_, ?_, ?_⟩
  · intro b hb
    rcases hb with rfl | rfl
    · simp only [Option.isSome_none, Bool.false_eq_true, if_false, ok_inj] at h1 h3
      subst h1 h3
      simp [moved_self]
    · simp only [bind_ok, ok_inj] at h3
      obtain ⟨b2, h3, rfl⟩ := h3
      exact updatePotentialSerumTokens_pot h3
  · intro b hb
    rcases hb with rfl | rfl
    · simp only [Option.isSome_none, Bool.false_eq_true, if_false, ok_inj] at h2 h4
      subst h2 h4
      simp [moved_self]
    · simp only [bind_ok, ok_inj] at h4
      obtain ⟨b2, h4, rfl⟩ := h4
      exact updatePotentialSerumTokens_pot h4
  · intro h0
    cases base with
    | none => simp only [Option.isSome_none, Bool.false_eq_true, if_false, ok_inj] at h1; subst h1; exact h0
    | some b => exact newPotential_nonneg.1 h1
  · intro h0
    cases quote with
    | none => simp only [Option.isSome_none, Bool.false_eq_true, if_false, ok_inj] at h2; subst h2; exact h0
    | some b => exact newPotential_nonneg.2 h2

/-- what an instruction does to the potential tokens -/
structure PotStep (a a' : Acct) : Prop where
  tok : ∀ t, a'.orders.tok t = a.orders.tok t
  moved : ∀ t, (a'.bank t).potentialSerumTokens = moved (a.bank t).potentialSerumTokens (a.orders.pot t) (a'.orders.pot t)
  nonneg : ∀ t, 0 ≤ a.orders.pot t → 0 ≤ a'.orders.pot t

theorem trackPrices_pot (rnd : ℚ → ℚ) (s : Orders) (x y z : Bool) (side : Side) (price : ℚ) (t : Tok) :
    (trackPrices rnd s x y z side price).pot t = s.pot t ∧ (trackPrices rnd s x y z side price).tok t = s.tok t := by
  cases x <;> cases y <;> cases z <;> cases side <;> cases t <;> exact ⟨rfl, rfl⟩

theorem placeBook_pot {rnd : ℚ → ℚ} {a a' : Acct} {x : PlaceArgs} {d : PlaceDex} {before change : I80F48} (hb : BanksOk a) (h : placeBook rnd a x d = .ok (a', before, change)) : PotStep a a' := by
  unfold placeBook at h
  dsimp only at h
  have tr := trackPrices_pot rnd a.orders d.hadBids d.hadAsks d.onBook x.side (limitPrice rnd x.lots x.baseLot x.quoteLot)
  revert h
  generalize trackPrices rnd a.orders d.hadBids d.hadAsks d.onBook x.side (limitPrice rnd x.lots x.baseLot x.quoteLot) = s at *
  intro h
  have t1 := (tr .base).1
  have t2 := (tr .quote).1
  have t3 := (tr .base).2
  have t4 := (tr .quote).2
  simp only [Orders.pot, Orders.tok] at t1 t2 t3 t4
  cases hs : x.side with
  | bid =>
    simp only [hs, bind_ok, require_ok] at h
    obtain ⟨_, hv, ⟨s1, bb, qb⟩, hu, n, hn, ⟨qb', qp, br, ch⟩, hd, h⟩ := h
    simp only [ok_inj, Prod.mk.injEq] at h
    obtain ⟨rfl, rfl, rfl⟩ := h
    obtain ⟨es, eb, eq⟩ := updatePotential_ok hu
    obtain ⟨p1, p2, p3, p4⟩ := updatePotential_pot hu
    obtain ⟨pt, eqb⟩ := eq a.quoteBank.bank
    have hp : (qb.getD a.quoteBank.bank).Pos := by rw [eqb]; exact (hb .quote).1
    obtain ⟨st, nb, du, dd, bo, hk⟩ := vaultDifference_keeps hp hd
    rw [t1] at p1 p3
    rw [t2] at p2 p4
    refine ⟨?_, ?_, ?_⟩
    · intro t; cases t <;> simp only [Orders.tok] <;> rw [es] <;> assumption
    · intro t
      cases t with
      | base => exact p1 a.baseBank.bank (by cases x.v2 <;> simp)
      | quote =>
        have := p2 a.quoteBank.bank (Or.inr rfl)
        change qb'.potentialSerumTokens = _
        rw [hk]
        exact this
    · intro t; cases t
      · exact p3
      · exact p4
  | ask =>
    simp only [hs, bind_ok, require_ok] at h
    obtain ⟨_, hv, ⟨s1, bb, qb⟩, hu, n, hn, ⟨bb', bp, br, ch⟩, hd, h⟩ := h
    simp only [ok_inj, Prod.mk.injEq] at h
    obtain ⟨rfl, rfl, rfl⟩ := h
    obtain ⟨es, eb, eq⟩ := updatePotential_ok hu
    obtain ⟨p1, p2, p3, p4⟩ := updatePotential_pot hu
    obtain ⟨pt, eqb⟩ := eb a.baseBank.bank
    have hp : (bb.getD a.baseBank.bank).Pos := by rw [eqb]; exact (hb .base).1
    obtain ⟨st, nb, du, dd, bo, hk⟩ := vaultDifference_keeps hp hd
    rw [t1] at p1 p3
    rw [t2] at p2 p4
    refine ⟨?_, ?_, ?_⟩
    · intro t; cases t <;> simp only [Orders.tok] <;> rw [es] <;> assumption
    · intro t
      cases t with
      | quote => exact p2 a.quoteBank.bank (by cases x.v2 <;> simp)
      | base =>
        have := p1 a.baseBank.bank (Or.inr rfl)
        change bb'.potentialSerumTokens = _
        rw [hk]
        exact this
    · intro t; cases t
      · exact p3
      · exact p4

theorem applySettle_pot {rnd : ℚ → ℚ} {a a' : Acct} {bb bb' : Buyback.BB} {dao : Bool} {price : Option (I80F48 × Int)} {after : OO} {vb vq now : Int} {c1 c2 : I80F48} (hb : BanksOk a)
    (h : applySettle rnd a bb dao price after vb vq now = .ok (a', bb', c1, c2)) : PotStep a a' := by
  simp only [applySettle, bind_ok, require_ok] at h
  obtain ⟨cf, hcf, bb1, _, qa, hqa, _, hv1, _, hv2, ⟨b1, p1, br1, ch1⟩, h1, ⟨b2, p2, br2, ch2⟩, h2, ⟨s, b1', b2'⟩, hu, h⟩ := h
  simp only [ok_inj, Prod.mk.injEq] at h
  obtain ⟨rfl, rfl, rfl, rfl⟩ := h
  obtain ⟨es, eb, eq⟩ := updatePotential_ok hu
  obtain ⟨q1, q2, q3, q4⟩ := updatePotential_pot hu
  obtain ⟨st, nb, du, dd, bo, hk1⟩ := vaultDifference_keeps (hb .base).1 h1
  have hp : ({ a.quoteBank.bank with collectedFeesNative := cf } : Bank).Pos := (hb .quote).1
  obtain ⟨st', nb', du', dd', bo', hk2⟩ := vaultDifference_keeps hp h2
  refine ⟨?_, ?_, ?_⟩
  · intro t; cases t <;> simp only [Orders.tok] <;> rw [es]
  · intro t
    cases t with
    | base =>
      have := q1 b1 (Or.inr rfl)
      change (b1'.getD b1).potentialSerumTokens = _
      rw [this, hk1]
      rfl
    | quote =>
      have := q2 b2 (Or.inr rfl)
      change (b2'.getD b2).potentialSerumTokens = _
      rw [this, hk2]
      rfl
  · intro t; cases t
    · exact q3
    · exact q4

theorem settle_pot {rnd : ℚ → ℚ} {a a1 a' : Acct} {bb bb' : Buyback.BB} {dao : Bool} {price : Option (I80F48 × Int)} {after : OO} {vb vq now : Int} {c1 c2 : I80F48} (hb : BanksOk a)
    (h1 : chargeFees a now = .ok a1) (h2 : applySettle rnd a1 bb dao price after vb vq now = .ok (a', bb', c1, c2)) : PotStep a a' := by
  obtain ⟨k1, eo, ev1, ev2, er⟩ := chargeFees_ok hb h1
  have hb1 : BanksOk a1 := by
    intro t
    obtain ⟨_, ⟨r, E⟩, _, er, _⟩ := k1 t
    exact ⟨Pos_congr (hb t).1 E.depositIndex E.borrowIndex, by rw [er]; exact (hb t).2⟩
  have P := applySettle_pot hb1 h2
  have e1 : ∀ t, a1.orders.pot t = a.orders.pot t := by intro t; rw [er]; cases t <;> rfl
  have e2 : ∀ t, a1.orders.tok t = a.orders.tok t := by intro t; rw [er]; cases t <;> rfl
  refine ⟨fun t => (P.tok t).trans (e2 t), fun t => ?_, fun t h0 => P.nonneg t (by rw [e1 t]; exact h0)⟩
  rw [P.moved t, (k1 t).2.2.2.2, e1 t]

/-- the instructions that move tokens between an account and its open orders account -/
inductive Instr (rnd : ℚ → ℚ) (a a' : Acct) : Prop
  | place (fd : Health.FDiv) (reg : Bool) (c c' : Health.Cache) (f f' : Account.Liq) (x : PlaceArgs) (d : PlaceDex) : placeOrder rnd fd reg c f a x d = .ok (a', f', c') → Instr rnd a a'
  | settle (bb bb' : Buyback.BB) (dao : Bool) (price : Option (I80F48 × Int)) (after : OO) (vb vq now : Int) : settleFunds rnd a bb dao price after vb vq now = .ok (a', bb') → Instr rnd a a'
  | cancel (fd : Health.FDiv) (c c' : Health.Cache) (f f' : Account.Liq) (fr fc : Bool) (bb : Buyback.BB) (after : OO) (vb vq now : Int) :
      forceCancel rnd fd c f fr fc a bb after vb vq now = .ok (f', some (a', c')) → Instr rnd a a'

theorem Instr.pot {rnd : ℚ → ℚ} {a a' : Acct} (hb : BanksOk a) (h : Instr rnd a a') : PotStep a a' := by
  cases h with
  | place fd reg c c' f f' x d h =>
    obtain ⟨_, _, h⟩ := placeOrder_book h
    exact placeBook_pot hb h
  | settle bb bb' dao price after vb vq now h =>
    simp only [settleFunds, bind_ok] at h
    obtain ⟨a1, h1, ⟨a2, bb2, c1, c2⟩, h2, h⟩ := h
    simp only [ok_inj, Prod.mk.injEq] at h
    obtain ⟨rfl, rfl⟩ := h
    exact settle_pot hb h1 h2
  | cancel fd c c' f f' fr fc bb after vb vq now h =>
    obtain ⟨a1, bb2, c1, c2, h1, h2⟩ := forceCancel_parts h
    exact settle_pot hb h1 h2

/-- banks with their token index, and the open orders accounts of all mango accounts -/
structure Sys where
  banks : List (Nat × Bank)
  slots : List Orders

/-- potential tokens counted by the banks of a token -/
def Sys.counted (σ : Sys) (tok : Nat) : Int := sumOf (fun x => if x.1 = tok then x.2.potentialSerumTokens else 0) σ.banks
/-- potential tokens of the open orders accounts -/
def slotPot (tok : Nat) (s : Orders) : Int := (if s.base = tok then s.potentialBase else 0) + (if s.quote = tok then s.potentialQuote else 0)
def Sys.actual (σ : Sys) (tok : Nat) : Int := sumOf (slotPot tok) σ.slots

/-- same tokens and counters; anything else may differ -/
def SamePots (σ σ' : Sys) : Prop :=
  List.Forall₂ (fun x y => y.1 = x.1 ∧ y.2.potentialSerumTokens = x.2.potentialSerumTokens) σ.banks σ'.banks ∧
  List.Forall₂ (fun x y : Orders => y.base = x.base ∧ y.quote = x.quote ∧ y.potentialBase = x.potentialBase ∧ y.potentialQuote = x.potentialQuote) σ.slots σ'.slots

/-- write the account's banks and orders back -/
def Sys.write (σ : Sys) (i bi qi : Nat) (a : Acct) : Sys :=
  { banks := (σ.banks.set bi (a.orders.base, a.baseBank.bank)).set qi (a.orders.quote, a.quoteBank.bank), slots := σ.slots.set i a.orders }

/-- Everything that can happen to the counters. Closing an open orders account needs it to be empty, which it becomes only by settling, so that its amounts are 0. -/
inductive Reach (rnd : ℚ → ℚ) : Sys → Prop
  | start : Reach rnd ⟨[], []⟩
  /-- token_register, token_add_bank -/
  | bank {σ : Sys} {tok : Nat} {b : Bank} : Reach rnd σ → b.potentialSerumTokens = 0 → Reach rnd { σ with banks := σ.banks ++ [(tok, b)] }
  /-- serum3_create_open_orders -/
  | opens {σ : Sys} {s : Orders} : Reach rnd σ → (∀ t, s.pot t = 0) → Reach rnd { σ with slots := σ.slots ++ [s] }
  | closes {σ : Sys} {s : Orders} {l l' : List Orders} : Reach rnd σ → σ.slots = l ++ s :: l' → (∀ t, s.pot t = 0) → Reach rnd { σ with slots := l ++ l' }
  /-- everything else -/
  | other {σ σ' : Sys} : Reach rnd σ → SamePots σ σ' → Reach rnd σ'
  /-- an instruction on open orders account `i` with the banks `bi` and `qi` -/
  | instr {σ : Sys} {a a' : Acct} {i bi qi : Nat} : Reach rnd σ → BanksOk a → σ.slots[i]? = some a.orders → bi ≠ qi → σ.banks[bi]? = some (a.orders.base, a.baseBank.bank) →
      σ.banks[qi]? = some (a.orders.quote, a.quoteBank.bank) → Instr rnd a a' → Reach rnd (σ.write i bi qi a')

theorem samePots_sums {σ σ' : Sys} (h : SamePots σ σ') (tok : Nat) : σ'.counted tok = σ.counted tok ∧ σ'.actual tok = σ.actual tok := by
  obtain ⟨h1, h2⟩ := h
  constructor
  · unfold Sys.counted
    generalize σ.banks = l at *
    generalize σ'.banks = l' at *
    induction h1 with
    | nil => rfl
    | cons hr _ ih => simp only [sumOf_cons, ih, hr.1, hr.2]
  · unfold Sys.actual
    generalize σ.slots = l at *
    generalize σ'.slots = l' at *
    induction h2 with
    | nil => rfl
    | cons hr _ ih => simp only [sumOf_cons, ih, slotPot, hr.1, hr.2.1, hr.2.2.1, hr.2.2.2]

/-- all counters are non-negative -/
def Sys.NonNeg (σ : Sys) : Prop := (∀ x ∈ σ.banks, 0 ≤ x.2.potentialSerumTokens) ∧ ∀ s ∈ σ.slots, ∀ t, 0 ≤ s.pot t

theorem samePots_nonneg {σ σ' : Sys} (h : SamePots σ σ') (h0 : σ.NonNeg) : σ'.NonNeg := by
  obtain ⟨h1, h2⟩ := h
  obtain ⟨g1, g2⟩ := h0
  unfold Sys.NonNeg
  generalize σ.banks = l at *
  generalize σ'.banks = l' at *
  generalize σ.slots = m at *
  generalize σ'.slots = m' at *
  constructor
  · clear g2 h2
    induction h1 with
    | nil => simp
    | @cons a b l m hr _ ih =>
      intro x hx
      rcases List.mem_cons.mp hx with rfl | hx
      · rw [hr.2]; exact g1 a List.mem_cons_self
      · exact ih (fun y hy => g1 y (List.mem_cons_of_mem _ hy)) x hx
  · clear g1 h1
    induction h2 with
    | nil => simp
    | @cons a b l m hr _ ih =>
      intro x hx
      rcases List.mem_cons.mp hx with rfl | hx
      · intro t
        have := g2 a List.mem_cons_self t
        cases t <;> simp only [Orders.pot] at * <;> omega
      · exact ih (fun y hy => g2 y (List.mem_cons_of_mem _ hy)) x hx

theorem write_sums {rnd : ℚ → ℚ} {σ : Sys} {a a' : Acct} {i bi qi : Nat} (hs : σ.slots[i]? = some a.orders) (hne : bi ≠ qi) (h1 : σ.banks[bi]? = some (a.orders.base, a.baseBank.bank))
    (h2 : σ.banks[qi]? = some (a.orders.quote, a.quoteBank.bank)) (P : PotStep a a') (tok : Nat) :
    (σ.write i bi qi a').counted tok = σ.counted tok + (if a.orders.base = tok then a'.baseBank.bank.potentialSerumTokens - a.baseBank.bank.potentialSerumTokens else 0) +
      (if a.orders.quote = tok then a'.quoteBank.bank.potentialSerumTokens - a.quoteBank.bank.potentialSerumTokens else 0) ∧
    (σ.write i bi qi a').actual tok = σ.actual tok + (if a.orders.base = tok then a'.orders.potentialBase - a.orders.potentialBase else 0) +
      (if a.orders.quote = tok then a'.orders.potentialQuote - a.orders.potentialQuote else 0) := by
  have t1 : a'.orders.base = a.orders.base := P.tok .base
  have t2 : a'.orders.quote = a.orders.quote := P.tok .quote
  unfold Sys.write Sys.counted Sys.actual
  dsimp only
  constructor
  · rw [sumOf_set _ (k := qi) (x := (a.orders.quote, a.quoteBank.bank)) (by rw [List.getElem?_set_ne hne]; exact h2), sumOf_set _ h1]
    simp only [t1, t2]
    split <;> split <;> omega
  · rw [sumOf_set _ hs]
    simp only [slotPot, t1, t2]
    split <;> split <;> omega

/-- **C60.** The banks of a token never count less than the open orders accounts could pay out according to their last update; with one bank per token they count exactly that, at all times. -/
theorem C60_potential {rnd : ℚ → ℚ} {σ : Sys} (h : Reach rnd σ) :
    σ.NonNeg ∧ (∀ tok, σ.actual tok ≤ σ.counted tok) ∧ ((σ.banks.map (·.1)).Nodup → ∀ tok, σ.counted tok = σ.actual tok) := by
  induction h with
  | start => exact ⟨⟨by simp, by simp⟩, fun tok => by simp [Sys.counted, Sys.actual], fun _ tok => by simp [Sys.counted, Sys.actual]⟩
  | @bank σ tok b _ h0 ih =>
    obtain ⟨i1, i2, i3⟩ := ih
    have e : ∀ t, Sys.counted { σ with banks := σ.banks ++ [(tok, b)] } t = σ.counted t := by
      intro t
      simp only [Sys.counted, sumOf_append, sumOf_cons, sumOf_nil, h0]
      split <;> simp
    refine ⟨⟨?_, i1.2⟩, fun t => by rw [e t]; exact i2 t, fun hn t => ?_⟩
    · intro x hx
      rcases List.mem_append.mp hx with hx | hx
      · exact i1.1 x hx
      · simp only [List.mem_singleton] at hx
        rw [hx, h0]
    · rw [e t]
      rw [List.map_append] at hn
      exact i3 (List.Nodup.of_append_left hn) t
  | @opens σ s _ h0 ih =>
    obtain ⟨i1, i2, i3⟩ := ih
    have p1 : s.potentialBase = 0 := h0 .base
    have p2 : s.potentialQuote = 0 := h0 .quote
    have e : ∀ t, Sys.actual { σ with slots := σ.slots ++ [s] } t = σ.actual t := by
      intro t
      simp [Sys.actual, slotPot, p1, p2]
    refine ⟨⟨i1.1, ?_⟩, fun t => by rw [e t]; exact i2 t, fun hn t => by rw [e t]; exact i3 hn t⟩
    intro x hx
    rcases List.mem_append.mp hx with hx | hx
    · exact i1.2 x hx
    · simp only [List.mem_singleton] at hx
      intro t
      rw [hx, h0 t]
  | @closes σ s l l' _ he h0 ih =>
    obtain ⟨i1, i2, i3⟩ := ih
    have p1 : s.potentialBase = 0 := h0 .base
    have p2 : s.potentialQuote = 0 := h0 .quote
    have e : ∀ t, Sys.actual { σ with slots := l ++ l' } t = σ.actual t := by
      intro t
      simp [Sys.actual, he, slotPot, p1, p2]
    refine ⟨⟨i1.1, ?_⟩, fun t => by rw [e t]; exact i2 t, fun hn t => by rw [e t]; exact i3 hn t⟩
    intro x hx
    apply i1.2
    rw [he]
    rcases List.mem_append.mp hx with hx | hx
    · exact List.mem_append_left _ hx
    · exact List.mem_append_right _ (List.mem_cons_of_mem _ hx)
  | @other σ σ' _ hs ih =>
    obtain ⟨i1, i2, i3⟩ := ih
    have e := fun t => samePots_sums hs t
    refine ⟨samePots_nonneg hs i1, fun t => by rw [(e t).1, (e t).2]; exact i2 t, fun hn t => ?_⟩
    rw [(e t).1, (e t).2]
    apply i3
    have : σ'.banks.map (·.1) = σ.banks.map (·.1) := by
      have := hs.1
      clear i3 hn e hs i1 i2
      generalize σ.banks = l at *
      generalize σ'.banks = l' at *
      induction this with
      | nil => rfl
      | cons hr _ ih => simp only [List.map_cons, ih, hr.1]
    rw [← this]
    exact hn
  | @instr σ a a' i bi qi _ hb hs hne h1 h2 hi ih =>
    obtain ⟨i1, i2, i3⟩ := ih
    have P := hi.pot hb
    have W := fun t => write_sums (rnd := rnd) hs hne h1 h2 P t
    have ms : a.orders ∈ σ.slots := List.mem_of_getElem? hs
    have mb := i1.1 _ (List.mem_of_getElem? h1)
    have mq := i1.1 _ (List.mem_of_getElem? h2)
    have nb := i1.2 _ ms .base
    have nq := i1.2 _ ms .quote
    have nb' := P.nonneg .base nb
    have nq' := P.nonneg .quote nq
    have vb := moved_cases (a.bank .base).potentialSerumTokens (a.orders.pot .base) (a'.orders.pot .base)
    have vq := moved_cases (a.bank .quote).potentialSerumTokens (a.orders.pot .quote) (a'.orders.pot .quote)
    rw [← P.moved .base] at vb
    rw [← P.moved .quote] at vq
    simp only [Orders.pot, Acct.bank] at nb nq nb' nq' vb vq mb mq
    have tb : a'.orders.base = a.orders.base := P.tok .base
    have tq : a'.orders.quote = a.orders.quote := P.tok .quote
    refine ⟨⟨?_, ?_⟩, fun t => ?_, fun hn t => ?_⟩
    · apply forall_set (P := fun x : Nat × Bank => 0 ≤ x.2.potentialSerumTokens)
      · apply forall_set (P := fun x : Nat × Bank => 0 ≤ x.2.potentialSerumTokens) i1.1
        dsimp only
        omega
      · dsimp only
        omega
    · apply forall_set (P := fun s : Orders => ∀ t, 0 ≤ s.pot t) i1.2
      intro t
      cases t
      · exact nb'
      · exact nq'
    · rw [(W t).1, (W t).2]
      have := i2 t
      split <;> split <;> omega
    · have hn' : (σ.banks.map (·.1)).Nodup := by
        have e : (σ.write i bi qi a').banks.map (·.1) = σ.banks.map (·.1) := by
          unfold Sys.write
          dsimp only
          rw [List.map_set, List.map_set, tb, tq]
          have e1 : (σ.banks.map (·.1)).set bi a.orders.base = σ.banks.map (·.1) := by
            apply List.ext_getElem?
            intro k
            by_cases hk : bi = k
            · subst hk
              obtain ⟨hl, _⟩ := List.getElem?_eq_some_iff.mp h1
              rw [List.getElem?_set_self (by simpa using hl), List.getElem?_map, h1]
              rfl
            · rw [List.getElem?_set_ne hk]
          rw [e1]
          apply List.ext_getElem?
          intro k
          by_cases hk : qi = k
          · subst hk
            obtain ⟨hl, _⟩ := List.getElem?_eq_some_iff.mp h2
            rw [List.getElem?_set_self (by simpa using hl), List.getElem?_map, h2]
            rfl
          · rw [List.getElem?_set_ne hk]
        rw [e] at hn
        exact hn
      have eq := fun t => i3 hn' t
      -- each bank counts at least what this account contributes, so nothing saturates
      have big : ∀ tok' (b : Bank) (k : Nat), σ.banks[k]? = some (tok', b) → σ.counted tok' = b.potentialSerumTokens := by
        intro tok' b k hk
        unfold Sys.counted
        have key : ∀ (l : List (Nat × Bank)) (k : Nat), (l.map (·.1)).Nodup → l[k]? = some (tok', b) →
            sumOf (fun x => if x.1 = tok' then x.2.potentialSerumTokens else 0) l = b.potentialSerumTokens := by
          intro l
          induction l with
          | nil => intro k _ h; simp at h
          | cons y l ihl =>
            intro k hn h
            simp only [List.map_cons, List.nodup_cons] at hn
            cases k with
            | zero =>
              simp only [List.getElem?_cons_zero, Option.some.injEq] at h
              subst h
              have z : sumOf (fun x : Nat × Bank => if x.1 = tok' then x.2.potentialSerumTokens else 0) l = 0 := by
                apply sumOf_zero
                intro x hx
                rw [if_neg]
                intro hc
                apply hn.1
                rw [← hc]
                exact List.mem_map.mpr ⟨x, hx, rfl⟩
              simp [z]
            | succ k =>
              simp only [List.getElem?_cons_succ] at h
              have : y.1 ≠ tok' := by
                intro hc
                apply hn.1
                rw [hc]
                exact List.mem_map.mpr ⟨_, List.mem_of_getElem? h, rfl⟩
              simp only [sumOf_cons, if_neg this, ihl k hn.2 h, Int.zero_add]
        exact key _ k hn' hk
      have slot : ∀ tok', slotPot tok' a.orders ≤ σ.actual tok' := by
        intro tok'
        apply sumOf_pos_mem (f := slotPot tok') _ ms
        intro x hx
        have x1 := i1.2 x hx .base
        have x2 := i1.2 x hx .quote
        simp only [Orders.pot] at x1 x2
        unfold slotPot
        split <;> split <;> omega
      have s1 := slot a.orders.base
      have s2 := slot a.orders.quote
      rw [← eq, big _ _ _ h1] at s1
      rw [← eq, big _ _ _ h2] at s2
      have hne' : a.orders.base ≠ a.orders.quote := by
        intro hc
        obtain ⟨l1, e1⟩ := List.getElem?_eq_some_iff.mp h1
        obtain ⟨l2, e2⟩ := List.getElem?_eq_some_iff.mp h2
        have := List.Nodup.getElem_inj_iff hn' (i := bi) (j := qi) (hi := by simpa using l1) (hj := by simpa using l2)
        apply hne
        apply this.mp
        simp [e1, e2, hc]
      unfold slotPot at s1 s2
      simp only [if_true, if_neg hne', if_neg hne'.symm] at s1 s2
      rw [(W t).1, (W t).2]
      have := eq t
      split <;> split <;> omega

end Serum
end Mango
