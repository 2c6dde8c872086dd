import Verif.Auth.Model
import Verif.ListSum
import Mathlib.Data.List.Induction
/-!
# C71: owner, delegates, freezing and sequence numbers

Everything is stated about histories of successful instructions that begin without accounts: who holds a right is read off the history.
-/
namespace Mango
namespace Auth

/-! ## Reading a history -/

/-- the last event of the history that has the property -/
def last (p : Op → Bool) (h : List (Nat × Op)) : Option (Nat × Op) := h.reverse.find? (fun x => p x.2)

/-- who created the i-th account -/
def creator (h : List (Nat × Op)) (i : Nat) : Option Key := (h.filterMap (fun x => match x.2 with | .create k => some k | _ => none))[i]?

/-- the instruction names a new delegate for account `i` -/
def namesDelegate (i : Nat) : Op → Bool
  | .edit _ j _ (some _) _ _ => j == i
  | _ => false
/-- the instruction names a new temporary delegate for account `i` -/
def namesTemporary (i : Nat) : Op → Bool
  | .edit _ j _ _ (some _) (some _) => j == i
  | _ => false
/-- the instruction freezes or unfreezes account `i` -/
def toggles (i : Nat) : Op → Bool
  | .toggleFreeze _ j _ => j == i
  | _ => false
/-- the instruction checks the sequence number of account `i` -/
def checks (i : Nat) : Op → Bool
  | .sequenceCheck _ j _ => j == i
  | _ => false
/-- the instruction names a new admin -/
def namesAdmin : Op → Bool
  | .setAdmin _ _ => true
  | _ => false

/-- `k` owns account `i` -/
def IsOwner (h : List (Nat × Op)) (i : Nat) (k : Key) : Prop := creator h i = some k
/-- the owner's last choice of a delegate for account `i` is `k` -/
def IsDelegate (h : List (Nat × Op)) (i : Nat) (k : Key) : Prop :=
  ∃ t o nm tt e, IsOwner h i o ∧ last (namesDelegate i) h = some (t, .edit o i nm (some k) tt e)
/-- the owner's last choice of a temporary delegate for account `i` is `k`; it was made at a time `t`, for a time that ends within a week of `t` and is not over at `now` -/
def IsTemporary (h : List (Nat × Op)) (i : Nat) (k : Key) (now : Nat) : Prop :=
  ∃ t o nm d e, IsOwner h i o ∧ last (namesTemporary i) h = some (t, .edit o i nm d (some k) (some e)) ∧ now ≤ e ∧ e < t + WEEK
/-- the admin froze account `i` at most a week ago and has not unfrozen it -/
def IsFrozen (h : List (Nat × Op)) (i : Nat) (now : Nat) : Prop :=
  ∃ t k, last (toggles i) h = some (t, .toggleFreeze k i true) ∧ now ≤ t + WEEK

/-- instructions that act on an account without asking for any right to it: health bookkeeping and resizing, processing of perp events, liquidation and forced steps (the account is the liqee),
settlement, fees, deposits from someone else, the start or execution of the account's conditional swaps, and the receiving account of fee buybacks -/
def open_ : List (Ix × Nat) :=
  [(.buybackFees, 1), (.sizeMigration, 0), (.healthCheck, 0), (.healthRegionBegin, 0), (.healthRegionEnd, 0), (.perpConsumeEvents, 0), (.perpForceClosePosition, 0), (.perpForceClosePosition, 1),
   (.perpLiqBaseOrPositivePnl, 1), (.perpLiqForceCancelOrders, 0), (.perpLiqNegativePnlOrBankruptcy, 1), (.perpLiqNegativePnlOrBankruptcyV2, 1), (.perpSettleFees, 0), (.perpSettlePnl, 1), (.perpSettlePnl, 2),
   (.serum3LiqForceCancelOrders, 0), (.tokenChargeCollateralFees, 0), (.tcsStart, 0), (.tcsTrigger, 0), (.tokenDepositIntoExisting, 0), (.tokenForceCloseBorrows, 1), (.tokenForceWithdraw, 0),
   (.tokenLiqBankruptcy, 1), (.tokenLiqWithToken, 1)]
/-- instructions that are possible on a frozen account -/
def thawed : List (Ix × Nat) :=
  [(.sizeMigration, 0), (.perpConsumeEvents, 0), (.perpLiqForceCancelOrders, 0), (.serum3LiqForceCancelOrders, 0),
   (.perpCancelAllOrders, 0), (.perpCancelOrderByClientOrderId, 0), (.buybackFees, 1)]
/-- the right to instruction `ix` is the owner's alone -/
def ownerOnly : List Ix := [.expand]

/-! ## The invariant -/

theorem last_snoc (p : Op → Bool) (h : List (Nat × Op)) (x : Nat × Op) : last p (h ++ [x]) = if p x.2 then some x else last p h := by
  unfold last
  rw [List.reverse_append, List.reverse_singleton, List.singleton_append, List.find?_cons]
  cases p x.2 <;> rfl

def createdBy (x : Nat × Op) : Option Key := match x.2 with | .create k => some k | _ => none

theorem creator_snoc (h : List (Nat × Op)) (x : Nat × Op) (i : Nat) : creator (h ++ [x]) i = (h.filterMap createdBy ++ (match createdBy x with | some k => [k] | none => []))[i]? := by
  have : creator (h ++ [x]) i = ((h ++ [x]).filterMap createdBy)[i]? := rfl
  rw [this, List.filterMap_append, List.filterMap_cons, List.filterMap_nil]
  cases createdBy x <;> rfl

/-- what the history says about account `i`, whose data is `a` -/
structure Told (h : List (Nat × Op)) (i : Nat) (a : Fixed) : Prop where
  owner : IsOwner h i a.owner
  delegate : a.delegate = 0 ∨ ∃ t nm tt e, last (namesDelegate i) h = some (t, .edit a.owner i nm (some a.delegate) tt e)
  temporary : a.temporaryDelegate = 0 ∨ ∃ t nm d, last (namesTemporary i) h = some (t, .edit a.owner i nm d (some a.temporaryDelegate) (some a.temporaryDelegateExpiry)) ∧ a.temporaryDelegateExpiry < t + WEEK
  frozen : (last (toggles i) h = none ∧ a.frozenUntil = 0) ∨ ∃ t k f, last (toggles i) h = some (t, .toggleFreeze k i f) ∧ a.frozenUntil = if f then t + WEEK else 0
  sequence : a.sequence = (h.countP (fun x => checks i x.2)) % 256

/-- what the history says about the state -/
structure TellsAll (s0 : State) (h : List (Nat × Op)) (s : State) : Prop where
  count : (h.filterMap createdBy).length = s.accts.length
  told : ∀ i a, s.accts[i]? = some a → Told h i a
  /-- nothing was done to accounts that do not exist yet -/
  early : ∀ i, s.accts.length ≤ i → last (toggles i) h = none ∧ h.countP (fun x => checks i x.2) = 0
  admin : (last namesAdmin h = none ∧ s.admin = s0.admin) ∨ ∃ t k, last namesAdmin h = some (t, .setAdmin k s.admin)
  clock : ∀ x ∈ h, x.1 ≤ s.now

/-- an event that does not concern account `i` keeps what is told about it -/
theorem Told.keep {h : List (Nat × Op)} {i : Nat} {a : Fixed} {x : Nat × Op} (r : Told h i a) (h1 : namesDelegate i x.2 = false) (h2 : namesTemporary i x.2 = false) (h3 : toggles i x.2 = false)
    (h4 : checks i x.2 = false) : Told (h ++ [x]) i a := by
  refine ⟨?_, ?_, ?_, ?_, ?_⟩
  · have := r.owner
    unfold IsOwner at this ⊢
    rw [creator_snoc]
    have hl : (h.filterMap createdBy)[i]? = some a.owner := this
    rw [List.getElem?_append_left]
    · exact hl
    · by_contra hc
      rw [List.getElem?_eq_none (by omega)] at hl
      exact absurd hl (by simp)
  · rw [last_snoc, h1]; exact r.delegate
  · rw [last_snoc, h2]; exact r.temporary
  · rw [last_snoc, h3]; exact r.frozen
  · rw [List.countP_append, List.countP_singleton, h4]; exact r.sequence

theorem acct_ok {s : State} {i : Nat} {a : Fixed} (h : s.acct i = .ok a) : s.accts[i]? = some a ∧ a.closed = false := by
  unfold State.acct at h
  cases hs : s.accts[i]? with
  | none => rw [hs] at h; exact absurd h (by simp)
  | some b =>
    rw [hs] at h
    dsimp only at h
    by_cases hc : b.closed = true
    · rw [if_pos hc] at h; exact absurd h (by simp)
    · rw [if_neg hc, ok_inj] at h
      subst h
      exact ⟨rfl, by simpa using hc⟩

/-- one account is changed -/
theorem tells_set {s0 : State} {h : List (Nat × Op)} {s : State} {x : Nat × Op} {i : Nat} {a a' : Fixed} (r : TellsAll s0 h s) (hi : s.accts[i]? = some a) (hx : x.1 = s.now)
    (hc : createdBy x = none) (hadm : namesAdmin x.2 = false) (hother : ∀ j, j ≠ i → namesDelegate j x.2 = false ∧ namesTemporary j x.2 = false ∧ toggles j x.2 = false ∧ checks j x.2 = false)
    (hself : Told (h ++ [x]) i a') : TellsAll s0 (h ++ [x]) { s with accts := s.accts.set i a' } := by
  have hlt : i < s.accts.length := by
    by_contra hn
    rw [List.getElem?_eq_none (by omega)] at hi
    exact absurd hi (by simp)
  refine ⟨?_, ?_, ?_, ?_, ?_⟩
  · rw [List.filterMap_append, List.length_append, List.filterMap_cons, hc]
    simpa using r.count
  · intro j b hj
    dsimp only at hj
    by_cases hji : j = i
    · subst hji
      rw [List.getElem?_set_self hlt, Option.some.injEq] at hj
      subst hj
      exact hself
    · rw [List.getElem?_set_ne (by omega)] at hj
      obtain ⟨o1, o2, o3, o4⟩ := hother j hji
      exact (r.told j b hj).keep o1 o2 o3 o4
  · intro j hj
    dsimp only at hj
    rw [List.length_set] at hj
    obtain ⟨_, _, o3, o4⟩ := hother j (by omega)
    obtain ⟨e1, e2⟩ := r.early j hj
    rw [last_snoc, o3, List.countP_append, List.countP_singleton, o4]
    exact ⟨by simpa using e1, by simpa using e2⟩
  · rw [last_snoc, hadm]; exact r.admin
  · intro y hy
    rw [List.mem_append, List.mem_singleton] at hy
    rcases hy with hy | rfl
    · exact r.clock y hy
    · exact Nat.le_of_eq hx

/-- no account and not the admin is changed -/
theorem tells_same {s0 : State} {h : List (Nat × Op)} {s : State} {x : Nat × Op} (r : TellsAll s0 h s) (hx : x.1 = s.now) (n : Nat) (hn : s.now ≤ n)
    (hc : createdBy x = none) (hadm : namesAdmin x.2 = false) (hother : ∀ j, namesDelegate j x.2 = false ∧ namesTemporary j x.2 = false ∧ toggles j x.2 = false ∧ checks j x.2 = false) :
    TellsAll s0 (h ++ [x]) { s with now := n } := by
  refine ⟨?_, ?_, ?_, ?_, ?_⟩
  · rw [List.filterMap_append, List.length_append, List.filterMap_cons, hc]
    simpa using r.count
  · intro j b hj
    obtain ⟨o1, o2, o3, o4⟩ := hother j
    exact (r.told j b hj).keep o1 o2 o3 o4
  · intro j hj
    obtain ⟨_, _, o3, o4⟩ := hother j
    obtain ⟨e1, e2⟩ := r.early j hj
    rw [last_snoc, o3, List.countP_append, List.countP_singleton, o4]
    exact ⟨by simpa using e1, by simpa using e2⟩
  · rw [last_snoc, hadm]; exact r.admin
  · intro y hy
    rw [List.mem_append, List.mem_singleton] at hy
    dsimp only
    rcases hy with hy | rfl
    · exact Nat.le_trans (r.clock y hy) hn
    · omega

theorem tells_step {s0 : State} {h : List (Nat × Op)} {s s' : State} {op : Op} (r : TellsAll s0 h s) (st : step s op = .ok s') : TellsAll s0 (h ++ [(s.now, op)]) s' := by
  have self : ∀ {i a} (x : Nat × Op), s.accts[i]? = some a → IsOwner (h ++ [x]) i a.owner := by
    intro i a x hi
    have := (r.told i a hi).owner
    unfold IsOwner at this ⊢
    rw [creator_snoc]
    have hl : (h.filterMap createdBy)[i]? = some a.owner := this
    rw [List.getElem?_append_left]
    · exact hl
    · by_contra hc
      rw [List.getElem?_eq_none (by omega)] at hl
      exact absurd hl (by simp)
  cases op with
  | tick d =>
    unfold step at st
    rw [ok_inj] at st
    subst st
    exact tells_same r rfl (s.now + d) (by omega) rfl rfl (fun j => ⟨rfl, rfl, rfl, rfl⟩)
  | setAdmin k new =>
    unfold step at st
    simp only [bind_ok, require_ok, ok_inj] at st
    obtain ⟨_, _, _, _, rfl⟩ := st
    refine ⟨?_, ?_, ?_, ?_, ?_⟩
    · rw [List.filterMap_append, List.length_append, ← r.count]; rfl
    · intro i a hi; exact (r.told i a hi).keep rfl rfl rfl rfl
    · intro i hi
      rw [last_snoc, List.countP_append, List.countP_singleton]
      obtain ⟨e1, e2⟩ := r.early i hi
      exact ⟨by simpa [toggles] using e1, by simpa [checks] using e2⟩
    · right; exact ⟨s.now, k, by rw [last_snoc]; rfl⟩
    · intro y hy
      rw [List.mem_append, List.mem_singleton] at hy
      rcases hy with hy | rfl
      · exact r.clock y hy
      · exact Nat.le_refl _
  | create k =>
    unfold step at st
    simp only [bind_ok, require_ok, ok_inj] at st
    obtain ⟨_, _, rfl⟩ := st
    refine ⟨?_, ?_, ?_, ?_, ?_⟩
    · rw [List.filterMap_append, List.length_append, List.length_append]
      have := r.count
      simp [createdBy] at this ⊢
      exact this
    · intro i a hi
      dsimp only at hi
      by_cases hlt : i < s.accts.length
      · rw [List.getElem?_append_left hlt] at hi
        exact (r.told i a hi).keep rfl rfl rfl rfl
      · have hi' : i = s.accts.length := by
          by_contra hne
          rw [List.getElem?_eq_none (by rw [List.length_append, List.length_singleton]; omega)] at hi
          exact absurd hi (by simp)
        subst hi'
        rw [List.getElem?_append_right (Nat.le_refl _), Nat.sub_self, List.getElem?_cons_zero, Option.some.injEq] at hi
        subst hi
        obtain ⟨e1, e2⟩ := r.early s.accts.length (Nat.le_refl _)
        refine ⟨?_, Or.inl rfl, Or.inl rfl, Or.inl ⟨?_, rfl⟩, ?_⟩
        · unfold IsOwner
          rw [creator_snoc, ← r.count]
          show (h.filterMap createdBy ++ [k])[(h.filterMap createdBy).length]? = some k
          rw [List.getElem?_append_right (Nat.le_refl _), Nat.sub_self]
          rfl
        · rw [last_snoc]; exact e1
        · rw [List.countP_append, List.countP_singleton, e2]; rfl
    · intro i hi
      dsimp only at hi
      rw [List.length_append, List.length_singleton] at hi
      obtain ⟨e1, e2⟩ := r.early i (by omega)
      rw [last_snoc, List.countP_append, List.countP_singleton]
      exact ⟨by simpa [toggles] using e1, by simpa [checks] using e2⟩
    · rw [last_snoc]; exact r.admin
    · intro y hy
      rw [List.mem_append, List.mem_singleton] at hy
      rcases hy with hy | rfl
      · exact r.clock y hy
      · exact Nat.le_refl _
  | edit k i nm d t e =>
    unfold step at st
    simp only [bind_ok, require_ok, ok_inj] at st
    obtain ⟨a, ha, _, ⟨_, hk⟩, _, _, a', hed, rfl⟩ := st
    obtain ⟨hi, _⟩ := acct_ok ha
    subst hk
    have told := r.told i a hi
    refine tells_set r hi rfl rfl rfl ?_ ?_
    · intro j hj
      have : (i == j) = false := by simpa using fun h : i = j => hj h.symm
      refine ⟨?_, ?_, rfl, rfl⟩
      · cases d with
        | none => rfl
        | some d => exact this
      · cases t with
        | none => rfl
        | some t => cases e with
          | none => rfl
          | some e => exact this
    · unfold editFixed at hed
      simp only [bind_ok, require_ok] at hed
      obtain ⟨_, _, hed⟩ := hed
      -- the delegate
      have hdel : ∀ b : Fixed, b.owner = a.owner → b.delegate = d.getD a.delegate →
          (b.delegate = 0 ∨ ∃ t' nm' tt' e', last (namesDelegate i) (h ++ [(s.now, .edit a.owner i nm d t e)]) = some (t', .edit b.owner i nm' (some b.delegate) tt' e')) := by
        intro b hbo hbd
        cases d with
        | some d =>
          simp only [Option.getD] at hbd
          right
          refine ⟨s.now, nm, t, e, ?_⟩
          rw [last_snoc, hbd, hbo]
          simp [namesDelegate]
        | none =>
          simp only [Option.getD] at hbd
          rw [last_snoc, hbd, hbo]
          exact told.delegate
      have hfr : ∀ b : Fixed, b.frozenUntil = a.frozenUntil → (last (toggles i) (h ++ [(s.now, .edit a.owner i nm d t e)]) = none ∧ b.frozenUntil = 0) ∨
          ∃ t' k f, last (toggles i) (h ++ [(s.now, .edit a.owner i nm d t e)]) = some (t', .toggleFreeze k i f) ∧ b.frozenUntil = if f then t' + WEEK else 0 := by
        intro b hb
        rw [last_snoc, hb]; exact told.frozen
      have hsq : ∀ b : Fixed, b.sequence = a.sequence → b.sequence = ((h ++ [(s.now, Op.edit a.owner i nm d t e)]).countP (fun x => checks i x.2)) % 256 := by
        intro b hb
        rw [hb, List.countP_append, List.countP_singleton]
        exact told.sequence
      cases t with
      | none =>
        cases e with
        | some e => exact absurd hed (by simp)
        | none =>
          dsimp only at hed
          rw [ok_inj] at hed
          have ho : a'.owner = a.owner := by rw [← hed]; cases d <;> rfl
          refine ⟨by rw [ho]; exact self _ hi, hdel a' ho (by rw [← hed]; cases d <;> rfl), ?_, hfr a' (by rw [← hed]; cases d <;> rfl), hsq a' (by rw [← hed]; cases d <;> rfl)⟩
          rw [last_snoc, ho]
          have ht : a'.temporaryDelegate = a.temporaryDelegate := by rw [← hed]; cases d <;> rfl
          have hte : a'.temporaryDelegateExpiry = a.temporaryDelegateExpiry := by rw [← hed]; cases d <;> rfl
          rw [ht, hte]
          exact told.temporary
      | some t =>
        cases e with
        | none => exact absurd hed (by simp)
        | some e =>
          simp only [bind_ok, require_ok, ok_inj] at hed
          obtain ⟨_, _, _, hexp, hed⟩ := hed
          have ho : a'.owner = a.owner := by rw [← hed]; cases d <;> rfl
          have ht : a'.temporaryDelegate = t := by rw [← hed]
          have hte : a'.temporaryDelegateExpiry = e := by rw [← hed]
          refine ⟨by rw [ho]; exact self _ hi, hdel a' ho (by rw [← hed]; cases d <;> rfl), ?_, hfr a' (by rw [← hed]; cases d <;> rfl), hsq a' (by rw [← hed]; cases d <;> rfl)⟩
          right
          refine ⟨s.now, nm, d, ?_, by rw [hte]; exact hexp⟩
          rw [last_snoc, ho, ht, hte]
          simp [namesTemporary]
  | toggleFreeze k i f =>
    unfold step at st
    simp only [bind_ok, require_ok, ok_inj] at st
    obtain ⟨a, ha, _, ⟨_, hk⟩, a', hed, rfl⟩ := st
    obtain ⟨hi, _⟩ := acct_ok ha
    have told := r.told i a hi
    refine tells_set r hi rfl rfl rfl ?_ ?_
    · intro j hj
      have : (i == j) = false := by simpa using fun h : i = j => hj h.symm
      exact ⟨rfl, rfl, this, rfl⟩
    · have hf : a' = { a with frozenUntil := if f then s.now + WEEK else 0 } := by
        unfold freezeFixed at hed
        cases f with
        | true =>
          simp only [if_true, bind_ok, require_ok, ok_inj] at hed
          obtain ⟨_, _, rfl⟩ := hed
          rfl
        | false =>
          simp only [Bool.false_eq_true, if_false, ok_inj] at hed
          subst hed; rfl
      subst hf
      refine ⟨self (a := a) _ hi, ?_, ?_, ?_, ?_⟩
      · rw [last_snoc]; exact told.delegate
      · rw [last_snoc]; exact told.temporary
      · right
        refine ⟨s.now, k, f, ?_, rfl⟩
        rw [last_snoc]; simp [toggles]
      · rw [List.countP_append, List.countP_singleton]; exact told.sequence
  | sequenceCheck k i n =>
    unfold step at st
    simp only [bind_ok, require_ok, ok_inj] at st
    obtain ⟨a, ha, _, ⟨_, hk⟩, _, _, a', hed, rfl⟩ := st
    obtain ⟨hi, _⟩ := acct_ok ha
    have told := r.told i a hi
    refine tells_set r hi rfl rfl rfl ?_ ?_
    · intro j hj
      have : (i == j) = false := by simpa using fun h : i = j => hj h.symm
      exact ⟨rfl, rfl, rfl, this⟩
    · unfold sequenceFixed at hed
      simp only [bind_ok, require_ok, ok_inj] at hed
      obtain ⟨_, _, rfl⟩ := hed
      refine ⟨self (a := a) _ hi, ?_, ?_, ?_, ?_⟩
      · rw [last_snoc]; exact told.delegate
      · rw [last_snoc]; exact told.temporary
      · rw [last_snoc]; exact told.frozen
      · rw [List.countP_append, List.countP_singleton]
        have hq := told.sequence
        have : checks i (Op.sequenceCheck k i n) = true := by simp [checks]
        dsimp only
        rw [this, if_pos rfl]
        omega
  | close k i =>
    unfold step at st
    simp only [bind_ok, require_ok, ok_inj] at st
    obtain ⟨a, ha, _, ⟨_, hk⟩, _, _, rfl⟩ := st
    obtain ⟨hi, _⟩ := acct_ok ha
    have told := r.told i a hi
    refine tells_set r hi rfl rfl rfl (fun j hj => ⟨rfl, rfl, rfl, rfl⟩) ?_
    have t2 := told.keep (x := (s.now, .close k i)) rfl rfl rfl rfl
    exact ⟨t2.owner, t2.delegate, t2.temporary, t2.frozen, t2.sequence⟩
  | other ix k is =>
    unfold step at st
    simp only [bind_ok, require_ok, ok_inj] at st
    obtain ⟨_, _, _, _, _, _, rfl⟩ := st
    exact tells_same r rfl s.now (Nat.le_refl _) rfl rfl (fun j => ⟨rfl, rfl, rfl, rfl⟩)

theorem tells_run {s0 s : State} {h : List (Nat × Op)} (h0 : s0.accts = []) (r : Run s0 h s) : TellsAll s0 h s := by
  induction r with
  | start =>
    refine ⟨by rw [h0]; rfl, ?_, fun i _ => ⟨rfl, rfl⟩, Or.inl ⟨rfl, rfl⟩, fun x hx => absurd hx (by simp)⟩
    intro i a hi
    rw [h0] at hi
    exact absurd hi (by simp)
  | next r st ih => exact tells_step ih st

/-! ## The theorems -/

/-- the tables: which accounts of which instructions need no signature, only the owner's, and which are not asked for being frozen -/
theorem roles_open : ∀ (ix : Ix) (j : Nat) (r : Role), ix.roles[j]? = some r → (ix, j) ∉ open_ → r.signed ≠ .anyone := by
  intro ix j r hr hn
  cases ix <;> (rcases j with _ | _ | _ | j <;> simp [Ix.roles] at hr <;> subst hr <;> first | (simp; done) | (exact absurd (by decide) hn))
theorem roles_owner : ∀ (ix : Ix) (j : Nat) (r : Role), ix.roles[j]? = some r → ix ∈ ownerOnly → r.signed = .owner := by
  intro ix j r hr hn
  cases ix <;> first | (exact absurd hn (by decide)) | (rcases j with _ | _ | _ | j <;> simp [Ix.roles] at hr <;> subst hr; rfl)
theorem roles_frozen : ∀ (ix : Ix) (j : Nat) (r : Role), ix.roles[j]? = some r → (ix, j) ∉ thawed → r.frozenCheck = some j := by
  intro ix j r hr hn
  cases ix <;> (rcases j with _ | _ | _ | j <;> simp [Ix.roles] at hr <;> subst hr <;> first | rfl | (exact absurd (by decide) hn))

theorem mapM_get {α β : Type} {f : α → Res β} {l : List α} {l' : List β} (h : l.mapM f = .ok l') : ∀ (j : Nat) (x : α), l[j]? = some x → ∃ y, l'[j]? = some y ∧ f x = .ok y := by
  induction l generalizing l' with
  | nil => intro j x hx; simp at hx
  | cons a l ih =>
    rw [List.mapM_cons] at h
    simp only [bind_ok, pure_ok] at h
    obtain ⟨y, hy, l2, hl, rfl⟩ := h
    intro j x hx
    cases j with
    | zero =>
      simp only [List.getElem?_cons_zero, Option.some.injEq] at hx
      subst hx
      exact ⟨y, rfl, hy⟩
    | succ j =>
      simp only [List.getElem?_cons_succ] at hx ⊢
      exact ih hl j x hx

/-- what a successful call has checked, for each of its accounts -/
theorem other_ok {s s' : State} {ix : Ix} {k : Key} {is : List Nat} {j i : Nat} (st : step s (.other ix k is) = .ok s') (hj : is[j]? = some i) :
    k ≠ 0 ∧ s' = s ∧ ∃ a r, s.accts[i]? = some a ∧ ix.roles[j]? = some r ∧ r.signed.check a k s.now = true ∧
      (∀ m, r.frozenCheck = some m → ∃ i' b, is[m]? = some i' ∧ s.accts[i']? = some b ∧ b.isOperational s.now = true) := by
  unfold step at st
  simp only [bind_ok, require_ok, ok_inj] at st
  obtain ⟨as, has, _, ⟨hk, hl⟩, _, hall, rfl⟩ := st
  obtain ⟨a, ha, hacc⟩ := mapM_get has j i hj
  have hjl : j < ix.roles.length := by
    rw [← hl]
    by_contra hc
    rw [List.getElem?_eq_none (by omega)] at ha
    exact absurd ha (by simp)
  have hr : ix.roles[j]? = some ix.roles[j] := List.getElem?_eq_getElem hjl
  have hz : (ix.roles.zip as)[j]? = some (ix.roles[j], a) := by rw [List.getElem?_zip_eq_some]; exact ⟨hr, ha⟩
  have hc := (List.all_eq_true.mp hall) _ (List.mem_of_getElem? hz)
  dsimp only at hc
  unfold Role.check at hc
  rw [Bool.and_eq_true] at hc
  refine ⟨hk, rfl, a, ix.roles[j], (acct_ok hacc).1, hr, hc.1, ?_⟩
  intro m hm
  rw [hm] at hc
  have hc := hc.2
  dsimp only at hc
  cases hb : as[m]? with
  | none => rw [hb] at hc; exact absurd hc (by simp)
  | some b =>
    rw [hb] at hc
    dsimp only at hc
    have hlen : as.length = is.length := by
      have : ∀ (l : List Nat) (l' : List Fixed), l.mapM s.acct = .ok l' → l'.length = l.length := by
        intro l
        induction l with
        | nil => intro l' h; rw [List.mapM_nil, pure_ok] at h; subst h; rfl
        | cons x l ih =>
          intro l' h
          rw [List.mapM_cons] at h
          simp only [bind_ok, pure_ok] at h
          obtain ⟨y, _, l2, hl, rfl⟩ := h
          simp only [List.length_cons, ih l2 hl]
      exact this is as has
    have hml : m < is.length := by
      rw [← hlen]
      by_contra hn
      rw [List.getElem?_eq_none (by omega)] at hb
      exact absurd hb (by simp)
    obtain ⟨b', hb', hacc'⟩ := mapM_get has m is[m] (List.getElem?_eq_getElem hml)
    rw [hb, Option.some.injEq] at hb'
    subst hb'
    exact ⟨is[m], b, List.getElem?_eq_getElem hml, (acct_ok hacc').1, hc⟩

/-- **C71 (rights)**: an instruction that needs a right to an account succeeds only with the signature of the account's owner, of the delegate the owner named last, or of the temporary delegate
the owner named last, within the time the owner gave it, less than a week from the naming. Expanding the account is for the owner alone. -/
theorem C71_rights {s0 s s' : State} {h : List (Nat × Op)} {ix : Ix} {k : Key} {is : List Nat} {j i : Nat} (h0 : s0.accts = []) (r : Run s0 h s)
    (st : step s (.other ix k is) = .ok s') (hj : is[j]? = some i) (ho : (ix, j) ∉ open_) :
    IsOwner h i k ∨ (ix ∉ ownerOnly ∧ (IsDelegate h i k ∨ IsTemporary h i k s.now)) := by
  obtain ⟨hk, _, a, ro, ha, hro, hsig, _⟩ := other_ok st hj
  have told := (tells_run h0 r).told i a ha
  have hne := roles_open ix j ro hro ho
  cases hs : ro.signed with
  | anyone => exact absurd hs hne
  | owner =>
    rw [hs] at hsig
    unfold Signed.check at hsig
    dsimp only at hsig
    have : a.owner = k := by simpa using hsig
    left; rw [← this]; exact told.owner
  | ownerOrDelegate =>
    rw [hs] at hsig
    unfold Signed.check Fixed.isOwnerOrDelegate at hsig
    dsimp only at hsig
    by_cases hown : a.owner = k
    · left; rw [← hown]; exact told.owner
    · right
      refine ⟨fun hmem => ?_, ?_⟩
      · have := roles_owner ix j ro hro hmem
        rw [hs] at this
        exact absurd this (by decide)
      · have hd : a.isDelegate k s.now = true := by simpa [hown] using hsig
        unfold Fixed.isDelegate at hd
        by_cases h1 : a.delegate = k
        · left
          rcases told.delegate with hz | ⟨t, nm, tt, e, hl⟩
          · exact absurd (h1.symm.trans hz) hk
          · exact ⟨t, a.owner, nm, tt, e, told.owner, by rw [h1] at hl; exact hl⟩
        · rw [if_neg h1] at hd
          by_cases h2 : s.now > a.temporaryDelegateExpiry
          · rw [if_pos h2] at hd; exact absurd hd (by simp)
          · rw [if_neg h2] at hd
            have h3 : a.temporaryDelegate = k := by simpa using hd
            right
            rcases told.temporary with hz | ⟨t, nm, d, hl, hw⟩
            · exact absurd (h3.symm.trans hz) hk
            · exact ⟨t, a.owner, nm, d, a.temporaryDelegateExpiry, told.owner, by rw [h3] at hl; exact hl, by omega, hw⟩

/-- the signer of an instruction -/
def signer : Op → Key
  | .tick _ => 0
  | .setAdmin k _ | .create k | .edit k _ _ _ _ _ | .toggleFreeze k _ _ | .sequenceCheck k _ _ | .close k _ | .other _ k _ => k

/-- **C71 (rights are the owner's to give)**: no instruction changes the owner of an account, and an instruction that changes its delegates, its sequence number or closes it is signed by the owner;
freezing and unfreezing is signed by the group's admin, who is the first admin or the one named by the last admin. -/
theorem C71_owner_gives {s0 s s' : State} {h : List (Nat × Op)} {op : Op} {i : Nat} {a : Fixed} (h0 : s0.accts = []) (r : Run s0 h s) (st : step s op = .ok s') (ha : s.accts[i]? = some a) :
    ∃ a', s'.accts[i]? = some a' ∧ a'.owner = a.owner ∧
      ((a'.delegate ≠ a.delegate ∨ a'.temporaryDelegate ≠ a.temporaryDelegate ∨ a'.temporaryDelegateExpiry ≠ a.temporaryDelegateExpiry ∨ a'.sequence ≠ a.sequence ∨ a'.closed ≠ a.closed) →
        IsOwner h i (signer op)) ∧
      (a'.frozenUntil ≠ a.frozenUntil → (last namesAdmin h = none ∧ signer op = s0.admin) ∨ ∃ t k, last namesAdmin h = some (t, .setAdmin k (signer op))) := by
  have tells := tells_run h0 r
  have own := (tells.told i a ha).owner
  have hlt : i < s.accts.length := by
    by_contra hn
    rw [List.getElem?_eq_none (by omega)] at ha
    exact absurd ha (by simp)
  have same : ∀ s'' : State, s''.accts[i]? = some a → ∃ a', s''.accts[i]? = some a' ∧ a'.owner = a.owner ∧
      ((a'.delegate ≠ a.delegate ∨ a'.temporaryDelegate ≠ a.temporaryDelegate ∨ a'.temporaryDelegateExpiry ≠ a.temporaryDelegateExpiry ∨ a'.sequence ≠ a.sequence ∨ a'.closed ≠ a.closed) →
        IsOwner h i (signer op)) ∧
      (a'.frozenUntil ≠ a.frozenUntil → (last namesAdmin h = none ∧ signer op = s0.admin) ∨ ∃ t k, last namesAdmin h = some (t, .setAdmin k (signer op))) :=
    fun s'' h => ⟨a, h, rfl, fun hc => by rcases hc with hc | hc | hc | hc | hc <;> exact absurd rfl hc, fun hc => absurd rfl hc⟩
  -- an instruction on account `m`, signed by its owner, that keeps the owner and the freezing
  have byOwner : ∀ (m : Nat) (b b' : Fixed), s.accts[m]? = some b → b'.owner = b.owner → b'.frozenUntil = b.frozenUntil → b.owner = signer op → s' = { s with accts := s.accts.set m b' } →
      ∃ a', s'.accts[i]? = some a' ∧ a'.owner = a.owner ∧
      ((a'.delegate ≠ a.delegate ∨ a'.temporaryDelegate ≠ a.temporaryDelegate ∨ a'.temporaryDelegateExpiry ≠ a.temporaryDelegateExpiry ∨ a'.sequence ≠ a.sequence ∨ a'.closed ≠ a.closed) →
        IsOwner h i (signer op)) ∧
      (a'.frozenUntil ≠ a.frozenUntil → (last namesAdmin h = none ∧ signer op = s0.admin) ∨ ∃ t k, last namesAdmin h = some (t, .setAdmin k (signer op))) := by
    intro m b b' hb ho hf hs hs'
    by_cases hm : m = i
    · subst hm
      rw [ha, Option.some.injEq] at hb
      subst hb
      refine ⟨b', by rw [hs']; exact List.getElem?_set_self hlt, ho, fun _ => by rw [← hs]; exact own, fun hc => absurd hf hc⟩
    · exact same s' (by rw [hs']; dsimp only; rw [List.getElem?_set_ne hm]; exact ha)
  cases op with
  | tick d => unfold step at st; rw [ok_inj] at st; subst st; exact same _ ha
  | setAdmin k new =>
    unfold step at st
    simp only [bind_ok, require_ok, ok_inj] at st
    obtain ⟨_, _, _, _, rfl⟩ := st
    exact same _ ha
  | create k =>
    unfold step at st
    simp only [bind_ok, require_ok, ok_inj] at st
    obtain ⟨_, _, rfl⟩ := st
    exact same _ (by dsimp only; rw [List.getElem?_append_left hlt]; exact ha)
  | other ix k is =>
    unfold step at st
    simp only [bind_ok, require_ok, ok_inj] at st
    obtain ⟨_, _, _, _, _, _, rfl⟩ := st
    exact same _ ha
  | edit k m nm d t e =>
    unfold step at st
    simp only [bind_ok, require_ok, ok_inj] at st
    obtain ⟨b, hb, _, ⟨_, hk⟩, _, _, b', hed, hs'⟩ := st
    have : b'.owner = b.owner ∧ b'.frozenUntil = b.frozenUntil := by
      unfold editFixed at hed
      simp only [bind_ok, require_ok] at hed
      obtain ⟨_, _, hed⟩ := hed
      cases t with
      | none => cases e with
        | some e => exact absurd hed (by simp)
        | none => dsimp only at hed; rw [ok_inj] at hed; rw [← hed]; cases d <;> exact ⟨rfl, rfl⟩
      | some t => cases e with
        | none => exact absurd hed (by simp)
        | some e =>
          simp only [bind_ok, require_ok, ok_inj] at hed
          obtain ⟨_, _, _, _, hed⟩ := hed
          rw [← hed]; cases d <;> exact ⟨rfl, rfl⟩
    exact byOwner m b b' (acct_ok hb).1 this.1 this.2 hk hs'.symm
  | toggleFreeze k m f =>
    unfold step at st
    simp only [bind_ok, require_ok, ok_inj] at st
    obtain ⟨b, hb, _, ⟨_, hk⟩, b', hed, hs'⟩ := st
    have hf : b' = { b with frozenUntil := b'.frozenUntil } := by
      unfold freezeFixed at hed
      cases f with
      | true => simp only [if_true, bind_ok, require_ok, ok_inj] at hed; obtain ⟨_, _, rfl⟩ := hed; rfl
      | false => simp only [Bool.false_eq_true, if_false, ok_inj] at hed; subst hed; rfl
    by_cases hm : m = i
    · subst hm
      have hb' := (acct_ok hb).1
      rw [ha, Option.some.injEq] at hb'
      subst hb'
      refine ⟨b', by rw [← hs']; exact List.getElem?_set_self hlt, by rw [hf], fun hc => ?_, fun _ => ?_⟩
      · rw [hf] at hc
        rcases hc with hc | hc | hc | hc | hc <;> exact absurd rfl hc
      · have : signer (.toggleFreeze k m f) = s.admin := hk.symm
        rw [this]
        exact tells.admin
    · exact same s' (by rw [← hs']; dsimp only; rw [List.getElem?_set_ne hm]; exact ha)
  | sequenceCheck k m n =>
    unfold step at st
    simp only [bind_ok, require_ok, ok_inj] at st
    obtain ⟨b, hb, _, ⟨_, hk⟩, _, _, b', hed, hs'⟩ := st
    unfold sequenceFixed at hed
    simp only [bind_ok, require_ok, ok_inj] at hed
    obtain ⟨_, _, hb'⟩ := hed
    exact byOwner m b b' (acct_ok hb).1 (by rw [← hb']) (by rw [← hb']) hk hs'.symm
  | close k m =>
    unfold step at st
    simp only [bind_ok, require_ok, ok_inj] at st
    obtain ⟨b, hb, _, ⟨_, hk⟩, _, _, hs'⟩ := st
    exact byOwner m b { b with closed := true } (acct_ok hb).1 rfl rfl hk hs'.symm

/-- the instruction acts on account `i`; freezing and unfreezing and the instructions possible on a frozen account are left out -/
def ActsOn (op : Op) (i : Nat) : Prop :=
  match op with
  | .edit _ m _ _ _ _ => m = i
  | .sequenceCheck _ m _ => m = i
  | .close _ m => m = i
  | .other ix _ is => ∃ j : Nat, is[j]? = some i ∧ (ix, j) ∉ thawed
  | _ => False

theorem operational_iff {s0 s : State} {h : List (Nat × Op)} {i : Nat} {a : Fixed} (h0 : s0.accts = []) (r : Run s0 h s) (ha : s.accts[i]? = some a) (hn : 0 < s.now) :
    a.isOperational s.now = true ↔ ¬ IsFrozen h i s.now := by
  have told := (tells_run h0 r).told i a ha
  unfold Fixed.isOperational
  rw [decide_eq_true_eq]
  rcases told.frozen with ⟨hl, hz⟩ | ⟨t, k, f, hl, hf⟩
  · constructor
    · rintro _ ⟨t, k, hl', _⟩; rw [hl] at hl'; exact absurd hl' (by simp)
    · intro _; omega
  · cases f with
    | true =>
      simp only [if_true] at hf
      constructor
      · rintro hlt ⟨t', k', hl', hle⟩
        rw [hl] at hl'
        simp only [Option.some.injEq, Prod.mk.injEq] at hl'
        obtain ⟨rfl, _⟩ := hl'
        omega
      · intro hnf
        by_contra hge
        exact hnf ⟨t, k, hl, by omega⟩
    | false =>
      simp only [Bool.false_eq_true, if_false] at hf
      constructor
      · rintro _ ⟨t', k', hl', _⟩
        rw [hl] at hl'
        simp at hl'
      · intro _; omega

/-- **C71 (freezing)**: on an account that the admin froze at most a week ago and has not unfrozen, no instruction that acts on it succeeds, save the listed ones -/
theorem C71_freeze {s0 s s' : State} {h : List (Nat × Op)} {op : Op} {i : Nat} (h0 : s0.accts = []) (hn : 0 < s.now) (r : Run s0 h s) (hf : IsFrozen h i s.now) (hop : ActsOn op i) :
    step s op ≠ .ok s' := by
  intro st
  have hfr : ∀ a, s.accts[i]? = some a → a.isOperational s.now = true → False := fun a ha hop => (operational_iff h0 r ha hn).mp hop hf
  cases op with
  | tick d => exact hop
  | setAdmin k new => exact hop
  | create k => exact hop
  | toggleFreeze k m f => exact hop
  | edit k m nm d t e =>
    unfold ActsOn at hop; dsimp only at hop; subst hop
    unfold step at st
    simp only [bind_ok, require_ok] at st
    obtain ⟨b, hb, _, _, _, hopn, _⟩ := st
    exact hfr b (acct_ok hb).1 hopn
  | sequenceCheck k m n =>
    unfold ActsOn at hop; dsimp only at hop; subst hop
    unfold step at st
    simp only [bind_ok, require_ok] at st
    obtain ⟨b, hb, _, _, _, hopn, _⟩ := st
    exact hfr b (acct_ok hb).1 hopn
  | close k m =>
    unfold ActsOn at hop; dsimp only at hop; subst hop
    unfold step at st
    simp only [bind_ok, require_ok] at st
    obtain ⟨b, hb, _, _, _, hopn, _⟩ := st
    exact hfr b (acct_ok hb).1 hopn
  | other ix k is =>
    obtain ⟨j, hj, hth⟩ := hop
    obtain ⟨_, _, a, ro, ha, hro, _, hfz⟩ := other_ok st hj
    obtain ⟨i', b, hi', hb, hbo⟩ := hfz j (roles_frozen ix j ro hro hth)
    rw [hj, Option.some.injEq] at hi'
    subst hi'
    exact hfr b hb hbo

/-- **C71 (thawing)**: an account that is not frozen can be used again: its owner can change its delegates (naming a temporary one for less than a week), whatever was done before -/
theorem C71_owner_can_edit {s0 s : State} {h : List (Nat × Op)} {i : Nat} {a : Fixed} {o d t : Key} {e : Nat} (h0 : s0.accts = []) (hn : 0 < s.now) (r : Run s0 h s) (ha : s.accts[i]? = some a)
    (hc : a.closed = false) (hf : ¬ IsFrozen h i s.now) (ho : IsOwner h i o) (h1 : o ≠ 0) (hw : e < s.now + WEEK) (hmax : s.now + WEEK ≤ U64MAX) :
    ∃ s', step s (.edit o i false (some d) (some t) (some e)) = .ok s' ∧ IsDelegate (h ++ [(s.now, .edit o i false (some d) (some t) (some e))]) i d := by
  have told := (tells_run h0 r).told i a ha
  have heq : a.owner = o := by
    have := told.owner
    unfold IsOwner at this ho
    rw [ho] at this
    simpa using this.symm
  have hacc : s.acct i = .ok a := by
    unfold State.acct
    rw [ha]
    simp [hc]
  have hop := (operational_iff h0 r ha hn).mpr hf
  refine ⟨{ s with accts := s.accts.set i { a with delegate := d, temporaryDelegate := t, temporaryDelegateExpiry := e } }, ?_, ?_⟩
  · unfold step
    simp only [bind_ok, require_ok, ok_inj]
    refine ⟨a, hacc, (), ⟨h1, heq⟩, (), hop, { a with delegate := d, temporaryDelegate := t, temporaryDelegateExpiry := e }, ?_, rfl⟩
    unfold editFixed
    simp only [bind_ok, require_ok, ok_inj]
    exact ⟨(), by simp, (), hmax, (), by omega, trivial⟩
  · refine ⟨s.now, o, false, some t, some e, ?_, ?_⟩
    · unfold IsOwner at ho ⊢
      rw [creator_snoc]
      have hl : (h.filterMap createdBy)[i]? = some o := ho
      rw [List.getElem?_append_left]
      · exact hl
      · by_contra hc
        rw [List.getElem?_eq_none (by omega)] at hl
        exact absurd hl (by simp)
    · rw [last_snoc]; simp [namesDelegate]

/-- **C71 (sequence numbers)**: the sequence number counts the successful checks modulo 256, so a check with some number succeeds twice only with at least 255 successful checks in between:
of several transactions that begin by checking the same number, one goes through. -/
theorem C71_sequence {s0 s : State} {h mid : List (Nat × Op)} {i n t1 t2 : Nat} {k1 k2 : Key} (h0 : s0.accts = [])
    (r : Run s0 (h ++ [(t1, .sequenceCheck k1 i n)] ++ mid ++ [(t2, .sequenceCheck k2 i n)]) s) :
    255 ≤ mid.countP (fun x => checks i x.2) ∧ n = (h.countP (fun x => checks i x.2)) % 256 := by
  -- the number checked at a successful check
  have key : ∀ {g : List (Nat × Op)} {s : State} {t k}, Run s0 (g ++ [(t, .sequenceCheck k i n)]) s → n = (g.countP (fun x => checks i x.2)) % 256 := by
    intro g s t k r
    generalize hg : g ++ [(t, Op.sequenceCheck k i n)] = g' at r
    cases r with
    | start => simp at hg
    | next r st =>
      obtain ⟨rfl, hx⟩ := List.append_inj' hg rfl
      simp only [List.cons.injEq, and_true, Prod.mk.injEq] at hx
      obtain ⟨_, hx⟩ := hx
      rw [← hx] at st
      unfold step at st
      simp only [bind_ok, require_ok] at st
      obtain ⟨b, hb, _, _, _, _, b', hed, _⟩ := st
      unfold sequenceFixed at hed
      simp only [bind_ok, require_ok] at hed
      obtain ⟨_, hn, _⟩ := hed
      rw [hn]
      exact ((tells_run h0 r).told i b (acct_ok hb).1).sequence
  have prefix_ : ∀ {g g' : List (Nat × Op)} {s : State}, Run s0 (g ++ g') s → ∃ s1, Run s0 g s1 := by
    intro g g'
    induction g' using List.reverseRecOn with
    | nil => intro s r; rw [List.append_nil] at r; exact ⟨s, r⟩
    | append_singleton g' x ih =>
      intro s r
      rw [← List.append_assoc] at r
      generalize hg : (g ++ g') ++ [x] = g2 at r
      cases r with
      | start => simp at hg
      | next r st =>
        obtain ⟨rfl, _⟩ := List.append_inj' hg rfl
        exact ih r
  have e2 := key r
  obtain ⟨s1, r1⟩ := prefix_ (g := h ++ [(t1, .sequenceCheck k1 i n)]) (g' := mid ++ [(t2, .sequenceCheck k2 i n)]) (by rw [← List.append_assoc]; exact r)
  have e1 := key r1
  rw [List.countP_append, List.countP_append, List.countP_singleton] at e2
  have : checks i (Op.sequenceCheck k1 i n) = true := by simp [checks]
  dsimp only at e2
  rw [this, if_pos rfl] at e2
  exact ⟨by omega, e1⟩

/-- **C71 (the admin's office is the admin's to give)**: only `group_edit` signed by the admin (the first one, or the one named by the last `group_edit`) changes the admin, and the new one is never the default key. -/
theorem C71_admin {s0 s s' : State} {h : List (Nat × Op)} {op : Op} (h0 : s0.accts = []) (r : Run s0 h s) (st : step s op = .ok s') (hc : s'.admin ≠ s.admin) :
    (∃ k, op = .setAdmin k s'.admin) ∧ s'.admin ≠ 0 ∧ ((last namesAdmin h = none ∧ signer op = s0.admin) ∨ ∃ t k, last namesAdmin h = some (t, .setAdmin k (signer op))) := by
  have tells := (tells_run h0 r).admin
  cases op with
  | setAdmin k new =>
    simp only [step, bind_ok, require_ok, ok_inj] at st
    obtain ⟨_, ⟨_, h1⟩, _, h2, rfl⟩ := st
    refine ⟨⟨k, rfl⟩, h2, ?_⟩
    show (last namesAdmin h = none ∧ k = s0.admin) ∨ ∃ t k', last namesAdmin h = some (t, .setAdmin k' k)
    rw [← h1]
    exact tells
  | tick d => simp only [step, ok_inj] at st; subst st; exact absurd rfl hc
  | create k => simp only [step, bind_ok, require_ok, ok_inj] at st; obtain ⟨_, _, rfl⟩ := st; exact absurd rfl hc
  | edit k m nm d t e => simp only [step, bind_ok, require_ok, ok_inj] at st; obtain ⟨_, _, _, _, _, _, _, _, rfl⟩ := st; exact absurd rfl hc
  | toggleFreeze k m f => simp only [step, bind_ok, require_ok, ok_inj] at st; obtain ⟨_, _, _, _, _, _, rfl⟩ := st; exact absurd rfl hc
  | sequenceCheck k m n => simp only [step, bind_ok, require_ok, ok_inj] at st; obtain ⟨_, _, _, _, _, _, _, _, rfl⟩ := st; exact absurd rfl hc
  | close k m => simp only [step, bind_ok, require_ok, ok_inj] at st; obtain ⟨_, _, _, _, _, _, rfl⟩ := st; exact absurd rfl hc
  | other ix k is => simp only [step, bind_ok, require_ok, ok_inj] at st; obtain ⟨_, _, _, _, _, _, rfl⟩ := st; exact absurd rfl hc

end Auth
end Mango
