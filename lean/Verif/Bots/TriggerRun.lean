import Verif.Client.Accounts
/-!
# How the liquidator runs through the conditional swaps it has found

Models `execute_tcs` of bin/liquidator/src/trigger_tcs.rs (987-1142) with `prepare_job` (1145-1181): the loop that starts preparations in parallel within a budget, as a transition system whose choices (which swap the weighted random
selection picks, whether an account is skipped because of errors, which preparation finishes first and how) are arbitrary; then the selection of the executions for which the liquidator's account has token positions.
A preparation's result is what C90 describes. Swaps are identified by their position in the list. Not modelled: sending the transactions, error counting (see C88).
-/
namespace Mango
namespace TriggerRun

/-- an element of the list `tcs`: owner, id of the swap, volume (u64::MAX: done) -/
structure Item where
  owner : Nat
  id : Nat
  volume : Int
  deriving DecidableEq, Repr

/-- a running preparation: the swap's position in the list and `pending_volume` of its `PreparationResult` -/
structure Job where
  item : Nat
  volume : Int
  deriving DecidableEq, Repr

/-- `PreparedExecution` -/
structure Prep where
  item : Nat
  volume : Int
  tokens : List Nat
  deriving DecidableEq, Repr

/-- the variables of the loop; `tried` is history: the swaps picked so far, newest first -/
structure St where
  items : List Item
  pending : List Job := []
  pendingVol : Int := 0
  prepared : List Prep := []
  preparedVol : Int := 0
  noNewJob : Bool := false
  tried : List Nat := []
  deriving DecidableEq, Repr

/-- 1010 `max_prepared` -/
def MAXPREP : Nat := 32

/-- 1062-1073: the weight with which a swap is picked -/
def weight (maxVol avail : Int) (i : Item) : Int :=
  if i.volume = U64MAX then 0
  else if max (min i.volume maxVol) 1 ≤ avail then max (min i.volume maxVol) 1
  else 0

/-- what an iteration of the loop does -/
inductive Turn where
  | finish
  | await
  | stall
  | start (avail : Int)
  deriving DecidableEq, Repr

/-- 1025-1034, 1059-1080: u64 additions and subtractions can overflow; an empty list panics (the other error of `WeightedIndex`) -/
def turn (maxVol : Int) (s : St) : Res Turn :=
  if ¬ (s.prepared.length < MAXPREP ∧ s.preparedVol < maxVol) then .ok .finish
  else do
    let sum ← cku64 (s.preparedVol + s.pendingVol)
    if s.prepared.length + s.pending.length ≥ MAXPREP ∨ sum ≥ maxVol ∨ s.noNewJob = true then
      .ok (if s.pending = [] then .finish else .await)
    else do
      let a ← cku64 (maxVol - s.pendingVol)
      let avail ← cku64 (a - s.preparedVol)
      if s.items = [] then .error .panic
      else if s.items.all (fun i => weight maxVol avail i = 0) then .ok .stall
      else .ok (.start avail)

/-- 1037-1057: the preparation at `j` of `pending` finished with a result (`none`: nothing to execute, or an error) -/
def complete (s : St) (j : Nat) (r : Option Prep) : Res St :=
  match s.pending[j]? with
  | none => .error .panic
  | some job => do
    let pv ← cku64 (s.pendingVol - job.volume)
    match r with
    | none => .ok { s with pending := s.pending.eraseIdx j, pendingVol := pv, noNewJob := false }
    | some p => do
      let v ← cku64 (s.preparedVol + p.volume)
      .ok { s with pending := s.pending.eraseIdx j, pendingVol := pv, preparedVol := v, prepared := s.prepared ++ [p], noNewJob := false }

/-- 1082-1095: the swap at `i` is marked, and its preparation is started unless the account had too many errors (`run = false`) -/
def start (s : St) (i : Nat) (run : Bool) : Res St :=
  match s.items[i]? with
  | none => .error .panic
  | some it =>
    let s' := { s with items := s.items.set i { it with volume := U64MAX }, tried := i :: s.tried }
    if run = true then do
      let pv ← cku64 (s.pendingVol + it.volume)
      .ok { s' with pendingVol := pv, pending := s.pending ++ [⟨i, it.volume⟩] }
    else .ok s'

/-- one iteration. A preparation yields an execution of its own swap with a volume of at most the configured amount (C90_size). -/
inductive Step (maxVol : Int) : St → St → Prop
  | await {s s' : St} {j : Nat} {job : Job} {r : Option Prep} : turn maxVol s = .ok .await → s.pending[j]? = some job →
      (∀ p, r = some p → p.item = job.item ∧ 0 ≤ p.volume ∧ p.volume ≤ maxVol) → complete s j r = .ok s' → Step maxVol s s'
  | stall {s : St} : turn maxVol s = .ok .stall → Step maxVol s { s with noNewJob := true }
  | start {s s' : St} {i : Nat} {it : Item} {avail : Int} {run : Bool} : turn maxVol s = .ok (.start avail) → s.items[i]? = some it → weight maxVol avail it ≠ 0 →
      start s i run = .ok s' → Step maxVol s s'

/-- 1005-1014: the initial state -/
def init (items : List Item) : St := { items := items }

/-- `n` iterations -/
inductive Steps (maxVol : Int) : Nat → St → St → Prop
  | zero {s : St} : Steps maxVol 0 s s
  | succ {n : Nat} {s t u : St} : Steps maxVol n s t → Step maxVol t u → Steps maxVol (n + 1) s u

/-! ## Executions -/

/-- 1103-1110: tokens for which a position can be had in addition to those before -/
def allowedFrom (ts : List Slots.TokenSlot) : List Nat → List Slots.TokenSlot × List Nat
  | [] => (ts, [])
  | t :: l =>
    match Slots.ensureToken ts t with
    | .ok (ts', _, _) => ((allowedFrom ts' l).1, t :: (allowedFrom ts' l).2)
    | .error _ => allowedFrom ts l

/-- 1103-1110 `allowed_tokens` -/
def allowedTokens (liqor : Slots.Acc) (prepared : List Prep) : List Nat := (allowedFrom liqor.tokens (ClientAccounts.unique (prepared.flatMap (·.tokens)))).2

/-- 1112-1119: the executions that are sent -/
def executed (liqor : Slots.Acc) (prepared : List Prep) : List Prep :=
  prepared.filter (fun p => p.tokens.all (fun t => decide (t ∈ allowedTokens liqor prepared)))

end TriggerRun
end Mango
