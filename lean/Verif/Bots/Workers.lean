import Verif.Basic
/-!
# The liquidator's workers

Models bin/liquidator/src/tx_sender.rs (workers), the parts of liquidation_state.rs:203-232 and tcs_state.rs:46-63 that hand candidates to them, and the two jobs' use of
`oldest_chain_event_reception_time` (liquidation_state.rs:183-234, main.rs:352-380). What a worker does with a candidate (a transaction) and which candidates a scan finds is left open: any candidate can
be found at any time. Every section under the lock of the shared state is one step; between them the tasks interleave in any order. The channels are unbounded (main.rs:275-276) and carry no data, so
they are counters.
-/
namespace Mango
namespace Workers

/-- a tuple in the code (main.rs:610): account, id of the conditional swap, volume -/
structure Tcs where
  account : Nat
  id : Nat
  volume : Nat
  deriving DecidableEq, Repr

/-- tx_sender.rs:11-25 `WorkerTask` -/
inductive Task
  | liquidation (account : Nat)
  | tcs (l : List Tcs)
  | giveUpTcs
  | noWork
  deriving DecidableEq, Repr

/-- where a worker is in its loop (tx_sender.rs:87-122): waiting for a signal (93-100), woken (by a signal for liquidations or not), executing -/
inductive Phase
  | waiting
  | woken (byLiq : Bool)
  | executing (t : Task)
  deriving DecidableEq, Repr

structure State where
  /-- cli: liquidation enabled (main.rs:450, 476) -/
  enabled : Bool
  /-- main.rs:607-616: index sets in the order of insertion, hash sets -/
  candidates : List Nat
  processing : List Nat
  interesting : List Tcs
  processingTcs : List Tcs
  /-- signals in the two channels -/
  liqSignals : Nat
  tcsSignals : Nat
  /-- candidates inserted whose signal is not sent yet: the lock is given back before `try_send` -/
  liqUnsent : Nat
  tcsUnsent : Nat
  workers : List Phase
  deriving DecidableEq, Repr

/-- tx_sender.rs:44, 68: worker 0 is kept for liquidations if there are others -/
def State.onlyLiq (s : State) (i : Nat) : Bool := decide (1 < s.workers.length) && s.enabled && decide (i = 0)

/-- tx_sender.rs:143-211 `worker_pull_task` -/
def pullTask (s : State) (only : Bool) : Res (State × Task) :=
  match s.candidates.find? (fun x => decide (x ∉ s.processing)) with
  | some a => .ok ({ s with processing := a :: s.processing }, .liquidation a)
  | none =>
    -- 170: usize subtraction
    if s.processingTcs.length ≤ s.interesting.length then
      if only then .ok (s, .giveUpTcs)
      else
        let l := (s.interesting.filter (fun x => decide (x ∉ s.processingTcs))).take 20
        let s := { s with processingTcs := l ++ s.processingTcs }
        if 0 < l.length then .ok (s, .tcs l) else .ok (s, .noWork)
    else .error .panic

/-- tx_sender.rs:213-241 `worker_finalize_task`; for `GiveUpTcs` also the signal sent before it (124-127) -/
def finalize (s : State) : Task → State
  | .liquidation a => { s with candidates := s.candidates.filter (fun x => decide (x ≠ a)), processing := s.processing.filter (fun x => decide (x ≠ a)) }
  | .tcs l => { s with interesting := s.interesting.filter (fun x => decide (x ∉ l)), processingTcs := s.processingTcs.filter (fun x => decide (x ∉ l)) }
  | .giveUpTcs => { s with tcsSignals := s.tcsSignals + 1 }
  | .noWork => s

inductive Op
  /-- a scan finds a candidate (liquidation_state.rs:207-214; tcs_state.rs:46-53) -/
  | findLiq (a : Nat)
  | findTcs (x : Tcs)
  /-- and sends its signal -/
  | sendLiq
  | sendTcs
  /-- worker `i` receives a signal -/
  | wake (i : Nat) (liq : Bool)
  | pull (i : Nat)
  | finish (i : Nat)
  deriving DecidableEq, Repr

def step (s : State) : Op → Res State
  | .findLiq a => do
    require (s.enabled = true) .someError
    if a ∈ s.candidates then .ok s else .ok { s with candidates := s.candidates ++ [a], liqUnsent := s.liqUnsent + 1 }
  | .findTcs x => if x ∈ s.interesting then .ok s else .ok { s with interesting := s.interesting ++ [x], tcsUnsent := s.tcsUnsent + 1 }
  | .sendLiq => do
    require (0 < s.liqUnsent) .someError
    .ok { s with liqUnsent := s.liqUnsent - 1, liqSignals := s.liqSignals + 1 }
  | .sendTcs => do
    require (0 < s.tcsUnsent) .someError
    .ok { s with tcsUnsent := s.tcsUnsent - 1, tcsSignals := s.tcsSignals + 1 }
  | .wake i liq => do
    require (s.workers[i]? = some .waiting) .someError
    if liq then do
      require (0 < s.liqSignals) .someError
      .ok { s with liqSignals := s.liqSignals - 1, workers := s.workers.set i (.woken true) }
    else do
      require (s.onlyLiq i = false) .someError
      require (0 < s.tcsSignals) .someError
      .ok { s with tcsSignals := s.tcsSignals - 1, workers := s.workers.set i (.woken false) }
  | .pull i =>
    match s.workers[i]? with
    | some (.woken _) => do
      let (s', t) ← pullTask s (s.onlyLiq i)
      .ok { s' with workers := s'.workers.set i (.executing t) }
    | _ => .error .someError
  | .finish i =>
    match s.workers[i]? with
    | some (.executing t) =>
      let s' := finalize s t
      .ok { s' with workers := s'.workers.set i .waiting }
    | _ => .error .someError

/-- tx_sender.rs:27-75 with `n` workers; 38-41: at least one -/
def State.new (n : Nat) (enabled : Bool) : State :=
  { enabled := enabled, candidates := [], processing := [], interesting := [], processingTcs := [], liqSignals := 0, tcsSignals := 0, liqUnsent := 0, tcsUnsent := 0,
    workers := List.replicate n .waiting }

def run (s : State) : List Op → Res State
  | [] => .ok s
  | op :: ops => do
    let s ← step s op
    run s ops

inductive Reachable : State → Prop
  | new {n : Nat} {enabled : Bool} (h : 1 ≤ n) : Reachable (State.new n enabled)
  | step {s s' : State} {op : Op} : Reachable s → Workers.step s op = .ok s' → Reachable s'

/-! ### when scans happen -/

/-- what the liquidation job and the job receiving account updates share -/
structure Scan where
  /-- `oldest_chain_event_reception_time` is set -/
  event : Bool
  /-- `mango_accounts` -/
  accounts : List Nat
  /-- accounts of the running scan still to be checked -/
  todo : Option (List Nat)
  deriving DecidableEq, Repr

inductive SOp
  /-- main.rs:352-380: an account changed (it may be new) -/
  | update (a : Nat)
  /-- liquidation_state.rs:183-204: a scan starts if there was an event -/
  | start
  /-- 45-61: the scan checks an account -/
  | check (a : Nat)
  /-- 226-234: the scan ends -/
  | done
  deriving DecidableEq, Repr

def sstep (s : Scan) : SOp → Res Scan
  | .update a => .ok { s with event := true, accounts := if a ∈ s.accounts then s.accounts else a :: s.accounts }
  | .start => do
    require (s.todo = none) .someError
    require (s.event = true) .someError
    .ok { s with todo := some s.accounts }
  | .check a =>
    match s.todo with
    | some l => do
      require (a ∈ l) .someError
      .ok { s with todo := some (l.filter (fun x => decide (x ≠ a))) }
    | none => .error .someError
  | .done => do
    require (s.todo = some []) .someError
    .ok { s with todo := none, event := false }

def srun (s : Scan) : List SOp → Res Scan
  | [] => .ok s
  | op :: ops => do
    let s ← sstep s op
    srun s ops

def Scan.new : Scan := ⟨false, [], none⟩

end Workers
end Mango
