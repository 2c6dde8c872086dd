import Verif.Basic
import Mathlib.Data.List.Sort
/-!
# The caching account fetcher of the client library

Models `CachedAccountFetcher` (lib/client/src/account_fetcher.rs:129-345): a cache shared by concurrent callers, with one request per key at a time. Every section under the mutex is one step; the
underlying fetcher answers at any later time, or fails. The data of an account is represented by the address and the time it was read at; a request reads at some time between its start and its answer.
The hash of the list of missing keys (line 311-315) is taken as injective: the job is registered under the list.
-/
namespace Mango
namespace Fetcher

/-- data of account `addr`, read at `time` -/
structure Data where
  addr : Nat
  time : Nat
  deriving DecidableEq, Repr

/-- the three kinds of requests and their keys (151-158) -/
inductive Kind
  | one (a : Nat)
  | many (keys : List Nat)
  | program (p : Nat)
  deriving DecidableEq, Repr

/-- the answer of the underlying fetcher: accounts by address, or an error -/
inductive Answer
  | ok (l : List (Nat × Data))
  | failed
  deriving DecidableEq, Repr

structure Job where
  kind : Kind
  start : Nat
  answer : Option Answer
  deriving DecidableEq, Repr

structure State where
  time : Nat
  /-- 147-158 `AccountCache` -/
  accounts : Nat → Option Data
  keys : Nat → Option (List Nat)
  /-- the job lists: which job is registered for a kind and key -/
  registered : Kind → Option Nat
  /-- all jobs started so far; the number of a job is its place -/
  jobs : List Job

/-- what a call returns at once or waits for -/
inductive Reply
  | ready (l : List (Nat × Data))
  | wait (job : Nat)
  deriving DecidableEq, Repr

/-- 127-145 `run_coalesced`: the registered job, or a new one -/
def coalesce (s : State) (k : Kind) : State × Reply :=
  match s.registered k with
  | some j => (s, .wait j)
  | none => ({ s with registered := fun x => if x = k then some s.jobs.length else s.registered x, jobs := s.jobs ++ [⟨k, s.time, none⟩] }, .wait s.jobs.length)

/-- 199-231 `fetch_raw_account` -/
def fetchOne (s : State) (a : Nat) : State × Reply :=
  match s.accounts a with
  | some d => (s, .ready [(a, d)])
  | none => coalesce s (.one a)

/-- 233-285 `fetch_program_accounts`; 241-244: `unwrap` -/
def fetchProgram (s : State) (p : Nat) : Res (State × Reply) :=
  match s.keys p with
  | some l =>
    if l.all (fun a => (s.accounts a).isSome) then .ok (s, .ready (l.filterMap (fun a => (s.accounts a).map (fun d => (a, d)))))
    else .error .panic
  | none => .ok (coalesce s (.program p))

/-- 287-339 `fetch_multiple_accounts` -/
def fetchMany (s : State) (ks : List Nat) : State × Reply :=
  let missing := ks.filter (fun k => (s.accounts k).isNone)
  if missing.length = 0 then (s, .ready (ks.filterMap (fun a => (s.accounts a).map (fun d => (a, d)))))
  else coalesce s (.many (missing.insertionSort (· ≤ ·)))

def insertAll (c : Nat → Option Data) : List (Nat × Data) → Nat → Option Data
  | [], x => c x
  | (a, d) :: l, x => insertAll (fun y => if y = a then some d else c y) l x

/-- what the underlying fetcher may answer: data of the accounts asked for, read since the job started -/
def Fits (k : Kind) (start now : Nat) : Answer → Prop
  | .failed => True
  | .ok l => (∀ x ∈ l, x.2.addr = x.1 ∧ start ≤ x.2.time ∧ x.2.time ≤ now) ∧
      match k with
      | .one a => ∃ d, l = [(a, d)]
      | .many ks => ∀ x ∈ l, x.1 ∈ ks
      | .program _ => True

/-- 211-222, 252-271, 318-331: the job gets its answer, is removed from the list of jobs and stores what it got -/
def complete (s : State) (j : Nat) (ans : Answer) : Res State :=
  match s.jobs[j]? with
  | some ⟨k, st, none⟩ =>
    let s := { s with jobs := s.jobs.set j ⟨k, st, some ans⟩, registered := fun x => if x = k then none else s.registered x }
    match ans with
    | .failed => .ok s
    | .ok l =>
      .ok { s with accounts := insertAll s.accounts l,
                   keys := match k with
                     | .program p => fun x => if x = p then some (l.map Prod.fst) else s.keys x
                     | _ => s.keys }
  | _ => .error .someError

/-- 160-165 `clear`: the jobs stay -/
def clear (s : State) : State := { s with accounts := fun _ => none, keys := fun _ => none }

inductive Op
  | one (a : Nat)
  | many (ks : List Nat)
  | program (p : Nat)
  | complete (j : Nat) (ans : Answer)
  | clear
  /-- time passes -/
  | tick
  deriving Repr

inductive Step : State → Op → State → Prop
  | one {s a} : Step s (.one a) (fetchOne s a).1
  | many {s ks} : Step s (.many ks) (fetchMany s ks).1
  | program {s p s' r} : fetchProgram s p = .ok (s', r) → Step s (.program p) s'
  | complete {s s' j ans k st} : s.jobs[j]? = some ⟨k, st, none⟩ → Fits k st s.time ans → complete s j ans = .ok s' → Step s (.complete j ans) s'
  | clear {s} : Step s .clear (clear s)
  | tick {s} : Step s .tick { s with time := s.time + 1 }

def State.new : State := ⟨0, fun _ => none, fun _ => none, fun _ => none, []⟩

inductive Runs : State → List Op → State → Prop
  | nil {s} : Runs s [] s
  | cons {s s1 s' op ops} : Step s op s1 → Runs s1 ops s' → Runs s (op :: ops) s'

def Reachable (s : State) : Prop := ∃ ops, Runs .new ops s

end Fetcher
end Mango
