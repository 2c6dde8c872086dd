import Verif.Basic
import Mathlib.Data.Rat.Defs
import Mathlib.Algebra.Order.Ring.Rat
import Mathlib.Algebra.Order.Group.Unbundled.Abs
/-!
# The health monitoring service

Models what bin/service-mango-health/src/processors/persister.rs stores of the healths computed by health.rs. Times are integers, f64 numbers rational ones with the rounding `rnd` of f64 (ratios are finite). The database is a list of rows; the view
`health_current` (sql_scripts/setup.sql) has the latest row of each account. Not modelled: the deletion of old rows (`history_time_to_live_secs`), connecting again, the limit on retries (an event whose persisting failed is an `Outcome`).
-/
namespace Mango
namespace Persist

/-- health.rs:39-45 -/
structure Value where
  ratio : ℚ
  initial : ℚ
  maint : ℚ
  liqEnd : ℚ
  being : Bool
  deriving DecidableEq

/-- persister.rs:379-396, `PersistedData`, which has all values or none (127-149) -/
structure Point where
  time : Int
  value : Option Value
  deriving DecidableEq

/-- a `HashMap` -/
abbrev Map := List (Nat × Point)

def Map.get (m : Map) (k : Nat) : Option Point := (m.find? (fun x => x.1 == k)).map (·.2)
def Map.put (m : Map) (x : Nat × Point) : Map := x :: m.filter (fun y => y.1 != x.1)
/-- inserting all -/
def Map.puts (m : Map) (us : List (Nat × Point)) : Map := us.foldl Map.put m

/-- 368: `big_move` -/
def bigMove (rnd : ℚ → ℚ) (prev curr : ℚ) : Bool := prev ≠ 0 ∧ rnd (|rnd (prev - curr)| / prev) > rnd (1 / 10)

/-- 347-376: `should_insert` -/
def shouldInsert (rnd : ℚ → ℚ) (previous : Map) (k : Nat) (p : Point) (period : Int) : Bool :=
  match previous.get k with
  | none => true
  | some q =>
    if p.time - q.time ≥ period ∨ q.value.isSome ≠ p.value.isSome then true
    else match q.value, p.value with
      | some prev, some curr =>
        ((prev.ratio ≤ 0 ∧ curr.ratio > 0) ∨ (prev.ratio > 0 ∧ curr.ratio ≤ 0) : Bool) || curr.being != prev.being || bigMove rnd prev.ratio curr.ratio
      | _, _ => false

/-- 398-401: `PersisterSnapshot` -/
structure Snapshot where
  bucket : Int
  value : Map

/-- health.rs:28-31: an event, with each account once (they come from a set) -/
structure Event where
  time : Int
  components : List (Nat × Option Value)

/-- chrono's `duration_round` of a time; `minTime` if the duration is not positive (158-161) -/
def minTime : Int := -8334632851200000000000
def round (period t : Int) : Int :=
  if period ≤ 0 then minTime
  else
    let down := t % period
    if down = 0 then t else if period - down ≤ down then t + (period - down) else t - down

/-- 189-198: the values are put into the first snapshot of this bucket -/
def amend (bucket : Int) (us : List (Nat × Point)) : List Snapshot → List Snapshot
  | [] => []
  | s :: q => if s.bucket = bucket then ⟨s.bucket, s.value.puts us⟩ :: q else s :: amend bucket us q

/-- 162-187: what is taken from an event -/
def updates (rnd : ℚ → ℚ) (previous : Map) (q : List Snapshot) (e : Event) (period : Int) : List (Nat × Point) :=
  let last : Map := match q.getLast? with
    | some s => s.value
    | none => []
  e.components.filterMap (fun c =>
    let p : Point := ⟨e.time, c.2⟩
    if shouldInsert rnd previous c.1 p period = true ∨ (last.get c.1).isSome = true then some (c.1, p) else none)

/-- 151-210: `store_snapshot` -/
def store (rnd : ℚ → ℚ) (previous : Map) (q : List Snapshot) (e : Event) (period : Int) (cap : Nat) : List Snapshot :=
  let bucket := round period e.time
  let us := updates rnd previous q e period
  if q.any (fun s => s.bucket = bucket) then amend bucket us q
  else (if q.length ≥ cap then q.drop 1 else q) ++ [⟨bucket, Map.puts [] us⟩]

/-- what happens to a snapshot given to the database: stored; or an error, where the transaction may nevertheless have been executed -/
inductive Outcome where
  | ok
  | failed (stored : Bool)

structure State where
  previous : Map
  db : List (Nat × Point)
  queue : List Snapshot

/-- 212-239: `persist_all_snapshots_and_update_state`; without a given outcome: an error and nothing stored -/
def persist : List Outcome → Map → List (Nat × Point) → List Snapshot → State
  | _, previous, db, [] => ⟨previous, db, []⟩
  | os, previous, db, s :: q =>
    if s.value.length = 0 then persist os previous db q
    else match os with
      | .ok :: os => persist os (previous.puts s.value) (db ++ s.value) q
      | .failed true :: _ => ⟨previous, db ++ s.value, s :: q⟩
      | .failed false :: _ => ⟨previous, db, s :: q⟩
      | [] => ⟨previous, db, s :: q⟩

/-- 79-113: an event is received -/
def step (rnd : ℚ → ℚ) (period : Int) (cap : Nat) (s : State) (x : Event × List Outcome) : State :=
  persist x.2 s.previous s.db (store rnd s.previous s.queue x.1 period cap)

end Persist
end Mango
