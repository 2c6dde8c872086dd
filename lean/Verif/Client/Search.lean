import Verif.Fixed
/-!
# The searches of the client library

Models the three search functions at the end of health/client.rs (494-647), which the functions that compute maximum swap, borrow and perp trade amounts are built on. The searched function is
an arbitrary partial function from I80F48 to I80F48: an error of it ends the search.
-/
namespace Mango
namespace Client
open Fx

/-- `I80F48::from_num(0.1)` -/
def TENTH : I80F48 := 28147497671066
/-- `I80F48::from_num(0.5)` -/
def HALF : I80F48 := 140737488355328
/-- `I80F48::from_num(0.99)` -/
def N99 : I80F48 := 278660226943549

/-- saturation at the ends of the I80F48 range -/
def sat (x : Int) : I80F48 := max I128MIN (min I128MAX x)
/-- `saturating_sub`, `saturating_add`, `saturating_mul` -/
def satSub (a b : I80F48) : I80F48 := sat (a - b)
def satAdd (a b : I80F48) : I80F48 := sat (a + b)
def satMul (a b : I80F48) : I80F48 := sat (a * b / S)
/-- `saturating_div`: panics for zero divisors -/
def satDiv (a b : I80F48) : Res I80F48 := if b = 0 then .error .panic else .ok (sat (Int.tdiv (a * S) b))

/-- `half * (a + b)` -/
def mid (a b : I80F48) : Res I80F48 := do
  let s ← Fx.add a b
  Fx.mul HALF s

/-- client.rs:500-510: the loop of `scan_right_until_less_than` with the iterations left -/
def scanLoop (f : I80F48 → Res I80F48) (target : I80F48) : Nat → I80F48 → Res I80F48
  | 0, _ => .error .someError
  | n + 1, cur => do
    let v ← f cur
    if v ≤ target then .ok cur
    else
      match Fx.mulInt (max cur Fx.ONE) 2 with
      | .error _ => .error .someError
      | .ok next => scanLoop f target n next

/-- client.rs:494-515 `scan_right_until_less_than` -/
def scanRight (f : I80F48 → Res I80F48) (start target : I80F48) : Res I80F48 := scanLoop f target 20 start

/-- client.rs:537-552: the loop of `binary_search` with the iterations left; `rv` is the value at the initial right end -/
def binLoop (f : I80F48 → Res I80F48) (rv target minStep : I80F48) : Nat → I80F48 → I80F48 → Res I80F48
  | 0, _, _ => .error .someError
  | n + 1, l, r => do
    let d ← Fx.sub r l
    let a ← Fx.abs d
    if a < minStep then .ok l
    else do
      let m ← mid l r
      let v ← f m
      if satSub v target > 0 ∧ satSub v target < TENTH then .ok m
      else if xor (decide (v > target)) (decide (rv > target)) = true then binLoop f rv target minStep n m r
      else binLoop f rv target minStep n l m

/-- client.rs:517-554 `binary_search` -/
def binarySearch (f : I80F48 → Res I80F48) (left leftValue right target minStep : I80F48) : Res I80F48 := do
  let rv ← f right
  require ((leftValue ≤ target ∧ rv ≥ target) ∨ (leftValue ≥ target ∧ rv ≤ target)) .someError
  binLoop f rv target minStep 50 left right

/-- the state of `find_maximum`: the three points and the values there -/
structure Bracket where
  l : I80F48
  m : I80F48
  r : I80F48
  lv : I80F48
  mv : I80F48
  rv : I80F48
  deriving DecidableEq, Repr

/-- client.rs:576-619: one iteration of `find_maximum` -/
def maxStep (f : I80F48 → Res I80F48) (b : Bracket) : Res Bracket :=
  if b.lv > b.mv then do
    require (b.mv ≥ b.rv) .panic
    let m ← mid b.l b.m
    let mv ← f m
    .ok ⟨b.l, m, b.m, b.lv, mv, b.mv⟩
  else if b.mv ≤ b.rv then do
    require (b.lv ≤ b.mv) .panic
    let m ← mid b.m b.r
    let mv ← f m
    .ok ⟨b.m, m, b.r, b.mv, mv, b.rv⟩
  else do
    let lm ← mid b.l b.m
    let lmv ← f lm
    require (lmv ≥ b.lv) .panic
    if lmv > b.mv then .ok ⟨b.l, lm, b.m, b.lv, lmv, b.mv⟩
    else do
      let rm ← mid b.m b.r
      let rmv ← f rm
      require (rmv ≥ b.rv) .panic
      if rmv ≥ b.mv then .ok ⟨b.m, rm, b.r, b.mv, rmv, b.rv⟩
      else .ok ⟨lm, b.m, rm, lmv, b.mv, rmv⟩

/-- client.rs:574-620: the `while` loop, which has no iteration limit; here with an amount of fuel (`none`: fuel used up). That the fuel is never used up is a theorem. -/
def maxLoop (f : I80F48 → Res I80F48) (minStep : I80F48) : Nat → Bracket → Option (Res Bracket)
  | 0, _ => none
  | n + 1, b =>
    match Fx.sub b.r b.l with
    | .error e => some (.error e)
    | .ok d =>
      if d > minStep then
        match maxStep f b with
        | .error e => some (.error e)
        | .ok b' => maxLoop f minStep n b'
      else some (.ok b)

/-- client.rs:622-628: the answer for the final interval -/
def Bracket.best (b : Bracket) : I80F48 × I80F48 :=
  if b.lv > b.mv then (b.l, b.lv) else if b.mv > b.rv then (b.m, b.mv) else (b.r, b.rv)

/-- client.rs:562-629 `find_maximum`: the position and the value -/
def findMaximum (f : I80F48 → Res I80F48) (left right minStep : I80F48) (fuel : Nat := 200) : Option (Res (I80F48 × I80F48)) :=
  if right < left then some (.error .panic)
  else
    match mid left right with
    | .error e => some (.error e)
    | .ok m =>
      match f left, f right, f m with
      | .ok lv, .ok rv, .ok mv => (maxLoop f minStep fuel ⟨left, m, right, lv, mv, rv⟩).map (fun x => x.map Bracket.best)
      | .error e, _, _ => some (.error e)
      | _, .error e, _ => some (.error e)
      | _, _, .error e => some (.error e)

end Client
end Mango
