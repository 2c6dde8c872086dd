import Verif.Account.Slots
import Verif.Oracle.Retriever
/-!
# The health accounts the client library passes

Models lib/client/src/context.rs:66-76, 420-600, 657-718 (`derive_health_check_remaining_account_metas`, its variant for two accounts, `derive_fallback_oracle_keys`) and 734-751
(`get_fallback_quote_key`). Fetching is a parameter; the estimate of compute units is left out.
-/
namespace Mango
namespace ClientAccounts
open Fx

/-- the part of `TokenContext` used here (context.rs:28-64): address of the first bank, oracle, and `FallbackOracleContext` (66-76) -/
structure TokenCtx where
  bank : Nat
  oracle : Nat
  fallback : Nat
  quote : Nat
  deriving DecidableEq, Repr

/-- the part of `PerpMarketContext` used here (context.rs:97-112) -/
structure PerpCtx where
  address : Nat
  oracle : Nat
  settle : Nat
  deriving DecidableEq, Repr

/-- `MangoGroupContext` (context.rs:194-211); the hash maps are lists in the order in which they are iterated -/
structure Ctx where
  tokens : List (Nat × TokenCtx)
  perps : List (Nat × PerpCtx)
  deriving DecidableEq, Repr

/-- `token` (context.rs:240-242) -/
def Ctx.token (c : Ctx) (t : Nat) : Option TokenCtx := c.tokens.lookup t
/-- `perp` (context.rs:216-218) -/
def Ctx.perp (c : Ctx) (m : Nat) : Option PerpCtx := c.perps.lookup m

def Ctx.markets (c : Ctx) : Slots.Markets :=
  { base := fun _ => 0, quote := fun _ => 0, settle := fun m => match c.perp m with | some p => p.settle | none => 0 }

/-- `get_fallback_quote_key` (context.rs:734-751) with `get_quote_oracle` (amm_cpi.rs:86-100): the feed of a pool's quote token; the default key for other oracles -/
def quoteKey (K : Oracle.Keys) : Oracle.Source → Nat
  | .pool true _ a b => (match (if Oracle.isInverted a b then a else b) with
    | .usdc => K.usdc
    | .sol => K.sol
    | .other _ => K.default)
  | _ => K.default

/-- collecting pairs into a hash map: the last one with a key stays -/
def mapGet (l : List (Nat × Nat × Nat)) (k : Nat) : Option (Nat × Nat) := l.reverse.lookup k

/-- `FallbackOracleConfig` (client.rs:2424-2433); for `Dynamic` the oracles found invalid (context.rs:680-711) are given -/
inductive FallbackConfig
  | never
  | fixed (keys : List Nat)
  | all
  | dynamic (invalid : List Nat)

/-- `derive_fallback_oracle_keys` (context.rs:657-718): oracle ↦ fallback oracle and its quote feed -/
def fallbackKeys (K : Oracle.Keys) (c : Ctx) (cfg : FallbackConfig) : Nat → Option (Nat × Nat) :=
  let toks := c.tokens.map Prod.snd
  let pick := fun (l : List TokenCtx) => mapGet (l.map (fun t => (t.oracle, t.fallback, t.quote)))
  match cfg with
  | .never => fun _ => none
  | .fixed keys => pick (toks.filter (fun t => decide (t.fallback ≠ K.default) && decide (t.fallback ∈ keys)))
  | .all => pick (toks.filter (fun t => decide (t.fallback ≠ K.default)))
  -- `tokens_by_oracle` keeps the last token of each oracle
  | .dynamic invalid => fun k => if k ∈ invalid then
      (match (toks.reverse.find? (fun t => decide (t.oracle = k))) with
        | some t => if t.fallback ≠ K.default then some (t.fallback, t.quote) else none
        | none => none)
      else none

/-- an `AccountMeta`; none is a signer -/
structure Meta where
  key : Nat
  writable : Bool
  deriving DecidableEq, Repr

def readonly (k : Nat) : Meta := ⟨k, false⟩

/-- `active_token_positions`, `active_serum3_orders`, `active_perp_positions` (mango_account.rs:794-797, 817-820, 841-844) -/
def activeTokens (a : Slots.Acc) : List Nat := (a.tokens.filter (fun p => p.index ≠ Slots.FREE)).map Slots.TokenSlot.index
def activePerps (a : Slots.Acc) : List Nat := (a.perps.filter (fun p => p.market ≠ Slots.FREE)).map Slots.PerpSlot.market
/-- the payload of a slot of spot orders holds the address of the open orders account -/
def activeOos (a : Slots.Acc) : List Nat := (a.serums.filter (fun p => p.market ≠ Slots.FREE)).map (fun s => s.data.toNat)

/-- context.rs:428-436: positions for the affected tokens and perp markets, in a copy of the account -/
def ensureTokens (a : Slots.Acc) : List Nat → Res Slots.Acc
  | [] => .ok a
  | t :: ts => do
      let (l, _, _) ← Slots.ensureToken a.tokens t
      ensureTokens { a with tokens := l } ts

def ensurePerps (c : Ctx) (a : Slots.Acc) : List Nat → Res Slots.Acc
  | [] => .ok a
  | m :: ms => do
      require ((c.perp m).isSome = true) .panic
      let (a, _) ← Slots.ensurePerp c.markets a m
      ensurePerps c a ms

/-- itertools' `unique`: the first of equal items stays -/
def unique (l : List Nat) : List Nat := l.eraseDups

/-- an unknown index panics -/
def getAll {α : Type} (f : Nat → Option α) : List Nat → Res (List α)
  | [] => .ok []
  | x :: xs => match f x with
    | none => .error .panic
    | some y => do
        let ys ← getAll f xs
        .ok (y :: ys)

/-- context.rs:438-489, 504-570: the list from the tokens, perp markets and open orders accounts -/
def metasOf (K : Oracle.Keys) (c : Ctx) (fc : Nat → Option (Nat × Nat)) (tokens writable perps oos : List Nat) : Res (List Meta) := do
  let ts ← getAll c.token tokens
  let ps ← getAll c.perp perps
  let oracles := ts.map TokenCtx.oracle
  let fallbacks := (unique (ts.flatMap (fun t => match fc t.oracle with
    | some (k, q) => [k, q]
    | none => []))).filter (fun k => decide (k ∉ oracles) && decide (k ≠ K.default))
  .ok ((tokens.zip ts).map (fun x => ⟨x.2.bank, decide (x.1 ∈ writable)⟩) ++ (oracles.map readonly ++ ((ps.map PerpCtx.address).map readonly ++
    ((ps.map PerpCtx.oracle).map readonly ++ (oos.map readonly ++ fallbacks.map readonly)))))

/-- `derive_health_check_remaining_account_metas` (context.rs:420-496) -/
def derive (K : Oracle.Keys) (c : Ctx) (fc : Nat → Option (Nat × Nat)) (a : Slots.Acc) (affected writable perps : List Nat) : Res (List Meta) := do
  let a ← ensureTokens a (affected ++ writable)
  let a ← ensurePerps c a perps
  metasOf K c fc (activeTokens a) writable (activePerps a) (activeOos a)

/-- `derive_health_check_remaining_account_metas_two_accounts` (context.rs:498-600) -/
def deriveTwo (K : Oracle.Keys) (c : Ctx) (fc : Nat → Option (Nat × Nat)) (a1 a2 : Slots.Acc) (affected writable : List Nat) : Res (List Meta) :=
  metasOf K c fc (unique (activeTokens a2 ++ (activeTokens a1 ++ affected))) writable (unique (activePerps a2 ++ activePerps a1)) (activeOos a2 ++ activeOos a1)

/-- the accounts a program sees for a list of metas -/
def supply (chain : Nat → Oracle.Content) (l : List Meta) : List Oracle.Acc := l.map (fun m => ⟨m.key, chain m.key⟩)

end ClientAccounts
end Mango
