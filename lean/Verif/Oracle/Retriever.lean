import Verif.Oracle.Model
/-!
# Finding health accounts

Models health/account_retriever.rs: the two ways instructions find banks, perp markets, oracles and open orders accounts among the accounts
passed by the caller. An account is its key and what can be loaded from it; the sections of the data that matter are the group, the index and the
oracle fields. Borrow failures are not modelled.
-/
namespace Mango
namespace Oracle
open Fx

structure BankAcc where
  group : Nat
  tokenIndex : Nat
  o : BankO
  deriving DecidableEq, Repr

structure PerpAcc where
  group : Nat
  marketIndex : Nat
  oracle : Nat
  decimals : Int
  cfg : Cfg
  deriving DecidableEq, Repr

inductive Content where
  | bank (b : BankAcc)
  | perp (p : PerpAcc)
  | openOrders (id : Nat)
  | oracle (s : Source)
  | other
  deriving DecidableEq, Repr

structure Acc where
  key : Nat
  content : Content
  deriving DecidableEq, Repr

/-- any account can be passed as oracle; only oracle accounts are recognised -/
def Acc.asOracle (a : Acc) : OAcc :=
  { key := a.key, src := match a.content with
      | .oracle s => s
      | _ => .unknown }

def Acc.bank? (a : Acc) : Option BankAcc :=
  match a.content with
  | .bank b => some b
  | _ => none
def Acc.perp? (a : Acc) : Option PerpAcc :=
  match a.content with
  | .perp p => some p
  | _ => none
def Acc.oo? (a : Acc) : Option Nat :=
  match a.content with
  | .openOrders o => some o
  | _ => none

/-- keys of the two Pyth quote feeds (oracle.rs:71-79) and the default key -/
structure Keys where
  usdc : Nat
  sol : Nat
  default : Nat

/-- account_retriever.rs:60-71 `FixedOrderAccountRetriever` -/
structure Fixed where
  ais : List Acc
  nBanks : Nat
  nPerps : Nat
  beginPerp : Nat
  beginSerum : Nat
  beginFallback : Nat
  now : Option (Int × Int)
  deriving DecidableEq, Repr

/-- account_retriever.rs:119-156 `new_fixed_order_account_retriever_inner` -/
def fixedInner (ais : List Acc) (nSerum nPerp : Nat) (now : Int × Int) (nBanks : Nat) : Res Fixed := do
  let expected := nBanks * 2 + nPerp * 2 + nSerum
  require (ais.length ≥ expected) .invalidHealthAccountCount
  .ok { ais := ais, nBanks := nBanks, nPerps := nPerp, beginPerp := nBanks * 2, beginSerum := nBanks * 2 + nPerp * 2, beginFallback := expected, now := some now }

/-- account_retriever.rs:76-90 `new_fixed_order_account_retriever`: every position's bank must be there; a too short list panics -/
def fixedNew (ais : List Acc) (nTokens nSerum nPerp : Nat) (now : Int × Int) : Res Fixed := do
  require (nTokens ≤ ais.length) .panic
  require (∀ a ∈ ais.take nTokens, a.bank?.isSome = true) .someError
  fixedInner ais nSerum nPerp now nTokens

/-- account_retriever.rs:96-117 `new_fixed_order_account_retriever_with_optional_banks` -/
def fixedNewOptional (ais : List Acc) (nTokens nSerum nPerp : Nat) (now : Int × Int) : Res Fixed := do
  let n := (ais.takeWhile (fun a => a.bank?.isSome)).length
  require (nTokens ≥ n) .requireFailed
  fixedInner ais nSerum nPerp now n

/-- account_retriever.rs:168-178: search downwards from index `k - 1` -/
def searchBank (ais : List Acc) (group tokenIndex : Nat) : Nat → Res (Nat × BankAcc)
  | 0 => .error .invalidHealthAccountCount
  | k + 1 =>
    match (ais[k]?).bind Acc.bank? with
    | none => .error .someError
    | some b =>
      if b.tokenIndex = tokenIndex then do
        require (b.group = group) .requireFailed
        .ok (k, b)
      else searchBank ais group tokenIndex k

/-- account_retriever.rs:160-185 `bank` -/
def Fixed.bank (f : Fixed) (group posIndex tokenIndex : Nat) : Res (Nat × BankAcc) :=
  searchBank f.ais group tokenIndex (min (posIndex + 1) f.nBanks)

/-- account_retriever.rs:130-135, 197-213: oracle, fallback and quote feeds -/
def Fixed.infos (K : Keys) (f : Fixed) (oracle : Acc) (fallbackKey : Nat) : Infos :=
  { oracle := oracle.asOracle
    fallback := ((f.ais.drop f.beginFallback).find? (fun a => a.key = fallbackKey)).map Acc.asOracle
    usdc := (f.ais.find? (fun a => a.key = K.usdc)).map Acc.asOracle
    sol := (f.ais.find? (fun a => a.key = K.sol)).map Acc.asOracle }

/-- account_retriever.rs:226-250 `bank_and_oracle` -/
def Fixed.bankAndOracle (inv : Nat → Res I80F48) (K : Keys) (f : Fixed) (group posIndex tokenIndex : Nat) : Res (BankAcc × I80F48) := do
  let (i, b) ← f.bank group posIndex tokenIndex
  match f.ais[f.nBanks + i]? with
  | none => .error .panic
  | some o => do
    let p ← bankPrice inv b.o (f.infos K o b.o.fallback) f.now
    .ok (b, p)

/-- account_retriever.rs:187-201 `perp_market`, `oracle_price_perp`, 252-280 `perp_market_and_oracle_price` -/
def Fixed.perpAndOracle (inv : Nat → Res I80F48) (f : Fixed) (group posIndex marketIndex : Nat) : Res (PerpAcc × I80F48) :=
  match (f.ais[f.beginPerp + posIndex]?).bind Acc.perp?, f.ais[f.beginPerp + posIndex + f.nPerps]? with
  | some p, some o => do
    require (p.group = group) .requireFailed
    require (p.marketIndex = marketIndex) .requireFailed
    let st ← perpState inv p.oracle p.decimals p.cfg { oracle := o.asOracle, fallback := none, usdc := none, sol := none } f.now
    .ok (p, st.price)
  | _, _ => .error .panic

/-- account_retriever.rs:282-298 `serum_oo` -/
def Fixed.serumOo (f : Fixed) (posIndex key : Nat) : Res Nat :=
  match f.ais[f.beginSerum + posIndex]? with
  | none => .error .panic
  | some a => do
    require (key = a.key) .requireFailed
    match a.oo? with
    | some o => .ok o
    | none => .error .someError

/-- account_retriever.rs:405-411, 300-310 `ScanningAccountRetriever` with its `ScannedBanksAndOracles`; maps are association lists -/
structure Scan where
  banks : List BankAcc
  oracles : List Acc
  perps : List PerpAcc
  perpOracles : List Acc
  oos : List Acc
  fallbacks : List Acc
  now : Option (Int × Int)
  deriving DecidableEq, Repr

/-- account_retriever.rs:441-520 `new_with_staleness` -/
def scanNew (ais : List Acc) (group : Nat) (now : Option (Int × Int)) : Res Scan := do
  let banks := (ais.takeWhile (fun a => a.bank?.isSome)).filterMap Acc.bank?
  require (∀ b ∈ banks, b.group = group) .requireFailed
  require ((banks.map BankAcc.tokenIndex).Nodup) .someError
  let n := banks.length
  require (2 * n ≤ ais.length) .panic
  let perps := ((ais.drop (2 * n)).takeWhile (fun a => a.perp?.isSome)).filterMap Acc.perp?
  require (∀ p ∈ perps, p.group = group) .requireFailed
  require ((perps.map PerpAcc.marketIndex).Nodup) .someError
  let k := perps.length
  require (2 * n + 2 * k ≤ ais.length) .panic
  let rest := ais.drop (2 * n + 2 * k)
  let oos := rest.takeWhile (fun a => a.oo?.isSome)
  .ok { banks := banks, oracles := (ais.drop n).take n, perps := perps, perpOracles := (ais.drop (2 * n + k)).take k, oos := oos,
        fallbacks := rest.drop oos.length, now := now }

/-- account_retriever.rs:380-399 `create_oracle_infos` -/
def Scan.infos (K : Keys) (s : Scan) (oracle : Acc) (fallbackKey : Nat) : Infos :=
  { oracle := oracle.asOracle
    fallback := if fallbackKey = K.default then none else (s.fallbacks.find? (fun a => a.key = fallbackKey)).map Acc.asOracle
    usdc := (s.fallbacks.find? (fun a => a.key = K.usdc)).map Acc.asOracle
    sol := (s.fallbacks.find? (fun a => a.key = K.sol)).map Acc.asOracle }

/-- account_retriever.rs:313-323, 369-378 `bank_index`, `scanned_bank_and_oracle` -/
def Scan.bankAndOracle (inv : Nat → Res I80F48) (K : Keys) (s : Scan) (tokenIndex : Nat) : Res (BankAcc × I80F48) :=
  match s.banks.findIdx? (fun b => b.tokenIndex = tokenIndex) with
  | none => .error .tokenPositionDoesNotExist
  | some i =>
    match s.banks[i]?, s.oracles[i]? with
    | some b, some o => do
      let p ← bankPrice inv b.o (s.infos K o b.o.fallback) s.now
      .ok (b, p)
    | _, _ => .error .panic

/-- account_retriever.rs:522-529, 545-557 `scanned_perp_market_and_oracle` -/
def Scan.perpAndOracle (inv : Nat → Res I80F48) (s : Scan) (marketIndex : Nat) : Res (PerpAcc × I80F48) :=
  match s.perps.findIdx? (fun p => p.marketIndex = marketIndex) with
  | none => .error .someError
  | some i =>
    match s.perps[i]?, s.perpOracles[i]? with
    | some p, some o => do
      let st ← perpState inv p.oracle p.decimals p.cfg { oracle := o.asOracle, fallback := none, usdc := none, sol := none } s.now
      .ok (p, st.price)
    | _, _ => .error .panic

/-- account_retriever.rs:559-566 `scanned_serum_oo` -/
def Scan.serumOo (s : Scan) (key : Nat) : Res Nat :=
  match s.oos.find? (fun a => a.key = key) with
  | none => .error .someError
  | some a => match a.oo? with
    | some o => .ok o
    | none => .error .someError

/-- account_retriever.rs:325-367 `banks_mut_and_oracles`: two banks at once (one if the indexes are equal) -/
def Scan.banksAndOracles (inv : Nat → Res I80F48) (K : Keys) (s : Scan) (t1 t2 : Nat) : Res (BankAcc × I80F48 × Option (BankAcc × I80F48)) :=
  if t1 = t2 then do
    let (b, p) ← s.bankAndOracle inv K t1
    .ok (b, p, none)
  else
    match s.banks.findIdx? (fun b => b.tokenIndex = t1), s.banks.findIdx? (fun b => b.tokenIndex = t2) with
    | some i1, some i2 =>
      let (first, second, swap) := if i1 < i2 then (i1, i2, false) else (i2, i1, true)
      match s.banks[first]?, s.oracles[first]?, s.banks[second]?, s.oracles[second]? with
      | some b1, some o1, some b2, some o2 => do
        let p1 ← bankPrice inv b1.o (s.infos K o1 b1.o.fallback) s.now
        let p2 ← bankPrice inv b2.o (s.infos K o2 b2.o.fallback) s.now
        .ok (if swap then (b2, p2, some (b1, p1)) else (b1, p1, some (b2, p2)))
      | _, _, _, _ => .error .panic
    | _, _ => .error .tokenPositionDoesNotExist

end Oracle
end Mango
