import Verif.Health.FromState
import Verif.Liq.Phases
/-!
# Updating a health cache in place

Instructions build the health cache once, and after changing banks and positions they adjust it instead of building it again. Models health/cache.rs:851-915 (`adjust_token_balance`,
`recompute_serum3_info`, `recompute_perp_info`) with the inputs the instructions pass.
-/
namespace Mango
namespace Health
open Fx

namespace Cache

/-- cache.rs:851-868 `adjust_token_balance`: the scaled asset weight is taken at the asset price (858); building the cache takes it at the liability price (1325-1326) -/
def adjustBank (rnd : ℚ → ℚ) (c : Cache) (ti : Nat) (b : BankIn) (change : I80F48) : Res Cache :=
  match c.tokenIdx ti with
  | none => .error .tokenPositionDoesNotExist
  | some i => do
    let t ← Serum3Info.at_ c.tokens i
    let wa ← b.scaledAsset rnd (t.prices.asset .init)
    let wl ← b.scaledLiab rnd (t.prices.liab .init)
    c.adjustTokenBalance ti (wa, wl) change

/-- `balance_spot += change` -/
def addBalance (ts : List TokenInfo) (i : Nat) (change : I80F48) : Res (List TokenInfo) := do
  let t ← Serum3Info.at_ ts i
  let b ← Fx.add t.balanceSpot change
  .ok (ts.set i { t with balanceSpot := b })

/-- cache.rs:874-904 `recompute_serum3_info` -/
def recomputeSerum3 (c : Cache) (o : OpenOrd) (freeBaseChange freeQuoteChange : I80F48) : Res Cache :=
  match c.serums.findIdx? (fun s => s.marketIndex == o.marketIndex) with
  | none => .error .someError
  | some i => do
    let s ← Serum3Info.at_ c.serums i
    let ts ← addBalance c.tokens s.baseIdx freeBaseChange
    let ts ← addBalance ts s.quoteIdx freeQuoteChange
    let s' ← o.info s.baseIdx s.quoteIdx
    .ok { c with tokens := ts, serums := c.serums.set i s' }

/-- cache.rs:906-918 `recompute_perp_info`: the prices are kept -/
def recomputePerp (c : Cache) (m : Perp.Market) (p : Perp.Pos) : Res Cache :=
  match c.perps.findIdx? (fun i => i.perpMarketIndex == m.idx) with
  | none => .error .someError
  | some k => do
    let old ← Serum3Info.at_ c.perps k
    let i ← perpInfoOf m p old.basePrices.oracle
    .ok { c with perps := c.perps.set k { i with basePrices := old.basePrices } }

end Cache

/-- everything health is computed from -/
structure AcctState where
  banks : Nat → BankIn
  ps : List Pos
  os : List OpenOrd
  perps : List (Perp.Market × Perp.Pos × I80F48)

/-- one change of that state by an instruction: position `k` and its bank after deposits and withdrawals; open orders account `k` after orders were placed, matched, settled; perp market and position -/
inductive Upd where
  | token (k : Nat) (bank : BankIn) (indexed : I80F48)
  | serum (k : Nat) (o : OpenOrd)
  | perp (k : Nat) (m : Perp.Market) (p : Perp.Pos)

/-- balance of a position (mango_account_components.rs:80-86 `native`) -/
def nativeIn (b : BankIn) (indexed : I80F48) : Res I80F48 := Fx.mul indexed (if indexed > 0 then b.bank.depositIndex else b.bank.borrowIndex)

/-- the changed state -/
def Upd.state (st : AcctState) : Upd → AcctState
  | .token k b' indexed' =>
    match st.ps[k]? with
    | some p => { st with banks := fun ti => if ti = p.tokenIndex then b' else st.banks ti, ps := st.ps.set k { p with indexed := indexed' } }
    | none => st
  | .serum k o' => { st with os := st.os.set k o' }
  | .perp k m' p' =>
    match st.perps[k]? with
    | some x => { st with perps := st.perps.set k (m', p', x.2.2) }
    | none => st

/-- the update of the cache that goes with it (token_withdraw.rs:128-153, serum3_place_order.rs:413-423, 470-507, perp_place_order.rs:131-136 and the liquidations): the change of the native balance, of
the free funds, or the new perp position -/
def Upd.cache (rnd : ℚ → ℚ) (st : AcctState) (c : Cache) : Upd → Res Cache
  | .token k b' indexed' =>
    match st.ps[k]? with
    | none => .error .panic
    | some p => do
      let n ← nativeIn (st.banks p.tokenIndex) p.indexed
      let n' ← nativeIn b' indexed'
      let d ← Fx.sub n' n
      c.adjustBank rnd p.tokenIndex b' d
  | .serum k o' =>
    match st.os[k]? with
    | none => .error .panic
    | some o => do
      let db ← Fx.sub (ofInt o'.baseFree) (ofInt o.baseFree)
      let dq ← Fx.sub (ofInt o'.quoteFree) (ofInt o.quoteFree)
      c.recomputeSerum3 o' db dq
  | .perp k m' p' => c.recomputePerp m' p'

/-- several updates one after the other -/
def updates (rnd : ℚ → ℚ) : AcctState → Cache → List Upd → Res (AcctState × Cache)
  | st, c, [] => .ok (st, c)
  | st, c, u :: us => do
    let c ← u.cache rnd st c
    updates rnd (u.state st) c us

end Health
end Mango
