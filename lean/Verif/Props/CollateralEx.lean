import Verif.Props.Collateral
/-!
# Concrete cases for C62, and a flaw of the program
-/
namespace Mango
namespace Collateral
open Fx Health

def mkBank (d b : Int) (aw lw price : I80F48) : Bank :=
  { depositIndex := S, borrowIndex := S, indexedDeposits := d * S, indexedBorrows := b * S, stablePrice := price, maintAssetWeight := aw, initAssetWeight := aw / 2, maintLiabWeight := lw, initLiabWeight := lw * 2 }

/-- token 0: dollars; token 1: worth 600 per native unit, 10% fee per day on collateral -/
def usdc : BankIn := { bank := mkBank 10000000000 1000000000 S S S, oracle := S }
def btc : BankIn := { bank := mkBank 100000000 1000000 (S / 8 * 7) (S / 8 * 9) (600 * S), oracle := 600 * S }

def banks (t : Nat) : BankIn := if t = 0 then usdc else btc

/-- 2 million BTC units (1200 dollars), a debt of 350 dollars -/
def exItems : List Item := [⟨1, btc.bank, 1 / 10, 0, ⟨2000000 * S, 0, 0⟩⟩, ⟨0, usdc.bank, 0, 0, ⟨-(350000000 * S), 0, 0⟩⟩]
def exCache : Res Cache := accountCache id 0 banks (exItems.map (fun x => ⟨x.token, x.pos.indexed⟩)) [] []

/-- summary of a charge: last charge, seconds, total, fee of each token, balances afterwards -/
def summary (r : Res (Int × List Item × Option Report)) : Option (Int × Int × Int × List Int × List Int) :=
  match r with
  | .ok (l, ys, some r) => some (l, r.seconds, r.total, r.fees, ys.map (·.pos.indexed))
  | _ => none

def exRun : Res (Int × List Item × Option Report) := do
  let c ← exCache
  chargeCollateralFees c 3600 1000 101000 exItems

/-- **C62, a case.** After a long time the account is charged for two intervals only. A third of the collateral is used: 1200 × 1/3 × 1/12 days × 10% = 3.33 dollars, borrowed in token 0. -/
theorem exCharged : (summary exRun).any (fun x => decide (x.1 = 101000 ∧ x.2.1 = 7200 ∧ x.2.2.1 / S = 3333333 ∧ x.2.2.2.1.map (· / S) = [0, 3333333] ∧ x.2.2.2.2.map (· / S) = [2000000, -353333334])) = true := by
  decide +kernel

/-- the hypotheses of the theorems hold for it -/
theorem exHyps : exCache.toOption.any (fun c => decide ((c.tokens.map (·.tokenIndex)).Nodup ∧ (∀ t ∈ c.tokens, 0 ≤ t.prices.oracle) ∧ exItems.map (·.token) = c.tokens.map (·.tokenIndex))) = true := by
  decide +kernel

/-- **C62, a case.** Calls at times 10, 3000, 3700, 20000 with interval 3600: charged for 3690 and 7200 seconds. -/
theorem exTimes : (calls 0 [(3600, 10), (3600, 3000), (3600, 3700), (3600, 20000)]).toOption = some (20000, [(3600, 3690), (3600, 7200)]) ∧
    Later 10 [(3600, 10), (3600, 3000), (3600, 3700), (3600, 20000)] := by
  refine ⟨by decide, ?_⟩
  simp [Later]

/-! ## Finding 20: the settle token is looked up at the wrong place -/

/-- a perp loss of 2 dollars -/
def exPerp : List (Perp.Market × Perp.Pos × I80F48) := [({ idx := 3, settleTokenIndex := 0, stablePrice := S }, { quote := -(2000000 * S) }, S)]
/-- tokens in the order the account happened to open them -/
def exOrder (ts : List Nat) : List Item := ts.map (fun t => if t = 0 then ⟨0, usdc.bank, 0, 0, ⟨0, 1, 0⟩⟩ else ⟨1, btc.bank, 1 / 10, 0, ⟨2000000 * S, 0, 0⟩⟩)
def exOrderRun (ts : List Nat) : Res (Int × List Item × Option Report) := do
  let c ← accountCache id 0 banks ((exOrder ts).map (fun x => ⟨x.token, x.pos.indexed⟩)) [] exPerp
  chargeCollateralFees c 3600 1000 101000 (exOrder ts)

/-- **Finding 20.** `assets_and_liabs` uses the index of a perp market's settle token as a position in the account's token list. The same account, owing 2 dollars, is not charged if token 0 comes
first in its list, and is charged if token 1 comes first: then the loss is valued at the price of token 1. -/
theorem C62_wrong_settle_price : (exOrderRun [0, 1]).toOption.map (fun x => x.2.2.isSome) = some false ∧ (exOrderRun [1, 0]).toOption.map (fun x => x.2.2.isSome) = some true := by
  decide +kernel

/-- and if the account has too few tokens the instruction aborts -/
theorem C62_settle_index_aborts {c : Cache} {p : PerpInfo} (hp : p ∈ c.perps) (hs : c.tokens.length ≤ p.settleTokenIndex) (al : I80F48 × I80F48) : c.markedToMarket ≠ .ok al := by
  intro h
  simp only [Cache.markedToMarket, bind_ok] at h
  obtain ⟨a1, _, a2, _, h⟩ := h
  have : ∀ (ps : List PerpInfo) (x : I80F48 × I80F48), p ∈ ps → Cache.foldRes (Cache.markPerp c) x ps ≠ .ok al := by
    intro ps
    induction ps with
    | nil => simp
    | cons q qs ih =>
      intro x hm hx
      simp only [Cache.foldRes, bind_ok] at hx
      obtain ⟨y, h1, h2⟩ := hx
      rcases List.mem_cons.mp hm with rfl | hm
      · simp only [Cache.markPerp, bind_ok, Health.at_ok] at h1
        obtain ⟨t, ht, _⟩ := h1
        have := getElem?_lt ht
        omega
      · exact ih y hm h2
  exact this _ _ hp h

end Collateral
end Mango
