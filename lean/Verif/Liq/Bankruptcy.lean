import Verif.Liq.Phases
import Verif.Bank.System
import Verif.Account.HealthCheck
/-!
# Token bankruptcy

Models instructions/token_liq_bankruptcy.rs:16-327. Account slots (`ensure_token_position`, deactivation) are in `Verif.Account.Slots`, logs are left out.
-/
namespace Mango
namespace Liquidation
open Fx Health

/-- what the instruction reads and writes. `insurance` is the insurance bank with its oracle price, if the insurance token differs from the liability token. -/
structure Bkr where
  /-- all banks of the liability token -/
  banks : List Bank
  /-- the one among them that the health accounts hold -/
  k : Nat
  liabToken : Nat
  liabPrice : I80F48
  liquidationFee : I80F48
  insurance : Option (Bank × I80F48)
  /-- `elligible_for_group_insurance_fund` -/
  eligible : Bool
  insuranceVault : Int
  liqee : TokenPosition
  liqeeFlag : Account.Liq
  /-- health cache of the liqee at the start -/
  cache : Cache
  liqorFlag : Account.Liq
  liqorLiab : TokenPosition
  liqorInsurance : TokenPosition

/-- what other accounts determine: scaled init weights of the liability bank, the liqor's init health after the swap (`none`: in a health region) -/
structure BkrEnv where
  fd : FDiv
  now : Int
  scaled : Bank → Res (I80F48 × I80F48)
  liqorHealth : (liabBank insuranceBank : Bank) → (liab insurance : TokenPosition) → Option (Res I80F48)

/-- amounts of the instruction -/
structure Report where
  /-- remaining loss before the instruction: what the liqee owes, at most -/
  loss : I80F48
  ratio : I80F48
  insuranceTransfer : Int
  liabTransfer : I80F48
  socialized : I80F48
  deriving DecidableEq, Repr

/-- 100-109 price of a liability token in insurance tokens, with fee -/
def ratioOf (s : Bkr) : Res I80F48 :=
  match s.insurance with
  | some (_, ip) => do
    let f ← Fx.add ONE s.liquidationFee
    let x ← Fx.mul s.liabPrice f
    Fx.div x ip
  | none => .ok ONE

/-- 117-121 -/
def usableInsurance (s : Bkr) : Int := if s.eligible = true then s.insuranceVault else 0

/-- 88-98: loss of the liability bank `b`, at least one bit -/
def lossOf (s : Bkr) (b : Bank) : Res (I80F48 × I80F48) := do
  let n0 ← s.liqee.native b
  let bs ← s.cache.balances .liqEnd
  let i ← (match s.cache.tokenIdx s.liabToken with
    | some i => .ok i
    | none => .error .tokenPositionDoesNotExist : Res Nat)
  let hb ← Serum3Info.at_ bs i
  require (0 > n0) .requireFailed
  require (0 > hb) .requireFailed
  let nn ← Fx.neg n0
  let nh ← Fx.neg hb
  .ok (n0, min nn nh)

/-- 111-136: insurance tokens paid and liability tokens they are worth -/
def insuranceAmounts (s : Bkr) (loss maxLiab : I80F48) : Res (I80F48 × Int × I80F48) := do
  let ratio ← ratioOf s
  let x ← Fx.mul (min loss maxLiab) ratio
  let c ← Fx.ceil x
  let t ← cku64 (Fx.toInt c)
  let transfer := min t (usableInsurance s)
  let liabTransfer ← Fx.div (Fx.ofInt transfer) ratio
  .ok (ratio, transfer, liabTransfer)

/-- 139-230: pay insurance into the liqee's debt. Returns the liability bank, the state with the other parts updated, and the remaining loss -/
def payInsurance (env : BkrEnv) (s : Bkr) (b : Bank) (n0 loss : I80F48) (transfer : Int) (liabTransfer : I80F48) : Res (Bank × Bkr × I80F48) :=
  if transfer > 0 then do
    let (b1, liqee, _) ← b.depositWithDusting s.liqee liabTransfer env.now
    let n1 ← liqee.native b1
    let d ← Fx.sub n1 n0
    let loss ← Fx.sub loss d
    let vault := s.insuranceVault - transfer
    match s.insurance with
    | some (ib, ip) => do
      let (ib1, q, _) ← ib.deposit s.liqorInsurance (Fx.ofInt transfer) env.now
      let (b2, r, _) ← b1.withdrawWithFee s.liqorLiab liabTransfer env.now
      let _ ← (match env.liqorHealth b2 ib1 r q with
        | some h => do
          let h ← h
          require (h ≥ 0) .healthMustBePositive
        | none => .ok ())
      .ok (b2, { s with insurance := some (ib1, ip), insuranceVault := vault, liqee := liqee, liqorLiab := r, liqorInsurance := q }, loss)
    | none => do
      require (Fx.ofInt transfer = liabTransfer) .requireFailed
      .ok (b1, { s with insuranceVault := vault, liqee := liqee }, loss)
  else .ok (b, s, loss)

/-- 16-327 `token_liq_bankruptcy` -/
def tokenLiqBankruptcy (env : BkrEnv) (s : Bkr) (maxLiab : I80F48) : Res (Bkr × Report) := do
  require (s.liqorFlag.being = false) .beingLiquidated
  s.cache.requireAfterPhase2
  let b ← Bank.getBank ⟨s.banks, [], 0⟩ s.k
  let (n0, loss) ← lossOf s b
  let (ratio, transfer, liabTransfer) ← insuranceAmounts s loss maxLiab
  let (b1, s1, loss1) ← payInsurance env s b n0 loss transfer liabTransfer
  let banks1 := s.banks.set s.k b1
  let (banks2, liqee, socialized) ← (if transfer = usableInsurance s ∧ loss1 > 0 then do
      let (bs, p) ← Bank.socializeLoss b.depositIndex banks1 s1.liqee loss1 env.now
      .ok (bs, p, loss1)
    else .ok (banks1, s1.liqee, 0) : Res (List Bank × TokenPosition × I80F48))
  let b0 ← Bank.getBank ⟨banks2, [], 0⟩ 0
  let n1 ← liqee.native b0
  let d ← Fx.sub n1 n0
  let w ← env.scaled b0
  let c ← s.cache.adjustTokenBalance s.liabToken w d
  let h ← c.health env.fd .liqEnd
  .ok ({ s1 with banks := banks2, liqee := liqee, liqeeFlag := ((⟨true⟩ : Account.Liq).maybeRecover h).1, cache := c },
    ⟨loss, ratio, transfer, liabTransfer, socialized⟩)

end Liquidation
end Mango
