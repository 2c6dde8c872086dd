import Verif.Props.SettlementExact
import Verif.Props.SettlementEx
/-! # Concrete cases for C72 (amounts) -/
namespace Mango
namespace Settlement
open Fx Health

theorem exLim_ok : ∀ v, 0 ≤ v → 0 ≤ exE.lim v ∧ exE.lim v ≤ I64MAX := Perp.sxLim_ok

-- C72_amount_exact: profit and loss are 200 less or plus funding, the settle limit (20% of 400) binds
example : settlePnl exE ex0 3 0 1 2 = .ok (ex1, 80 * S, 3 * S) ∧ 0 ≤ (ex0.markets 3).settlePnlLimitFactor ∧ ex0.Ok := ⟨exOut_ok, by decide, ex0_ok⟩
example := C72_amount_exact ex0_ok (by decide) exLim_ok exOut_ok
example := C72_fee_amount_exact ex0_ok (by decide) exLim_ok exFees_ok
-- C72_limit_tight: the payer's settle health and how much it may settle
example : (hs ex0 1 / S, (Serum.got 0 ((cch ex0 1).perpMaxSettle Fx.div 0)) / S) = (932, 932) := by decide +kernel

end Settlement
end Mango
