import Verif.Props.HealthUsed
import Verif.Client.Model
import Verif.Config.Model
/-!
# The HealthCheck instruction

Models instructions/health_check.rs:12-52, which a user (or a program that calls mango) appends to a transaction to make it fail if the account's health is not above some value.
The minimum arrives as f64 (not-a-number and the infinities panic in `from_num`).
-/
namespace Mango
namespace Health
open Fx

/-- accounts_ix/health_check.rs: `HealthCheckKind` -/
inductive CheckKind where
  | maint | init | liqEnd | maintRatio | initRatio | liqEndRatio
  deriving DecidableEq, Repr

/-- health_check.rs:34-43: the value that is compared -/
def checkedValue (fd : FDiv) (c : Cache) : CheckKind → Res I80F48
  | .maint => c.health fd .maint
  | .init => c.health fd .init
  | .liqEnd => c.health fd .liqEnd
  | .maintRatio => Client.healthRatio fd c .maint
  | .initRatio => Client.healthRatio fd c .init
  | .liqEndRatio => Client.healthRatio fd c .liqEnd

/-- health_check.rs:12-49 `health_check`. The account and everything else stay as they are. -/
def healthCheck (rnd : ℚ → ℚ) (fd : FDiv) (now : Int) (st : AcctState) (minValue : Config.Flt) (kind : CheckKind) : Res Unit := do
  let c ← accountCacheSkipping rnd now st.banks st.ps st.os st.perps
  let m ← minValue.toFx
  let v ← checkedValue fd c kind
  require (v ≥ m) .invalidHealth

end Health
end Mango
