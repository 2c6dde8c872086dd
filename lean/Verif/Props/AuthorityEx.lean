import Verif.Props.Authority
/-!
# Concrete cases for C71, and gaps in the freezing of accounts
-/
namespace Mango
namespace Auth

/-- run instructions one after the other, keeping the history -/
def exec (s : State) (h : List (Nat × Op)) : List Op → Res (List (Nat × Op) × State)
  | [] => .ok (h, s)
  | op :: ops => do
    let s' ← step s op
    exec s' (h ++ [(s.now, op)]) ops

theorem exec_run {s0 : State} : ∀ (ops : List Op) {h h' : List (Nat × Op)} {s s' : State}, Run s0 h s → exec s h ops = .ok (h', s') → Run s0 h' s' := by
  intro ops
  induction ops with
  | nil => intro h h' s s' r e; unfold exec at e; rw [ok_inj, Prod.mk.injEq] at e; obtain ⟨rfl, rfl⟩ := e; exact r
  | cons op ops ih =>
    intro h h' s s' r e
    unfold exec at e
    simp only [bind_ok] at e
    obtain ⟨s1, hs1, e⟩ := e
    exact ih (Run.next r hs1) e

def run0 : State := ⟨1000, 1, []⟩
/-- two accounts, of 5 and 6. Owner 5 names the delegate 7 and, until time 5000, the temporary delegate 8; some time passes and 8 places an order and 7 withdraws; 5 checks sequence number 0 -/
def opsA : List Op := [.create 5, .create 6, .edit 5 0 true (some 7) (some 8) (some 5000), .tick 3000, .other .perpPlaceOrder 8 [0], .other .tokenWithdraw 7 [0], .sequenceCheck 5 0 0]
def histA : List (Nat × Op) := [(1000, .create 5), (1000, .create 6), (1000, .edit 5 0 true (some 7) (some 8) (some 5000)), (1000, .tick 3000), (4000, .other .perpPlaceOrder 8 [0]),
  (4000, .other .tokenWithdraw 7 [0]), (4000, .sequenceCheck 5 0 0)]
def stA : State := ⟨4000, 1, [{ owner := 5, delegate := 7, temporaryDelegate := 8, temporaryDelegateExpiry := 5000, sequence := 1 }, { owner := 6 }]⟩
theorem runA : Run run0 histA stA := exec_run opsA Run.start rfl

/-- `C71_rights` for the temporary delegate, who may not act any more from time 5001, may not expand the account, and has no right to the other account -/
example : IsOwner histA 0 8 ∨ (Ix.perpPlaceOrder ∉ ownerOnly ∧ (IsDelegate histA 0 8 ∨ IsTemporary histA 0 8 4000)) :=
  C71_rights (s' := stA) (ix := .perpPlaceOrder) (is := [0]) (j := 0) rfl runA rfl rfl (by decide)
example : step { stA with now := 5000 } (.other .perpPlaceOrder 8 [0]) = .ok { stA with now := 5000 } ∧ step { stA with now := 5001 } (.other .perpPlaceOrder 8 [0]) = .error .someError ∧
    step { stA with now := 5001 } (.other .perpPlaceOrder 7 [0]) = .ok { stA with now := 5001 } ∧ step stA (.other .expand 7 [0]) = .error .someError ∧
    step stA (.other .perpPlaceOrder 8 [1]) = .error .someError ∧ step stA (.other .tokenLiqWithToken 8 [0, 1]) = .ok stA ∧ step stA (.other .tokenLiqWithToken 8 [1, 0]) = .error .someError :=
  ⟨rfl, rfl, rfl, rfl, rfl, rfl, rfl⟩

/-- the admin freezes account 0; 604800 seconds (a week) later it is still frozen, a second more and it is usable -/
def histF : List (Nat × Op) := histA ++ [(4000, .toggleFreeze 1 0 true), (4000, .tick 604800)]
def stF : State := ⟨608800, 1, [{ owner := 5, delegate := 7, temporaryDelegate := 8, temporaryDelegateExpiry := 5000, sequence := 1, frozenUntil := 608800 }, { owner := 6 }]⟩
theorem runF : Run run0 histF stF := exec_run [.toggleFreeze 1 0 true, .tick 604800] (s' := stF) (h' := histF) runA rfl
theorem frozenF : IsFrozen histF 0 stF.now := ⟨4000, 1, rfl, by decide⟩
example (s' : State) : step stF (.edit 5 0 true none none none) ≠ .ok s' := C71_freeze rfl (by decide) runF frozenF rfl
example (s' : State) : step stF (.other .tokenLiqWithToken 6 [1, 0]) ≠ .ok s' := C71_freeze rfl (by decide) runF frozenF ⟨1, rfl, by decide⟩
example : ∃ s', step { stF with now := 608801 } (.edit 5 0 true none none none) = .ok s' := ⟨_, rfl⟩
example : ∃ s', step stA (.edit 5 0 false (some 9) (some 10) (some 600000)) = .ok s' ∧ IsDelegate (histA ++ [(stA.now, .edit 5 0 false (some 9) (some 10) (some 600000))]) 0 9 :=
  C71_owner_can_edit (a := { owner := 5, delegate := 7, temporaryDelegate := 8, temporaryDelegateExpiry := 5000, sequence := 1 }) rfl (by decide) runA rfl rfl
    (by rintro ⟨t, k, h, _⟩; exact absurd h (by simp [last, histA, toggles])) rfl (by decide) (by decide) (by decide)

/-- `C71_admin`: the admin 1 names 2 -/
example : (∃ k, Op.setAdmin 1 2 = .setAdmin k 2) ∧ 2 ≠ 0 ∧ ((last namesAdmin histA = none ∧ signer (.setAdmin 1 2) = run0.admin) ∨ ∃ t k, last namesAdmin histA = some (t, .setAdmin k (signer (.setAdmin 1 2)))) :=
  C71_admin (s' := { stA with admin := 2 }) rfl runA rfl (by decide)

/-- `C71_sequence`: the numbers run through 0 to 255 and begin again -/
def checksFrom : Nat → Nat → List Op
  | 0, _ => []
  | m + 1, n => .sequenceCheck 5 0 (n % 256) :: checksFrom m (n + 1)
theorem seq_wraps : (exec run0 [] (.create 5 :: checksFrom 257 0)).toOption.isSome = true ∧ step stA (.sequenceCheck 5 0 0) = .error .someError := ⟨by decide +kernel, rfl⟩

/-- **Finding (freezing)**: the comment at account_toggle_freeze.rs:6-7 says that only processing of perp events and forced cancellation of orders are possible on a frozen account. The owner or a
delegate can also cancel perp orders by `perp_cancel_all_orders` and `perp_cancel_order_by_client_order_id`, but not by `perp_cancel_order`; and an account that receives fee buybacks is not
protected at all, because the paying account is asked twice (accounts_ix/account_buyback_fees_with_mngo.rs:25) -/
theorem C71_frozen_still : step stF (.other .perpCancelAllOrders 7 [0]) = .ok stF ∧ step stF (.other .perpCancelOrderByClientOrderId 5 [0]) = .ok stF ∧
    step stF (.other .perpCancelOrder 5 [0]) = .error .someError ∧ step stF (.other .buybackFees 6 [1, 0]) = .ok stF :=
  ⟨rfl, rfl, rfl, rfl⟩

/-- **Finding (temporary delegate)**: a temporary delegate cannot be named or removed alone: the call is refused unless the name or the delegate is set with it -/
theorem C71_temporary_alone (a : Fixed) (now : Nat) (t : Key) (e : Nat) : editFixed a now false none (some t) (some e) = .error .someError := rfl

end Auth
end Mango
