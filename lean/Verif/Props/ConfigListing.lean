import Verif.Props.ConfigHistory
/-!
# C67: listing tokens without the group admin
-/
namespace Mango
namespace Config
open Fx

theorem trustless_valid (o f : Nat) (n : String) : Valid (trustlessCfg o f n) := by
  have low : ∀ {q r : ℚ}, q ≤ r → (Flt.num r).AtLeast q := fun h => Or.inr (Or.inr ⟨_, rfl, h⟩)
  have up : ∀ {q r : ℚ}, r ≤ q → (Flt.num r).AtMost q := fun h => Or.inr (Or.inr ⟨_, rfl, h⟩)
  have ab : ∀ {q r : ℚ}, q < r → (Flt.num r).Above q := fun h => Or.inr (Or.inr ⟨_, rfl, h⟩)
  refine ⟨?_, ?_, ?_, low (by norm_num), ⟨low (by norm_num), up (by norm_num)⟩, ?_, ⟨low (by norm_num), low (by norm_num), low (by norm_num), low (by norm_num)⟩, ?_, ?_, ?_,
    ⟨low (by norm_num), low (by norm_num)⟩, ⟨low (by norm_num), up (by norm_num)⟩, ?_, ⟨ab (by norm_num), ab (by norm_num)⟩, ?_, ?_, ?_⟩
  · show (0 : Int) ≤ 1000 * S; decide
  · exact ⟨(by decide : (0 : Int) ≤ 140737488355328), (by decide : (140737488355328 : Int) ≤ 211106232532992), (by decide : (211106232532992 : Int) ≤ S)⟩
  · exact ⟨(by decide : (0 : Int) ≤ 0), (by decide : (0 : Int) ≤ 5066549580792), (by decide : (0 : Int) ≤ 14073748835533), (by decide : (0 : Int) ≤ 140737488355328), (by decide : (0 : Int) ≤ 1125899906843)⟩
  · exact ⟨(by decide : (0 : Int) ≤ 1407374883553), (by decide : (0 : Int) ≤ 562949953421), (by decide : (0 : Int) ≤ 14073748835533), (by decide : (0 : Int) ≤ 14073748835533)⟩
  · exact ⟨(by decide : (0 : Int) ≤ 0), (by decide : (0 : Int) ≤ 0)⟩
  · exact ⟨(by decide : (0 : Int) ≤ 394064967394918), (by decide : (394064967394918 : Int) ≤ 506654958079181)⟩
  · exact ⟨(by decide : (0 : Int) ≤ 0), (by decide : (0 : Int) ≤ 0), (by decide : (0 : Int) ≤ 0)⟩
  · show (-1 : Int) ≤ 5000000000; decide
  · show 2 ≤ 2; decide
  · intro _; exact ⟨Or.inr rfl, rfl⟩
  · intro h; cases h

/-- **C67.** A token listed by the fast listing admin: it cannot be borrowed, counts nothing as collateral at any time, cannot be taken by liquidators, is not covered by the insurance fund, charges
positive weights above one for debt, and is of tier C; its configuration is valid. Nothing in it can be chosen, but the oracles and the name. -/
theorem C67_listing {env : Env} {g g' : Listings} {i : Nat} {n : String} {t : Token} (h : registerTrustless env g i n = .ok (t, g')) :
    t.insurance = false ∧ t.oracle = env.oracleKey ∧ ∃ c, t.banks = [c] ∧ Valid c ∧ c.oracle = env.oracleKey ∧ c.fallback = env.fallbackKey ∧ c.name = n ∧ c.tier = "C" ∧
      c.borrowsReduceOnly = true ∧ c.depositsReduceOnly = false ∧ c.initAsset = 0 ∧ (∀ now, c.maintWeights now = .ok (0, c.maintLiab)) ∧ S < c.maintLiab ∧ c.maintLiab < c.initLiab ∧
      c.disableAssetLiq = true ∧ c.forceClose = false ∧ c.forceWithdraw = false := by
  obtain ⟨_, hv, _, rfl⟩ := trustless_ok h
  refine ⟨rfl, rfl, _, rfl, hv, rfl, rfl, rfl, rfl, rfl, rfl, rfl, ?_, (by decide : (S : Int) < 394064967394918), (by decide : (394064967394918 : Int) < 506654958079181), rfl, rfl, rfl⟩
  intro now
  unfold Cfg.maintWeights Bank.maintWeights
  rw [if_pos (Or.inl (show (trustlessCfg env.oracleKey env.fallbackKey n).weights.maintWeightShiftDurationInv = 0 from rfl))]
  rfl

/-- **C67.** The listing itself fails only for a wrong signer or index, an exhausted quota, or an unusable fallback oracle. -/
theorem C67_complete {env : Env} {g g' : Listings} {i : Nat} {n : String} (hs : env.signer = env.admin ∨ env.signer = env.fast) (h0 : i ≠ 0) (h1 : i ≠ 65535) (hg : fastListing g env.now = .ok g')
    (hf : env.fallbackValid = true) : ∃ t, registerTrustless env g i n = .ok (t, g') := by
  unfold registerTrustless
  simp only [bind_ok, require_ok, ok_inj, Prod.mk.injEq]
  exact ⟨_, (), hs.imp Eq.symm Eq.symm, (), h0, (), h1, g', hg, (), verify_iff.mpr (trustless_valid _ _ _), (), hf, rfl, rfl⟩

/-- listings at the given times, each with the limit per week in force at that time -/
def listings (g : Listings) : List (Int × Int) → Res Listings
  | [] => .ok g
  | (now, allowed) :: es => do
    let g ← fastListing { g with allowed := allowed } now
    listings g es

/-- number of listings in a week, counted from the epoch -/
def inWeek (es : List (Int × Int)) (w : Int) : Nat := (es.filter (fun e => decide (e.1 / WEEK = w))).length

theorem fastListing_ok {g g' : Listings} {now : Int} (h : fastListing g now = .ok g') :
    g'.allowed = g.allowed ∧ g'.count ≤ g.allowed ∧
    ((g.start + WEEK ≤ now ∧ g'.start = now / WEEK * WEEK ∧ g'.count = 1) ∨ (now < g.start + WEEK ∧ g'.start = g.start ∧ g'.count = g.count + 1)) := by
  unfold fastListing at h
  simp only [bind_ok, cku64_ok, require_ok, ok_inj] at h
  obtain ⟨fin, ⟨rfl, _⟩, _, _, _, h2, rfl⟩ := h
  by_cases hc : now ≥ g.start + WEEK
  · rw [if_pos hc] at h2 ⊢
    exact ⟨rfl, h2, Or.inl ⟨hc, rfl, rfl⟩⟩
  · rw [if_neg hc] at h2 ⊢
    exact ⟨rfl, h2, Or.inr ⟨by omega, rfl, rfl⟩⟩

theorem listings_inv {A : Int} : ∀ {es : List (Int × Int)} {g g' : Listings} {w : Int}, listings g es = .ok g' → g.start = w * WEEK → (∀ e ∈ es, w * WEEK ≤ e.1) → es.Pairwise (fun a b => a.1 ≤ b.1) →
    (∀ e ∈ es, e.2 ≤ A) → 0 ≤ g.count → ∀ k, (inWeek es k : Int) + (if k = w then g.count else 0) ≤ max A (if k = w then g.count else 0) := by
  intro es
  induction es with
  | nil =>
    intro g g' w _ _ _ _ _ _ k
    simp only [inWeek, List.filter_nil, List.length_nil]
    omega
  | cons e es ih =>
    obtain ⟨now, al⟩ := e
    intro g g' w h hs hge hp hA h0 k
    simp only [listings, bind_ok] at h
    obtain ⟨g1, h1, h2⟩ := h
    obtain ⟨_, hle, hcase⟩ := fastListing_ok h1
    dsimp only at hle hcase
    have hal : al ≤ A := hA (now, al) List.mem_cons_self
    have hnow : w * WEEK ≤ now := hge (now, al) List.mem_cons_self
    rw [List.pairwise_cons] at hp
    have hA' : ∀ e ∈ es, e.2 ≤ A := fun e he => hA e (List.mem_cons_of_mem _ he)
    have hw : (inWeek ((now, al) :: es) k : Int) = (if now / WEEK = k then 1 else 0) + inWeek es k := by
      unfold inWeek
      by_cases hk : now / WEEK = k
      · simp [hk, Int.add_comm]
      · simp [hk]
    rcases hcase with ⟨c1, c2, c3⟩ | ⟨c1, c2, c3⟩
    · have := ih h2 c2 (fun e he => by have := hp.1 e he; dsimp only at this; simp only [WEEK] at *; omega) hp.2 hA' (by omega) k
      rw [hw]
      have hne : now / WEEK ≠ w := by simp only [WEEK] at *; omega
      by_cases hk : k = now / WEEK
      · rw [if_pos hk] at this
        rw [if_pos hk.symm, if_neg (by rw [hk]; exact hne)]
        omega
      · rw [if_neg hk] at this
        rw [if_neg (Ne.symm hk)]
        by_cases hkw : k = w
        · rw [if_pos hkw]
          -- no listing after this one falls into an earlier week
          have hz : inWeek es k = 0 := by
            unfold inWeek
            rw [List.length_eq_zero_iff, List.filter_eq_nil_iff]
            intro e he
            have := hp.1 e he
            dsimp only at this
            rw [decide_eq_true_eq, hkw]
            simp only [WEEK] at *
            omega
          rw [hz]
          omega
        · rw [if_neg hkw]
          omega
    · have hwk : now / WEEK = w := by simp only [WEEK] at *; omega
      have := ih h2 (c2.trans hs) (fun e he => hge e (List.mem_cons_of_mem _ he)) hp.2 hA' (by omega) k
      rw [hw, hwk]
      by_cases hk : k = w
      · rw [if_pos hk] at this ⊢
        rw [if_pos hk.symm]
        omega
      · rw [if_neg hk] at this ⊢
        rw [if_neg (Ne.symm hk)]
        omega

/-- **C67.** The quota: however the listings are spread over time, in no week (counted from the epoch) are there more of them than the group allows. -/
theorem C67_quota {A : Int} (hA : 0 ≤ A) {es : List (Int × Int)} {g : Listings} {a : Int} (h : listings ⟨0, 0, a⟩ es = .ok g) (h0 : ∀ e ∈ es, 0 ≤ e.1) (hp : es.Pairwise (fun a b => a.1 ≤ b.1))
    (ha : ∀ e ∈ es, e.2 ≤ A) (week : Int) : (inWeek es week : Int) ≤ A := by
  have := listings_inv (w := 0) h (by rw [Int.zero_mul]) (fun e he => by rw [Int.zero_mul]; exact h0 e he) hp ha (le_refl _) week
  have e : (if week = 0 then (0 : Int) else 0) = 0 := by split <;> rfl
  rw [e] at this
  omega

/-- a case: two listings in a week that allows two, a third one in the next week; a third one in the same week fails -/
example : (listings ⟨0, 0, 2⟩ [(WEEK * 2900 + 5, 2), (WEEK * 2900 + 604799, 2), (WEEK * 2901, 2)]).map (fun g => (g.start / WEEK, g.count)) = .ok (2901, 1) ∧
    (listings ⟨0, 0, 2⟩ [(WEEK * 2900 + 5, 2), (WEEK * 2900 + 7, 2), (WEEK * 2900 + 604799, 2)]).map (fun g => (g.start / WEEK, g.count)) = .error .requireFailed := by
  decide +kernel

/-- **C67 (spot markets).** Only the group admin and the fast listing admin list spot markets. The fast listing admin cannot choose the price band: 19 if the base token cannot be borrowed and has no
maintenance collateral weight and deposits of the quote token are not limited, 1 otherwise. The market starts without restrictions. -/
theorem C67_spot {env : Env} {base quote : Cfg} {n : String} {band : Flt} {c : SpotCfg} :
    spotListing env base quote n band = .ok c ↔
      c = { reduceOnly := false, forceClose := false, name := n, band := band } ∧
      (env.signer = env.admin ∨ (env.signer = env.fast ∧
        if (base.reduceOnly = 1 ∨ base.reduceOnly = 2) ∧ base.maintAsset = 0 ∧ quote.depositScale = F64_MAX ∧ quote.depositLimit = 0 then band = .num 19 else band = .num 1)) := by
  have hc : (base.borrowsReduceOnly && decide (base.maintAsset = 0) && (decide (quote.depositScale = F64_MAX) && decide (quote.depositLimit = 0))) = true ↔
      (base.reduceOnly = 1 ∨ base.reduceOnly = 2) ∧ base.maintAsset = 0 ∧ quote.depositScale = F64_MAX ∧ quote.depositLimit = 0 := by
    simp only [Cfg.borrowsReduceOnly, Bool.and_eq_true, Bool.or_eq_true, beq_iff_eq, decide_eq_true_eq, and_assoc]
  unfold spotListing
  by_cases ha : env.signer = env.admin
  · rw [if_pos ha]
    constructor
    · intro h
      cases h
      exact ⟨rfl, .inl ha⟩
    · rintro ⟨rfl, _⟩
      rfl
  · rw [if_neg ha]
    by_cases hf : env.signer = env.fast
    · rw [if_pos hf]
      simp only [bind_ok, ok_inj]
      constructor
      · rintro ⟨_, rfl, _, h1, rfl⟩
        refine ⟨rfl, .inr ⟨hf, ?_⟩⟩
        rw [if_pos rfl] at h1
        split at h1
        · rename_i hx
          rw [if_pos (hc.mp hx)]
          exact (require_ok).mp h1
        · rename_i hx
          rw [if_neg (fun h => hx (hc.mpr h))]
          exact (require_ok).mp h1
      · rintro ⟨rfl, h1 | ⟨_, h1⟩⟩
        · exact absurd h1 ha
        · refine ⟨true, rfl, (), ?_, rfl⟩
          rw [if_pos rfl]
          split
          · rename_i hx
            rw [if_pos (hc.mp hx)] at h1
            exact (require_ok).mpr h1
          · rename_i hx
            rw [if_neg (fun h => hx (hc.mpr h))] at h1
            exact (require_ok).mpr h1
    · rw [if_neg hf]
      constructor
      · intro h
        cases h
      · rintro ⟨_, h | ⟨h, _⟩⟩
        · exact absurd h ha
        · exact absurd h hf

/-! ## Findings -/

/-- the group admin (1), security admin (2) and fast listing admin (3) -/
def exEnvC (signer : Nat) : Env := { now := 1000, admin := 1, security := 2, fast := 3, signer := signer, oracleKey := 77, fallbackKey := 88, testing := true }

/-- the fast listing admin lists a market for its token, with the wide band against a token without deposit limits -/
example : let q : Cfg := { trustlessCfg 1 2 "Q" with depositScale := F64_MAX }
    (spotListing (exEnvC 3) (trustlessCfg 77 88 "X") q "X/Q" (.num 19)).isOk = true ∧ (spotListing (exEnvC 3) (trustlessCfg 77 88 "X") q "X/Q" (.num 1)).isOk = false ∧
    (spotListing (exEnvC 3) q (trustlessCfg 77 88 "X") "Q/X" (.num 1)).isOk = true ∧ (spotListing (exEnvC 3) q (trustlessCfg 77 88 "X") "Q/X" (.num 19)).isOk = false ∧
    (spotListing (exEnvC 1) q (trustlessCfg 77 88 "X") "Q/X" (.num 5)).isOk = true ∧ (spotListing (exEnvC 2) q (trustlessCfg 77 88 "X") "Q/X" (.num 1)).isOk = false := by
  refine ⟨?_, ?_, ?_, ?_, ?_, ?_⟩ <;> decide +kernel

def exListed : Token := { banks := [trustlessCfg 77 88 "X"], oracle := 77, fallback := 88, insurance := false }

theorem exListed_history : History exListed :=
  History.trustless (env := exEnvC 3) (g := ⟨0, 0, 5⟩) (g' := ⟨0, 1, 5⟩) (i := 4) (n := "X") (by
    obtain ⟨t, ht⟩ := C67_complete (env := exEnvC 3) (g := ⟨0, 0, 5⟩) (g' := ⟨0, 1, 5⟩) (i := 4) (n := "X") (Or.inr rfl) (by decide) (by decide) rfl rfl
    obtain ⟨_, _, _, rfl⟩ := trustless_ok ht
    exact ht)

/-- **An added bank gets the wrong fallback oracle** (bank.rs:380 copies `existing_bank.oracle`): the banks of a token can disagree on it. -/
theorem C66_fallback_differs : ∃ t : Token, History t ∧ ∃ c ∈ t.banks, ∃ d ∈ t.banks, c.fallback = t.fallback ∧ d.fallback ≠ t.fallback ∧ d.fallback = d.oracle := by
  refine ⟨_, History.addBank (env := exEnvC 1) (k := 0) exListed_history rfl, _, List.mem_cons_self, _, List.mem_cons_of_mem _ List.mem_cons_self, rfl, ?_, rfl⟩
  decide

/-- the admin raises the weights of the listed token and starts liquidating it, by lowering the maintenance asset weight from 1/2 to 0 over 1000 seconds; the initial weight stays 1/4 -/
def exUp : Edit := { maintAsset := some (.num (1/2)), initAsset := some (.num (1/4)), disableAssetLiq := some false, shiftStart := some 1000, shiftEnd := some 2000, shiftAsset := some (.num 0),
                     shiftLiab := some (.num (7/5)) }
def exUpT : Res Token := tokenEdit (exEnvC 1) exListed exUp

def tokOf (r : Res Token) : Token := match r with | .ok t => t | .error _ => exListed
theorem tokOf_eq {r : Res Token} (h : r.toOption.isSome = true) : r = .ok (tokOf r) := by
  cases r with
  | ok t => rfl
  | error e => cases h

/-- **The order of the weights is checked only for the stored ones**: during a shift the maintenance asset weight can fall below the initial one, so that an account that may take new loans can be
liquidated at once. The security admin then cannot even abort the shift (the checks fail), unless it also sets the initial weight to zero. -/
theorem C66_shift_order : ∃ t, History t ∧ (∃ c ∈ t.banks, c.initAsset = S / 4 ∧ ∃ a l, c.maintWeights 1800 = .ok (a, l) ∧ a < S / 9) ∧
    tokenEdit { exEnvC 2 with now := 1800 } t { shiftAbort := true } = .error .requireFailed ∧ ∃ t', tokenEdit { exEnvC 2 with now := 1800 } t { shiftAbort := true, initAsset := some (.num 0) } = .ok t' := by
  have h : exUpT = .ok (tokOf exUpT) := tokOf_eq (by decide +kernel)
  refine ⟨tokOf exUpT, History.edit exListed_history h, ?_, by decide +kernel, _, tokOf_eq (by decide +kernel)⟩
  have hb : ∃ c ∈ (tokOf exUpT).banks, c.initAsset = S / 4 ∧ c.maintWeights 1800 = .ok (28147497671328, 394064967394918) := by decide +kernel
  obtain ⟨c, h1, h2, h3⟩ := hb
  exact ⟨c, h1, h2, _, _, h3, by decide⟩

/-- the listed token gets a shift of its asset weight from zero to one half -/
def exStuckT : Res Token := tokenEdit (exEnvC 1) exListed { shiftStart := some 1000, shiftEnd := some 2000, shiftAsset := some (.num (1/2)), shiftLiab := some (.num (3/2)) }

/-- **Disabling asset liquidation is checked only against the stored weight too**: a token that liquidators cannot take gets a positive maintenance weight by a shift. Such deposits keep up the health of an
account, yet nobody can liquidate them. -/
theorem C66_shift_unliquidatable : ∃ t, History t ∧ ∃ c ∈ t.banks, c.disableAssetLiq = true ∧ c.maintWeights 3000 = .ok (S / 2, S / 2 * 3) := by
  have h : exStuckT = .ok (tokOf exStuckT) := tokOf_eq (by decide +kernel)
  exact ⟨tokOf exStuckT, History.edit exListed_history h, by decide +kernel⟩

def exNanT : Res Token := tokenEdit (exEnvC 1) exListed { stableGrowth := some .nan, collateralFee := some .nan, borrowScale := some .nan, flashFee := some .nan }

/-- **Not-a-number passes all checks** of the float settings. -/
theorem C66_nan : ∃ t, History t ∧ ∃ c ∈ t.banks, c.stableGrowth = .nan ∧ c.collateralFee = .nan ∧ c.borrowScale = .nan ∧ c.flashFee = .nan := by
  have h : exNanT = .ok (tokOf exNanT) := tokOf_eq (by decide +kernel)
  exact ⟨tokOf exNanT, History.edit exListed_history h, by decide +kernel⟩

def exZeroT : Res Token := tokenEdit (exEnvC 1) exListed { netBorrowWindow := some 0, forceClose := some true }
def exZeroT2 : Res Token := tokenEdit (exEnvC 1) (tokOf exZeroT) { reduceOnly := some 0, disableAssetLiq := some false }

/-- **Settings that are not checked**: a borrow window of length zero (token_register refuses it by a division by zero, token_edit accepts it; every later index update divides by it), and forced closing of
borrows in a token that is no longer reduce-only. -/
theorem C66_unchecked : ∃ t, History t ∧ ∃ c ∈ t.banks, c.netBorrowWindow = 0 ∧ c.forceClose = true ∧ c.reduceOnly = 0 := by
  have h : exZeroT = .ok (tokOf exZeroT) := tokOf_eq (by decide +kernel)
  have h2 : exZeroT2 = .ok (tokOf exZeroT2) := tokOf_eq (by decide +kernel)
  exact ⟨tokOf exZeroT2, History.edit (History.edit exListed_history h) h2, by decide +kernel⟩

/-! ## Cases -/

/-- C66_security: the security admin makes the token reduce-only and removes its collateral value -/
def exSafe : Edit := { initAsset := some (.num 0), reduceOnly := some 1, platformFee := some (.num 0), collateralFee := some (.num 0), shiftAbort := true }

example : (tokenEdit { exEnvC 2 with now := 1500 } (tokOf exUpT) exSafe).map (fun t => t.banks.map (fun c => (c.initAsset, c.reduceOnly, c.maintAsset, c.maintLiab, c.shiftInv))) =
    .ok [(0, 1, 70368744177828, 394064967394918, 0)] ∧
    -- what the security admin may not do
    tokenEdit (exEnvC 2) exListed { reduceOnly := some 0 } = .error .someError ∧ tokenEdit (exEnvC 2) exListed { initAsset := some (.num (1/2)) } = .error .someError ∧
    tokenEdit (exEnvC 2) exListed { oracle := some 5 } = .error .someError ∧ tokenEdit (exEnvC 3) exListed exSafe = .error .someError := by
  decide +kernel

end Config
end Mango
