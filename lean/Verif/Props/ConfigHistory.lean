import Verif.Props.Config
import Verif.Tcs.Lemmas
/-!
# C66: configurations over any history, and the weaker guarantees of perp and spot markets
-/
namespace Mango
namespace Config
open Fx

/-- a token and its banks after any number of successful instructions, by any signers at any time -/
inductive History : Token → Prop
  | register {env : Env} {a : RegisterArgs} {t : Token} : register env a = .ok t → History t
  | trustless {env : Env} {g g' : Listings} {i : Nat} {n : String} {t : Token} : registerTrustless env g i n = .ok (t, g') → History t
  | edit {env : Env} {e : Edit} {t t' : Token} : History t → tokenEdit env t e = .ok t' → History t'
  | addBank {env : Env} {k : Nat} {t t' : Token} : History t → addBank env t k = .ok t' → History t'

theorem register_ok {env : Env} {a : RegisterArgs} {t : Token} (h : register env a = .ok t) :
    env.signer = env.admin ∧ ∃ c, Valid c ∧ c.oracle = env.oracleKey ∧ c.fallback = env.fallbackKey ∧
      t = { banks := [c], oracle := env.oracleKey, fallback := env.fallbackKey, insurance := a.insurance } := by
  unfold register at h
  simp only [bind_ok] at h
  obtain ⟨_, hs, x1, _, x2, _, x3, _, x4, _, x5, _, x6, _, x7, _, x8, _, x9, _, x10, _, x11, _, x12, _, x13, _, x14, _, _, _, x15, _, x16, _, _, hv, _, _, h⟩ := h
  rw [require_ok] at hs
  exact ⟨hs.symm, _, verify_iff.mp hv, rfl, rfl, (ok_inj.mp h).symm⟩

theorem trustless_ok {env : Env} {g g' : Listings} {i : Nat} {n : String} {t : Token} (h : registerTrustless env g i n = .ok (t, g')) :
    (env.signer = env.admin ∨ env.signer = env.fast) ∧ Valid (trustlessCfg env.oracleKey env.fallbackKey n) ∧ fastListing g env.now = .ok g' ∧
      t = { banks := [trustlessCfg env.oracleKey env.fallbackKey n], oracle := env.oracleKey, fallback := env.fallbackKey, insurance := false } := by
  unfold registerTrustless at h
  simp only [bind_ok, require_ok, ok_inj, Prod.mk.injEq] at h
  obtain ⟨_, hs, _, _, _, _, g1, hg, _, hv, _, _, rfl, rfl⟩ := h
  exact ⟨hs.imp Eq.symm Eq.symm, verify_iff.mp hv, hg, rfl⟩

theorem addBank_ok {env : Env} {k : Nat} {t t' : Token} (h : addBank env t k = .ok t') :
    env.signer = env.admin ∧ env.testing = true ∧ ∃ c, t.banks[k]? = some c ∧ t.banks.length < 6 ∧ t' = { t with banks := t.banks ++ [{ c with fallback := c.oracle }] } := by
  unfold addBank at h
  simp only [bind_ok, require_ok] at h
  obtain ⟨_, h1, _, h2, h⟩ := h
  split at h
  · cases h
  · rename_i c hc
    simp only [bind_ok, require_ok, ok_inj] at h
    obtain ⟨_, h3, rfl⟩ := h
    exact ⟨h1.symm, h2, c, hc, h3, rfl⟩

/-- every bank is valid, follows the token's oracle, and has the configuration of every other, apart from the fallback oracle -/
structure Coherent (t : Token) : Prop where
  nonempty : t.banks ≠ []
  valid : ∀ c ∈ t.banks, Valid c
  oracle : ∀ c ∈ t.banks, c.oracle = t.oracle
  alike : ∀ c ∈ t.banks, ∀ d ∈ t.banks, Alike c d
  count : t.banks.length ≤ 6

theorem coherent_one {c : Cfg} {f : Nat} {i : Bool} (h : Valid c) : Coherent { banks := [c], oracle := c.oracle, fallback := f, insurance := i } := by
  refine ⟨by simp, ?_, ?_, ?_, by simp⟩
  · intro d hd
    rw [List.mem_singleton.mp hd]; exact h
  · intro d hd
    rw [List.mem_singleton.mp hd]
  · intro d hd d' hd'
    rw [List.mem_singleton.mp hd, List.mem_singleton.mp hd']
    exact Alike.rfl' _

theorem coherent_edit {env : Env} {e : Edit} {t t' : Token} (ht : Coherent t) (h : tokenEdit env t e = .ok t') : Coherent t' := by
  obtain ⟨h1, h2, _, _, ⟨c0, cs, h4, hv⟩, _⟩ := C66_edit h
  have back : ∀ c' ∈ t'.banks, ∃ c ∈ t.banks, Edited env e c c' := by
    intro c' hc'
    obtain ⟨i, hi, ei⟩ := List.getElem_of_mem hc'
    have hi' : i < t.banks.length := by rw [h1.length_eq]; exact hi
    refine ⟨t.banks[i], List.getElem_mem hi', ?_⟩
    rw [← ei]
    exact h1.get hi' hi
  have al : ∀ c' ∈ t'.banks, ∀ d' ∈ t'.banks, Alike c' d' := by
    intro c' hc d' hd
    obtain ⟨c, m1, g1⟩ := back c' hc
    obtain ⟨d, m2, g2⟩ := back d' hd
    exact edited_alike (ht.alike c m1 d m2) g1 g2
  have hm : c0 ∈ t'.banks := by rw [h4]; exact List.mem_cons_self
  refine ⟨by rw [h4]; simp, fun c hc => hv.alike (al c0 hm c hc), ?_, al, ?_⟩
  · intro c' hc
    obtain ⟨c, m1, g1⟩ := back c' hc
    rw [g1.oracle, h2, ht.oracle c m1]
  · rw [← h1.length_eq]; exact ht.count

/-- **C66.** After any history of registration, edits and added banks, by any signers, every bank of the token has a valid configuration, the banks of a token agree on all settings (apart from the fallback
oracle, see `C66_fallback_differs`), and their oracle is the one recorded for the token. -/
theorem C66_valid {t : Token} (h : History t) : Coherent t := by
  induction h with
  | register h =>
    obtain ⟨_, c, hv, ho, _, rfl⟩ := register_ok h
    rw [← ho]
    exact coherent_one hv
  | trustless h =>
    obtain ⟨_, hv, _, rfl⟩ := trustless_ok h
    exact coherent_one hv
  | edit _ h ih => exact coherent_edit ih h
  | addBank _ h ih =>
    obtain ⟨_, _, c, hc, hl, rfl⟩ := addBank_ok h
    have hc := List.mem_of_getElem? hc
    have al : Alike c { c with fallback := c.oracle } := rfl
    refine ⟨by simp, ?_, ?_, ?_, by simp; omega⟩
    · intro d hd
      rcases List.mem_append.mp hd with hd | hd
      · exact ih.valid d hd
      · rw [List.mem_singleton.mp hd]
        exact (ih.valid c hc).fallback _
    · intro d hd
      rcases List.mem_append.mp hd with hd | hd
      · exact ih.oracle d hd
      · rw [List.mem_singleton.mp hd]
        exact ih.oracle c hc
    · intro d hd d' hd'
      rcases List.mem_append.mp hd with hd | hd <;> rcases List.mem_append.mp hd' with hd' | hd'
      · exact ih.alike d hd d' hd'
      · rw [List.mem_singleton.mp hd']
        exact (ih.alike d hd c hc).trans al
      · rw [List.mem_singleton.mp hd]
        exact al.symm.trans (ih.alike c hc d' hd')
      · rw [List.mem_singleton.mp hd, List.mem_singleton.mp hd']
        exact Alike.rfl' _

/-- **C66.** Only the group admin registers tokens or adds banks, only the group admin or the fast listing admin lists tokens by the fixed configuration, and only the group admin or the security admin
edits. -/
theorem C66_authority {env : Env} :
    (∀ {a : RegisterArgs} {t : Token}, register env a = .ok t → env.signer = env.admin) ∧
    (∀ {g g' : Listings} {i : Nat} {n : String} {t : Token}, registerTrustless env g i n = .ok (t, g') → env.signer = env.admin ∨ env.signer = env.fast) ∧
    (∀ {t t' : Token} {k : Nat}, addBank env t k = .ok t' → env.signer = env.admin) ∧
    (∀ {t t' : Token} {e : Edit}, tokenEdit env t e = .ok t' → env.signer = env.admin ∨ env.signer = env.security) :=
  ⟨fun h => (register_ok h).1, fun h => (trustless_ok h).1, fun h => (addBank_ok h).1, fun h => (C66_edit h).2.2.2.2.2.imp id And.left⟩

/-! ## What valid configurations are good for -/

/-- the bank's state carries this configuration: what the other models call a bank. Floats appear there as the I80F48 values they are converted to. -/
structure On (c : Cfg) (b : Bank) : Prop where
  util0 : b.util0 = c.util0
  util1 : b.util1 = c.util1
  rate0 : b.rate0 = c.rate0
  rate1 : b.rate1 = c.rate1
  maxRate : b.maxRate = c.maxRate
  zeroUtil : b.zeroUtilRate = c.zeroUtil
  loanFee : b.loanFeeRate = c.loanFee
  originationFee : b.loanOriginationFeeRate = c.originationFee
  initAsset : b.initAssetWeight = c.initAsset
  maintAsset : b.maintAssetWeight = c.maintAsset
  initLiab : b.initLiabWeight = c.initLiab
  maintLiab : b.maintLiabWeight = c.maintLiab
  minVault : c.minVault.toFx = .ok b.minVaultToDepositsRatio
  netBorrowLimit : b.netBorrowLimitPerWindowQuote = c.netBorrowLimit
  reduceOnly : b.reduceOnly = c.reduceOnly
  curveScaling : c.curveScaling.toFx = .ok b.curveScaling
  shiftInv : b.maintWeightShiftDurationInv = c.shiftInv
  shiftAsset : b.maintWeightShiftAssetTarget = c.shiftAsset
  shiftLiab : b.maintWeightShiftLiabTarget = c.shiftLiab

/-- **C66.** Every bank that carries the configuration of a token with any history passes the checks of the bank model (C01–C10, C20): its interest rates are as assumed there, and its weights are in order. -/
theorem C66_banks {t : Token} (h : History t) {c : Cfg} (hc : c ∈ t.banks) {b : Bank} (hb : On c b) :
    b.verify = .ok () ∧ b.RatesOk ∧ 0 ≤ b.initAssetWeight ∧ b.initAssetWeight ≤ b.maintAssetWeight ∧ 0 ≤ b.maintLiabWeight ∧ b.maintLiabWeight ≤ b.initLiabWeight := by
  have v := (C66_valid h).valid c hc
  have low : ∀ {f : Flt} {x : I80F48} {q : ℚ} {y : I80F48}, f.toFx = .ok x → f.AtLeast q → Swap.toFx q = .ok y → y ≤ x := by
    rintro f x q y h1 (rfl | rfl | ⟨r, rfl, h2⟩) h3
    · cases h1
    · cases h1
    · exact Swap.toFx_mono h2 h3 h1
  have up : ∀ {f : Flt} {x : I80F48} {q : ℚ} {y : I80F48}, f.toFx = .ok x → f.AtMost q → Swap.toFx q = .ok y → x ≤ y := by
    rintro f x q y h1 (rfl | rfl | ⟨r, rfl, h2⟩) h3
    · cases h1
    · cases h1
    · exact Swap.toFx_mono h2 h1 h3
  have z : Swap.toFx 0 = .ok 0 := by decide +kernel
  have o : Swap.toFx 1 = .ok ONE := by decide +kernel
  have hv : b.verify = .ok () := by
    unfold Bank.verify
    simp only [bind_ok, require_ok, exists_const]
    rw [hb.util0, hb.util1, hb.rate0, hb.rate1, hb.maxRate, hb.zeroUtil, hb.loanFee, hb.originationFee, hb.initAsset, hb.maintAsset, hb.initLiab, hb.maintLiab, hb.netBorrowLimit, hb.reduceOnly, hb.shiftInv,
      hb.shiftAsset, hb.shiftLiab]
    exact ⟨v.curve.1, v.curve.2.1, v.curve.2.2, v.rates.2.1, v.rates.2.2.1, v.rates.2.2.2.1, v.fees.1, v.fees.2.1, v.assetWeights.1, v.assetWeights.2, v.liabWeights.1, v.liabWeights.2,
      low hb.minVault v.vault.1 z, up hb.minVault v.vault.2 o, v.borrowLimit, v.reduceOnly, low hb.curveScaling v.curveScaling o, v.shift.1, v.shift.2.1, v.shift.2.2, v.rates.1⟩
  refine ⟨hv, Bank.RatesOk.of_verify hv, ?_⟩
  rw [hb.initAsset, hb.maintAsset, hb.initLiab, hb.maintLiab]
  exact ⟨v.assetWeights.1, v.assetWeights.2, v.liabWeights.1, v.liabWeights.2⟩

/-- **C66.** Aborting a weight shift, by whoever, freezes the maintenance weights at the values they have at that moment, if the edit sets no weights or shift itself. -/
theorem C66_abort {env : Env} {t t' : Token} {e : Edit} (h : tokenEdit env t e = .ok t') (ha : e.shiftAbort = true) (h1 : e.maintAsset = none) (h2 : e.maintLiab = none) (h3 : e.shiftStart = none)
    (h4 : e.shiftEnd = none) :
    List.Forall₂ (fun c c' => ∀ now, c'.maintWeights now = c.maintWeights env.now) t.banks t'.banks := by
  refine (C66_edit h).1.imp ?_
  intro c c' g now
  obtain ⟨a, l, m1, m2, m3⟩ := g.maint
  rw [h1] at m1
  rw [h2] at m2
  have e5 := g.shiftInv
  rw [h3, h4, ha] at e5
  simp only [Option.isSome_none, Bool.false_eq_true, or_self, if_false, if_true] at e5
  rw [if_pos ha, show a = _ from m1, show l = _ from m2] at m3
  have m3 : c.maintWeights env.now = .ok (c'.maintAsset, c'.maintLiab) := m3
  rw [m3]
  unfold Cfg.maintWeights Bank.maintWeights
  rw [if_pos (Or.inl (show c'.weights.maintWeightShiftDurationInv = 0 from e5))]
  rfl

end Config
end Mango
