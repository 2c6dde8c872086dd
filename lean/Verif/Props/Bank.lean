import Verif.Bank.Solvency
/-!
# Property theorems: token banks (C01 - C12, C47)

Conventions: all I80F48 values are bit patterns (number times 2^48 = `S`).  `b.Pos` says both indexes are positive
(an invariant of every token history, see `C02_totals`).  Exact (unrounded) native values are `indexed * index`,
which carry an additional factor `S`.
-/
namespace Mango
namespace Bank
open Fx

/-- A concrete bank used in the non-vacuity examples: indexes 1.5 and 2.25 million-ish, some deposits and borrows. -/
def exBank : Bank :=
  { depositIndex := 1000003 * S + 77, borrowIndex := 1000007 * S + 13
    indexedDeposits := 5 * S, indexedBorrows := 2 * S
    loanOriginationFeeRate := S / 1000, loanFeeRate := S / 2000
    netBorrowLimitPerWindowQuote := 1000000, netBorrowLimitWindowSizeTs := 86400
    lastNetBorrowsWindowStartTs := 86400
    depositLimit := 10000000, potentialSerumTokens := 17
    stablePrice := S
    util0 := 4 * S / 10, rate0 := 7 * S / 100, util1 := 8 * S / 10, rate1 := 9 * S / 10, maxRate := 3 * S / 2
    initLiabWeight := 2 * S, maintLiabWeight := S, maintAssetWeight := S }

theorem exBank_verify : exBank.verify = .ok () := by decide
theorem exBank_pos : exBank.Pos := by unfold Pos; decide

/-! ## C01 -/

/-- C01: crediting a non-negative position and then debiting the same amount never borrows and never pays a fee;
for every bank with positive indexes, every amount, both with-fee and without-fee withdrawals, with and without
dusting, at any two times. -/
theorem C01_deposit_withdraw_no_borrow {b b1 b2 : Bank} {p p1 p2 : TokenPosition} {amt : I80F48} {a withFee d1 d2 : Bool}
    {w : WithdrawResult} {t1 t2 : Int} (hb : b.Pos) (hp : 0 ≤ p.indexed)
    (hdep : b.depositWrapper p amt d1 t1 = .ok (b1, p1, a))
    (hwd : b1.withdrawWrapper p1 amt withFee d2 t2 = .ok (b2, p2, w)) :
    0 ≤ p2.indexed ∧ w.loanOriginationFee = 0 ∧ w.loanAmount = 0 ∧
      b2.indexedBorrows = b.indexedBorrows ∧ b2.collectedFeesNative = b.collectedFeesNative ∧
      b2.netBorrowsInWindow = b.netBorrowsInWindow := by
  obtain ⟨q1, h1, e1, _⟩ := depositWrapper_ok hdep
  obtain ⟨ha, hc1⟩ := depositInternal_ok hb h1
  obtain ⟨q2, h2, e2, _⟩ := withdrawWrapper_ok hwd
  have hc1' : ∃ c, divRoundingUp amt b.depositIndex = .ok c ∧
      b1 = { b with indexedDeposits := b.indexedDeposits + c } ∧ q1 = { p with indexed := p.indexed + c } := by
    cases hc1 with
    | add c _ hc => exact ⟨c, hc, rfl, rfl⟩
    | repay c st nb hp' => omega
    | dust c st nb hp' => omega
    | cross c d st nb hp' => omega
  obtain ⟨c, hc, rfl, rfl⟩ := hc1'
  have hb1 : ({ b with indexedDeposits := b.indexedDeposits + c } : Bank).Pos := hb
  have hcc := divRoundingUp_ok hc ha hb.1
  have hc2 := (withdrawInternal_ok hb1 h2).2
  rw [e2]
  cases hc2 with
  | dust hp1 n hn h0 h1 hd => exact ⟨Int.le_refl 0, rfl, rfl, rfl, rfl, rfl⟩
  | part hp1 n hn h0 =>
    have := part_le hb1 ha hp1 hn h0
    refine ⟨by dsimp only at *; omega, rfl, rfl, rfl, rfl, rfl⟩
  | borrow n rest tot st nb hn hlt =>
    exfalso
    have hn' := native_ok hn
    rw [e1] at hn'
    dsimp only at hn'
    have hpi : 0 ≤ p.indexed * b.depositIndex := Int.mul_nonneg hp hb.1.le
    have e : (p.indexed + c) * b.depositIndex = p.indexed * b.depositIndex + c * b.depositIndex := by ring
    split at hn'
    · have : amt ≤ n := by
        rw [hn', le_floor_iff, e]
        have := le_floor_iff.mp hcc.2.1
        omega
      omega
    · have hc0 : c = 0 := by omega
      have hp0 : p.indexed = 0 := by omega
      have : amt ≤ 0 := by have h3 := hcc.2.1; rw [hc0] at h3; simpa using h3
      rw [hp0, hc0] at hn'
      simp at hn'
      omega

/-- C01 is about the public calls too. -/
theorem C01_public {b b1 b2 : Bank} {p p1 p2 : TokenPosition} {amt : I80F48} {a : Bool}
    {w : WithdrawResult} {t1 t2 : Int} (hb : b.Pos) (hp : 0 ≤ p.indexed)
    (hdep : b.deposit p amt t1 = .ok (b1, p1, a))
    (hwd : b1.withdrawWithFee p1 amt t2 = .ok (b2, p2, w)) :
    0 ≤ p2.indexed ∧ w.loanOriginationFee = 0 ∧ w.loanAmount = 0 ∧
      b2.indexedBorrows = b.indexedBorrows ∧ b2.collectedFeesNative = b.collectedFeesNative :=
  have h := C01_deposit_withdraw_no_borrow hb hp hdep hwd
  ⟨h.1, h.2.1, h.2.2.1, h.2.2.2.1, h.2.2.2.2.1⟩

example : ∃ b1 p1 a b2 p2 w, exBank.deposit { indexed := 12345 } (3 * S + 5) 100 = .ok (b1, p1, a) ∧
    b1.withdrawWithFee p1 (3 * S + 5) 101 = .ok (b2, p2, w) ∧ p2.indexed ≠ 12345 := by
  refine ⟨_, _, _, _, _, _, rfl, rfl, ?_⟩
  decide

/-! ## C03, C04 -/

/-- The native value a position is shown as (`TokenPosition::native`), without overflow. -/
def nativeOf (b : Bank) (p : TokenPosition) : Int :=
  if p.indexed > 0 then p.indexed * b.depositIndex / S else p.indexed * b.borrowIndex / S

/-- C03: a deposit that keeps the position open raises the native value by at least the deposited amount, and by
less than one index step plus one bit more - from any starting position, borrowed or not. -/
theorem C03_deposit_rounding {b b1 : Bank} {p p1 : TokenPosition} {amt : I80F48} {d : Bool} {t : Int}
    (hb : b.Pos) (hdep : b.depositWrapper p amt d t = .ok (b1, p1, true)) :
    nativeOf b p + amt ≤ nativeOf b p1 ∧
      (nativeOf b p1 - nativeOf b p - amt) * S < max b.depositIndex b.borrowIndex + S := by
  obtain ⟨q1, h1, e1, _⟩ := depositWrapper_ok hdep
  obtain ⟨ha, hc1⟩ := depositInternal_ok hb h1
  have hS := S_pos
  have hdi := hb.1
  have hbi := hb.2
  have key : ∀ x y z : Int, (x - y - z) * S = x * S - y * S - z * S := by intros; ring
  unfold nativeOf
  rw [e1, key]
  cases hc1 with
  | add c hp hc =>
    have hcc := divRoundingUp_ok hc ha hdi
    have h2 := le_floor_iff.mp hcc.2.1
    have m0 := mulFloor_bounds (p.indexed * b.depositIndex)
    have m1 := mulFloor_bounds ((p.indexed + c) * b.depositIndex)
    have e : (p.indexed + c) * b.depositIndex = p.indexed * b.depositIndex + c * b.depositIndex := by ring
    dsimp only
    by_cases hp0 : 0 < p.indexed
    · rw [if_pos hp0, if_pos (by omega)]
      have : p.indexed * b.depositIndex / S + amt ≤ (p.indexed + c) * b.depositIndex / S := by
        rw [le_floor_iff, e]
        have : (p.indexed * b.depositIndex / S + amt) * S = p.indexed * b.depositIndex / S * S + amt * S := by ring
        omega
      exact ⟨this, by omega⟩
    · have hpz : p.indexed = 0 := by omega
      rw [if_neg hp0, hpz]
      rw [hpz] at m1 e
      simp only [Int.zero_mul, Int.zero_add, Int.zero_ediv] at *
      by_cases hc0 : 0 < c
      · rw [if_pos hc0]; exact ⟨hcc.2.1, by omega⟩
      · have hc0' : c = 0 := by omega
        rw [if_neg hc0]
        subst hc0'
        have : amt ≤ 0 := by simpa using hcc.2.1
        have : amt = 0 := by omega
        subst this
        simp; omega
  | repay c st nb hp hw hc hn =>
    have hcc := divRoundingUp_ok hc ha hbi
    have h2 := le_floor_iff.mp hcc.2.1
    have m0 := mulFloor_bounds (p.indexed * b.borrowIndex)
    have m1 := mulFloor_bounds ((p.indexed + c) * b.borrowIndex)
    have e : (p.indexed + c) * b.borrowIndex = p.indexed * b.borrowIndex + c * b.borrowIndex := by ring
    dsimp only
    rw [if_neg (by omega), if_neg (by omega)]
    have : p.indexed * b.borrowIndex / S + amt ≤ (p.indexed + c) * b.borrowIndex / S := by
      rw [le_floor_iff, e]
      have : (p.indexed * b.borrowIndex / S + amt) * S = p.indexed * b.borrowIndex / S * S + amt * S := by ring
      omega
    exact ⟨this, by omega⟩
  | cross c d st nb hp hw hc hn hd =>
    have m0 := mulFloor_bounds (p.indexed * b.borrowIndex)
    have hcc := divRoundingUp_ok hc ha hbi
    have hm : 0 ≤ max (p.indexed * b.borrowIndex / S + amt) 0 := by omega
    have hdd := divRoundingUp_ok hd hm hdi
    have h2 := le_floor_iff.mp hdd.2.1
    have m1 := mulFloor_bounds (d * b.depositIndex)
    have h5 : 0 ≤ (p.indexed + c) * b.borrowIndex := Int.mul_nonneg hn hbi.le
    have e5 : (p.indexed + c) * b.borrowIndex = p.indexed * b.borrowIndex + c * b.borrowIndex := by ring
    dsimp only
    rw [if_neg (show ¬ p.indexed > 0 by omega), Int.zero_add]
    generalize p.indexed * b.borrowIndex / S = n at *
    have e6 : (n + amt) * S = n * S + amt * S := by ring
    by_cases hdp : 0 < d
    · rw [if_pos hdp]
      refine ⟨by have := hdd.2.1; omega, ?_⟩
      by_cases hneg : n + amt < 0
      · have : d = 0 := hdd.2.2.2.2 (by omega)
        omega
      · have e7 : max (n + amt) 0 = n + amt := by omega
        rw [e7] at hdd h2
        have := hdd.2.2.2.1
        omega
    · have hd0 : d = 0 := by omega
      rw [if_neg hdp, hd0]
      have h8 := hdd.2.1
      rw [hd0] at h8
      simp only [Int.zero_mul, Int.zero_ediv] at *
      refine ⟨by omega, ?_⟩
      have hcc4 := hcc.2.2.2.1
      omega

/-- C04: what a withdrawal borrows and charges.  `w` is the reported result. -/
theorem C04_withdraw_excess {b b1 : Bank} {p p1 : TokenPosition} {amt : I80F48} {withFee d : Bool} {t : Int}
    {w : WithdrawResult} (hb : b.Pos) (hr : 0 ≤ b.loanOriginationFeeRate)
    (hwd : b.withdrawWrapper p amt withFee d t = .ok (b1, p1, w)) :
    (amt ≤ nativeOf b p → 0 ≤ p.indexed ∧ 0 ≤ p1.indexed ∧ w.loanOriginationFee = 0 ∧ w.loanAmount = 0 ∧
      b1.indexedBorrows = b.indexedBorrows ∧ b1.collectedFeesNative = b.collectedFeesNative) ∧
    (nativeOf b p < amt →
      let excess := amt - max (nativeOf b p) 0
      let fee := if withFee then b.loanOriginationFeeRate * excess / S else 0
      w.loanOriginationFee = fee ∧ w.loanAmount = excess + fee ∧
      b1.collectedFeesNative = b.collectedFeesNative + fee ∧ p1.indexed ≤ 0 ∧
      ∃ newBorrow, 0 ≤ newBorrow ∧ b1.indexedBorrows = b.indexedBorrows + newBorrow ∧
        p1.indexed = min p.indexed 0 - newBorrow ∧
        newBorrow * b.borrowIndex ≤ (excess + fee) * S ∧ (excess + fee) * S < newBorrow * b.borrowIndex + b.borrowIndex) := by
  obtain ⟨q1, h1, e1, _⟩ := withdrawWrapper_ok hwd
  obtain ⟨ha, hc⟩ := withdrawInternal_ok hb h1
  have hS := S_pos
  rw [e1]
  cases hc with
  | dust hp n hn h0 h1 hd =>
    have : n = nativeOf b p := native_ok hn
    subst this
    exact ⟨fun _ => ⟨hp, Int.le_refl 0, rfl, rfl, rfl, rfl⟩, fun h => by omega⟩
  | part hp n hn h0 =>
    have hle := part_le hb ha hp hn h0
    have : n = nativeOf b p := native_ok hn
    subst this
    exact ⟨fun _ => ⟨hp, by dsimp only; omega, rfl, rfl, rfl, rfl⟩, fun h => by omega⟩
  | borrow n rest tot st nb hn hlt hw hrest htot =>
    have : n = nativeOf b p := native_ok hn
    subst this
    refine ⟨fun h => by omega, fun _ => ?_⟩
    have hf := feeOf_nonneg (wf := withFee) hr (amt := rest) (by omega)
    have ht0 : 0 ≤ tot := by omega
    have tb := tdiv_bounds (a := tot * S) (b := b.borrowIndex) (Int.mul_nonneg ht0 hS.le) hb.2
    subst hrest
    subst htot
    dsimp only
    unfold feeOf at *
    refine ⟨rfl, rfl, rfl, by omega, _, tb.2.2, rfl, rfl, tb.1, tb.2.1⟩

example : ∃ b1 p1 w, exBank.withdrawWithFee { indexed := S / 1000000 } (3 * S) 100 = .ok (b1, p1, w) ∧
    nativeOf exBank { indexed := S / 1000000 } < 3 * S ∧ 0 < nativeOf exBank { indexed := S / 1000000 } ∧
    0 < w.loanOriginationFee := by
  refine ⟨_, _, _, rfl, ?_, ?_, ?_⟩ <;> decide


/-! ## C02, C47: totals and solvency over every history -/

/-- `History cfg s`: `s` is reached from a freshly registered token with configuration `cfg` by any number of
operations of any kind, by any number of users.  The side condition `SocialOk` restricts only loss socialization
(the loss is below the total deposits). -/
inductive History (cfg : Bank) : TokenState → Prop
  | start : cfg.verify = .ok () → History cfg (TokenState.fresh cfg)
  | step {s s' : TokenState} {op : TokenOp} : History cfg s → SocialOk s op → Bank.step s op = .ok s' → History cfg s'

theorem History.inv {cfg : Bank} {s : TokenState} (h : History cfg s) : Inv s := by
  induction h with
  | start hv => exact fresh_inv hv
  | step _ hso hs ih => exact step_inv ih hso hs

/-- C02: after every history, over all banks of the token, indexed deposits are exactly the sum of the positive
positions and indexed borrows exactly the sum of the magnitudes of the negative ones; and all indexes are positive. -/
theorem C02_totals {cfg : Bank} {s : TokenState} (h : History cfg s) :
    (s.banks.map (·.indexedDeposits)).sum = (s.positions.map (fun p => max p.indexed 0)).sum ∧
    (s.banks.map (·.indexedBorrows)).sum = (s.positions.map (fun p => max (-p.indexed) 0)).sum ∧
    ∀ b ∈ s.banks, 0 < b.depositIndex ∧ 0 < b.borrowIndex :=
  ⟨h.inv.deposits, h.inv.borrows, fun b hb => (h.inv.good b hb).1⟩

/-- C02 for a token with a single bank. -/
theorem C02_totals_single {cfg b : Bank} {s : TokenState} (h : History cfg s) (hb : s.banks = [b]) :
    b.indexedDeposits = (s.positions.map (fun p => max p.indexed 0)).sum ∧
    b.indexedBorrows = (s.positions.map (fun p => max (-p.indexed) 0)).sum := by
  have := C02_totals h
  rw [hb] at this
  exact ⟨by simpa using this.1, by simpa using this.2.1⟩

/-- Run a list of operations. -/
def runOps : TokenState → List TokenOp → Res TokenState
  | s, [] => .ok s
  | s, op :: ops => do
      let s' ← step s op
      runOps s' ops

/-- A concrete history: two users, a deposit, a borrow with fee, a transfer, an index update. -/
def exOps : List TokenOp :=
  [.open, .open, .pos (.deposit (1000 * S)) 0 0 false 100000, .pos (.withdrawWithFee (300 * S + 5)) 0 1 false 100001,
   .transfer 0 0 1 (7 * S) (7 * S) 100002 S, .updateIndex 103000 S S, .addBank,
   .pos (.depositWithDusting (3 * S)) 1 1 false 103001, .updateIndex 104000 S S]

theorem exOps_ok : ∃ s, runOps (TokenState.fresh exBank) exOps = .ok s ∧ s.banks.length = 2 ∧
    (s.positions.map (fun p => max (-p.indexed) 0)).sum > 0 := by
  have h : (match runOps (TokenState.fresh exBank) exOps with
    | .ok s => decide (s.banks.length = 2 ∧ (s.positions.map (fun p => max (-p.indexed) 0)).sum > 0)
    | .error _ => false) = true := by decide +kernel
  split at h
  · next s hs => exact ⟨s, hs, by simpa using h⟩
  · simp at h

/-- a list of operations without loss socialization gives a history -/
theorem History.of_run {cfg : Bank} {s s' : TokenState} {ops : List TokenOp} (h : History cfg s)
    (hno : ∀ op ∈ ops, ∀ k i l t, op ≠ .socialize k i l t) (hr : runOps s ops = .ok s') : History cfg s' := by
  induction ops generalizing s with
  | nil => rw [runOps, ok_inj] at hr; subst hr; exact h
  | cons op ops ih =>
    simp only [runOps, bind_ok] at hr
    obtain ⟨s1, h1, h2⟩ := hr
    refine ih (h.step (op := op) ?_ h1) (fun o ho => hno o (List.mem_cons_of_mem _ ho)) h2
    have := hno op (List.mem_cons_self ..)
    cases op <;> first | trivial | exact absurd rfl (this _ _ _ _)

example : ∃ s, History exBank s ∧ s.banks.length = 2 ∧ (s.positions.map (fun p => max (-p.indexed) 0)).sum > 0 := by
  obtain ⟨s, h, h1, h2⟩ := exOps_ok
  exact ⟨s, (History.start exBank_verify).of_run (by simp [exOps]) h, h1, h2⟩

/-- Histories with their rounding slack; here loss socialization is only followed for single-bank tokens. -/
inductive SolventHistory (cfg : Bank) : TokenState → Int → Prop
  | start : cfg.verify = .ok () → SolventHistory cfg (TokenState.fresh cfg) 0
  | step {s s' : TokenState} {op : TokenOp} {σ : Int} : SolventHistory cfg s σ → SocialOk s op → SoloSocial s op →
      Bank.step s op = .ok s' → SolventHistory cfg s' (σ + stepSlack s op)

theorem SolventHistory.history {cfg : Bank} {s : TokenState} {σ : Int} (h : SolventHistory cfg s σ) :
    History cfg s := by
  induction h with
  | start hv => exact .start hv
  | step _ hso _ hs ih => exact .step ih hso hs

/-- C47: at every point of every history all banks of the token share one pair of indexes, and what all users could
claim net of what they owe, plus uncollected fees and dust, exceeds the net token inflow by at most the accumulated
rounding: one index step per position change, one indexed unit per deposit bit and two per borrow bit per index
update.  All terms carry a factor `S^2` relative to native tokens. -/
theorem C47_solvent {cfg : Bank} {s : TokenState} {σ : Int} (h : SolventHistory cfg s σ) :
    ∃ di bi, (∀ b ∈ s.banks, b.depositIndex = di ∧ b.borrowIndex = bi) ∧
      (s.positions.map (fun p => max p.indexed 0 * di - max (-p.indexed) 0 * bi)).sum +
      (s.banks.map (fun b => (b.dust + b.collectedFeesNative - b.feesWithdrawn * S) * S)).sum ≤ s.vault * S + σ := by
  induction h with
  | start hv => exact ⟨1000000 * S, 1000000 * S, by simp [TokenState.fresh], by simp [TokenState.fresh]⟩
  | step hh hso hsolo hs ih =>
    obtain ⟨di, bi, hc, hcl⟩ := ih
    exact step_solvent hh.history.inv hc hcl hso hsolo hs

/-- The slack is small: one position change adds at most the sum of the two indexes, i.e. (divided by `S^2`) an
`2^-48` fraction of the price of one indexed unit. -/
theorem C47_slack_pos (s : TokenState) (op : PosOp) (k i : Nat) (c : Bool) (t : Int) :
    stepSlack s (.pos op k i c t) = (headIndexes s).1 + (headIndexes s).2 := rfl

theorem SolventHistory.of_run {cfg : Bank} {s s' : TokenState} {ops : List TokenOp} {σ : Int}
    (h : SolventHistory cfg s σ)
    (hno : ∀ op ∈ ops, ∀ k i l t, op ≠ .socialize k i l t) (hr : runOps s ops = .ok s') :
    ∃ σ', SolventHistory cfg s' σ' := by
  induction ops generalizing s σ with
  | nil => rw [runOps, ok_inj] at hr; subst hr; exact ⟨σ, h⟩
  | cons op ops ih =>
    simp only [runOps, bind_ok] at hr
    obtain ⟨s1, h1, h2⟩ := hr
    have := hno op (List.mem_cons_self ..)
    refine ih (h.step (op := op) ?_ ?_ h1) (fun o ho => hno o (List.mem_cons_of_mem _ ho)) h2
    · cases op <;> first | trivial | exact absurd rfl (this _ _ _ _)
    · cases op <;> first | trivial | exact absurd rfl (this _ _ _ _)

example : ∃ s σ, SolventHistory exBank s σ ∧ s.banks.length = 2 := by
  obtain ⟨s, h, h1, _⟩ := exOps_ok
  obtain ⟨σ, hσ⟩ := (SolventHistory.start exBank_verify).of_run (by simp [exOps]) h
  exact ⟨s, σ, hσ, h1⟩

/-! ## C05: net borrow window -/

/-- One net-borrow event: amount (I80F48, negative for repayments) and time. -/
structure NetBorrowEvent where
  amount : I80F48
  time : Int

/-- Amount an event counts for: rounded up to an integer, saturating at i64. -/
def NetBorrowEvent.native (e : NetBorrowEvent) : Int := clampToI64 (-((-e.amount) / S) * S)

/-- Feed events to the bank. -/
def feedNetBorrows : Bank → List NetBorrowEvent → Res Bank
  | b, [] => .ok b
  | b, e :: es => do
      let b' ← b.updateNetBorrows e.amount e.time
      feedNetBorrows b' es

/-- times are non-decreasing, starting at `t` -/
def Chronological : Int → List NetBorrowEvent → Prop
  | _, [] => True
  | t, e :: es => t ≤ e.time ∧ Chronological e.time es

/-- time of the last event -/
def lastTime : Int → List NetBorrowEvent → Int
  | t, [] => t
  | _, e :: es => lastTime e.time es

/-- the window (of size `w`) a time falls in -/
def windowOf (w t : Int) : Int := t / w

theorem lastTime_ge {t : Int} {es : List NetBorrowEvent} (h : Chronological t es) : t ≤ lastTime t es := by
  induction es generalizing t with
  | nil => exact Int.le_refl t
  | cons e es ih => exact Int.le_trans h.1 (ih h.2)

theorem updateNetBorrows_spec {b b' : Bank} {a t : Int} (hw : 0 < b.netBorrowLimitWindowSizeTs)
    (hm : b.lastNetBorrowsWindowStartTs = windowOf b.netBorrowLimitWindowSizeTs t0 * b.netBorrowLimitWindowSizeTs)
    (ht : t0 ≤ t) (h : b.updateNetBorrows a t = .ok b') :
    b'.netBorrowLimitWindowSizeTs = b.netBorrowLimitWindowSizeTs ∧
    b'.lastNetBorrowsWindowStartTs = windowOf b.netBorrowLimitWindowSizeTs t * b.netBorrowLimitWindowSizeTs ∧
    b'.netBorrowsInWindow = (if windowOf b.netBorrowLimitWindowSizeTs t = windowOf b.netBorrowLimitWindowSizeTs t0
      then b.netBorrowsInWindow else 0) + clampToI64 (-((-a) / S) * S) := by
  unfold updateNetBorrows at h
  simp only [bind_ok, cku64_ok, ceil_ok] at h
  obtain ⟨we, ⟨rfl, _⟩, c, ⟨rfl, _⟩, h⟩ := h
  rw [hm] at h
  generalize hW : b.netBorrowLimitWindowSizeTs = w at *
  unfold windowOf at *
  have hmono : t0 / w ≤ t / w := Int.ediv_le_ediv hw ht
  have e : t0 / w * w + w = (t0 / w + 1) * w := by ring
  split at h
  · next hge =>
    rw [e, ge_iff_le, ← Int.le_ediv_iff_mul_le hw] at hge
    rw [if_neg (by omega), ok_inj] at h
    subst h
    refine ⟨rfl, rfl, ?_⟩
    rw [if_neg (by omega)]; simp
  · next hlt =>
    rw [e, ge_iff_le, ← Int.le_ediv_iff_mul_le hw] at hlt
    simp only [bind_ok, ck64_ok, ok_inj] at h
    obtain ⟨x, ⟨rfl, _⟩, rfl⟩ := h
    have : t / w = t0 / w := by omega
    refine ⟨rfl, by rw [this], ?_⟩
    rw [if_pos this]

/-- C05: for every chronological sequence of borrow and repay events, the counter equals the sum of the events in
the window of the last event (plus what the counter held before, if still in that window); the recorded window start
is the multiple of the window size at or below the last event. -/
theorem C05_window_counter {b b' : Bank} {es : List NetBorrowEvent} {t0 : Int} (hw : 0 < b.netBorrowLimitWindowSizeTs)
    (hm : b.lastNetBorrowsWindowStartTs = windowOf b.netBorrowLimitWindowSizeTs t0 * b.netBorrowLimitWindowSizeTs)
    (hc : Chronological t0 es) (h : feedNetBorrows b es = .ok b') :
    let w := b.netBorrowLimitWindowSizeTs
    let tn := lastTime t0 es
    b'.lastNetBorrowsWindowStartTs = windowOf w tn * w ∧
    b'.netBorrowsInWindow = (if windowOf w tn = windowOf w t0 then b.netBorrowsInWindow else 0) +
      ((es.filter (fun e => windowOf w e.time = windowOf w tn)).map NetBorrowEvent.native).sum := by
  dsimp only
  induction es generalizing b t0 with
  | nil =>
    simp only [feedNetBorrows, ok_inj] at h
    subst h
    simp [lastTime, hm]
  | cons e es ih =>
    simp only [feedNetBorrows, bind_ok] at h
    obtain ⟨b1, h1, h2⟩ := h
    obtain ⟨s1, s2, s3⟩ := updateNetBorrows_spec hw hm hc.1 h1
    have := ih (b := b1) (t0 := e.time) (by rw [s1]; exact hw) (by rw [s1]; exact s2) hc.2 h2
    rw [s1] at this
    refine ⟨this.1, ?_⟩
    rw [this.2, s3]
    rw [show lastTime t0 (e :: es) = lastTime e.time es from rfl]
    have hl := lastTime_ge hc.2
    generalize hW : b.netBorrowLimitWindowSizeTs = w at *
    have m1 : windowOf w t0 ≤ windowOf w e.time := Int.ediv_le_ediv hw hc.1
    have m2 : windowOf w e.time ≤ windowOf w (lastTime e.time es) := Int.ediv_le_ediv hw hl
    unfold NetBorrowEvent.native at *
    by_cases h3 : windowOf w (lastTime e.time es) = windowOf w e.time
    · rw [if_pos h3, List.filter_cons_of_pos (by simpa using h3.symm), List.map_cons, List.sum_cons, h3]; omega
    · rw [if_neg h3, List.filter_cons_of_neg (by simpa using fun h => h3 h.symm), if_neg (by omega)]

/-- C05: a passed check means the counter, priced at the larger of oracle and stable price, is within the limit
(when a limit is set and the counter is not negative). -/
theorem C05_check_sound {b : Bank} {price : I80F48} (h : b.checkNetBorrows price = .ok ())
    (hl : 0 ≤ b.netBorrowLimitPerWindowQuote) (hn : 0 ≤ b.netBorrowsInWindow) :
    b.netBorrowsInWindow * max price b.stablePrice ≤ b.netBorrowLimitPerWindowQuote * S := by
  unfold checkNetBorrows remainingNetBorrowsQuote at h
  rw [if_neg (by omega)] at h
  simp only [bind_ok, mulInt_ok, sub_ok, ite_ok, err_ok] at h
  obtain ⟨r, ⟨q, ⟨rfl, _⟩, rfl, _⟩, h⟩ := h
  rcases h with ⟨_, h⟩ | ⟨h, _⟩
  · exact h.elim
  · unfold Fx.ofInt at h
    have : b.netBorrowsInWindow * max price b.stablePrice = max price b.stablePrice * b.netBorrowsInWindow := by ring
    omega

/-- C05: the check accepts exactly the states within the limit, the boundary included, as long as the product and the
difference are representable. -/
theorem C05_check_exact {b : Bank} {price : I80F48} 
    (hl : 0 ≤ b.netBorrowLimitPerWindowQuote) (hn : 0 ≤ b.netBorrowsInWindow)
    (hr : Fx.inRange (b.netBorrowsInWindow * max price b.stablePrice))
    (hd : Fx.inRange (b.netBorrowLimitPerWindowQuote * S - b.netBorrowsInWindow * max price b.stablePrice)) :
    (b.checkNetBorrows price = .ok () ↔ b.netBorrowsInWindow * max price b.stablePrice ≤ b.netBorrowLimitPerWindowQuote * S) ∧
    (b.checkNetBorrows price ≠ .ok () → b.checkNetBorrows price = .error .bankNetBorrowsLimitReached) := by
  have e : b.netBorrowsInWindow * max price b.stablePrice = max price b.stablePrice * b.netBorrowsInWindow := by ring
  rw [e] at hr hd ⊢
  have h1 : Fx.mulInt (max price b.stablePrice) b.netBorrowsInWindow = .ok (max price b.stablePrice * b.netBorrowsInWindow) := by
    rw [mulInt_ok]; exact ⟨rfl, hr⟩
  have h2 : Fx.sub (Fx.ofInt b.netBorrowLimitPerWindowQuote) (max price b.stablePrice * b.netBorrowsInWindow) =
      .ok (b.netBorrowLimitPerWindowQuote * S - max price b.stablePrice * b.netBorrowsInWindow) := by
    rw [sub_ok]; exact ⟨rfl, hd⟩
  have h3 : b.remainingNetBorrowsQuote price = .ok (b.netBorrowLimitPerWindowQuote * S - max price b.stablePrice * b.netBorrowsInWindow) := by
    unfold remainingNetBorrowsQuote
    rw [if_neg (by omega)]
    simp only [bind_ok]
    exact ⟨_, h1, h2⟩
  have h4 : b.checkNetBorrows price = if b.netBorrowLimitPerWindowQuote * S - max price b.stablePrice * b.netBorrowsInWindow < 0 then
      .error .bankNetBorrowsLimitReached else .ok () := by
    unfold checkNetBorrows; rw [h3]; rfl
  rw [h4]
  split
  · refine ⟨⟨fun h => by simp at h, fun h => by omega⟩, fun _ => rfl⟩
  · refine ⟨⟨fun _ => by omega, fun _ => rfl⟩, fun h => absurd rfl h⟩

/-- C05: the check refuses when the limit is exceeded. -/
theorem C05_check_refuses {b : Bank} {price : I80F48} 
    (hl : 0 ≤ b.netBorrowLimitPerWindowQuote) (hn : 0 ≤ b.netBorrowsInWindow)
    (hx : b.netBorrowLimitPerWindowQuote * S < b.netBorrowsInWindow * max price b.stablePrice) :
    b.checkNetBorrows price ≠ .ok () := by
  intro h
  have := C05_check_sound h hl hn
  omega

/-- C05: which event a withdrawal feeds: the reported loan amount if it borrows, nothing otherwise. -/
theorem C05_withdraw_event {b b1 : Bank} {p p1 : TokenPosition} {amt : I80F48} {withFee d : Bool} {t : Int}
    {w : WithdrawResult} (hb : b.Pos) (hwd : b.withdrawWrapper p amt withFee d t = .ok (b1, p1, w)) :
    (amt ≤ nativeOf b p → b1.netBorrowsInWindow = b.netBorrowsInWindow ∧
      b1.lastNetBorrowsWindowStartTs = b.lastNetBorrowsWindowStartTs) ∧
    (nativeOf b p < amt → ∃ b', b.updateNetBorrows w.loanAmount t = .ok b' ∧
      b1.netBorrowsInWindow = b'.netBorrowsInWindow ∧
      b1.lastNetBorrowsWindowStartTs = b'.lastNetBorrowsWindowStartTs) := by
  obtain ⟨q1, h1, e1, _⟩ := withdrawWrapper_ok hwd
  obtain ⟨ha, hc⟩ := withdrawInternal_ok hb h1
  cases hc with
  | dust hp n hn h0 h1 hd =>
    have : n = nativeOf b p := native_ok hn
    subst this
    exact ⟨fun _ => ⟨rfl, rfl⟩, fun h => by omega⟩
  | part hp n hn h0 =>
    have : n = nativeOf b p := native_ok hn
    subst this
    exact ⟨fun _ => ⟨rfl, rfl⟩, fun h => by omega⟩
  | borrow n rest tot st nb hn hlt hw hrest htot =>
    have : n = nativeOf b p := native_ok hn
    subst this
    refine ⟨fun h => by omega, fun _ => ?_⟩
    obtain ⟨b0, b1', hu, g1, g2, g3, g4, g5⟩ := hw
    unfold updateNetBorrows at hu ⊢
    rw [g1, g2, g3] at hu
    simp only [bind_ok, cku64_ok, ceil_ok] at hu ⊢
    obtain ⟨we, hwe, c, hc, hu⟩ := hu
    split at hu
    · next hge =>
      split at hu
      · simp at hu
      · next hw0 =>
        rw [ok_inj] at hu
        refine ⟨_, ⟨we, hwe, c, hc, by rw [if_pos hge, if_neg hw0]⟩, ?_, ?_⟩
        · rw [← g5, ← hu]
        · rw [← g4, ← hu]
    · next hlt' =>
      simp only [bind_ok, ck64_ok, ok_inj] at hu
      obtain ⟨x, hx, hu⟩ := hu
      refine ⟨{ b with netBorrowsInWindow := x }, ⟨we, hwe, c, hc, ?_⟩, ?_, ?_⟩
      · rw [if_neg hlt']; simp only [bind_ok, ck64_ok, ok_inj]; exact ⟨x, hx, rfl⟩
      · rw [← g5, ← hu]
      · rw [← g4, ← hu]

/-- C05: which event a deposit feeds: on a borrowed position minus the repaid part of the borrow, nothing
otherwise. -/
theorem C05_deposit_event {b b1 : Bank} {p p1 : TokenPosition} {amt : I80F48} {d a : Bool} {t : Int}
    (hb : b.Pos) (hdep : b.depositWrapper p amt d t = .ok (b1, p1, a)) :
    (0 ≤ p.indexed → b1.netBorrowsInWindow = b.netBorrowsInWindow ∧
      b1.lastNetBorrowsWindowStartTs = b.lastNetBorrowsWindowStartTs) ∧
    (p.indexed < 0 → ∃ b', b.updateNetBorrows (-(min amt (-nativeOf b p))) t = .ok b' ∧
      b1.netBorrowsInWindow = b'.netBorrowsInWindow ∧
      b1.lastNetBorrowsWindowStartTs = b'.lastNetBorrowsWindowStartTs) := by
  obtain ⟨q1, h1, e1, _⟩ := depositWrapper_ok hdep
  obtain ⟨ha, hc⟩ := depositInternal_ok hb h1
  have e : p.indexed < 0 → max (p.indexed * b.borrowIndex / S) (-amt) = -(min amt (-nativeOf b p)) := by
    intro h; unfold nativeOf; rw [if_neg (by omega)]; omega
  cases hc with
  | add c hp hc => exact ⟨fun _ => ⟨rfl, rfl⟩, fun h => by omega⟩
  | repay c st nb hp hw hc hn =>
    rw [e hp] at hw
    exact ⟨fun h => by omega, fun _ => ⟨_, hw, rfl, rfl⟩⟩
  | dust c st nb hp hw hc hn hd' hdust =>
    rw [e hp] at hw
    exact ⟨fun h => by omega, fun _ => ⟨_, hw, rfl, rfl⟩⟩
  | cross c d st nb hp hw hc hn hd' =>
    rw [e hp] at hw
    exact ⟨fun h => by omega, fun _ => ⟨_, hw, rfl, rfl⟩⟩

example : ∃ b', feedNetBorrows exBank [⟨3 * S + 1, 86401⟩, ⟨-S, 90000⟩, ⟨5 * S, 172800⟩, ⟨-2 * S, 180000⟩] = .ok b' ∧
    b'.netBorrowsInWindow = 3 ∧ exBank.lastNetBorrowsWindowStartTs =
      windowOf exBank.netBorrowLimitWindowSizeTs 86400 * exBank.netBorrowLimitWindowSizeTs ∧
    Chronological 86400 [⟨3 * S + 1, 86401⟩, ⟨-S, 90000⟩, ⟨5 * S, 172800⟩, ⟨-2 * S, 180000⟩] := by
  refine ⟨_, rfl, ?_, ?_, ?_⟩
  · decide +kernel
  · decide +kernel
  · simp [Chronological]

end Bank
end Mango
