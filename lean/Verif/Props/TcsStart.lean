import Verif.Bots.TcsStart
import Verif.Props.TcsEx
import Verif.Props.Keeper
import Mathlib.Data.Finset.Card
import Mathlib.Data.Finset.Dedup
import Mathlib.Data.List.Dedup
/-!
# C96: the settler starts token conditional swaps
-/
namespace Mango
namespace TcsStart
open Swap Bank Fx

/-! ## Errors -/

/-- fails with a panic or a failed requirement only -/
def Arith {α : Type} (r : Res α) : Prop := ∀ e, r = .error e → e = .panic ∨ e = .requireFailed

theorem arith_ok {α : Type} {a : α} : Arith (.ok a : Res α) := fun _ h => by cases h
theorem arith_err {α : Type} : Arith (.error .panic : Res α) := fun _ h => by cases h; exact .inl rfl
theorem arith_chk {lo hi x : Int} : Arith (chk lo hi x) := by unfold chk; split; exact arith_ok; exact arith_err
theorem arith_bind {α β : Type} {x : Res α} {f : α → Res β} (h1 : Arith x) (h2 : ∀ a, Arith (f a)) : Arith (x >>= f) := by
  intro e h
  cases x with
  | error e' => cases h; exact h1 _ rfl
  | ok a => exact h2 a _ h
theorem arith_ite {α : Type} {c : Prop} [Decidable c] {x y : Res α} (h1 : Arith x) (h2 : Arith y) : Arith (if c then x else y) := by split <;> assumption
theorem arith_require {c : Prop} [Decidable c] : Arith (require c .requireFailed) := by
  unfold require; split; exact arith_ok; exact fun _ h => by cases h; exact .inr rfl
theorem arith_div {a b : I80F48} : Arith (Fx.div a b) := by unfold Fx.div Fx.ck; exact arith_ite arith_err arith_chk

macro "arith" : tactic => `(tactic| repeat' (first
  | exact arith_ok | exact arith_err | exact arith_chk | exact arith_div | exact arith_require | assumption
  | (refine arith_bind ?_ (fun _ => ?_)) | (refine arith_ite ?_ ?_) | split))

theorem arith_native {b : Bank} {p : TokenPosition} : Arith (p.native b) := by
  unfold TokenPosition.native Fx.mul Fx.ck; arith
theorem arith_net {b : Bank} {a : I80F48} {t : Int} : Arith (b.updateNetBorrows a t) := by
  unfold updateNetBorrows cku64 ck64 Fx.ceil Fx.ck; arith
theorem arith_rest {b : Bank} {p : TokenPosition} {a : I80F48} {w : Bool} {t : Int} : Arith (b.borrowRest p a w t) := by
  unfold borrowRest Fx.mul Fx.add Fx.sub Fx.ck
  arith
theorem arith_withdraw {b : Bank} {p : TokenPosition} {a : I80F48} {t : Int} : Arith (b.withdrawWithFee p a t) := by
  unfold withdrawWithFee withdrawWrapper withdrawInternal updateCumulativeInterest Fx.mul Fx.add Fx.sub Fx.neg Fx.ck
  arith
theorem arith_deposit {b : Bank} {p : TokenPosition} {a : I80F48} {t : Int} : Arith (b.deposit p a t) := by
  unfold deposit depositWrapper depositInternal updateCumulativeInterest addToDeposits divRoundingUp Fx.mul Fx.add Fx.sub Fx.neg Fx.ck
  arith

/-! ## The bank -/

theorem withdraw_case {b b' : Bank} {p p' : TokenPosition} {amt : I80F48} {now : Int} {w : WithdrawResult} (hb : b.Pos) (h : b.withdrawWithFee p amt now = .ok (b', p', w)) :
    ∃ p1 d, WithdrawCase b p amt true d now b' p1 w ∧ p'.indexed = p1.indexed ∧ 0 ≤ amt := by
  unfold withdrawWithFee at h
  obtain ⟨p1, h1, h2, _⟩ := withdrawWrapper_ok h
  obtain ⟨h3, h4⟩ := withdrawInternal_ok hb h1
  exact ⟨p1, _, h4, h2, h3⟩

/-- a deposit into a position that is not a borrow -/
theorem deposit_keeps {b b' : Bank} {p p' : TokenPosition} {amt : I80F48} {now : Int} {r : Bool} (hb : b.Pos) (hp : 0 ≤ p.indexed) (h : b.deposit p amt now = .ok (b', p', r)) :
    ∃ d, b' = { b with indexedDeposits := d } := by
  unfold deposit at h
  obtain ⟨p1, h1, _, _⟩ := depositWrapper_ok h
  obtain ⟨_, hc⟩ := depositInternal_ok hb h1
  cases hc with
  | add c hp hc => exact ⟨_, rfl⟩
  | repay => omega
  | dust => omega
  | cross => omega

theorem target_keeps {b b' : Bank} {p p' : TokenPosition} {amt : I80F48} {now : Int} {r : Bool} (hb : b.Pos) (hp : 0 ≤ p.indexed) (h : b.transferTarget p amt now = .ok (b', p', r)) :
    ∃ d, b' = { b with indexedDeposits := d } := by
  unfold transferTarget at h
  split at h
  · simp only [bind_ok, ok_inj, Prod.mk.injEq] at h
    obtain ⟨⟨x, y, w⟩, hw, _, _, rfl, rfl, rfl⟩ := h
    exact deposit_keeps hb hp hw
  · simp only [ok_inj, Prod.mk.injEq] at h
    exact ⟨b.indexedDeposits, by rw [← h.1]⟩

theorem net_eq {b b' : Bank} {price : I80F48} (h1 : b'.netBorrowsInWindow = b.netBorrowsInWindow) (h2 : b'.netBorrowLimitPerWindowQuote = b.netBorrowLimitPerWindowQuote) (h3 : b'.stablePrice = b.stablePrice) :
    b'.checkNetBorrows price = b.checkNetBorrows price := by
  unfold checkNetBorrows remainingNetBorrowsQuote
  rw [h1, h2, h3]

/-- borrowing at least a native unit: the indexed position is negative and the indexed borrows grow by more than two units in the last place -/
theorem borrow_step {tot bi : Int} (hbi : 0 < bi) (h2 : 2 * bi ≤ S * S) (ht : S ≤ tot) : 2 ≤ Int.tdiv (tot * S) bi := by
  have hS := S_pos
  have h0 : 0 ≤ tot * S := Int.mul_nonneg (by omega) hS.le
  rw [Int.tdiv_eq_ediv_of_nonneg h0, Int.le_ediv_iff_mul_le hbi]
  have := Int.mul_le_mul_of_nonneg_right ht hS.le
  omega

theorem fee_nonneg {b : Bank} (hr : b.RatesOk) {a : I80F48} (ha : 0 ≤ a) : 0 ≤ feeOf b true a := by
  unfold feeOf
  simp only [if_true]
  exact Int.ediv_nonneg (Int.mul_nonneg hr.2.2 ha) S_pos.le

/-- what a withdrawal of `amt` does to the bank and the position -/
structure Drawn (b : Bank) (p : TokenPosition) (n amt : I80F48) (now : Int) (b' : Bank) (p' : TokenPosition) : Prop where
  pos : b'.Pos
  reduceOnly : b'.reduceOnly = b.reduceOnly
  stable : b'.stablePrice = b.stablePrice
  limit : b'.netBorrowLimitPerWindowQuote = b.netBorrowLimitPerWindowQuote
  nonneg : 0 ≤ amt
  kind : (amt ≤ n ∧ 0 ≤ p'.indexed ∧ b'.indexedBorrows = b.indexedBorrows ∧ b'.netBorrowsInWindow = b.netBorrowsInWindow) ∨
    (n < amt ∧ ∃ tot, tot = amt - max n 0 + feeOf b true (amt - max n 0) ∧ p'.indexed = min p.indexed 0 - Int.tdiv (tot * S) b.borrowIndex ∧
      b'.indexedBorrows = b.indexedBorrows + Int.tdiv (tot * S) b.borrowIndex ∧
      ∃ b0 b1 : Bank, b0.updateNetBorrows tot now = .ok b1 ∧ b0.lastNetBorrowsWindowStartTs = b.lastNetBorrowsWindowStartTs ∧ b0.netBorrowsInWindow = b.netBorrowsInWindow ∧
        b0.netBorrowLimitWindowSizeTs = b.netBorrowLimitWindowSizeTs ∧ b1.netBorrowsInWindow = b'.netBorrowsInWindow)

theorem withdraw_drawn {b b' : Bank} {p p' : TokenPosition} {n amt : I80F48} {now : Int} {w : WithdrawResult} (hb : b.Pos) (hn : p.native b = .ok n)
    (h : b.withdrawWithFee p amt now = .ok (b', p', w)) : Drawn b p n amt now b' p' := by
  obtain ⟨p1, dd, hc, hidx, hamt⟩ := withdraw_case hb h
  cases hc with
  | dust hp n' hn' h0 h1 hd =>
    rw [hn, ok_inj] at hn'
    subst hn'
    exact ⟨hb, rfl, rfl, rfl, hamt, .inl ⟨by omega, by rw [hidx], rfl, rfl⟩⟩
  | part hp n' hn' h0 =>
    rw [hn, ok_inj] at hn'
    subst hn'
    refine ⟨hb, rfl, rfl, rfl, hamt, .inl ⟨by omega, ?_, rfl, rfl⟩⟩
    rw [hidx]
    dsimp only
    have hS := S_pos
    have hpos : n = p.indexed * b.depositIndex / S ∨ p.indexed = 0 ∧ n = 0 := by
      have := native_ok hn
      split at this
      · exact .inl this
      · have h0 : p.indexed = 0 := by omega
        rw [h0] at this; simp at this; exact .inr ⟨h0, this⟩
    rcases hpos with hpos | ⟨h1, h2⟩
    · have h3 : amt * S ≤ p.indexed * b.depositIndex := by
        have h4 : n * S ≤ p.indexed * b.depositIndex := by rw [hpos]; exact Int.ediv_mul_le _ hS.ne'
        have h5 : amt * S ≤ n * S := Int.mul_le_mul_of_nonneg_right (by omega) hS.le
        omega
      rw [Int.tdiv_eq_ediv_of_nonneg (Int.mul_nonneg hamt hS.le)]
      have h4 : amt * S / b.depositIndex ≤ p.indexed := by
        have := Int.ediv_le_ediv hb.1 h3
        rwa [Int.mul_ediv_cancel _ hb.1.ne'] at this
      omega
    · have h3 : amt = 0 := by omega
      rw [h1, h3]; simp
  | borrow n' rest tot st nb hn' hlt hw hrest htot =>
    rw [hn, ok_inj] at hn'
    subst hn'
    subst hrest
    obtain ⟨b0, b1, k1, k2, k3, k4, k5, k6⟩ := hw
    exact ⟨hb, rfl, rfl, rfl, hamt, .inr ⟨by omega, tot, htot, hidx, rfl, b0, b1, k1, k2, k3, k4, k6⟩⟩

/-! ## No startable swap is overlooked -/

/-- C96: if the program accepts the start of a swap, then the bot's check says yes, unless the incentive is cut by the deposit limit or less than one native unit of it has to be borrowed -/
theorem C96_finds {e : Env} {s s' : State} {inc : I80F48} (hs : s.sellBank.Pos) (hr : s.sellBank.RatesOk) (hbi : 2 * s.sellBank.borrowIndex ≤ S * S) (hl : 0 ≤ s.liqorSell.indexed)
    (h : start e s = .ok (s', inc)) (hinc : ∀ q, Fx.div (Fx.ofInt 1000) e.sellPrice = .ok q → inc = min q (Fx.ofInt (s.tcs.maxSell - s.tcs.sold))) :
    check e.now e.rnd e.buyPrice e.sellPrice s.tcs s.sellBank s.liqeeSell = .ok true ∨
    ∃ n, s.liqeeSell.native s.sellBank = .ok n ∧ n < inc ∧ inc - max n 0 < S := by
  unfold start at h
  simp only [bind_ok, require_ok, ok_inj, sub_ok, Prod.mk.injEq, cku64_ok] at h
  obtain ⟨_, h1, _, h2, _, h3, pre, h4, flag, h5, price, h6, u, h7, i, h11, ps, h12, ⟨sb, es, os, r⟩, h13, qs, h14,
    _, h15, ch, ⟨rfl, _⟩, _, h16, so, ⟨rfl, _⟩, _, h17, post, h18, _, h19, rfl, rfl⟩ := h
  have h7' := h7
  simp only [Tcs.checkStartable, bind_ok, require_ok] at h7'
  obtain ⟨_, g1, _, g2, _, g3, g4⟩ := h7'
  have hst : ¬ s.tcs.passedStart e.now := by unfold Tcs.passedStart; omega
  unfold Env.price at h6
  by_cases hz : toF e.rnd e.sellPrice = 0
  · rw [if_pos hz] at h6; cases h6
  rw [if_neg hz, ok_inj] at h6
  have h11' := h11
  unfold incentive Tcs.remainingSell at h11'
  simp only [bind_ok, ok_inj, cku64_ok] at h11'
  obtain ⟨q, hq, m, ⟨rfl, hm0, hm1⟩, d, hd, _⟩ := h11'
  have hi := hinc q hq
  have hrs : s.tcs.remainingSell = .ok (s.tcs.maxSell - s.tcs.sold) := by unfold Tcs.remainingSell; rw [cku64_ok]; exact ⟨rfl, hm0, hm1⟩
  by_cases hsmall : ps < i ∧ i - max ps 0 < S
  · exact .inr ⟨ps, h12, hsmall⟩
  left
  unfold check
  rw [if_neg (by rintro (h | h | h); exact h h3; exact g1 h; exact hst h), if_neg hz, h6, h7]
  dsimp only
  rw [hq, hrs]
  show (do
    let n ← s.liqeeSell.native s.sellBank
    if n < min q (Fx.ofInt (s.tcs.maxSell - s.tcs.sold)) then _ else _) = _
  rw [h12, ← hi]
  show (if ps < i then _ else _) = _
  by_cases hn : ps < i
  · rw [if_pos hn]
    have hS := S_pos
    have hge : S ≤ i - max ps 0 := by by_contra hc; exact hsmall ⟨hn, by omega⟩
    unfold checkedTransferWithFee at h13
    simp only [bind_ok, ok_inj, Prod.mk.injEq] at h13
    obtain ⟨⟨b1, s1, w⟩, t1, ⟨b2, t2, a⟩, t2h, lb, t3, u4, t4, ld, t5, u6, t6, rfl, rfl, rfl, rfl⟩ := h13
    unfold transferSource at t1
    rw [if_pos (by omega)] at t1
    simp only [bind_ok, require_ok, ok_inj, Prod.mk.injEq] at t1
    obtain ⟨⟨b1', s1', w'⟩, w1, _, w2, rfl, rfl, rfl⟩ := t1
    have D := withdraw_drawn hs h12 w1
    rcases D.kind with ⟨hle, _⟩ | ⟨_, tot, htot, hidx, hbor, _⟩
    · omega
    · have hf := fee_nonneg hr (a := i - max ps 0) (by omega)
      have hstep := borrow_step hs.2 hbi (tot := tot) (by omega)
      have hneg : s1'.indexed < 0 := by omega
      have hro : ¬ s.sellBank.areBorrowsReduceOnly = true := by
        rcases w2 with w2 | w2
        · exact absurd hneg (Int.not_lt.mpr w2)
        · unfold areBorrowsReduceOnly at w2 ⊢; rwa [D.reduceOnly] at w2
      obtain ⟨dep, hb2⟩ := target_keeps D.pos hl t2h
      have hqs : qs < 0 := (native_neg_iff (by rw [hb2]; exact D.pos) h14).2 hneg
      rw [if_neg (by rintro (h | h); rw [h15 hqs] at h; cases h; exact hro h), w1]
      show (match checkNetBorrows b1' e.sellPrice with | .error .bankNetBorrowsLimitReached => _ | .error e => _ | .ok _ => _) = _
      rw [Fx.add_ok] at t3
      rw [if_pos (by rw [hb2, t3.1]; dsimp only; unfold Fx.DELTA; omega), net_eq (b := b1') (by rw [hb2]) (by rw [hb2]) (by rw [hb2])] at t4
      rw [t4]
  · rw [if_neg hn]

/-! ## A swap the bot takes can pay its incentive -/

theorem net_mono {b b' c c' : Bank} {x y : I80F48} {now : Int} (h : b.updateNetBorrows x now = .ok b') (k : c.updateNetBorrows y now = .ok c') (h1 : b.lastNetBorrowsWindowStartTs = c.lastNetBorrowsWindowStartTs)
    (h2 : b.netBorrowsInWindow = c.netBorrowsInWindow) (h3 : b.netBorrowLimitWindowSizeTs = c.netBorrowLimitWindowSizeTs) (hxy : x ≤ y) : b'.netBorrowsInWindow ≤ c'.netBorrowsInWindow := by
  have hS := S_pos
  unfold updateNetBorrows at h k
  simp only [bind_ok, cku64_ok, ceil_ok] at h k
  obtain ⟨w, ⟨rfl, _⟩, x', ⟨rfl, _⟩, h⟩ := h
  obtain ⟨w, ⟨rfl, _⟩, y', ⟨rfl, _⟩, k⟩ := k
  rw [h1, h3] at h
  have hc : -((-x) / S) * S ≤ -((-y) / S) * S := Int.mul_le_mul_of_nonneg_right (by have := Int.ediv_le_ediv hS (show -y ≤ -x by omega); omega) hS.le
  have hcl : clampToI64 (-((-x) / S) * S) ≤ clampToI64 (-((-y) / S) * S) := by
    generalize -((-x) / S) * S = u at hc ⊢
    generalize -((-y) / S) * S = v at hc ⊢
    have := Int.ediv_le_ediv hS hc
    have e1 : I64MIN * S / S = I64MIN := Int.mul_ediv_cancel _ hS.ne'
    have e2 : I64MAX * S / S = I64MAX := Int.mul_ediv_cancel _ hS.ne'
    unfold clampToI64
    split
    · split
      · omega
      · split
        · decide
        · rename_i _ h5 h6
          have := Int.ediv_le_ediv hS (show I64MIN * S ≤ v by omega)
          omega
    · split
      · rw [if_neg (by omega), if_pos (by omega)]
      · rw [if_neg (by omega)]
        split
        · have := Int.ediv_le_ediv hS (show u ≤ I64MAX * S by omega)
          omega
        · exact this
  by_cases hn : now ≥ c.lastNetBorrowsWindowStartTs + c.netBorrowLimitWindowSizeTs
  · rw [if_pos hn] at h k
    by_cases hz : c.netBorrowLimitWindowSizeTs = 0
    · rw [if_pos hz] at h; cases h
    · rw [if_neg hz, ok_inj] at h k
      rw [← h, ← k]; exact hcl
  · rw [if_neg hn] at h k
    simp only [bind_ok, ck64_ok, ok_inj] at h k
    obtain ⟨_, ⟨rfl, _⟩, rfl⟩ := h
    obtain ⟨_, ⟨rfl, _⟩, rfl⟩ := k
    dsimp only; omega

theorem check_net_mono {b c : Bank} {price : I80F48} (hp : 0 ≤ price) (h1 : b.netBorrowsInWindow ≤ c.netBorrowsInWindow) (h2 : b.netBorrowLimitPerWindowQuote = c.netBorrowLimitPerWindowQuote)
    (h3 : b.stablePrice = c.stablePrice) (h : c.checkNetBorrows price = .ok ()) : b.checkNetBorrows price ≠ .error .bankNetBorrowsLimitReached := by
  intro k
  unfold checkNetBorrows remainingNetBorrowsQuote at h k
  rw [h2, h3] at k
  by_cases hb : b.netBorrowsInWindow < 0 ∨ c.netBorrowLimitPerWindowQuote < 0
  · rw [if_pos hb] at k
    have : ¬ Fx.MAX < 0 := by decide
    simp only [bind, Except.bind, if_neg this] at k
    cases k
  · rw [if_neg hb] at k
    rw [if_neg (by omega)] at h
    simp only [bind_ok, mulInt_ok, sub_ok] at h
    obtain ⟨r, ⟨q, ⟨rfl, _⟩, rfl, _⟩, h⟩ := h
    have hr : ¬ Fx.ofInt c.netBorrowLimitPerWindowQuote - max price c.stablePrice * c.netBorrowsInWindow < 0 := by
      intro hh; rw [if_pos hh] at h; cases h
    dsimp only at k
    cases hq : Fx.mulInt (max price c.stablePrice) b.netBorrowsInWindow with
    | error e =>
      rw [hq] at k
      have : e = .bankNetBorrowsLimitReached := by cases k; rfl
      subst this
      have := arith_chk _ hq
      rcases this with h | h <;> cases h
    | ok q =>
      rw [hq] at k
      cases hs : Fx.sub (Fx.ofInt c.netBorrowLimitPerWindowQuote) q with
      | error e =>
        simp only [bind, Except.bind, hs] at k
        have : e = .bankNetBorrowsLimitReached := by cases k; rfl
        subst this
        have := arith_chk _ hs
        rcases this with h | h <;> cases h
      | ok r =>
        simp only [bind, Except.bind, hs] at k
        rw [mulInt_ok] at hq
        rw [sub_ok] at hs
        obtain ⟨rfl, _⟩ := hq
        obtain ⟨rfl, _⟩ := hs
        have hle : max price c.stablePrice * b.netBorrowsInWindow ≤ max price c.stablePrice * c.netBorrowsInWindow := Int.mul_le_mul_of_nonneg_left h1 (by omega)
        rw [if_neg (by omega)] at k
        cases k

theorem net_err {b : Bank} {price : I80F48} {err : Err} (h : b.checkNetBorrows price = .error err) : err = .panic ∨ err = .requireFailed ∨ err = .bankNetBorrowsLimitReached := by
  unfold checkNetBorrows at h
  have hr : Arith (b.remainingNetBorrowsQuote price) := by unfold remainingNetBorrowsQuote Fx.mulInt Fx.sub Fx.ck; arith
  cases hq : b.remainingNetBorrowsQuote price with
  | error e =>
    rw [hq] at h
    cases h
    rcases hr _ hq with h | h
    · exact .inl h
    · exact .inr (.inl h)
  | ok r =>
    rw [hq] at h
    simp only [bind, Except.bind] at h
    split at h
    · cases h; exact .inr (.inr rfl)
    · cases h

theorem limit_err {b : Bank} {err : Err} (h : b.checkDepositAndOoLimit = .error err) : err = .panic ∨ err = .requireFailed ∨ err = .bankDepositLimit := by
  unfold checkDepositAndOoLimit at h
  split at h
  · cases h
  · cases h1 : b.nativeDeposits with
    | error e =>
      rw [h1] at h; cases h
      unfold nativeDeposits Fx.mul at h1
      rcases arith_chk _ h1 with h | h
      · exact .inl h
      · exact .inr (.inl h)
    | ok d =>
      rw [h1] at h
      simp only [bind, Except.bind] at h
      cases h2 : Fx.add d (Fx.ofInt b.potentialSerumTokens) with
      | error e =>
        rw [h2] at h; cases h
        rcases arith_chk _ h2 with h | h
        · exact .inl h
        · exact .inr (.inl h)
      | ok t =>
        rw [h2] at h
        dsimp only at h
        cases h3 : Fx.sub (Fx.ofInt b.depositLimit) t with
        | error e =>
          rw [h3] at h; cases h
          rcases arith_chk _ h3 with h | h
          · exact .inl h
          · exact .inr (.inl h)
        | ok r =>
          rw [h3] at h
          dsimp only at h
          split at h
          · cases h; exact .inr (.inr rfl)
          · cases h

/-- the ways a transfer can fail -/
theorem transfer_err {b : Bank} {src tgt : TokenPosition} {sa ta price : I80F48} {now : Int} {err : Err} (h : b.checkedTransferWithFee src sa tgt ta now price = .error err) :
    (err = .panic ∨ err = .requireFailed ∨ err = .bankDepositLimit) ∨
    (∃ b1 s1 w, b.withdrawWithFee src sa now = .ok (b1, s1, w) ∧ s1.indexed < 0 ∧ b1.areBorrowsReduceOnly = true ∧ err = .tokenInReduceOnlyMode) ∨
    (∃ b1 s1 w b2 t2 a, b.transferSource src sa now = .ok (b1, s1, w) ∧ b1.deposit tgt ta now = .ok (b2, t2, a) ∧ b2.areDepositsReduceOnly = true ∧ err = .tokenInReduceOnlyMode) ∨
    (∃ b1 s1 w b2 t2 a, b.transferSource src sa now = .ok (b1, s1, w) ∧ b1.transferTarget tgt ta now = .ok (b2, t2, a) ∧ b2.indexedBorrows > b.indexedBorrows + Fx.DELTA ∧ b2.checkNetBorrows price = .error err) := by
  have ar : ∀ {e : Err}, (e = .panic ∨ e = .requireFailed) → (e = .panic ∨ e = .requireFailed ∨ e = .bankDepositLimit) := by tauto
  unfold checkedTransferWithFee at h
  cases h1 : b.transferSource src sa now with
  | error e =>
    rw [h1] at h
    have : e = err := by cases h; rfl
    subst this
    unfold transferSource at h1
    split at h1
    · cases hw : b.withdrawWithFee src sa now with
      | error e' => rw [hw] at h1; cases h1; exact .inl (ar (arith_withdraw _ hw))
      | ok x =>
        obtain ⟨b1, s1, w⟩ := x
        rw [hw] at h1
        simp only [bind, Except.bind, require] at h1
        by_cases hc : s1.indexed ≥ 0 ∨ ¬ b1.areBorrowsReduceOnly = true
        · rw [if_pos hc] at h1; cases h1
        · rw [if_neg hc] at h1
          cases h1
          refine .inr (.inl ⟨b1, s1, w, rfl, ?_, ?_, rfl⟩)
          · exact Int.not_le.mp (fun hx => hc (.inl hx))
          · by_contra hx; exact hc (.inr hx)
    · cases h1
  | ok x =>
    obtain ⟨b1, s1, w⟩ := x
    rw [h1] at h
    simp only [bind, Except.bind] at h
    cases h2 : b1.transferTarget tgt ta now with
    | error e =>
      rw [h2] at h
      have : e = err := by cases h; rfl
      subst this
      unfold transferTarget at h2
      split at h2
      · cases hw : b1.deposit tgt ta now with
        | error e' => rw [hw] at h2; cases h2; exact .inl (ar (arith_deposit _ hw))
        | ok x =>
          obtain ⟨b2, t2, a⟩ := x
          rw [hw] at h2
          simp only [bind, Except.bind, require] at h2
          by_cases hc : t2.indexed ≤ 0 ∨ ¬ b2.areDepositsReduceOnly = true
          · rw [if_pos hc] at h2; cases h2
          · rw [if_neg hc] at h2
            cases h2
            refine .inr (.inr (.inl ⟨b1, s1, w, b2, t2, a, rfl, hw, ?_, rfl⟩))
            by_contra hx; exact hc (.inr hx)
      · cases h2
    | ok y =>
      obtain ⟨b2, t2, a⟩ := y
      rw [h2] at h
      dsimp only at h
      cases h3 : Fx.add b.indexedBorrows Fx.DELTA with
      | error e => rw [h3] at h; cases h; exact .inl (ar (arith_chk _ h3))
      | ok lb =>
        rw [h3] at h
        rw [Fx.add_ok] at h3
        dsimp only at h
        have tail : (do
            let ld ← Fx.add b.indexedDeposits Fx.DELTA
            let _ ← (if b2.indexedDeposits > ld then b2.checkDepositAndOoLimit else .ok ())
            (.ok (b2, s1, t2, (⟨w.positionIsActive, a, w.loanOriginationFee, w.loanAmount⟩ : TransferResult)) : Res (Bank × TokenPosition × TokenPosition × TransferResult))) = .error err →
            err = .panic ∨ err = .requireFailed ∨ err = .bankDepositLimit := by
          intro h
          cases h5 : Fx.add b.indexedDeposits Fx.DELTA with
          | error e => rw [h5] at h; cases h; exact ar (arith_chk _ h5)
          | ok ld =>
            rw [h5] at h
            simp only [bind, Except.bind] at h
            by_cases hd : b2.indexedDeposits > ld
            · rw [if_pos hd] at h
              cases h6 : b2.checkDepositAndOoLimit with
              | error e => rw [h6] at h; cases h; exact limit_err h6
              | ok _ => rw [h6] at h; cases h
            · rw [if_neg hd] at h; cases h
        by_cases hb : b2.indexedBorrows > lb
        · rw [if_pos hb] at h
          cases h4 : b2.checkNetBorrows price with
          | error e =>
            rw [h4] at h
            have : e = err := by cases h; rfl
            subst this
            exact .inr (.inr (.inr ⟨b1, s1, w, b2, t2, a, rfl, h2, by rw [← h3.1]; exact hb, h4⟩))
          | ok _ =>
            rw [h4] at h
            exact .inl (tail h)
        · rw [if_neg hb] at h
          exact .inl (tail h)

/-- C96: if the bot's check says yes, and the instruction is executed at the same time, prices and balances, then the swap is startable, the net borrow limit and the reduce-only modes do not stop the incentive (unless
deposits are reduce-only), and the owner's permission to borrow covers it -/
theorem C96_right {e : Env} {s : State} (hs : s.sellBank.Pos) (hr : s.sellBank.RatesOk) (hp : 0 < e.sellPrice) (hl : 0 ≤ s.liqorSell.indexed)
    (h : check e.now e.rnd e.buyPrice e.sellPrice s.tcs s.sellBank s.liqeeSell = .ok true) :
    s.tcs.kind = .premiumAuction ∧ (∃ price, e.price = .ok price ∧ s.tcs.checkStartable price e.now = .ok ()) ∧
    ∀ inc, incentive s.tcs s.sellBank e.sellPrice = .ok inc →
      (∀ err, s.sellBank.checkedTransferWithFee s.liqeeSell inc s.liqorSell inc e.now e.sellPrice = .error err →
        err ≠ .bankNetBorrowsLimitReached ∧ (err = .tokenInReduceOnlyMode → s.sellBank.areDepositsReduceOnly = true)) ∧
      ∀ sb es os r p, s.sellBank.checkedTransferWithFee s.liqeeSell inc s.liqorSell inc e.now e.sellPrice = .ok (sb, es, os, r) → es.native sb = .ok p → p < 0 → s.tcs.allowBorrows = true := by
  unfold check at h
  by_cases h0 : s.tcs.kind ≠ .premiumAuction ∨ s.tcs.isExpired e.now ∨ s.tcs.passedStart e.now
  · rw [if_pos h0] at h; cases h
  rw [if_neg h0] at h
  by_cases hz : toF e.rnd e.sellPrice = 0
  · rw [if_pos hz] at h; cases h
  rw [if_neg hz] at h
  cases hc : s.tcs.checkStartable (e.rnd (toF e.rnd e.buyPrice / toF e.rnd e.sellPrice)) e.now with
  | error x => rw [hc] at h; cases h
  | ok u =>
    rw [hc] at h
    simp only [bind_ok] at h
    obtain ⟨q, hq, m, hm, n, hn, h⟩ := h
    refine ⟨by by_contra hk; exact h0 (.inl hk), ⟨_, by unfold Env.price; rw [if_neg hz], hc⟩, ?_⟩
    intro inc hi
    have hS := S_pos
    have hm' := hm
    unfold incentive at hi
    simp only [bind_ok, ok_inj] at hi
    obtain ⟨q', hq', m', hm2, d, hd, hi⟩ := hi
    rw [hq, ok_inj] at hq'
    rw [hm, ok_inj] at hm2
    subst hq' hm2
    unfold Tcs.remainingSell at hm
    rw [cku64_ok] at hm
    obtain ⟨_, hm0, _⟩ := hm
    have hq0 : 0 ≤ q := by
      rw [div_ok] at hq
      rw [hq.2.1]
      exact Int.tdiv_nonneg (by unfold Fx.ofInt; decide) hp.le
    have hmS : 0 ≤ Fx.ofInt m := Int.mul_nonneg (by omega) hS.le
    have hle : inc ≤ min q (Fx.ofInt m) := by omega
    have h0i : 0 ≤ inc := by omega
    clear hi hd
    have K : n < min q (Fx.ofInt m) → s.tcs.allowBorrows = true ∧ ¬ s.sellBank.areBorrowsReduceOnly = true ∧ ∃ c1 cp, Drawn s.sellBank s.liqeeSell n (min q (Fx.ofInt m)) e.now c1 cp ∧ c1.checkNetBorrows e.sellPrice = .ok () := by
      intro hlt
      rw [if_pos hlt] at h
      by_cases ha : s.tcs.allowBorrows = false ∨ s.sellBank.areBorrowsReduceOnly = true
      · rw [if_pos ha] at h; cases h
      rw [if_neg ha] at h
      simp only [bind_ok] at h
      obtain ⟨⟨c1, cp, cw⟩, hw, h⟩ := h
      refine ⟨by by_contra hx; exact ha (.inl (by simpa using hx)), fun hx => ha (.inr hx), c1, cp, withdraw_drawn hs hn hw, ?_⟩
      dsimp only at h
      split at h
      · cases h
      · cases h
      · rename_i hx; exact hx
    -- the source half
    have src : ∀ {b1 s1 w}, s.sellBank.transferSource s.liqeeSell inc e.now = .ok (b1, s1, w) → Drawn s.sellBank s.liqeeSell n inc e.now b1 s1 ∨ (inc = 0 ∧ b1 = s.sellBank ∧ s1 = s.liqeeSell) := by
      intro b1 s1 w h1
      unfold transferSource at h1
      split at h1
      · simp only [bind_ok, require_ok, ok_inj, Prod.mk.injEq] at h1
        obtain ⟨⟨b1', s1', w'⟩, w1, _, _, rfl, rfl, rfl⟩ := h1
        exact .inl (withdraw_drawn hs hn w1)
      · rename_i hne
        simp only [ok_inj, Prod.mk.injEq] at h1
        exact .inr ⟨by simpa using hne, h1.1.symm, h1.2.1.symm⟩
    constructor
    · intro err herr
      rcases transfer_err herr with he | ⟨b1, s1, w, w1, w2, w3, he⟩ | ⟨b1, s1, w, b2, t2, a, w1, w2, w3, he⟩ | ⟨b1, s1, w, b2, t2, a, w1, w2, w3, w4⟩
      · rcases he with rfl | rfl | rfl <;> exact ⟨(by intro hx; cases hx), (by intro hx; cases hx)⟩
      · exfalso
        have D := withdraw_drawn hs hn w1
        rcases D.kind with ⟨_, hx, _⟩ | ⟨hx, _⟩
        · exact absurd w2 (Int.not_lt.mpr hx)
        · have := (K (by omega)).2.1
          unfold areBorrowsReduceOnly at this w3
          rw [D.reduceOnly] at w3
          exact this w3
      · subst he
        refine ⟨(by intro hx; cases hx), fun _ => ?_⟩
        have pos1 : b1.Pos ∧ b1.reduceOnly = s.sellBank.reduceOnly := by
          rcases src w1 with D | ⟨_, rfl, _⟩
          · exact ⟨D.pos, D.reduceOnly⟩
          · exact ⟨hs, rfl⟩
        obtain ⟨dep, hb2⟩ := deposit_keeps pos1.1 hl w2
        unfold areDepositsReduceOnly at w3 ⊢
        rw [hb2] at w3
        dsimp only at w3
        rwa [pos1.2] at w3
      · have lim : err ≠ .bankNetBorrowsLimitReached := by
          rintro rfl
          rcases src w1 with D | ⟨_, rfl, _⟩
          · obtain ⟨dep, hb2⟩ := target_keeps D.pos hl w2
            rcases D.kind with ⟨_, _, hx, _⟩ | ⟨hx, tot, htot, _, _, b0, b0', u1, u2, u3, u4, u5⟩
            · rw [hb2] at w3; dsimp only at w3; unfold Fx.DELTA at w3; omega
            · obtain ⟨_, _, c1, cp, DC, hnet⟩ := K (by omega)
              rcases DC.kind with ⟨hy, _⟩ | ⟨hy, tot', htot', _, _, d0, d0', v1, v2, v3, v4, v5⟩
              · omega
              · have hfee : feeOf s.sellBank true (inc - max n 0) ≤ feeOf s.sellBank true (min q (Fx.ofInt m) - max n 0) := by
                  unfold feeOf
                  simp only [if_true]
                  exact Int.ediv_le_ediv hS (Int.mul_le_mul_of_nonneg_left (by omega) hr.2.2)
                have hmono := net_mono u1 v1 (by rw [u2, v2]) (by rw [u3, v3]) (by rw [u4, v4]) (by omega)
                rw [u5, v5] at hmono
                rw [net_eq (b := b1) (by rw [hb2]) (by rw [hb2]) (by rw [hb2])] at w4
                exact check_net_mono hp.le hmono (by rw [D.limit, DC.limit]) (by rw [D.stable, DC.stable]) hnet w4
          · obtain ⟨dep, hb2⟩ := target_keeps hs hl w2
            rw [hb2] at w3; dsimp only at w3; unfold Fx.DELTA at w3; omega
        refine ⟨lim, ?_⟩
        rintro rfl
        rcases net_err w4 with hx | hx | hx <;> cases hx
    · intro sb es os r p ht hnat hneg
      by_contra hal
      unfold checkedTransferWithFee at ht
      simp only [bind_ok, ok_inj, Prod.mk.injEq] at ht
      obtain ⟨⟨b1, s1, w⟩, t1, ⟨b2, t2, a⟩, t2h, lb, t3, u4, t4, ld, t5, u6, t6, rfl, rfl, rfl, rfl⟩ := ht
      have hge : ¬ n < inc := fun hx => hal (K (by omega)).1
      rcases src t1 with D | ⟨hz, rfl, rfl⟩
      · obtain ⟨dep, hb2⟩ := target_keeps D.pos hl t2h
        have := (native_neg_iff (by rw [hb2]; exact D.pos) hnat).1 hneg
        rcases D.kind with ⟨_, hx, _⟩ | ⟨hx, _⟩
        · exact absurd this (Int.not_lt.mpr hx)
        · exact hge hx
      · obtain ⟨dep, hb2⟩ := target_keeps hs hl t2h
        have h1 := (native_neg_iff (by rw [hb2]; exact hs) hnat).1 hneg
        have := (native_neg_iff hs hn).2 h1
        omega

/-! ## A pass -/

/-- C96: the swaps handled in a pass are those of accounts of the group without too many errors that the check does not refuse; among them are those whose check ended with an error (a defect) -/
theorem C96_considered {accts : List Acct} {x : Item} :
    x ∈ startable accts ↔ ∃ a ∈ accts, a.usable = true ∧ a.blocked = false ∧ a.key = x.account ∧ ∃ v, ⟨x.id, x.token, v⟩ ∈ a.swaps ∧ v ≠ some false := by
  obtain ⟨k, i, t⟩ := x
  unfold startable
  simp only [List.mem_flatMap, List.mem_filter, List.mem_map, Item.mk.injEq, Bool.and_eq_true, Bool.not_eq_true', decide_eq_true_eq]
  constructor
  · rintro ⟨a, ⟨h1, h2, h3⟩, ⟨i', t', v⟩, ⟨h4, h5⟩, rfl, rfl, rfl⟩
    exact ⟨a, h1, h2, h3, rfl, v, h4, h5⟩
  · rintro ⟨a, h1, h2, h3, rfl, v, h4, h5⟩
    exact ⟨a, ⟨h1, h2, h3⟩, ⟨i, t, v⟩, ⟨h4, h5⟩, rfl, rfl, rfl⟩

/-- C96, a defect: a swap whose check ended with an error is started together with a good one -/
theorem C96_error_kept : groups (startable [⟨1, true, false, [⟨11, 4, some true⟩, ⟨12, 4, some false⟩]⟩, ⟨2, true, false, [⟨21, 5, none⟩]⟩]) = [[⟨1, 11, 4⟩, ⟨2, 21, 5⟩]] := by decide +kernel

/-- C96: each of them is in one group, and a group has at most eight -/
theorem C96_groups (items : List Item) : (groups items).flatten = items ∧ ∀ g ∈ groups items, 0 < g.length ∧ g.length ≤ 8 :=
  Keeper.chunks_spec 8 (by omega) _ _ (le_refl _)

/-- the tokens of the swaps for which there is no position yet -/
def newTokens (held : List Nat) (xs : List Item) : Finset Nat := (xs.map Item.token).toFinset \ held.toFinset

/-- C96: one transaction starts the first swaps of a group, except those whose instruction could not be prepared. It needs at most the free token positions; and if a swap is left out (with all after it), then its token has no position
and all free positions are taken -/
theorem C96_pick (make : Item → Bool) (xs : List Item) : ∀ (free : Nat) (held : List Nat), ∃ k, pick make free held xs = (xs.take k).filter make ∧ (newTokens held (xs.take k)).card ≤ free ∧
    ∀ x, xs[k]? = some x → x.token ∉ held ∧ (∀ y ∈ xs.take k, y.token ≠ x.token) ∧ (newTokens held (xs.take k)).card = free := by
  induction xs with
  | nil => intro free held; exact ⟨0, rfl, by simp [newTokens], by simp⟩
  | cons x xs ih =>
    intro free held
    have hcons : ∀ k, List.filter make (x :: xs.take k) = (if make x then [x] else []) ++ (xs.take k).filter make := by
      intro k; rw [List.filter_cons]; split <;> rfl
    simp only [pick]
    by_cases hx : x.token ∈ held
    · rw [if_pos hx]
      obtain ⟨k, h1, h2, h3⟩ := ih free held
      have hn : newTokens held (x :: xs.take k) = newTokens held (xs.take k) := by
        ext t
        simp only [newTokens, List.map_cons, List.toFinset_cons, Finset.mem_sdiff, Finset.mem_insert, List.mem_toFinset]
        constructor
        · rintro ⟨rfl | h, h'⟩
          · exact absurd hx h'
          · exact ⟨h, h'⟩
        · rintro ⟨h, h'⟩; exact ⟨.inr h, h'⟩
      refine ⟨k + 1, ?_, ?_, ?_⟩
      · rw [List.take_succ_cons, hcons, h1]
      · rw [List.take_succ_cons, hn]; exact h2
      · intro y hy
        rw [List.getElem?_cons_succ] at hy
        obtain ⟨g1, g2, g3⟩ := h3 y hy
        refine ⟨g1, ?_, by rw [List.take_succ_cons, hn]; exact g3⟩
        intro z hz
        rw [List.take_succ_cons] at hz
        rcases List.mem_cons.1 hz with rfl | hz
        · intro he; rw [he] at hx; exact g1 hx
        · exact g2 z hz
    · rw [if_neg hx]
      cases free with
      | zero =>
        refine ⟨0, rfl, by simp [newTokens], ?_⟩
        intro y hy
        simp only [List.getElem?_cons_zero, Option.some.injEq] at hy
        subst hy
        exact ⟨hx, by simp, by simp [newTokens]⟩
      | succ free =>
        obtain ⟨k, h1, h2, h3⟩ := ih free (x.token :: held)
        have hn : newTokens held (x :: xs.take k) = insert x.token (newTokens (x.token :: held) (xs.take k)) := by
          ext t
          simp only [newTokens, List.map_cons, List.toFinset_cons, Finset.mem_sdiff, Finset.mem_insert, List.mem_toFinset]
          by_cases ht : t = x.token
          · subst ht; simp [hx]
          · simp [ht]
        have hc : (newTokens held (x :: xs.take k)).card = (newTokens (x.token :: held) (xs.take k)).card + 1 := by
          rw [hn, Finset.card_insert_of_notMem (by simp [newTokens])]
        refine ⟨k + 1, ?_, ?_, ?_⟩
        · rw [List.take_succ_cons, hcons, ← h1]
        · rw [List.take_succ_cons, hc]; omega
        · intro y hy
          rw [List.getElem?_cons_succ] at hy
          obtain ⟨g1, g2, g3⟩ := h3 y hy
          refine ⟨fun h => g1 (by simp [h]), ?_, by rw [List.take_succ_cons, hc, g3]⟩
          intro z hz
          rw [List.take_succ_cons] at hz
          rcases List.mem_cons.1 hz with rfl | hz
          · intro he; exact g1 (by simp [he])
          · exact g2 z hz

/-- C96: afterwards the whole balance of each token of the group is withdrawn, once -/
theorem C96_withdrawn (chunk : List Item) : (withdrawn chunk).Nodup ∧ ∀ t, t ∈ withdrawn chunk ↔ ∃ x ∈ chunk, x.token = t := by
  unfold withdrawn
  exact ⟨List.nodup_dedup _, fun t => by simp⟩

/-! ## Concrete cases -/

/-- an auction to be started: the incentive is 62.5 tokens, of which the owner has 1000 -/
def exStart : State := { exState with tcs := { exTcs with kind := .premiumAuction, duration := 10 } }
def exPrices : Env := { exEnv with sellPrice := 16 * S, buyPrice := 32 * S }

/-- `C96_finds` and `C96_right`: the program starts it and the bot's check says yes; if the owner has only 50 tokens, both depend on the permission to borrow and, with a limit of 199 for net borrows in native quote units, on the limit (12.5
tokens count as 13, at a price of 16) -/
example : (start exPrices exStart).map (·.2) = .ok (125 * S / 2) ∧
    check 7 id (32 * S) (16 * S) exStart.tcs exStart.sellBank exStart.liqeeSell = .ok true ∧
    check 7 id (32 * S) (16 * S) exStart.tcs exStart.sellBank { indexed := 50 * S } = .ok false ∧
    check 7 id (32 * S) (16 * S) { exStart.tcs with allowBorrows := true } { exStart.sellBank with netBorrowLimitPerWindowQuote := 208, netBorrowLimitWindowSizeTs := 86400 } { indexed := 50 * S } = .ok true ∧
    check 7 id (32 * S) (16 * S) { exStart.tcs with allowBorrows := true } { exStart.sellBank with netBorrowLimitPerWindowQuote := 207, netBorrowLimitWindowSizeTs := 86400 } { indexed := 50 * S } = .ok false ∧
    check 7 id (32 * S) (8 * S) exStart.tcs exStart.sellBank exStart.liqeeSell = .ok false ∧ check 7 id (32 * S) 0 exStart.tcs exStart.sellBank exStart.liqeeSell = .ok false ∧
    check 1000 id (32 * S) (16 * S) exStart.tcs exStart.sellBank exStart.liqeeSell = .ok false ∧ check 7 id (32 * S) (16 * S) { exStart.tcs with start := 3 } exStart.sellBank exStart.liqeeSell = .ok false := by decide +kernel

/-- the hypotheses of both are met -/
example : exStart.sellBank.Pos ∧ 2 * exStart.sellBank.borrowIndex ≤ S * S ∧ 0 ≤ exStart.liqorSell.indexed ∧ (∃ q, Fx.div (Fx.ofInt 1000) exPrices.sellPrice = .ok q ∧ 125 * S / 2 = min q (Fx.ofInt (exStart.tcs.maxSell - exStart.tcs.sold))) :=
  ⟨⟨by decide +kernel, by decide +kernel⟩, by decide +kernel, by decide +kernel, 125 * S / 2, by decide +kernel, by decide +kernel⟩

/-- two free positions, one for token 4 held: the third new token ends the transaction -/
example : pick (fun x => decide (x.id ≠ 3)) 2 [4] [⟨1, 1, 5⟩, ⟨1, 2, 4⟩, ⟨2, 3, 6⟩, ⟨2, 4, 5⟩, ⟨3, 5, 7⟩, ⟨3, 6, 4⟩] = [⟨1, 1, 5⟩, ⟨1, 2, 4⟩, ⟨2, 4, 5⟩] := by decide +kernel

end TcsStart
end Mango
