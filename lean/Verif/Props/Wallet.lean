import Verif.Wallet.Model
import Verif.Props.SerumPlace
/-!
# C64: deposits and withdrawals

Statements about the whole instructions of `Verif.Wallet.Model`, in terms of the tokens that move, the balance (`Bank.nativeOf`, in units of 2^-48 native tokens), the bank's totals and health.
-/
namespace Mango
namespace Wallet
open Fx Health

/-- what may change: the token's bank and position, flag, net deposits, vault and wallet; the bank's indexes, prices and risk parameters stay -/
structure Touches (now : Int) (a a' : Acct) : Prop where
  k : a'.k = a.k
  ti : a'.ti = a.ti
  banks : ∀ t, t ≠ a.ti → a'.st.banks t = a.st.banks t
  config : SameConfig now a.bankIn a'.bankIn
  ps : a'.st.ps = a.st.ps.set a.k ⟨a.ti, a'.pos.indexed⟩
  os : a'.st.os = a.st.os
  perps : a'.st.perps = a.st.perps
  ok : a'.Ok

theorem put_st {a : Acct} (h : a.Ok) (b : Bank) (p : TokenPosition) :
    (a.put b p).st = { a.st with banks := fun t => if t = a.ti then { a.bankIn with bank := b } else a.st.banks t, ps := a.st.ps.set a.k ⟨a.ti, p.indexed⟩ } := by
  unfold Acct.Ok at h
  unfold Acct.put Upd.state
  dsimp only
  rw [h]

theorem put_bankIn {a : Acct} (h : a.Ok) (b : Bank) (p : TokenPosition) : (a.put b p).bankIn = { a.bankIn with bank := b } := by
  unfold Acct.bankIn
  rw [put_st h]
  have : (a.put b p).ti = a.ti := rfl
  rw [this]
  simp only [if_true]
  rfl

theorem touches_put {now : Int} {a : Acct} (h : a.Ok) {b : Bank} {p : TokenPosition} (hs : SameConfig now a.bankIn { a.bankIn with bank := b }) : Touches now a (a.put b p) := by
  refine ⟨rfl, rfl, ?_, ?_, ?_, ?_, ?_, ?_⟩
  · intro t ht
    rw [put_st h]
    simp only [if_neg ht]
  · rw [put_bankIn h]; exact hs
  · rw [put_st h]; rfl
  · rw [put_st h]
  · rw [put_st h]
  · unfold Acct.Ok
    rw [put_st h]
    have e1 : (a.put b p).k = a.k := rfl
    have e2 : (a.put b p).ti = a.ti := rfl
    have e3 : (a.put b p).pos = p := rfl
    rw [e1, e2, e3]
    dsimp only
    rw [List.getElem?_set_self (getElem?_lt h)]

theorem SameConfig.rfl' {now : Int} (b : BankIn) : SameConfig now b b := ⟨rfl, rfl, rfl, rfl, rfl, rfl, rfl, rfl, rfl⟩

theorem touches_refl {now : Int} {a : Acct} (h : a.Ok) (f : Account.Liq) : Touches now a { a with flag := f } := by
  refine ⟨rfl, rfl, fun _ _ => rfl, SameConfig.rfl' _, ?_, rfl, rfl, h⟩
  dsimp only
  obtain ⟨hk, hh⟩ := List.getElem?_eq_some_iff.mp h
  rw [← hh, List.set_getElem_self]

/-- the bank's configuration after a withdrawal with fee -/
theorem withdrawWithFee_config {now : Int} {b : BankIn} {b' : Bank} {p p' : TokenPosition} {amt : I80F48} {t : Int} {r : Bank.WithdrawResult} (hb : b.bank.Pos)
    (h : b.bank.withdrawWithFee p amt t = .ok (b', p', r)) : SameConfig now b { b with bank := b' } := by
  obtain ⟨q1, h1, _, _⟩ := Bank.withdrawWrapper_ok h
  obtain ⟨_, hc⟩ := Bank.withdrawInternal_ok hb h1
  cases hc <;> exact ⟨rfl, rfl, rfl, rfl, rfl, rfl, rfl, rfl, rfl⟩

theorem deposit_config {now : Int} {b : BankIn} {b' : Bank} {p p' : TokenPosition} {amt : I80F48} {t : Int} {r : Bool} (hb : b.bank.Pos)
    (h : b.bank.deposit p amt t = .ok (b', p', r)) : SameConfig now b { b with bank := b' } := by
  obtain ⟨q1, h1, _, _⟩ := Bank.depositWrapper_ok h
  obtain ⟨_, hc⟩ := Bank.depositInternal_ok hb h1
  cases hc <;> exact ⟨rfl, rfl, rfl, rfl, rfl, rfl, rfl, rfl, rfl⟩

theorem withdrawWithoutFee_config {now : Int} {b : BankIn} {b' : Bank} {p p' : TokenPosition} {amt : I80F48} {t : Int} {r : Bool} (hb : b.bank.Pos)
    (h : b.bank.withdrawWithoutFee p amt t = .ok (b', p', r)) : SameConfig now b { b with bank := b' } := by
  unfold Bank.withdrawWithoutFee at h
  simp only [bind_ok, ok_inj, Prod.mk.injEq] at h
  obtain ⟨⟨b1, p1, w⟩, h1, rfl, rfl, rfl⟩ := h
  obtain ⟨q1, h1, _, _⟩ := Bank.withdrawWrapper_ok h1
  obtain ⟨_, hc⟩ := Bank.withdrawInternal_ok hb h1
  cases hc <;> exact ⟨rfl, rfl, rfl, rfl, rfl, rfl, rfl, rfl, rfl⟩

theorem toU64_ok {x y : Int} : Serum.toU64 x = .ok y ↔ y = x / S ∧ 0 ≤ x / S ∧ x / S ≤ U64MAX := by
  unfold Serum.toU64
  rw [cku64_ok]

/-! ## Withdrawals -/

/-- the parts of a successful withdrawal -/
structure Parts (e : Env) (w : Who) (a : Acct) (amount : Int) (allow : Bool) (a' : Acct) (o : Outcome) (b' : Bank) (p' : TokenPosition) (r : Bank.WithdrawResult) (flag : Account.Liq)
    (pre : Option (Cache × I80F48)) : Prop where
  amt : withdrawAmount (Bank.nativeOf a.bankIn.bank a.pos) amount allow = .ok (some o.amount)
  allowed : allow = true ∨ o.amount * S ≤ Bank.nativeOf a.bankIn.bank a.pos
  reduceOnly : a.bankIn.bank.areBorrowsReduceOnly = true → o.amount * S ≤ Bank.nativeOf a.bankIn.bank a.pos
  bank : a.bankIn.bank.withdrawWithFee a.pos (ofInt o.amount) e.now = .ok (b', p', r)
  after : p'.native b' = .ok (Bank.nativeOf b' p')
  native : a.pos.native a.bankIn.bank = .ok (Bank.nativeOf a.bankIn.bank a.pos)
  vault : o.amount ≤ a.vault
  walletMax : a.wallet + o.amount ≤ U64MAX
  delegate : delegateChecks w r.positionIsActive = .ok ()
  health : ∀ c h, pre = some (c, h) → ∃ change, Fx.sub (Bank.nativeOf b' p') (Bank.nativeOf a.bankIn.bank a.pos) = .ok change ∧
    withdrawHealth e a b' change (decide (ofInt o.amount > Bank.nativeOf a.bankIn.bank a.pos)) c h = .ok ()
  limits : withdrawLimits e b' (decide (ofInt o.amount > Bank.nativeOf a.bankIn.bank a.pos)) = .ok ()
  res : a' = { a.put b' p' with flag := flag, netDeposits := a.netDeposits - o.amount * e.price / S, vault := a.vault - o.amount, wallet := a.wallet + o.amount }
  out : o = { amount := o.amount, closed := !r.positionIsActive, loan := r.loanAmount, fee := r.loanOriginationFee }

theorem native_is {p : TokenPosition} {b : Bank} {n : I80F48} (h : p.native b = .ok n) : n = Bank.nativeOf b p := Bank.native_ok h

theorem usd_eq (m price : Int) : (ofInt m * price / S) / S = m * price / S := by
  rw [ofInt_mul_div]

theorem withdraw_parts {e : Env} {w : Who} {a a' : Acct} {amount : Int} {allow : Bool} {o : Outcome} (h : withdraw e w a amount allow = .ok (a', o)) :
    0 < amount ∧ ∃ flag pre, healthBefore e a = .ok (flag, pre) ∧
      ((withdrawAmount (Bank.nativeOf a.bankIn.bank a.pos) amount allow = .ok none ∧ a' = { a with flag := flag } ∧ o = { amount := 0 }) ∨
       ∃ b' p' r, Parts e w a amount allow a' o b' p' r flag pre) := by
  simp only [withdraw, bind_ok, require_ok] at h
  obtain ⟨_, h0, ⟨flag, pre⟩, h1, n, h2, am, h3, h4⟩ := h
  have hn := native_is h2
  subst hn
  refine ⟨h0, flag, pre, h1, ?_⟩
  cases am with
  | none =>
    simp only [ok_inj, Prod.mk.injEq] at h4
    exact Or.inl ⟨h3, h4.1.symm, h4.2.symm⟩
  | some m =>
    right
    simp only [bind_ok, require_ok, sub_ok, mul_ok, cku64_ok, ck64_ok, ok_inj, Prod.mk.injEq] at h4
    obtain ⟨_, c1, _, c2, ⟨b', p', r⟩, hw, after, ha, _, hv, vault, ⟨rfl, v1, v2⟩, wallet, ⟨rfl, w1, w2⟩, v, ⟨rfl, _⟩, usd, ⟨rfl, _⟩, net, ⟨rfl, _⟩, _, hd, _, hp, _, hl, rfl, rfl⟩ := h4
    have e1 := native_is ha
    subst e1
    refine ⟨b', p', r, ⟨h3, ?_, ?_, hw, ha, h2, by dsimp only; omega, w2, hd, ?_, hl, ?_, rfl⟩⟩
    · rcases c1 with c1 | c1
      · exact Or.inl c1
      · right
        exact Int.not_lt.mp (of_decide_eq_false c1)
    · intro hro
      rw [if_pos hro] at c2
      rw [require_ok] at c2
      exact Int.not_lt.mp (of_decide_eq_false c2)
    · intro c h e
      rw [e] at hp
      simp only [bind_ok] at hp
      exact hp
    · dsimp only
      unfold Fx.toInt
      rw [usd_eq]

/-- **C64.** A withdrawal pays exactly what it takes from the account: `o.amount` native tokens go from the vault to the wallet, and the claims on the bank (position, fees, dust) fall by that
amount, up to rounding (`Bank.Effect`). Withdrawing "everything" pays the balance rounded down; otherwise the requested amount is paid. No other bank, position, order or perp position changes. -/
theorem C64_withdraw {e : Env} {w : Who} {a a' : Acct} {amount : Int} {allow : Bool} {o : Outcome} (hb : a.bankIn.bank.Pos) (hr : 0 ≤ a.bankIn.bank.loanOriginationFeeRate) (hok : a.Ok)
    (h : withdraw e w a amount allow = .ok (a', o)) :
    Touches e.now a a' ∧ 0 ≤ o.amount ∧
    o.amount = (if amount = U64MAX ∧ allow = false then max 0 (Bank.nativeOf a.bankIn.bank a.pos / S) else amount) ∧
    a'.vault = a.vault - o.amount ∧ a'.wallet = a.wallet + o.amount ∧ (0 ≤ a.vault → 0 ≤ a'.vault) ∧ a'.netDeposits = a.netDeposits - o.amount * e.price / S ∧
    Bank.Effect a.bankIn.bank a.pos (-(o.amount * S)) a'.bankIn.bank a'.pos (!o.closed) := by
  obtain ⟨h0, flag, pre, h1, h2⟩ := withdraw_parts h
  have hS := S_pos
  rcases h2 with ⟨h3, rfl, rfl⟩ | ⟨b', p', r, P⟩
  · refine ⟨touches_refl hok _, le_refl _, ?_, ?_, ?_, fun h => h, ?_, ?_⟩
    · unfold withdrawAmount at h3
      by_cases hc : amount = U64MAX ∧ allow = false
      · rw [if_pos hc] at h3 ⊢
        by_cases hn : ¬ Bank.nativeOf a.bankIn.bank a.pos < 0
        · rw [if_pos hn] at h3
          simp only [bind_ok, ok_inj] at h3
          obtain ⟨_, _, h3⟩ := h3
          cases h3
        · have : Bank.nativeOf a.bankIn.bank a.pos / S < 0 := Int.ediv_neg_of_neg_of_pos (by omega) hS
          dsimp only; omega
      · rw [if_neg hc] at h3
        simp only [ok_inj] at h3
        cases h3
    · dsimp only; omega
    · dsimp only; omega
    · dsimp only; rw [Int.zero_mul, Int.zero_ediv]; omega
    · dsimp only
      rw [Int.zero_mul]
      exact Bank.Effect.refl hb
  · have hE := Bank.withdrawWrapper_effect hb hr P.bank
    have ho : o.closed = !r.positionIsActive := by rw [P.out]
    have ham : 0 ≤ o.amount ∧ o.amount = (if amount = U64MAX ∧ allow = false then max 0 (Bank.nativeOf a.bankIn.bank a.pos / S) else amount) := by
      have h3 := P.amt
      unfold withdrawAmount at h3
      by_cases hc : amount = U64MAX ∧ allow = false
      · rw [if_pos hc] at h3 ⊢
        by_cases hn : ¬ Bank.nativeOf a.bankIn.bank a.pos < 0
        · rw [if_pos hn] at h3
          simp only [bind_ok, ok_inj, toU64_ok, Option.some.injEq] at h3
          obtain ⟨x, ⟨rfl, g1, g2⟩, g3⟩ := h3
          omega
        · rw [if_neg hn] at h3
          simp only [ok_inj] at h3
          cases h3
      · rw [if_neg hc] at h3 ⊢
        simp only [ok_inj, Option.some.injEq] at h3
        omega
    have T := touches_put (p := p') hok (withdrawWithFee_config (now := e.now) hb P.bank)
    have eb : a'.bankIn.bank = b' := by
      have : a'.bankIn = (a.put b' p').bankIn := by rw [P.res]; rfl
      rw [this, put_bankIn hok]
    have ep : a'.pos = p' := by rw [P.res]; rfl
    refine ⟨?_, ham.1, ham.2, ?_, ?_, ?_, ?_, ?_⟩
    · rw [P.res]
      exact ⟨T.k, T.ti, T.banks, T.config, T.ps, T.os, T.perps, T.ok⟩
    · rw [P.res]
    · rw [P.res]
    · intro _
      have := P.vault
      rw [P.res]; dsimp only; omega
    · rw [P.res]
    · rw [eb, ep, ho, Bool.not_not]
      exact hE

/-- **C64.** Who did not ask to borrow, or whose token may not be borrowed, does not borrow: no loan, no fee, the bank's borrows do not change, and no more than the balance is paid. -/
theorem C64_no_loan {e : Env} {w : Who} {a a' : Acct} {amount : Int} {allow : Bool} {o : Outcome} (hb : a.bankIn.bank.Pos) (hr : 0 ≤ a.bankIn.bank.loanOriginationFeeRate) (hok : a.Ok)
    (h : withdraw e w a amount allow = .ok (a', o)) (hn : allow = false ∨ a.bankIn.bank.reduceOnly = 1 ∨ a.bankIn.bank.reduceOnly = 2) :
    o.loan = 0 ∧ o.fee = 0 ∧ a'.bankIn.bank.indexedBorrows = a.bankIn.bank.indexedBorrows ∧ a'.bankIn.bank.collectedFeesNative = a.bankIn.bank.collectedFeesNative ∧
      o.amount * S ≤ max 0 (Bank.nativeOf a.bankIn.bank a.pos) ∧ (0 ≤ a.pos.indexed → 0 ≤ a'.pos.indexed) := by
  obtain ⟨h0, flag, pre, h1, h2⟩ := withdraw_parts h
  rcases h2 with ⟨h3, rfl, rfl⟩ | ⟨b', p', r, P⟩
  · refine ⟨rfl, rfl, rfl, rfl, ?_, fun h => h⟩
    dsimp only; omega
  · have eb : a'.bankIn.bank = b' := by
      have : a'.bankIn = (a.put b' p').bankIn := by rw [P.res]; rfl
      rw [this, put_bankIn hok]
    have ep : a'.pos = p' := by rw [P.res]; rfl
    have hle : o.amount * S ≤ Bank.nativeOf a.bankIn.bank a.pos := by
      rcases hn with hn | hn
      · rcases P.allowed with g | g
        · rw [hn] at g; cases g
        · exact g
      · apply P.reduceOnly
        rcases hn with hn | hn <;> simp [Bank.areBorrowsReduceOnly, hn]
    obtain ⟨g1, g2, g3, g4, g5, g6⟩ := (Bank.C04_withdraw_excess hb hr P.bank).1 hle
    have o1 : o.loan = r.loanAmount := by rw [P.out]
    have o2 : o.fee = r.loanOriginationFee := by rw [P.out]
    rw [eb, ep, o1, o2]
    exact ⟨g4, g3, g5, g6, by omega, fun _ => g2⟩

/-- **C64.** A withdrawal of more than the balance is a loan of the difference. It must be asked for, of a token that may be borrowed, at a trustworthy price; the loan (plus its fee, which goes to
the bank's fees) stays within the bank's minimal ratio of vault to deposits and its net borrow limit. Any other withdrawal leaves borrows within deposits. -/
theorem C64_loan {e : Env} {w : Who} {a a' : Acct} {amount : Int} {allow : Bool} {o : Outcome} (hb : a.bankIn.bank.Pos) (hr : 0 ≤ a.bankIn.bank.loanOriginationFeeRate) (hok : a.Ok)
    (h : withdraw e w a amount allow = .ok (a', o)) :
    let b := a.bankIn.bank
    let b' := a'.bankIn.bank
    let native := Bank.nativeOf b a.pos
    (max native 0 < o.amount * S →
      let excess := o.amount * S - max native 0
      allow = true ∧ b.reduceOnly ≠ 1 ∧ b.reduceOnly ≠ 2 ∧ e.priceOk = true ∧
      o.fee = b.loanOriginationFeeRate * excess / S ∧ o.loan = excess + o.fee ∧ b'.collectedFeesNative = b.collectedFeesNative + o.fee ∧
      b'.borrowIndex * b'.indexedBorrows / S ≤ (S - b.minVaultToDepositsRatio) * (b'.depositIndex * b'.indexedDeposits / S) / S ∧
      (0 ≤ b.netBorrowLimitPerWindowQuote → 0 ≤ b'.netBorrowsInWindow → b'.netBorrowsInWindow * max e.price b.stablePrice ≤ b.netBorrowLimitPerWindowQuote * S)) ∧
    (o.amount * S ≤ native → b'.borrowIndex * b'.indexedBorrows / S ≤ b'.depositIndex * b'.indexedDeposits / S) := by
  intro b b' native
  obtain ⟨h0, flag, pre, h1, h2⟩ := withdraw_parts h
  have hS := S_pos
  rcases h2 with ⟨h3, rfl, rfl⟩ | ⟨bb, p', r, P⟩
  · have hneg : native < 0 := by
      unfold withdrawAmount at h3
      by_cases hc : amount = U64MAX ∧ allow = false
      · rw [if_pos hc] at h3
        by_contra hn
        rw [if_pos hn] at h3
        simp only [bind_ok, ok_inj] at h3
        obtain ⟨_, _, h3⟩ := h3
        cases h3
      · rw [if_neg hc] at h3
        simp only [ok_inj] at h3
        cases h3
    dsimp only
    refine ⟨fun hlt => ?_, fun hle => ?_⟩ <;> exfalso <;> omega
  · have eb : b' = bb := by
      have : a'.bankIn = (a.put bb p').bankIn := by rw [P.res]; rfl
      show a'.bankIn.bank = bb
      rw [this, put_bankIn hok]
    have cfg := withdrawWithFee_config (now := e.now) hb P.bank
    have st : bb.stablePrice = b.stablePrice := cfg.stable
    have cf : bb.minVaultToDepositsRatio = b.minVaultToDepositsRatio ∧ bb.netBorrowLimitPerWindowQuote = b.netBorrowLimitPerWindowQuote := by
      obtain ⟨q1, g1, _, _⟩ := Bank.withdrawWrapper_ok P.bank
      obtain ⟨_, hc⟩ := Bank.withdrawInternal_ok hb g1
      cases hc <;> exact ⟨rfl, rfl⟩
    have hl := P.limits
    unfold withdrawLimits at hl
    rw [eb]
    refine ⟨fun hlt => ?_, fun hle => ?_⟩
    · intro excess
      have hgt : ofInt o.amount > native := by unfold ofInt; omega
      have hgt' : Bank.nativeOf a.bankIn.bank a.pos < o.amount * S := lt_of_le_of_lt (le_max_left _ _) hlt
      rw [if_pos (by simpa using hgt)] at hl
      simp only [bind_ok, require_ok, Bank.enforceMaxUtilizationOnBorrow, sub_ok] at hl
      obtain ⟨_, ⟨m, ⟨rfl, _⟩, l1⟩, _, l2, l3⟩ := hl
      have C := (Bank.C04_withdraw_excess hb hr P.bank).2 (by unfold ofInt at hgt ⊢; exact hgt)
      dsimp only at C
      rw [if_pos rfl] at C
      obtain ⟨c1, c2, c3, _⟩ := C
      have o1 : o.loan = r.loanAmount := by rw [P.out]
      have o2 : o.fee = r.loanOriginationFee := by rw [P.out]
      have ex : ofInt o.amount - max (Bank.nativeOf a.bankIn.bank a.pos) 0 = excess := by unfold ofInt; rfl
      rw [ex] at c1 c2 c3
      refine ⟨?_, ?_, ?_, l2, ?_, ?_, ?_, ?_, ?_⟩
      · rcases P.allowed with g | g
        · exact g
        · omega
      · intro e
        have := P.reduceOnly (by simp [Bank.areBorrowsReduceOnly, show a.bankIn.bank.reduceOnly = 1 from e])
        omega
      · intro e
        have := P.reduceOnly (by simp [Bank.areBorrowsReduceOnly, show a.bankIn.bank.reduceOnly = 2 from e])
        omega
      · rw [o2, c1]
      · rw [o1, o2, c2, c1]
      · rw [o2, c3, c1]
      · have := Serum.maxUtil_ok l1
        rw [cf.1] at this
        exact this
      · intro q1 q2
        have := Bank.C05_check_sound l3 (by rw [cf.2]; exact q1) q2
        rw [cf.2, st] at this
        exact this
    · have hng : ¬ ofInt o.amount > native := by unfold ofInt; omega
      rw [if_neg (by simpa using hng)] at hl
      have := Serum.maxUtil_ok hl
      rw [show (Fx.ONE : Int) = S from rfl, Int.mul_ediv_cancel_left _ (by omega)] at this
      exact this

/-- **C64.** Withdrawing everything: less than one native token (plus the value of one index unit of rounding) stays, and the position is closed exactly if no order needs it. -/
theorem C64_withdraw_all {e : Env} {w : Who} {a a' : Acct} {o : Outcome} (hb : a.bankIn.bank.Pos) (hok : a.Ok) (hnn : 0 ≤ Bank.nativeOf a.bankIn.bank a.pos)
    (h : withdraw e w a U64MAX false = .ok (a', o)) :
    o.amount = Bank.nativeOf a.bankIn.bank a.pos / S ∧ (o.closed = true ↔ a.pos.inUseCount = 0) ∧ (o.closed = true → a'.pos.indexed = 0) ∧
      0 ≤ a'.pos.indexed ∧ Bank.nativeOf a'.bankIn.bank a'.pos * S < S * S + a.bankIn.bank.depositIndex + S := by
  obtain ⟨h0, flag, pre, h1, h2⟩ := withdraw_parts h
  have hS := S_pos
  rcases h2 with ⟨h3, rfl, rfl⟩ | ⟨b', p', r, P⟩
  · exfalso
    unfold withdrawAmount at h3
    rw [if_pos ⟨rfl, rfl⟩, if_pos (by omega)] at h3
    simp only [bind_ok, ok_inj] at h3
    obtain ⟨_, _, h3⟩ := h3
    cases h3
  · have eb : a'.bankIn.bank = b' := by
      have : a'.bankIn = (a.put b' p').bankIn := by rw [P.res]; rfl
      rw [this, put_bankIn hok]
    have ep : a'.pos = p' := by rw [P.res]; rfl
    have hc : o.closed = !r.positionIsActive := by rw [P.out]
    have ham : o.amount = Bank.nativeOf a.bankIn.bank a.pos / S := by
      have h3 := P.amt
      unfold withdrawAmount at h3
      rw [if_pos ⟨rfl, rfl⟩, if_pos (by omega)] at h3
      simp only [bind_ok, ok_inj, toU64_ok, Option.some.injEq] at h3
      obtain ⟨x, ⟨rfl, _⟩, h3⟩ := h3
      exact h3.symm
    have fb := mulFloor_bounds (Bank.nativeOf a.bankIn.bank a.pos)
    rw [← ham] at fb
    obtain ⟨q1, g1, e1, _⟩ := Bank.withdrawWrapper_ok P.bank
    obtain ⟨ha, hcase⟩ := Bank.withdrawInternal_ok hb g1
    rw [eb, ep, hc, e1]
    refine ⟨ham, ?_⟩
    have hdi := hb.1
    have nz : ∀ (x : Bank) (y : TokenPosition), y.indexed = 0 → Bank.nativeOf x y = 0 := by
      intro x y hy
      unfold Bank.nativeOf
      rw [hy]; simp
    have hpos2 : 0 < S * S := Int.mul_pos hS hS
    cases hcase with
    | dust hp n hn q0 q1' hd =>
      refine ⟨?_, fun _ => rfl, le_refl _, ?_⟩
      · simp only [TokenPosition.isInUse, Bool.not_eq_true', decide_eq_false_iff_not] at hd
        simp; omega
      · rw [nz _ _ e1]; simp; omega
    | part hp n hn q0 =>
      have hn' := native_is hn
      unfold ofInt at *
      refine ⟨?_, ?_, ?_, ?_⟩
      · constructor
        · intro hx; simp at hx
        · intro hx
          exfalso
          -- a position that is not in use would have been dusted
          have g := g1
          unfold Bank.withdrawInternal at g
          simp only [bind_ok, require_ok] at g
          obtain ⟨_, _, n2, hn2, g⟩ := g
          have hn2' := native_is hn2
          rw [if_pos (by omega)] at g
          simp only [bind_ok, sub_ok] at g
          obtain ⟨nn, ⟨rfl, _⟩, g⟩ := g
          rw [if_pos (by omega), if_pos ⟨by show _ < S; omega, by simp [TokenPosition.isInUse, hx]⟩] at g
          simp only [bind_ok, ok_inj, Prod.mk.injEq] at g
          obtain ⟨_, _, _, _, _, _, g⟩ := g
          cases g
      · intro hx; simp at hx
      · dsimp only
        have t := tdiv_bounds (a := o.amount * S * S) (b := a.bankIn.bank.depositIndex) (Int.mul_nonneg (by omega) (by omega)) hdi
        have nb := Bank.native_bounds hn
        rw [Bank.exactValue_nonneg_pos hp] at nb
        by_contra hneg
        have : (a.pos.indexed + 1) * a.bankIn.bank.depositIndex ≤ Int.tdiv (o.amount * S * S) a.bankIn.bank.depositIndex * a.bankIn.bank.depositIndex :=
          Int.mul_le_mul_of_nonneg_right (by omega) (by omega)
        have e2 : (a.pos.indexed + 1) * a.bankIn.bank.depositIndex = a.pos.indexed * a.bankIn.bank.depositIndex + a.bankIn.bank.depositIndex := by ring
        have e3 : o.amount * S * S ≤ n * S := Int.mul_le_mul_of_nonneg_right (by omega) (by omega)
        omega
      · have t := tdiv_bounds (a := o.amount * S * S) (b := a.bankIn.bank.depositIndex) (Int.mul_nonneg (by omega) (by omega)) hdi
        have nb := Bank.native_bounds hn
        rw [Bank.exactValue_nonneg_pos hp] at nb
        unfold Bank.nativeOf
        rw [e1]
        dsimp only at e1 ⊢
        by_cases hi : a.pos.indexed - Int.tdiv (o.amount * S * S) a.bankIn.bank.depositIndex > 0
        · rw [if_pos hi]
          have mb := mulFloor_bounds ((a.pos.indexed - Int.tdiv (o.amount * S * S) a.bankIn.bank.depositIndex) * a.bankIn.bank.depositIndex)
          have e2 : (a.pos.indexed - Int.tdiv (o.amount * S * S) a.bankIn.bank.depositIndex) * a.bankIn.bank.depositIndex =
              a.pos.indexed * a.bankIn.bank.depositIndex - Int.tdiv (o.amount * S * S) a.bankIn.bank.depositIndex * a.bankIn.bank.depositIndex := by ring
          have e3 : (n - o.amount * S) * S ≤ (S - 1) * S := Int.mul_le_mul_of_nonneg_right (by omega) (by omega)
          have e4 : (n - o.amount * S) * S = n * S - o.amount * S * S := by ring
          have e5 : (S - 1) * S = S * S - S := by ring
          omega
        · rw [if_neg hi]
          have : (a.pos.indexed - Int.tdiv (o.amount * S * S) a.bankIn.bank.depositIndex) * a.bankIn.bank.borrowIndex ≤ 0 := Int.mul_nonpos_of_nonpos_of_nonneg (by omega) (by have := hb.2; omega)
          have mb := mulFloor_bounds ((a.pos.indexed - Int.tdiv (o.amount * S * S) a.bankIn.bank.depositIndex) * a.bankIn.bank.borrowIndex)
          omega
    | borrow n rest tot st nb hn hlt hw hrest htot =>
      exfalso
      have hn' := native_is hn
      unfold ofInt at *
      omega

/-- **C64.** A delegate can only pay out to the owner's associated token account, and only if that closes the position: everything but less than one native token, and never a loan. -/
theorem C64_delegate {e : Env} {w : Who} {a a' : Acct} {amount : Int} {allow : Bool} {o : Outcome} (hb : a.bankIn.bank.Pos) (hok : a.Ok) (hw : w.delegate = true)
    (h : withdraw e w a amount allow = .ok (a', o)) :
    (o.amount = 0 ∧ o.closed = false ∧ ∃ f, a' = { a with flag := f }) ∨
    (w.toOwnerAta = true ∧ o.closed = true ∧ a'.pos.indexed = 0 ∧ o.loan = 0 ∧ o.fee = 0 ∧
      0 ≤ Bank.nativeOf a.bankIn.bank a.pos - o.amount * S ∧ Bank.nativeOf a.bankIn.bank a.pos - o.amount * S < S) := by
  obtain ⟨h0, flag, pre, h1, h2⟩ := withdraw_parts h
  rcases h2 with ⟨h3, rfl, rfl⟩ | ⟨b', p', r, P⟩
  · exact Or.inl ⟨rfl, rfl, flag, rfl⟩
  · right
    have hd := P.delegate
    unfold delegateChecks at hd
    rw [if_pos hw] at hd
    simp only [bind_ok, require_ok] at hd
    obtain ⟨_, d1, d2⟩ := hd
    have ep : a'.pos = p' := by rw [P.res]; rfl
    have hc : o.closed = !r.positionIsActive := by rw [P.out]
    have o1 : o.loan = r.loanAmount := by rw [P.out]
    have o2 : o.fee = r.loanOriginationFee := by rw [P.out]
    obtain ⟨q1, g1, e1, _⟩ := Bank.withdrawWrapper_ok P.bank
    obtain ⟨ha, hcase⟩ := Bank.withdrawInternal_ok hb g1
    rw [ep, hc, o1, o2, e1, d2]
    refine ⟨d1, rfl, ?_⟩
    cases hcase with
    | dust hp n hn q0 q1' hd =>
      have := native_is hn
      unfold ofInt at *
      refine ⟨rfl, rfl, rfl, ?_, ?_⟩ <;> omega
    | part hp n hn q0 => simp at d2
    | borrow n rest tot st nb hn hlt hw hrest htot => simp at d2

end Wallet
end Mango
