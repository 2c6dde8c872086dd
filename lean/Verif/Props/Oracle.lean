import Verif.Oracle.Retriever
import Mathlib.Tactic.ByContra
import Mathlib.Data.List.Basic
/-!
# Oracle prices (C44) and finding health accounts (C52)
-/
namespace Mango
namespace Oracle
open Fx

/-! ## Specification -/

/-- the price is recent enough: checked only if the caller gives a time, and not at all with a negative limit -/
def Fresh (c : Cfg) (now : Option (Int × Int)) (st : OState) : Prop :=
  ∀ ts slot, now = some (ts, slot) → 0 ≤ c.maxStaleness →
    slot ≤ st.slot + c.maxStaleness ∧ (∀ t, st.time = some t → ts * 1000 ≤ t * 1000 + c.maxStaleness * 450)

/-- the deviation is at most the filter times the price -/
def Confident (c : Cfg) (st : OState) : Prop := st.deviation * S ≤ c.confFilter * st.price

/-- the slot of `now` is a u64 -/
def NowOk (now : Option (Int × Int)) : Prop := ∀ ts slot, now = some (ts, slot) → slot ≤ U64MAX

/-! ## Checks -/

theorem checkStaleness_sound {st : OState} {c : Cfg} {ts slot : Int} (hs : slot ≤ U64MAX) :
    (checkStaleness st c ts slot = .ok () → 0 ≤ c.maxStaleness → slot ≤ st.slot + c.maxStaleness ∧ (∀ t, st.time = some t → ts * 1000 ≤ t * 1000 + c.maxStaleness * 450)) ∧
    (isOracleError (checkStaleness st c ts slot) = true → 0 ≤ c.maxStaleness ∧ ¬ (slot ≤ st.slot + c.maxStaleness ∧ (∀ t, st.time = some t → ts * 1000 ≤ t * 1000 + c.maxStaleness * 450))) := by
  unfold checkStaleness
  by_cases h1 : c.maxStaleness < 0
  · rw [if_pos h1]; exact ⟨fun _ h => by omega, fun h => by simp [isOracleError] at h⟩
  rw [if_neg h1]
  by_cases h2 : min (st.slot + c.maxStaleness) U64MAX < slot
  · rw [if_pos h2]; exact ⟨fun h => by simp at h, fun _ => ⟨by omega, fun h => by omega⟩⟩
  rw [if_neg h2]
  cases ht : st.time with
  | none => exact ⟨fun _ _ => ⟨by omega, by simp⟩, fun h => by simp [isOracleError] at h⟩
  | some t =>
    constructor
    · intro h _
      simp only [bind_ok, cku64_ok, ite_ok] at h
      obtain ⟨x, ⟨rfl, _⟩, y, ⟨rfl, _⟩, z, ⟨rfl, _⟩, h⟩ := h
      refine ⟨by omega, ?_⟩
      intro t' ht'
      simp at ht'; subst ht'
      rcases h with ⟨_, h⟩ | ⟨h, _⟩
      · simp at h
      · omega
    · intro h
      refine ⟨by omega, ?_⟩
      rintro ⟨_, h4⟩
      have h5 := h4 t rfl
      dsimp only at h
      cases e1 : cku64 (ts * 1000) with
      | error e =>
        rw [e1] at h; simp only [bind, Except.bind] at h
        have : e = .panic := by unfold cku64 chk at e1; split at e1 <;> simp at e1; exact e1.symm
        subst this; simp [isOracleError] at h
      | ok x =>
        cases e2 : cku64 (t * 1000) with
        | error e =>
          rw [e1, e2] at h; simp only [bind, Except.bind] at h
          have : e = .panic := by unfold cku64 chk at e2; split at e2 <;> simp at e2; exact e2.symm
          subst this; simp [isOracleError] at h
        | ok y =>
          cases e3 : cku64 (c.maxStaleness * 450) with
          | error e =>
            rw [e1, e2, e3] at h; simp only [bind, Except.bind] at h
            have : e = .panic := by unfold cku64 chk at e3; split at e3 <;> simp at e3; exact e3.symm
            subst this; simp [isOracleError] at h
          | ok z =>
            rw [e1, e2, e3] at h; simp only [bind, Except.bind] at h
            have f1 := (cku64_ok.mp e1).1
            have f2 := cku64_ok.mp e2
            have f3 := (cku64_ok.mp e3).1
            rw [if_neg (by omega)] at h
            simp [isOracleError] at h

theorem floor_lt_iff {a x : Int} : x / S < a ↔ x < a * S := by
  have := Int.le_ediv_iff_mul_le (c := S) (b := x) (a := a) S_pos
  omega

theorem checkConfidence_sound {st : OState} {c : Cfg} :
    (checkConfidence st c = .ok () ↔ Confident c st ∧ inRange (c.confFilter * st.price / S)) ∧
    (isOracleError (checkConfidence st c) = true → ¬ Confident c st) := by
  unfold checkConfidence Confident
  cases hm : Fx.mul c.confFilter st.price with
  | error e =>
    have : e = .panic := by unfold Fx.mul Fx.ck chk at hm; split at hm <;> simp at hm; exact hm.symm
    subst this
    refine ⟨⟨fun h => by simp [bind, Except.bind] at h, fun h => ?_⟩, fun h => by simp [bind, Except.bind, isOracleError] at h⟩
    have := mul_ok.mpr ⟨rfl, h.2⟩
    rw [hm] at this; simp at this
  | ok m =>
    obtain ⟨rfl, hr⟩ := mul_ok.mp hm
    simp only [bind, Except.bind]
    have := floor_lt_iff (a := st.deviation) (x := c.confFilter * st.price)
    by_cases h : st.deviation > c.confFilter * st.price / S
    · rw [if_pos h]
      exact ⟨⟨fun h => by simp at h, fun h => by omega⟩, fun _ => by omega⟩
    · rw [if_neg h]
      exact ⟨⟨fun _ => ⟨by omega, hr⟩, fun _ => rfl⟩, fun h => by simp [isOracleError] at h⟩

theorem check_sound {st : OState} {c : Cfg} {now : Option (Int × Int)} (hn : NowOk now) :
    (check st c now = .ok () → Fresh c now st ∧ Confident c st) ∧
    (isOracleError (check st c now) = true → ¬ (Fresh c now st ∧ Confident c st)) := by
  unfold check
  cases now with
  | none =>
    simp only [bind, Except.bind]
    have hf : Fresh c none st := by intro ts slot h; simp at h
    exact ⟨fun h => ⟨hf, (checkConfidence_sound.1.mp h).1⟩, fun h h2 => checkConfidence_sound.2 h h2.2⟩
  | some p =>
    obtain ⟨ts, slot⟩ := p
    have hs := checkStaleness_sound (st := st) (c := c) (ts := ts) (hn ts slot rfl)
    dsimp only
    cases he : checkStaleness st c ts slot with
    | error e =>
      simp only [bind, Except.bind]
      refine ⟨fun h => by simp at h, fun h hf => ?_⟩
      rw [he] at hs
      obtain ⟨h1, h2⟩ := hs.2 (by simpa [isOracleError] using h)
      exact h2 (hf.1 ts slot rfl h1)
    | ok u =>
      simp only [bind, Except.bind]
      rw [he] at hs
      refine ⟨fun h => ⟨?_, (checkConfidence_sound.1.mp h).1⟩, fun h h2 => checkConfidence_sound.2 h h2.2⟩
      intro ts' slot' hh
      simp at hh
      obtain ⟨rfl, rfl⟩ := hh
      exact hs.1 rfl

/-! ## C44 -/

/-- **C44, banks** A price is returned only if it was read from the bank's own oracle and is fresh and confident, or the bank's oracle was readable but not fresh or
not confident and the price was read from the bank's own fallback oracle, fresh and confident by the same rules. -/
theorem C44_bank_price {inv : Nat → Res I80F48} {b : BankO} {i : Infos} {now : Option (Int × Int)} (hn : NowOk now) {p : I80F48} (h : bankPrice inv b i now = .ok p) :
    i.oracle.key = b.oracle ∧ ∃ st, stateOf inv i i.oracle b.decimals = .ok st ∧
      ((p = st.price ∧ Fresh b.cfg now st ∧ Confident b.cfg st) ∨
       (¬ (Fresh b.cfg now st ∧ Confident b.cfg st) ∧ ∃ f fs, i.fallback = some f ∧ f.key = b.fallback ∧ stateOf inv i f b.decimals = .ok fs ∧
          p = fs.price ∧ Fresh b.cfg now fs ∧ Confident b.cfg fs)) := by
  unfold bankPrice at h
  simp only [bind_ok, require_ok] at h
  obtain ⟨_, hk, st, hst, h⟩ := h
  refine ⟨hk.symm, st, hst, ?_⟩
  have direct : (do let _ ← check st b.cfg now; Except.ok st.price : Res I80F48) = .ok p → p = st.price ∧ Fresh b.cfg now st ∧ Confident b.cfg st := by
    intro h
    simp only [bind_ok] at h
    obtain ⟨_, h1, h2⟩ := h
    simp at h2
    exact ⟨h2.symm, (check_sound hn).1 h1⟩
  cases hf : i.fallback with
  | none => rw [hf] at h; exact Or.inl (direct h)
  | some f =>
    rw [hf] at h
    dsimp only at h
    by_cases ho : isOracleError (check st b.cfg now) = true
    · rw [if_pos ho] at h
      simp only [bind_ok, require_ok] at h
      obtain ⟨_, hfk, fs, hfs, _, hc, hp⟩ := h
      simp at hp
      have := (check_sound hn).1 hc
      exact Or.inr ⟨(check_sound hn).2 ho, f, fs, rfl, hfk.symm, hfs, hp.symm, this.1, this.2⟩
    · rw [if_neg ho] at h
      exact Or.inl (direct h)

/-- **C44, good primary** A readable, fresh and confident primary price is what is returned (whatever the fallback says); nothing overflows in the checks. -/
theorem C44_good_primary {inv : Nat → Res I80F48} {b : BankO} {i : Infos} {now : Option (Int × Int)} {st : OState} (hk : i.oracle.key = b.oracle)
    (hst : stateOf inv i i.oracle b.decimals = .ok st) (hc : check st b.cfg now = .ok ()) : bankPrice inv b i now = .ok st.price := by
  have hr : require (b.oracle = i.oracle.key) Err.requireFailed = .ok () := by rw [require_ok]; exact hk.symm
  unfold bankPrice
  simp only [hr, hst, hc, bind, Except.bind]
  cases i.fallback <;> simp [isOracleError]

/-- **C44, bad primary** If the primary is stale or not confident and there is no fallback, or the fallback is bad too, there is no price. -/
theorem C44_no_bad_price {inv : Nat → Res I80F48} {b : BankO} {i : Infos} {now : Option (Int × Int)} (hn : NowOk now) {st : OState}
    (hst : stateOf inv i i.oracle b.decimals = .ok st) (hbad : ¬ (Fresh b.cfg now st ∧ Confident b.cfg st))
    (hfb : ∀ f fs, i.fallback = some f → stateOf inv i f b.decimals = .ok fs → ¬ (Fresh b.cfg now fs ∧ Confident b.cfg fs)) :
    ∃ e, bankPrice inv b i now = .error e := by
  cases h : bankPrice inv b i now with
  | error e => exact ⟨e, rfl⟩
  | ok p =>
    exfalso
    obtain ⟨_, st', h1, h2⟩ := C44_bank_price hn h
    rw [hst] at h1; simp at h1; subst h1
    rcases h2 with ⟨_, h3⟩ | ⟨_, f, fs, h4, _, h5, _, h6⟩
    · exact hbad h3
    · exact hfb f fs h4 h5 h6

/-- **C44, perp markets** No fallback: the market's own oracle, fresh and confident. -/
theorem C44_perp_price {inv : Nat → Res I80F48} {o : Nat} {d : Int} {c : Cfg} {i : Infos} {now : Option (Int × Int)} (hn : NowOk now) {st : OState}
    (h : perpState inv o d c i now = .ok st) : i.oracle.key = o ∧ stateOf inv i i.oracle d = .ok st ∧ Fresh c now st ∧ Confident c st := by
  unfold perpState at h
  simp only [bind_ok, require_ok] at h
  obtain ⟨_, hk, st', hst, _, hc, h⟩ := h
  simp at h; subst h
  have := (check_sound hn).1 hc
  exact ⟨hk.symm, hst, this.1, this.2⟩

/-- stub oracles are the only ones that may report a negative price -/
def IsStub (a : OAcc) : Prop := ∃ p d s, a.src = .stub p d s

theorem pythState_nonneg {p : Pyth} {d : Int} {st : OState} (h : pythState p d = .ok st) : 0 ≤ st.price := by
  unfold pythState at h
  dsimp only at h
  simp only [bind_ok, require_ok] at h
  obtain ⟨_, _, _, _, _, _, _, h1, h⟩ := h
  simp at h; subst h
  exact h1

theorem quoteState_nonneg {i : Infos} {a b : Mint} {st : OState} (h : quoteState i a b = .ok st) : 0 ≤ st.price := by
  unfold quoteState at h
  have key : ∀ (u : OAcc) (d : Int), pythOf u d = .ok st → 0 ≤ st.price := by
    intro u d hu
    unfold pythOf at hu
    cases hs : u.src <;> rw [hs] at hu <;> simp at hu
    exact pythState_nonneg hu
  split at h
  · split at h
    · exact key _ _ h
    · simp at h
  · split at h
    · exact key _ _ h
    · simp at h
  · simp at h

/-- **C44, sign** Apart from stub oracles, a price that can be read is not negative. -/
theorem C44_price_nonneg {inv : Nat → Res I80F48} (hinv : ∀ n x, inv n = .ok x → 0 ≤ x) {i : Infos} {a : OAcc} {d : Int} {st : OState} (hs : ¬ IsStub a)
    (h : stateOf inv i a d = .ok st) : 0 ≤ st.price := by
  unfold stateOf at h
  split at h
  · exact absurd ⟨_, _, _, by assumption⟩ hs
  · exact pythState_nonneg h
  · simp only [bind_ok, require_ok] at h
    obtain ⟨_, _, _, _, _, _, _, _, _, h1, h⟩ := h
    simp at h; subst h; exact h1
  · simp only [bind_ok, require_ok] at h
    obtain ⟨_, _, _, _, _, _, _, _, _, h1, h⟩ := h
    simp at h; subst h; exact h1
  · simp only [bind_ok, require_ok, mul_ok] at h
    obtain ⟨_, _, c, hc, q, hq, _, ⟨rfl, _⟩, h⟩ := h
    simp at h; subst h
    have h2 := quoteState_nonneg hq
    have h1 : 0 ≤ c := by
      unfold clmmPrice at hc
      split at hc
      · exact hinv _ _ hc
      · simp only [bind_ok, require_ok] at hc
        obtain ⟨_, _, hc⟩ := hc
        simp at hc; subst hc
        exact Int.natCast_nonneg _
    exact floor_nonneg (Int.mul_nonneg h1 h2)
  · simp at h

/-- **C44, what is read** For every kind of oracle account: price, deviation, slot and time are those in the account, converted from the feed's exponent
and the token's decimals to native quote per native token (`10^(exponent + 6 - decimals)`). A Pyth feed that is not trading gives its
previous price, deviation and slot. Pool prices are the pool's price times the price of the feed of the quote token. -/
theorem C44_reads {inv : Nat → Res I80F48} {i : Infos} {a : OAcc} {dec : Int} {st : OState} (h : stateOf inv i a dec = .ok st) :
    (∀ p, a.src = .pyth p → ∃ x, powerOfTen (p.expo + 6 - dec) = .ok x ∧ st.time = none ∧
      (p.trading = true → st.price = p.price * x ∧ st.deviation = p.conf * x ∧ st.slot = p.pubSlot) ∧
      (p.trading = false → st.price = p.prevPrice * x ∧ st.deviation = p.prevConf * x ∧ st.slot = p.prevSlot)) ∧
    (∀ full pr cf expo slot time, a.src = .pythV2 full pr cf expo slot time → full = true ∧ ∃ x, powerOfTen (expo + 6 - dec) = .ok x ∧
      st = ⟨pr * x, cf * x, slot, some time⟩) ∧
    (∀ readable ui dev slot, a.src = .feed readable ui dev slot → readable = true ∧ ∃ x, powerOfTen (6 - dec) = .ok x ∧
      st = ⟨ui * x / S, dev * x / S, slot, none⟩) ∧
    (∀ valid sq m n, a.src = .pool valid sq m n → valid = true ∧ ∃ c q, clmmPrice inv sq m n = .ok c ∧ quoteState i m n = .ok q ∧
      st.price = c * q.price / S ∧ st.slot = q.slot) ∧ a.src ≠ .unknown := by
  have hm : ∀ n x : Int, ofInt n * x / S = n * x := by
    intro n x
    unfold ofInt
    rw [show n * S * x = n * x * S by rw [Int.mul_assoc, Int.mul_comm S x, Int.mul_assoc], Int.mul_ediv_cancel _ (by have := S_pos; omega)]
  have hQ : QUOTE_DECIMALS = 6 := rfl
  unfold stateOf at h
  refine ⟨?_, ?_, ?_, ?_, ?_⟩
  · intro p hp
    rw [hp] at h
    simp only [pythState, bind_ok, mul_ok, require_ok, ok_inj, hQ] at h
    cases ht : p.trading with
    | true =>
      rw [ht] at h
      simp only [if_true, hm] at h
      obtain ⟨x, hx, pr, ⟨rfl, _⟩, dv, ⟨rfl, _⟩, _, _, rfl⟩ := h
      exact ⟨x, hx, rfl, fun _ => ⟨rfl, rfl, rfl⟩, fun h => by simp at h⟩
    | false =>
      rw [ht] at h
      simp only [Bool.false_eq_true, if_false, hm] at h
      obtain ⟨x, hx, pr, ⟨rfl, _⟩, dv, ⟨rfl, _⟩, _, _, rfl⟩ := h
      exact ⟨x, hx, rfl, fun h => by simp at h, fun _ => ⟨rfl, rfl, rfl⟩⟩
  · intro full pr cf expo slot time hp
    rw [hp] at h
    simp only [bind_ok, mul_ok, require_ok, ok_inj, hQ, hm] at h
    obtain ⟨_, hf, x, hx, p, ⟨rfl, _⟩, dv, ⟨rfl, _⟩, _, _, rfl⟩ := h
    exact ⟨hf, x, hx, rfl⟩
  · intro readable ui dev slot hp
    rw [hp] at h
    simp only [bind_ok, mul_ok, require_ok, ok_inj, hQ] at h
    obtain ⟨_, hf, x, hx, p, ⟨rfl, _⟩, dv, ⟨rfl, _⟩, _, _, rfl⟩ := h
    exact ⟨hf, x, hx, rfl⟩
  · intro valid sq m n hp
    rw [hp] at h
    simp only [bind_ok, mul_ok, require_ok, ok_inj] at h
    obtain ⟨_, hf, c, hc, q, hq, p, ⟨rfl, _⟩, rfl⟩ := h
    exact ⟨hf, c, q, hc, hq, rfl, rfl⟩
  · intro hp
    rw [hp] at h
    simp at h

/-- **C44, pools** A pool is read against its quote token: USDC if one of its tokens is USDC, otherwise SOL; a pool with neither is not read. The price of the quote token is that of the legacy
Pyth feed passed for it, with its deviation and slot. If the quote token is the second token, the pool's price is the square of its root price, rounded down; if it is the first, the inverse
(a rounded f64 computation, `inv`). -/
theorem C44_pool {inv : Nat → Res I80F48} {i : Infos} {a : OAcc} {dec : Int} {st : OState} (h : stateOf inv i a dec = .ok st) {valid : Bool} {sq : Nat} {m n : Mint}
    (hp : a.src = .pool valid sq m n) :
    valid = true ∧ ∃ c q u p, st.price = c * q.price / S ∧ st.deviation = q.deviation ∧ st.slot = q.slot ∧ st.time = none ∧ u.src = .pyth p ∧
      ((m = .usdc ∧ i.usdc = some u ∧ stateOf inv i u 6 = .ok q ∧ inv sq = .ok c) ∨
       (m ≠ .usdc ∧ n = .usdc ∧ i.usdc = some u ∧ stateOf inv i u 6 = .ok q ∧ c = ((sq * sq / 2 ^ 80 : Nat) : Int)) ∨
       (m = .sol ∧ n ≠ .usdc ∧ i.sol = some u ∧ stateOf inv i u 9 = .ok q ∧ inv sq = .ok c) ∨
       (m ≠ .usdc ∧ m ≠ .sol ∧ n = .sol ∧ i.sol = some u ∧ stateOf inv i u 9 = .ok q ∧ c = ((sq * sq / 2 ^ 80 : Nat) : Int))) := by
  have hy : ∀ (u : OAcc) (d : Int) (q : OState), pythOf u d = .ok q → ∃ p, u.src = .pyth p ∧ stateOf inv i u d = .ok q := by
    intro u d q hq
    unfold pythOf at hq
    cases hs : u.src <;> rw [hs] at hq <;> simp at hq
    rename_i p
    exact ⟨p, rfl, by unfold stateOf; rw [hs]; exact hq⟩
  have hd : ∀ x : Nat, x / 2 ^ 64 / 2 ^ 16 = x / 2 ^ 80 := by
    intro x; rw [Nat.div_div_eq_div_mul, ← Nat.pow_add]
  unfold stateOf at h
  rw [hp] at h
  simp only [bind_ok, mul_ok, require_ok, ok_inj] at h
  obtain ⟨_, hf, c, hc, q, hq, p, ⟨rfl, _⟩, rfl⟩ := h
  refine ⟨hf, c, q, ?_⟩
  unfold clmmPrice at hc
  unfold quoteState at hq
  by_cases hi : isInverted m n = true
  · rw [if_pos hi] at hc hq
    unfold isInverted at hi
    rw [Bool.or_eq_true, Bool.and_eq_true, decide_eq_true_eq, decide_eq_true_eq, decide_eq_true_eq] at hi
    cases m with
    | usdc =>
      cases hu : i.usdc with
      | none => simp [hu] at hq
      | some u =>
        simp only [hu] at hq
        obtain ⟨p, e1, e2⟩ := hy _ _ _ hq
        exact ⟨u, p, rfl, rfl, rfl, rfl, e1, .inl ⟨rfl, rfl, e2, hc⟩⟩
    | sol =>
      cases hu : i.sol with
      | none => simp [hu] at hq
      | some u =>
        simp only [hu] at hq
        obtain ⟨p, e1, e2⟩ := hy _ _ _ hq
        have : n ≠ .usdc := by rcases hi with h | h; · cases h
                               · exact h.2
        exact ⟨u, p, rfl, rfl, rfl, rfl, e1, .inr (.inr (.inl ⟨rfl, this, rfl, e2, hc⟩))⟩
    | other k => simp at hq
  · rw [if_neg hi] at hc hq
    unfold isInverted at hi
    rw [Bool.or_eq_true, Bool.and_eq_true, decide_eq_true_eq, decide_eq_true_eq, decide_eq_true_eq, not_or, not_and_or, not_not] at hi
    simp only [bind_ok, require_ok, ok_inj, hd] at hc
    obtain ⟨_, _, rfl⟩ := hc
    cases n with
    | usdc =>
      cases hu : i.usdc with
      | none => simp [hu] at hq
      | some u =>
        simp only [hu] at hq
        obtain ⟨p, e1, e2⟩ := hy _ _ _ hq
        exact ⟨u, p, rfl, rfl, rfl, rfl, e1, .inr (.inl ⟨hi.1, rfl, rfl, e2, rfl⟩)⟩
    | sol =>
      cases hu : i.sol with
      | none => simp [hu] at hq
      | some u =>
        simp only [hu] at hq
        obtain ⟨p, e1, e2⟩ := hy _ _ _ hq
        have : m ≠ .sol := by rcases hi.2 with h | h; · exact h
                              · cases h
        exact ⟨u, p, rfl, rfl, rfl, rfl, e1, .inr (.inr (.inr ⟨hi.1, this, rfl, rfl, e2, rfl⟩))⟩
    | other k => simp at hq

/-- **C44, decimals** The scaling constants: exact for non-negative exponents, the nearest last place for negative ones; other exponents abort. -/
theorem C44_decimals {d : Int} :
    (d < -12 ∨ 12 < d → powerOfTen d = .error .panic) ∧
    (0 ≤ d → d ≤ 12 → powerOfTen d = .ok (S * 10 ^ d.toNat)) ∧
    (-12 ≤ d → d < 0 → ∃ x, powerOfTen d = .ok x ∧ 2 * (x * 10 ^ (-d).toNat) ≤ 2 * S + 10 ^ (-d).toNat ∧ 2 * S - 10 ^ (-d).toNat ≤ 2 * (x * 10 ^ (-d).toNat)) := by
  have hlen : decimalConstants.length = 25 := rfl
  refine ⟨?_, ?_, ?_⟩
  · intro h
    unfold powerOfTen
    by_cases h0 : 0 ≤ d + 12
    · rw [if_pos h0]
      have : decimalConstants[(d + 12).toNat]? = none := by rw [List.getElem?_eq_none_iff, hlen]; omega
      rw [this]
    · rw [if_neg h0]
  · intro h1 h2
    have : d = 0 ∨ d = 1 ∨ d = 2 ∨ d = 3 ∨ d = 4 ∨ d = 5 ∨ d = 6 ∨ d = 7 ∨ d = 8 ∨ d = 9 ∨ d = 10 ∨ d = 11 ∨ d = 12 := by omega
    rcases this with h | h | h | h | h | h | h | h | h | h | h | h | h <;> subst h <;> decide +kernel
  · intro h1 h2
    have : d = -1 ∨ d = -2 ∨ d = -3 ∨ d = -4 ∨ d = -5 ∨ d = -6 ∨ d = -7 ∨ d = -8 ∨ d = -9 ∨ d = -10 ∨ d = -11 ∨ d = -12 := by omega
    rcases this with h | h | h | h | h | h | h | h | h | h | h | h <;> subst h <;>
      exact ⟨_, rfl, by decide +kernel, by decide +kernel⟩

/-! ### Findings -/

def noInv : Nat → Res I80F48 := fun _ => .error .panic
def exCfg : Cfg := { confFilter := S / 10, maxStaleness := 100 }
def exBank : BankO := { oracle := 1, fallback := 2, decimals := 6, cfg := exCfg }

/-- **C44, finding** A zero price with zero deviation passes all checks: the price need not be positive. -/
theorem C44_zero_price_accepted :
    bankPrice noInv exBank ⟨⟨1, .pyth ⟨true, 0, 0, 1000, 0, 0, 0, -6⟩⟩, none, none, none⟩ (some (5000, 1001)) = .ok 0 := by decide +kernel

/-- **C44, finding** The deviation of a pool price is the deviation of the quote feed, not scaled by the pool price: with a pool price of 16, a quote feed that is
off by 100% passes a 10% filter; with a pool price of 1/16 a quote feed with 1% deviation fails it. -/
theorem C44_pool_deviation_unscaled :
    bankPrice noInv exBank ⟨⟨1, .pool true (4 * 2 ^ 64) (.other 0) .usdc⟩, none, some ⟨3, .pyth ⟨true, 1000000, 1000000, 1000, 0, 0, 0, -6⟩⟩, none⟩
      (some (5000, 1001)) = .ok (16 * (1000000 * (S / 10 ^ 6 + 1))) ∧
    bankPrice noInv exBank ⟨⟨1, .pool true (2 ^ 62) (.other 0) .usdc⟩, none, some ⟨3, .pyth ⟨true, 1000000, 10000, 1000, 0, 0, 0, -6⟩⟩, none⟩
      (some (5000, 1001)) = .error .oracleConfidence := by decide +kernel

/-- **C44, finding** A Pyth price update that is not fully verified makes the whole read fail: a good fallback is not used (it is for a stale primary). -/
theorem C44_unreadable_primary_blocks_fallback :
    bankPrice noInv exBank ⟨⟨1, .pythV2 false 1000000 0 (-6) 1000 5000⟩, some ⟨2, .pythV2 true 1000000 0 (-6) 1000 5000⟩, none, none⟩
      (some (5000, 1001)) = .error .oracleConfidence ∧
    bankPrice noInv exBank ⟨⟨1, .pythV2 true 1000000 0 (-6) 1000 4000⟩, some ⟨2, .pythV2 true 2000000 0 (-6) 1000 5000⟩, none, none⟩
      (some (5000, 1001)) = .ok (2000000 * (S / 10 ^ 6 + 1)) := by decide +kernel

/-- **C44, finding** A stub oracle without deviation and slot passes every check with a negative price. -/
theorem C44_stub_always_passes {inv : Nat → Res I80F48} {b : BankO} {key : Nat} {price : I80F48} {now : Option (Int × Int)} (hk : b.oracle = key)
    (hm : inRange (b.cfg.confFilter * price / S)) (hn : NowOk now) :
    bankPrice inv b { oracle := ⟨key, .stub price 0 0⟩, fallback := none, usdc := none, sol := none } now = .ok price := by
  apply C44_good_primary (st := { price := price, deviation := I128MIN, slot := U64MAX, time := none }) hk.symm
  · simp [stateOf]
  · have hc : checkConfidence { price := price, deviation := I128MIN, slot := U64MAX, time := none } b.cfg = .ok () := by
      rw [checkConfidence_sound.1]
      refine ⟨?_, hm⟩
      unfold Confident
      have := floor_lt_iff (a := I128MIN) (x := b.cfg.confFilter * price)
      have := hm.1
      dsimp only
      omega
    unfold check
    cases now with
    | none => simpa [bind, Except.bind] using hc
    | some q =>
      obtain ⟨ts, slot⟩ := q
      have h1 := hn ts slot rfl
      have : checkStaleness { price := price, deviation := I128MIN, slot := U64MAX, time := none } b.cfg ts slot = .ok () := by
        unfold checkStaleness
        by_cases h2 : b.cfg.maxStaleness < 0
        · rw [if_pos h2]
        · rw [if_neg h2]
          dsimp only
          rw [if_neg (by omega)]
      simp only [this, bind, Except.bind]
      exact hc

end Oracle
end Mango
