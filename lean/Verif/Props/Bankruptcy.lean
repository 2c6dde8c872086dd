import Verif.Liq.Bankruptcy
import Verif.Props.Bank3
/-!
# C12: token bankruptcy
-/
namespace Mango
namespace Liquidation
open Fx Health Bank

/-! ## Unpacking -/

theorem getBank_ok' {l : List Bank} {k : Nat} {b : Bank} (h : getBank ⟨l, [], 0⟩ k = .ok b) : l[k]? = some b := Bank.getBank_ok h

theorem at_ok {α : Type} {l : List α} {i : Nat} {a : α} (h : Serum3Info.at_ l i = .ok a) : l[i]? = some a := by
  unfold Serum3Info.at_ at h
  split at h
  · rename_i x hx; rw [ok_inj] at h; rw [← h]; exact hx
  · simp at h

/-- an account whose spot and perp orders are gone, whose perp positions are closed and have no positive pnl left, and in which no owed token faces a
token that could be liquidated -/
structure AfterPhase2 (c : Cache) (bs : List Int) : Prop where
  serums : ∀ s ∈ c.serums, s.hasZeroFunds = true
  perpOrders : ∀ p ∈ c.perps, p.hasOpenOrders = false
  perpBase : ∀ p ∈ c.perps, p.baseLots = 0
  perpFills : ∀ p ∈ c.perps, p.hasOpenFills = false
  perpPnl : ∀ p ∈ c.perps, p.quote ≤ 0
  spot : ¬ ((∃ (i : Nat) (t : TokenInfo) (b : Int), c.tokens[i]? = some t ∧ bs[i]? = some b ∧ t.balanceSpot < 0 ∧ b < 0) ∧
    ∃ (i : Nat) (t : TokenInfo) (b : Int), c.tokens[i]? = some t ∧ bs[i]? = some b ∧ S ≤ t.balanceSpot ∧ S ≤ b ∧ t.allowAssetLiquidation = true)

theorem mem_zip_iff {α β : Type} {l : List α} {m : List β} {x : α × β} : x ∈ l.zip m ↔ ∃ i : Nat, l[i]? = some x.1 ∧ m[i]? = some x.2 := by
  rw [List.mem_iff_getElem?]
  constructor
  · rintro ⟨i, h⟩
    rw [List.getElem?_zip_eq_some] at h
    exact ⟨i, h⟩
  · rintro ⟨i, h⟩
    exact ⟨i, by rw [List.getElem?_zip_eq_some]; exact h⟩

theorem afterPhase2_ok {c : Cache} {u : Unit} (h : c.requireAfterPhase2 = .ok u) : ∃ bs, c.balances .liqEnd = .ok bs ∧ AfterPhase2 c bs := by
  simp only [Cache.requireAfterPhase2, Cache.requireAfterPhase1, Cache.hasPossibleSpotLiquidations, bind_ok, require_ok] at h
  obtain ⟨_, ⟨_, h1, h2⟩, sl, ⟨bs, hb, h3⟩, _, h4, _, h5, _, h6, h7⟩ := h
  refine ⟨bs, hb, ⟨h1, h2, h5, h6, ?_, ?_⟩⟩
  · intro p hp
    have := h7 p hp
    have := h5 p hp
    omega
  · rw [ok_inj] at h3
    rw [← h3] at h4
    simp only [decide_eq_false_iff_not] at h4
    intro hc
    apply h4
    obtain ⟨⟨i, t, b, e1, e2, e3⟩, j, t', b', f1, f2, f3⟩ := hc
    exact ⟨⟨(t, b), mem_zip_iff.mpr ⟨i, e1, e2⟩, e3⟩, (t', b'), mem_zip_iff.mpr ⟨j, f1, f2⟩, f3⟩

/-- the liability: what the liqee owes, both as a position and counting perp pnl -/
structure Owes (s : Bkr) (b : Bank) (n0 loss : Int) : Prop where
  native : n0 = s.liqee.indexed * b.borrowIndex / S
  negative : s.liqee.indexed < 0
  balance : ∃ bs i hb, s.cache.balances .liqEnd = .ok bs ∧ s.cache.tokenIdx s.liabToken = some i ∧ bs[i]? = some hb ∧ hb < 0 ∧ loss = min (-n0) (-hb)
  pos : 0 < loss

theorem lossOf_ok {s : Bkr} {b : Bank} (hb : b.Pos) {n0 loss : I80F48} (h : lossOf s b = .ok (n0, loss)) : Owes s b n0 loss := by
  simp only [lossOf, bind_ok, require_ok, neg_ok, ok_inj, Prod.mk.injEq] at h
  obtain ⟨n, hn, bs, hbs, i, hi, hb', ha, _, h1, _, h2, nn, ⟨rfl, _⟩, nh, ⟨rfl, _⟩, rfl, rfl⟩ := h
  have hneg := (native_neg_iff hb hn).mp h1
  have e := native_ok hn
  rw [if_neg (by omega)] at e
  refine ⟨e, hneg, ⟨bs, i, hb', hbs, ?_, at_ok ha, h2, rfl⟩, by omega⟩
  cases hx : s.cache.tokenIdx s.liabToken with
  | none => rw [hx] at hi; simp at hi
  | some j => rw [hx] at hi; simp at hi; rw [hi]

/-- the amounts taken from the insurance fund and given to the liqee for it -/
structure Amounts (s : Bkr) (loss maxLiab ρ : Int) (transfer : Int) (liabTransfer : Int) : Prop where
  ratio : ratioOf s = .ok ρ
  nonzero : ρ ≠ 0
  nonneg : 0 ≤ s.insuranceVault → 0 ≤ transfer
  /-- not more than the fund has, nothing for tokens not covered -/
  fund : transfer ≤ if s.eligible = true then s.insuranceVault else 0
  /-- at most the amount to be covered at the ratio, rounded up -/
  cost : transfer * S < min loss maxLiab * ρ / S + S
  /-- all of it, unless the fund is exhausted -/
  full : transfer = (if s.eligible = true then s.insuranceVault else 0) ∨ min loss maxLiab * ρ / S ≤ transfer * S
  liab : liabTransfer = Int.tdiv (transfer * S * S) ρ

theorem insuranceAmounts_ok {s : Bkr} {loss maxLiab ratio : I80F48} {transfer : Int} {liabTransfer : I80F48}
    (h : insuranceAmounts s loss maxLiab = .ok (ratio, transfer, liabTransfer)) : Amounts s loss maxLiab ratio transfer liabTransfer := by
  simp only [insuranceAmounts, bind_ok, mul_ok, ceil_ok, cku64_ok, div_ok, ok_inj, Prod.mk.injEq] at h
  obtain ⟨r, hr, x, ⟨rfl, _⟩, c, ⟨rfl, _⟩, t, ⟨rfl, ht, _⟩, lt, ⟨hne, rfl, _⟩, rfl, rfl, rfl⟩ := h
  have hS := S_pos
  have e : Fx.toInt (-(-(min loss maxLiab * r / S) / S) * S) = -(-(min loss maxLiab * r / S) / S) := by
    unfold Fx.toInt
    exact Int.mul_ediv_cancel _ (by omega)
  rw [e]
  have key : ∀ x V : Int, min (-(-x / S)) V ≤ V ∧ min (-(-x / S)) V * S < x + S ∧ (min (-(-x / S)) V = V ∨ x ≤ min (-(-x / S)) V * S) := by
    intro x V
    have m := mulFloor_bounds (-x)
    have e2 : -(-x / S) * S = -(-x / S * S) := by ring
    refine ⟨by omega, ?_, ?_⟩
    · have : min (-(-x / S)) V * S ≤ -(-x / S) * S := Int.mul_le_mul_of_nonneg_right (by omega) hS.le
      omega
    · by_cases hle : -(-x / S) ≤ V
      · right
        rw [Int.min_eq_left hle]
        omega
      · left; omega
  have k := key (min loss maxLiab * r / S) (usableInsurance s)
  refine ⟨hr, hne, ?_, k.1, k.2.1, k.2.2, rfl⟩
  intro hv
  rw [e] at ht
  unfold usableInsurance
  split <;> omega

/-- insurance tokens are paid into the bank and the liqee's debt is credited with `liabTransfer`; if the insurance token is another token, the liqor gets them and takes
over that much of the debt -/
structure Paid (env : BkrEnv) (s : Bkr) (b : Bank) (n0 loss transfer liabTransfer : Int) (b1 : Bank) (s1 : Bkr) (loss1 : Int) : Prop where
  vault : s1.insuranceVault = s.insuranceVault - transfer
  liqee : ∃ bm act n1, b.depositWithDusting s.liqee liabTransfer env.now = .ok (bm, s1.liqee, act) ∧ s1.liqee.native bm = .ok n1 ∧ loss1 = loss - (n1 - n0) ∧
    ((s.insurance = none ∧ liabTransfer = transfer * S ∧ b1 = bm ∧ s1.insurance = none ∧ s1.liqorLiab = s.liqorLiab ∧ s1.liqorInsurance = s.liqorInsurance) ∨
     ∃ ib ip ib1 w a, s.insurance = some (ib, ip) ∧ s1.insurance = some (ib1, ip) ∧ ib.deposit s.liqorInsurance (transfer * S) env.now = .ok (ib1, s1.liqorInsurance, a) ∧
       bm.withdrawWithFee s.liqorLiab liabTransfer env.now = .ok (b1, s1.liqorLiab, w) ∧
       ∀ h, env.liqorHealth b1 ib1 s1.liqorLiab s1.liqorInsurance = some h → ∃ v, h = .ok v ∧ 0 ≤ v)

theorem payInsurance_ok {env : BkrEnv} {s s1 : Bkr} {b b1 : Bank} {n0 loss liabTransfer loss1 : I80F48} {transfer : Int}
    (h : payInsurance env s b n0 loss transfer liabTransfer = .ok (b1, s1, loss1)) :
    (transfer ≤ 0 ∧ b1 = b ∧ s1 = s ∧ loss1 = loss) ∨ (0 < transfer ∧ Paid env s b n0 loss transfer liabTransfer b1 s1 loss1) := by
  unfold payInsurance at h
  by_cases ht : transfer > 0
  · rw [if_pos ht] at h
    right
    refine ⟨ht, ?_⟩
    simp only [bind_ok, sub_ok] at h
    obtain ⟨⟨bm, p, act⟩, h1, n1, h2, d, ⟨rfl, _⟩, l, ⟨rfl, _⟩, h⟩ := h
    dsimp only at h h2
    cases hi : s.insurance with
    | none =>
      rw [hi] at h
      simp only [bind_ok, require_ok, ok_inj, Prod.mk.injEq] at h
      obtain ⟨_, e, rfl, rfl, rfl⟩ := h
      exact ⟨rfl, bm, act, n1, h1, h2, rfl, Or.inl ⟨hi, e.symm, rfl, rfl, rfl, rfl⟩⟩
    | some x =>
      obtain ⟨ib, ip⟩ := x
      rw [hi] at h
      simp only [bind_ok, ok_inj, Prod.mk.injEq] at h
      obtain ⟨⟨ib1, q, a⟩, h3, ⟨b2, r, w⟩, h4, _, h5, rfl, rfl, rfl⟩ := h
      refine ⟨rfl, bm, act, n1, h1, h2, rfl, Or.inr ⟨ib, ip, ib1, w, a, hi, rfl, h3, h4, ?_⟩⟩
      intro hh hhe
      dsimp only at h5 hhe
      rw [hhe] at h5
      simp only [bind_ok, require_ok] at h5
      exact h5
  · rw [if_neg ht] at h
    simp only [ok_inj, Prod.mk.injEq] at h
    obtain ⟨rfl, rfl, rfl⟩ := h
    exact Or.inl ⟨by omega, rfl, rfl, rfl⟩

/-- what is left of the loss after insurance is socialized, if the fund is exhausted -/
structure Settled (env : BkrEnv) (b : Bank) (banks1 : List Bank) (liqee1 : TokenPosition) (loss1 : Int) (exhausted : Prop) (banks2 : List Bank) (liqee2 : TokenPosition)
    (socialized : Int) : Prop where
  yes : exhausted → 0 < loss1 → Bank.socializeLoss b.depositIndex banks1 liqee1 loss1 env.now = .ok (banks2, liqee2) ∧ socialized = loss1
  no : ¬ (exhausted ∧ 0 < loss1) → banks2 = banks1 ∧ liqee2 = liqee1 ∧ socialized = 0

theorem bankruptcy_ok {env : BkrEnv} {s s' : Bkr} {maxLiab : I80F48} {r : Report} (hpos : ∀ b ∈ s.banks, b.Pos)
    (h : tokenLiqBankruptcy env s maxLiab = .ok (s', r)) :
    s.liqorFlag.being = false ∧ (∃ bs, s.cache.balances .liqEnd = .ok bs ∧ AfterPhase2 s.cache bs) ∧
    ∃ b n0 b1 s1 loss1, s.banks[s.k]? = some b ∧ Owes s b n0 r.loss ∧ Amounts s r.loss maxLiab r.ratio r.insuranceTransfer r.liabTransfer ∧
      ((r.insuranceTransfer ≤ 0 ∧ b1 = b ∧ s1 = s ∧ loss1 = r.loss) ∨
        (0 < r.insuranceTransfer ∧ Paid env s b n0 r.loss r.insuranceTransfer r.liabTransfer b1 s1 loss1)) ∧
      Settled env b (s.banks.set s.k b1) s1.liqee loss1 (r.insuranceTransfer = usableInsurance s) s'.banks s'.liqee r.socialized ∧
      s'.insuranceVault = s1.insuranceVault ∧ s'.insurance = s1.insurance ∧ s'.liqorLiab = s1.liqorLiab ∧ s'.liqorInsurance = s1.liqorInsurance ∧
      ∃ b0 n1 w c h, s'.banks[0]? = some b0 ∧ s'.liqee.native b0 = .ok n1 ∧ env.scaled b0 = .ok w ∧ s.cache.adjustTokenBalance s.liabToken w (n1 - n0) = .ok c ∧
        s'.cache = c ∧ c.health env.fd .liqEnd = .ok h ∧ s'.liqeeFlag.being = decide (h ≤ -S) := by
  simp only [tokenLiqBankruptcy, bind_ok, require_ok, sub_ok] at h
  obtain ⟨_, h1, _, h2, b, hb, ⟨n0, loss⟩, h3, ⟨ρ, t, lt⟩, h4, ⟨b1, s1, loss1⟩, h5, ⟨banks2, p2, soc⟩, h6, b0, hb0, n1, hn1, d, ⟨rfl, _⟩, w, hw, c, hc, hh, h7, h8⟩ := h
  simp only [ok_inj, Prod.mk.injEq] at h8
  obtain ⟨rfl, rfl⟩ := h8
  dsimp only at *
  have hb := getBank_ok' hb
  refine ⟨h1, afterPhase2_ok h2, b, n0, b1, s1, loss1, hb, lossOf_ok (hpos b (List.mem_of_getElem? hb)) h3, insuranceAmounts_ok h4, payInsurance_ok h5, ?_, rfl, rfl, rfl, rfl,
    b0, n1, w, c, hh, getBank_ok' hb0, hn1, hw, hc, rfl, h7, ?_⟩
  · by_cases hx : t = usableInsurance s ∧ loss1 > 0
    · rw [if_pos hx] at h6
      simp only [bind_ok, ok_inj, Prod.mk.injEq] at h6
      obtain ⟨⟨bs, p⟩, h8, rfl, rfl, rfl⟩ := h6
      exact ⟨fun _ _ => ⟨h8, rfl⟩, fun hn => absurd hx hn⟩
    · rw [if_neg hx] at h6
      simp only [ok_inj, Prod.mk.injEq] at h6
      obtain ⟨rfl, rfl, rfl⟩ := h6
      exact ⟨fun a b => absurd ⟨a, b⟩ hx, fun _ => ⟨rfl, rfl, rfl⟩⟩
  · unfold Account.Liq.maybeRecover
    have : ONE = S := rfl
    by_cases hx : hh > -ONE
    · rw [if_pos ⟨rfl, hx⟩]
      have : ¬ hh ≤ -S := by omega
      simp [this]
    · rw [if_neg (by rintro ⟨_, h⟩; exact hx h)]
      have : hh ≤ -S := by omega
      simp [this]

/-! ## Loss socialization with any number of banks -/

theorem creditLoop_split {ni : I80F48} {now : Int} {l l' : List Bank} {p p' : TokenPosition} {amt : I80F48} (hni : 0 < ni) (hl : ∀ b ∈ l, b.Pos)
    (h : creditLoop ni now l p amt = .ok (l', p')) :
    ∃ n, (l ≠ [] → 0 < n) ∧ (∀ i b, i < n → l[i]? = some b → ∃ b', l'[i]? = some b' ∧ b'.depositIndex = ni ∧ b'.borrowIndex = b.borrowIndex) ∧
      ∀ i, n ≤ i → l'[i]? = l[i]? := by
  induction l generalizing l' p amt with
  | nil =>
    simp only [creditLoop, ok_inj, Prod.mk.injEq] at h
    obtain ⟨rfl, rfl⟩ := h
    exact ⟨0, by simp, by simp, by simp⟩
  | cons b bs ih =>
    have hbs : ∀ b ∈ bs, b.Pos := fun x hx => hl x (List.mem_cons_of_mem _ hx)
    have hb := hl b (List.mem_cons_self ..)
    simp only [creditLoop, bind_ok] at h
    obtain ⟨nb, hnb, h⟩ := h
    have cons : ∀ (x : Bank) (m : List Bank), x.depositIndex = ni → x.borrowIndex = b.borrowIndex →
        (∃ n : Nat, (∀ (i : Nat) (c : Bank), i < n → bs[i]? = some c → ∃ c' : Bank, m[i]? = some c' ∧ c'.depositIndex = ni ∧ c'.borrowIndex = c.borrowIndex) ∧ ∀ i, n ≤ i → m[i]? = bs[i]?) →
        ∃ n : Nat, (b :: bs ≠ [] → 0 < n) ∧ (∀ (i : Nat) (c : Bank), i < n → (b :: bs)[i]? = some c → ∃ c' : Bank, (x :: m)[i]? = some c' ∧ c'.depositIndex = ni ∧ c'.borrowIndex = c.borrowIndex) ∧
          ∀ i, n ≤ i → (x :: m)[i]? = (b :: bs)[i]? := by
      rintro x m e1 e2 ⟨n, h1, h2⟩
      refine ⟨n + 1, fun _ => by omega, ?_, ?_⟩
      · intro i c hi hc
        cases i with
        | zero => simp at hc; subst hc; exact ⟨x, rfl, e1, e2⟩
        | succ i => exact h1 i c (by omega) (by simpa using hc)
      · intro i hi
        cases i with
        | zero => omega
        | succ i => simpa using h2 i (by omega)
    split at h
    · simp only [bind_ok, sub_ok] at h
      obtain ⟨⟨b1, p1, r⟩, h1, tc, ⟨rfl, _⟩, h⟩ := h
      have e := depositWithDusting_effect (b := { b with depositIndex := ni }) ⟨hni, hb.2⟩ h1
      dsimp only at h
      split at h
      · simp only [ok_inj, Prod.mk.injEq] at h
        obtain ⟨rfl, rfl⟩ := h
        exact cons _ _ e.depositIndex e.borrowIndex ⟨0, by simp, by simp⟩
      · simp only [bind_ok, ok_inj, Prod.mk.injEq] at h
        obtain ⟨⟨l2, p2⟩, h2, rfl, rfl⟩ := h
        obtain ⟨n, _, i2, i3⟩ := ih hbs h2
        exact cons _ _ e.depositIndex e.borrowIndex ⟨n, i2, i3⟩
    · simp only [bind_ok, ok_inj, Prod.mk.injEq] at h
      obtain ⟨⟨l2, p2⟩, h2, rfl, rfl⟩ := h
      obtain ⟨n, _, i2, i3⟩ := ih hbs h2
      exact cons { b with depositIndex := ni } _ rfl rfl ⟨n, i2, i3⟩

/-- **C12, socialization** Any number of banks. With `D` the indexed deposits of all banks of the token, the first `n` banks (at least one) get the deposit index
`di - loss/D`, rounded against the depositors by less than one bit of index; the borrow indexes stay; the banks after them (if the credit was used up) are not touched at
all. Everything together costs the depositors at most the loss. The liqee's position ends at exactly zero, and totals follow it. The new index is positive if the loss is
less than all deposits. -/
theorem C12_socialize {banks banks' : List Bank} {p p' : TokenPosition} {di loss : I80F48} {now : Int} (hb : ∀ b ∈ banks, b.Pos ∧ b.RatesOk)
    (hD : 0 ≤ (banks.map Bank.indexedDeposits).sum) (hloss : 0 < loss) (hsmall : loss * S < (banks.map Bank.indexedDeposits).sum * di)
    (h : socializeLoss di banks p loss now = .ok (banks', p')) :
    ∃ ni n, 0 < ni ∧ 0 < n ∧ banks'.length = banks.length ∧
      (banks.map Bank.indexedDeposits).sum * (di - ni) ≤ loss * S ∧
      loss * S < (banks.map Bank.indexedDeposits).sum * (di - ni) + (banks.map Bank.indexedDeposits).sum ∧
      (∀ i b, i < n → banks[i]? = some b → ∃ b', banks'[i]? = some b' ∧ b'.depositIndex = ni ∧ b'.borrowIndex = b.borrowIndex) ∧
      (∀ i, n ≤ i → banks'[i]? = banks[i]?) ∧ p'.indexed = 0 ∧
      (banks'.map Bank.indexedDeposits).sum = (banks.map Bank.indexedDeposits).sum - max p.indexed 0 ∧
      (banks'.map Bank.indexedBorrows).sum = (banks.map Bank.indexedBorrows).sum - max (-p.indexed) 0 := by
  have hS := S_pos
  obtain ⟨hne, hcl, hz⟩ := socializeLoss_ok h
  have es : ∀ l : List Bank, (l.map Bank.indexedDeposits).sum = sumOf Bank.indexedDeposits l := by
    intro l; induction l with
    | nil => rfl
    | cons a l ih => simp [ih]
  have eb : ∀ l : List Bank, (l.map Bank.indexedBorrows).sum = sumOf Bank.indexedBorrows l := by
    intro l; induction l with
    | nil => rfl
    | cons a l ih => simp [ih]
  rw [es] at hD hsmall ⊢
  have hni := socialize_newIndex_pos hD hloss hsmall
  have ht := tdiv_bounds (a := loss * S) (b := sumOf Bank.indexedDeposits banks) (Int.mul_nonneg hloss.le hS.le) hni.1
  obtain ⟨_, c2, c3, c4, _⟩ := creditLoop_ok hni.2 hb hcl
  obtain ⟨n, n1, n2, n3⟩ := creditLoop_split hni.2 (fun b hx => (hb b hx).1) hcl
  have hnil : banks ≠ [] := by rintro rfl; exact hne rfl
  unfold posI at c3
  unfold negI at c4
  rw [hz] at c3 c4
  unfold Bank.posPart Bank.negPart at *
  have e : sumOf Bank.indexedDeposits banks * (di - (di - Int.tdiv (loss * S) (sumOf Bank.indexedDeposits banks))) =
      Int.tdiv (loss * S) (sumOf Bank.indexedDeposits banks) * sumOf Bank.indexedDeposits banks := by ring
  refine ⟨di - Int.tdiv (loss * S) (sumOf Bank.indexedDeposits banks), n, hni.2, n1 hnil, c2, by rw [e]; exact ht.1, by rw [e]; exact ht.2.1, n2, n3, hz, ?_, ?_⟩
  · rw [es]; omega
  · rw [eb, eb]; omega

/-! ## The instruction -/

/-- **C12, conditions** Token bankruptcy only runs against an account that has no open or unsettled orders left, no perp base position, unprocessed fill or positive perp
pnl, no token that could still be liquidated for what it owes, and that owes the token (both its position and its balance including perp pnl are negative); and only by a
liqor that is not being liquidated itself. -/
theorem C12_conditions {env : BkrEnv} {s s' : Bkr} {maxLiab : I80F48} {r : Report} (hpos : ∀ b ∈ s.banks, b.Pos)
    (h : tokenLiqBankruptcy env s maxLiab = .ok (s', r)) :
    s.liqorFlag.being = false ∧ s.liqee.indexed < 0 ∧
    ∃ bs i hb b, s.cache.balances .liqEnd = .ok bs ∧ AfterPhase2 s.cache bs ∧ s.cache.tokenIdx s.liabToken = some i ∧ bs[i]? = some hb ∧ hb < 0 ∧
      s.banks[s.k]? = some b ∧ r.loss = min (-(s.liqee.indexed * b.borrowIndex / S)) (-hb) ∧
      ∃ hl, s'.cache.health env.fd .liqEnd = .ok hl ∧ s'.liqeeFlag.being = decide (hl ≤ -S) := by
  obtain ⟨h1, ⟨bs, hbs, h2⟩, b, n0, b1, s1, loss1, hb, ho, _, _, _, _, _, _, _, b0, n1, w, c, hh, _, _, _, _, rfl, h6, h7⟩ := bankruptcy_ok hpos h
  obtain ⟨bs', i, x, e1, e2, e3, e4, e5⟩ := ho.balance
  rw [hbs, ok_inj] at e1
  subst e1
  refine ⟨h1, ho.negative, bs, i, x, b, hbs, h2, e2, e3, e4, hb, by rw [e5, ho.native], hh, h6, h7⟩

theorem ratioOf_none {s : Bkr} {ρ : Int} (h : ratioOf s = .ok ρ) : s.insurance = none → ρ = S := by
  intro e
  simp only [ratioOf, e, ok_inj] at h
  exact h.symm

theorem ratioOf_some {s : Bkr} {ρ : Int} (h : ratioOf s = .ok ρ) : ∀ ib ip, s.insurance = some (ib, ip) → ρ = Int.tdiv (s.liabPrice * (S + s.liquidationFee) / S * S) ip := by
  intro ib ip e
  simp only [ratioOf, e, bind_ok, add_ok, mul_ok, div_ok] at h
  obtain ⟨f, ⟨rfl, _⟩, x, ⟨rfl, _⟩, _, rfl, _⟩ := h
  rfl

/-- **C12, insurance** The insurance fund pays at most what it has (nothing for tokens it does not cover), at most the price of the covered debt plus liquidation fee,
rounded up; nobody else's insurance tokens move. The liqee is credited at most what was paid at that price, rounded down. If the insurance token is a different token, the liqor
receives exactly the insurance tokens and takes over exactly the credited debt, and needs non-negative init health at the end (unless it is in a health region, which checks
later). -/
theorem C12_insurance {env : BkrEnv} {s s' : Bkr} {maxLiab : I80F48} {r : Report} (hpos : ∀ b ∈ s.banks, b.Pos) (hv : 0 ≤ s.insuranceVault) (hr : 0 ≤ r.ratio)
    (h : tokenLiqBankruptcy env s maxLiab = .ok (s', r)) :
    0 ≤ r.insuranceTransfer ∧ r.insuranceTransfer ≤ s.insuranceVault ∧ (s.eligible = false → r.insuranceTransfer = 0) ∧
    s'.insuranceVault = s.insuranceVault - r.insuranceTransfer ∧
    (s.insurance = none → r.ratio = S) ∧ (∀ ib ip, s.insurance = some (ib, ip) → r.ratio = Int.tdiv (s.liabPrice * (S + s.liquidationFee) / S * S) ip) ∧
    r.insuranceTransfer * S < min r.loss maxLiab * r.ratio / S + S ∧
    r.liabTransfer * r.ratio ≤ r.insuranceTransfer * S * S ∧
    (r.insuranceTransfer = 0 → s'.liqorLiab = s.liqorLiab ∧ s'.liqorInsurance = s.liqorInsurance ∧ s'.insurance = s.insurance) ∧
    (0 < r.insuranceTransfer → ∃ b bm b1 liqee act, s.banks[s.k]? = some b ∧ b.depositWithDusting s.liqee r.liabTransfer env.now = .ok (bm, liqee, act) ∧
      ((s.insurance = none ∧ r.liabTransfer = r.insuranceTransfer * S ∧ b1 = bm ∧ s'.liqorLiab = s.liqorLiab ∧ s'.liqorInsurance = s.liqorInsurance) ∨
       ∃ ib ip ib1 w a, s.insurance = some (ib, ip) ∧ s'.insurance = some (ib1, ip) ∧
         ib.deposit s.liqorInsurance (r.insuranceTransfer * S) env.now = .ok (ib1, s'.liqorInsurance, a) ∧
         bm.withdrawWithFee s.liqorLiab r.liabTransfer env.now = .ok (b1, s'.liqorLiab, w) ∧
         ∀ h, env.liqorHealth b1 ib1 s'.liqorLiab s'.liqorInsurance = some h → ∃ v, h = .ok v ∧ 0 ≤ v)) := by
  obtain ⟨_, _, b, n0, b1, s1, loss1, hb, ho, ha, hp, hs, g1, g2, g3, g4, _⟩ := bankruptcy_ok hpos h
  have hS := S_pos
  have h0 := ha.nonneg hv
  have hfund := ha.fund
  have hrp : 0 < r.ratio := by
    have := ha.nonzero
    omega
  have hl : r.liabTransfer * r.ratio ≤ r.insuranceTransfer * S * S := by
    rw [ha.liab]
    exact (tdiv_bounds (a := r.insuranceTransfer * S * S) (b := r.ratio) (Int.mul_nonneg (Int.mul_nonneg h0 hS.le) hS.le) hrp).1
  refine ⟨h0, ?_, ?_, ?_, ratioOf_none ha.ratio, ratioOf_some ha.ratio, ha.cost, hl, ?_, ?_⟩
  · split at hfund <;> omega
  · intro he; rw [he] at hfund; simp at hfund; omega
  · rw [g1]
    rcases hp with ⟨hz, _, rfl, _⟩ | ⟨_, hp⟩
    · omega
    · exact hp.vault
  · intro hz
    rcases hp with ⟨_, _, rfl, _⟩ | ⟨hgt, _⟩
    · exact ⟨g3, g4, g2⟩
    · omega
  · intro hgt
    rcases hp with ⟨hz, _⟩ | ⟨_, hp⟩
    · omega
    · obtain ⟨bm, act, n1, e1, _, _, e4⟩ := hp.liqee
      refine ⟨b, bm, b1, s1.liqee, act, hb, e1, ?_⟩
      rcases e4 with ⟨f1, f2, f3, _, f5, f6⟩ | ⟨ib, ip, ib1, w, a, f1, f2, f3, f4, f5⟩
      · exact Or.inl ⟨f1, f2, f3, by rw [g3, f5], by rw [g4, f6]⟩
      · exact Or.inr ⟨ib, ip, ib1, w, a, f1, by rw [g2, f2], by rw [g4]; exact f3, by rw [g3]; exact f4, by rw [g3, g4]; exact f5⟩

theorem deposit_indexed_le {b b' : Bank} {p p' : TokenPosition} {amt : I80F48} {now : Int} {r : Bool} (hb : b.Pos)
    (h : b.depositWithDusting p amt now = .ok (b', p', r)) : p.indexed ≤ p'.indexed ∧ b'.depositIndex = b.depositIndex ∧ b'.borrowIndex = b.borrowIndex := by
  have e := depositWithDusting_effect hb h
  refine ⟨?_, e.depositIndex, e.borrowIndex⟩
  simp only [depositWithDusting, bind_ok, ok_inj, Prod.mk.injEq] at h
  obtain ⟨⟨b1, p1, r1⟩, h1, rfl, rfl, _⟩ := h
  obtain ⟨p2, h2, h3, _⟩ := depositWrapper_ok h1
  obtain ⟨ha, hc⟩ := depositInternal_ok hb h2
  rw [h3]
  cases hc with
  | add c hp hc => have := divRoundingUp_ok hc ha hb.1; dsimp only; omega
  | repay c st nb hp hw hc hn => have := divRoundingUp_ok hc ha hb.2; dsimp only; omega
  | dust c st nb hp hw hc hn hd hdust => dsimp only; omega
  | cross c d st nb hp hw hc hn hd => have := divRoundingUp_ok hd (by omega) hb.1; dsimp only; omega

theorem native_mono_neg {b b' : Bank} {p p' : TokenPosition} {n n' : I80F48} (hb : b.Pos) (hd : b'.depositIndex = b.depositIndex) (hbi : b'.borrowIndex = b.borrowIndex)
    (hneg : p.indexed < 0) (e : n = p.indexed * b.borrowIndex / S) (h' : p'.native b' = .ok n') (hle : p.indexed ≤ p'.indexed) : n ≤ n' := by
  have e' := native_ok h'
  rw [hd, hbi] at e'
  have hS := S_pos
  have hn : n ≤ 0 := by
    rw [e]
    have : p.indexed * b.borrowIndex ≤ 0 := Int.mul_nonpos_of_nonpos_of_nonneg (by omega) hb.2.le
    have := floor_mono (x := p.indexed * b.borrowIndex) (y := 0) this
    simpa using this
  by_cases h2 : p'.indexed > 0
  · rw [if_pos h2] at e'
    have : 0 ≤ n' := by rw [e']; exact floor_nonneg (Int.mul_nonneg (by omega) hb.1.le)
    omega
  · rw [if_neg h2] at e'
    rw [e, e']
    exact floor_mono (Int.mul_le_mul_of_nonneg_right hle hb.2.le)

/-- **C12, insurance first** Depositors only pay after the insurance fund: a loss is socialized only if the fund is empty afterwards (or does not cover the token), it is what
remains after insurance and never more than the liqee owes, and the liqee's position ends at zero. Otherwise all deposit indexes stay, and other banks are untouched. -/
theorem C12_insurance_first {env : BkrEnv} {s s' : Bkr} {maxLiab : I80F48} {r : Report} (hpos : ∀ b ∈ s.banks, b.Pos ∧ b.RatesOk) (hv : 0 ≤ s.insuranceVault)
    (h : tokenLiqBankruptcy env s maxLiab = .ok (s', r)) :
    0 ≤ r.socialized ∧ r.socialized ≤ r.loss ∧
    (0 < r.socialized → (s.eligible = true → s'.insuranceVault = 0) ∧ s'.liqee.indexed = 0) ∧
    (r.socialized = 0 → ∃ b b', s.banks[s.k]? = some b ∧ s'.banks = s.banks.set s.k b' ∧ b'.depositIndex = b.depositIndex ∧ b'.borrowIndex = b.borrowIndex) := by
  have hS := S_pos
  have hpos' : ∀ b ∈ s.banks, b.Pos := fun b hb => (hpos b hb).1
  obtain ⟨_, _, b, n0, b1, s1, loss1, hb, ho, ha, hp, hs, g1, g2, g3, g4, _⟩ := bankruptcy_ok hpos' h
  have hbp := hpos b (List.mem_of_getElem? hb)
  have hloss : loss1 ≤ r.loss ∧ b1.depositIndex = b.depositIndex ∧ b1.borrowIndex = b.borrowIndex := by
    rcases hp with ⟨hz, rfl, rfl, rfl⟩ | ⟨_, hp⟩
    · exact ⟨Int.le_refl _, rfl, rfl⟩
    · obtain ⟨bm, act, n1, e1, e2, e3, e4⟩ := hp.liqee
      obtain ⟨d1, d2, d3⟩ := deposit_indexed_le hbp.1 e1
      have hbm : bm.Pos := by unfold Pos; rw [d2, d3]; exact hbp.1
      have hr : bm.RatesOk := (depositWithDusting_effect hbp.1 e1).rates hbp.2
      refine ⟨?_, ?_⟩
      · have : n0 ≤ n1 := by
          exact native_mono_neg hbp.1 d2 d3 ho.negative ho.native e2 d1
        omega
      · rcases e4 with ⟨_, _, rfl, _⟩ | ⟨ib, ip, ib1, w, a, _, _, _, f4, _⟩
        · exact ⟨d2, d3⟩
        · have e := withdrawWrapper_effect hbm hr.2.2 f4
          exact ⟨by rw [e.depositIndex, d2], by rw [e.borrowIndex, d3]⟩
  by_cases hx : r.insuranceTransfer = usableInsurance s ∧ 0 < loss1
  · obtain ⟨y1, y2⟩ := hs.yes hx.1 hx.2
    have hz := (socializeLoss_ok y1).2.2
    refine ⟨by omega, by omega, fun _ => ⟨?_, hz⟩, fun h0 => by omega⟩
    intro he
    have hu := hx.1
    unfold usableInsurance at hu
    rw [if_pos he] at hu
    rw [g1]
    rcases hp with ⟨hz, rfl, rfl, rfl⟩ | ⟨_, hp⟩
    · have := ha.nonneg hv
      omega
    · rw [hp.vault]; omega
  · obtain ⟨y1, y2, y3⟩ := hs.no hx
    have hl := ho.pos
    refine ⟨by omega, by omega, fun h0 => by omega, fun _ => ⟨b, b1, hb, y1, hloss.2⟩⟩

/-! ## The instruction is an ordinary history of the token -/

/-- The operations on the liability token: credit the liqee, charge the liqor if another token is paid for it, socialize the rest. `i`, `j`: liqee and liqor. -/
def bankruptcyOps (s : Bkr) (r : Report) (i j : Nat) (now : Int) : List TokenOp :=
  (if 0 < r.insuranceTransfer then
    .pos (.depositWithDusting r.liabTransfer) s.k i false now ::
      (if s.insurance.isSome then [.pos (.withdrawWithFee r.liabTransfer) s.k j false now] else [])
   else []) ++
  (if 0 < r.socialized then [.socialize s.k i r.socialized now] else [])

theorem runOps_append {s s' : TokenState} {a b : List TokenOp} (h : runOps s a = .ok s') : runOps s (a ++ b) = runOps s' b := by
  induction a generalizing s with
  | nil => rw [runOps, ok_inj] at h; subst h; rfl
  | cons op ops ih =>
    simp only [runOps, bind_ok] at h
    obtain ⟨s1, h1, h2⟩ := h
    rw [List.cons_append, runOps, h1]
    exact ih h2

theorem step_pos {s : TokenState} {op : PosOp} {k i : Nat} {now : Int} {b b' : Bank} {p p' : TokenPosition} {a : Bool} (hb : s.banks[k]? = some b) (hp : s.positions[i]? = some p)
    (h : op.run b p now = .ok (b', p', a)) :
    step s (.pos op k i false now) = .ok ⟨s.banks.set k b', s.positions.set i p', s.vault + op.inflow⟩ := by
  have e1 : getBank s k = .ok b := by unfold getBank; rw [hb]
  have e2 : getPos s i = .ok p := by unfold getPos; rw [hp]
  simp only [step, e1, e2]
  dsimp only [bind, Except.bind]
  rw [h]
  simp

/-- **C12, ledger** On the liability token the instruction is exactly a credit to the liqee, a charge of the same amount to the liqor (if the insurance fund pays in
another token), and the socialization of the rest, so every theorem about token histories (C02, C47, ...) applies to it. Tokens come in only from the insurance fund. -/
theorem C12_ledger {env : BkrEnv} {s s' : Bkr} {maxLiab : I80F48} {r : Report} (hpos : ∀ b ∈ s.banks, b.Pos ∧ b.RatesOk)
    (h : tokenLiqBankruptcy env s maxLiab = .ok (s', r)) {ps : List TokenPosition} {i j : Nat} (hij : i ≠ j)
    (hi : ps[i]? = some s.liqee) (hj : ps[j]? = some s.liqorLiab) (v : Int) :
    runOps ⟨s.banks, ps, v⟩ (bankruptcyOps s r i j env.now) =
      .ok ⟨s'.banks, (ps.set i s'.liqee).set j s'.liqorLiab, v + if s.insurance = none ∧ 0 < r.insuranceTransfer then r.insuranceTransfer * S else 0⟩ := by
  have hpos' : ∀ b ∈ s.banks, b.Pos := fun b hb => (hpos b hb).1
  obtain ⟨_, _, b, n0, b1, s1, loss1, hb, ho, ha, hp, hs, g1, g2, g3, g4, _⟩ := bankruptcy_ok hpos' h
  have hbp := hpos b (List.mem_of_getElem? hb)
  have hk : s.k < s.banks.length := by
    rw [List.getElem?_eq_some_iff] at hb
    exact hb.1
  have hil : i < ps.length := by
    rw [List.getElem?_eq_some_iff] at hi
    exact hi.1
  have setself : ∀ (l : List TokenPosition) (n : Nat) (x : TokenPosition), l[n]? = some x → l.set n x = l := by
    intro l n x hx
    rw [List.getElem?_eq_some_iff] at hx
    obtain ⟨h1, h2⟩ := hx
    rw [← h2]; simp
  have setb : s.banks.set s.k b = s.banks := by
    have hb' := hb
    rw [List.getElem?_eq_some_iff] at hb'
    obtain ⟨h1, h2⟩ := hb'
    rw [← h2]; simp
  have key : runOps ⟨s.banks, ps, v⟩ (if 0 < r.insuranceTransfer then .pos (.depositWithDusting r.liabTransfer) s.k i false env.now ::
        (if s.insurance.isSome then [.pos (.withdrawWithFee r.liabTransfer) s.k j false env.now] else []) else []) =
      .ok ⟨s.banks.set s.k b1, (ps.set i s1.liqee).set j s1.liqorLiab, v + if s.insurance = none ∧ 0 < r.insuranceTransfer then r.insuranceTransfer * S else 0⟩ ∧
      b1.depositIndex = b.depositIndex := by
    rcases hp with ⟨hz, rfl, rfl, rfl⟩ | ⟨hgt, hp⟩
    · refine ⟨?_, rfl⟩
      rw [if_neg (by omega), if_neg (by rintro ⟨_, h⟩; omega), setself ps i _ hi, setself ps j _ hj, setb, Int.add_zero]
      rfl
    · obtain ⟨bm, act, n1, e1, e2, e3, e4⟩ := hp.liqee
      obtain ⟨d1, d2, d3⟩ := deposit_indexed_le hbp.1 e1
      have hbm : bm.Pos := by unfold Pos; rw [d2, d3]; exact hbp.1
      have hr : bm.RatesOk := (depositWithDusting_effect hbp.1 e1).rates hbp.2
      have st1 := step_pos (s := ⟨s.banks, ps, v⟩) (op := .depositWithDusting r.liabTransfer) (k := s.k) (i := i) (now := env.now) hb hi e1
      rw [if_pos hgt]
      rcases e4 with ⟨f1, f2, rfl, _, f5, f6⟩ | ⟨ib, ip, ib1, w, a, f1, f2, f3, f4, f5⟩
      · refine ⟨?_, d2⟩
        rw [f1]
        simp only [Option.isSome_none, Bool.false_eq_true, if_false, true_and]
        rw [if_pos hgt, runOps, st1]
        dsimp only [bind, Except.bind]
        rw [runOps, f5]
        have hj' : (ps.set i s1.liqee)[j]? = some s.liqorLiab := by rw [List.getElem?_set_ne hij]; exact hj
        rw [setself _ _ _ hj']
        simp only [PosOp.inflow]
        rw [f2]
      · have ew := withdrawWrapper_effect hbm hr.2.2 f4
        refine ⟨?_, by rw [ew.depositIndex, d2]⟩
        rw [f1]
        simp only [Option.isSome_some, if_true, reduceCtorEq, false_and, if_false]
        rw [runOps, st1]
        dsimp only [bind, Except.bind]
        have hj' : (ps.set i s1.liqee)[j]? = some s.liqorLiab := by rw [List.getElem?_set_ne hij]; exact hj
        have hb' : (s.banks.set s.k bm)[s.k]? = some bm := by rw [List.getElem?_set_self hk]
        have hrun : PosOp.run (.withdrawWithFee r.liabTransfer) bm s.liqorLiab env.now = .ok (b1, s1.liqorLiab, w.positionIsActive) := by
          simp only [PosOp.run, f4]
          rfl
        have st2 := step_pos (s := ⟨s.banks.set s.k bm, ps.set i s1.liqee, v + (PosOp.depositWithDusting r.liabTransfer).inflow⟩) (k := s.k) (i := j) (now := env.now) hb' hj' hrun
        rw [runOps, st2]
        dsimp only [bind, Except.bind]
        rw [runOps]
        simp only [List.set_set, PosOp.inflow]
        congr 2
        omega
  unfold bankruptcyOps
  rw [runOps_append key.1]
  by_cases hx : r.insuranceTransfer = usableInsurance s ∧ 0 < loss1
  · obtain ⟨y1, y2⟩ := hs.yes hx.1 hx.2
    rw [if_pos (show 0 < r.socialized by omega), runOps]
    have e1 : (s.banks.set s.k b1)[s.k]? = some b1 := by rw [List.getElem?_set_self hk]
    have e2 : ((ps.set i s1.liqee).set j s1.liqorLiab)[i]? = some s1.liqee := by
      rw [List.getElem?_set_ne (by omega), List.getElem?_set_self hil]
    have e3 : (loss1 > 0) := hx.2
    simp only [step, getBank, getPos, e1, e2, require, y2, e3, if_true]
    dsimp only [bind, Except.bind]
    rw [key.2, y1]
    dsimp only
    rw [runOps, g3]
    rw [List.set_comm _ _ (Ne.symm hij), List.set_set]
  · obtain ⟨y1, y2, y3⟩ := hs.no hx
    rw [if_neg (show ¬ 0 < r.socialized by omega), runOps, y1, y2, g3]

/-! ## A concrete case -/

/-- the bankrupt account owes 2 indexed units of the token and 3 of the insurance tokens remain -/
def exBkr : Bkr where
  banks := [exBank]
  k := 0
  liabToken := 4
  liabPrice := 2 * S
  liquidationFee := S / 100
  insurance := some (exBank, S)
  eligible := true
  insuranceVault := 3000
  liqee := exBankrupt
  liqeeFlag := ⟨true⟩
  cache := { tokens := [⟨4, S * 8 / 10, S * 8 / 10, S * 8 / 10, S * 12 / 10, S * 12 / 10, S * 12 / 10, ⟨2 * S, 2 * S⟩, -2 * exBank.borrowIndex, true⟩],
             serums := [], perps := [] }
  liqorFlag := ⟨false⟩
  liqorLiab := { indexed := 0 }
  liqorInsurance := { indexed := 0 }

def exBkrEnv : BkrEnv where
  fd := fun a b => Fx.div a b
  now := 90000
  scaled := fun _ => .ok (S * 8 / 10, S * 12 / 10)
  liqorHealth := fun _ _ _ _ => some (.ok 0)

theorem exBkr_run : (match tokenLiqBankruptcy exBkrEnv exBkr (5000000 * S) with
    | .ok (s', r) => decide (r.insuranceTransfer = 3000 ∧ 0 < r.socialized ∧ r.socialized < r.loss ∧ s'.insuranceVault = 0 ∧ s'.liqee.indexed = 0 ∧ s'.liqorLiab.indexed < 0
        ∧ 0 < s'.liqorInsurance.indexed)
    | .error _ => false) = true := by decide +kernel

/-- `C12_conditions`, `C12_insurance`, `C12_insurance_first` and `C12_ledger` apply to it: the insurance fund is exhausted and the rest is socialized -/
example : (∀ b ∈ exBkr.banks, b.Pos ∧ b.RatesOk) ∧ 0 ≤ exBkr.insuranceVault ∧ [exBkr.liqee, exBkr.liqorLiab][0]? = some exBkr.liqee := by
  refine ⟨?_, by decide, rfl⟩
  intro b hb
  rw [List.mem_singleton.mp hb]
  exact ⟨exBank_pos, ⟨by decide, by decide⟩⟩

end Liquidation
end Mango
