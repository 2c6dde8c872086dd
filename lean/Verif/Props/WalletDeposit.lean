import Verif.Props.WalletHealth
/-!
# C64: deposits

Amounts, limits and recovery from liquidation; what a deposit does to health.
-/
namespace Mango
namespace Wallet
open Fx Health

/-- the amount that a deposit moves: `debt` is the borrowed balance (in units of 2^-48), rounded up when depositing "reduce only" -/
theorem depositAmount_ok {b : Bank} {n amount amt : Int} {ro : Bool} (ha : 0 < amount) (h : depositAmount b n amount ro = .ok amt) :
    let debt := max (-n) 0
    ∃ m, amt = m * S ∧ 0 ≤ m ∧ m ≤ amount ∧ m = (if ro = true ∨ b.reduceOnly = 1 then min (-(-debt / S)) amount else amount) ∧
      (b.reduceOnly = 1 → ro = false → m = amount) := by
  intro debt
  have hS := S_pos
  have dq : b.areDepositsReduceOnly = true ↔ b.reduceOnly = 1 := by unfold Bank.areDepositsReduceOnly; simp
  simp only [depositAmount, bind_ok, ok_inj] at h
  obtain ⟨x, h1, _, h2, rfl⟩ := h
  by_cases hc : ro = true ∨ b.reduceOnly = 1
  · rw [if_pos (by rw [Bool.or_eq_true, dq]; exact hc)] at h1
    simp only [bind_ok, Fx.abs, ck_ok, ceil_ok, ok_inj] at h1
    obtain ⟨y, ⟨rfl, _⟩, z, ⟨rfl, _⟩, rfl⟩ := h1
    have hd : (if min n 0 < 0 then -min n 0 else min n 0) = debt := by
      by_cases hn : min n 0 < 0
      · rw [if_pos hn]; omega
      · rw [if_neg hn]; omega
    rw [hd] at h2 ⊢
    have h0 : 0 ≤ -(-debt / S) := by
      have : -debt / S ≤ 0 := by
        have := floor_mono (x := -debt) (y := 0) (by omega)
        simpa using this
      omega
    rw [if_pos hc]
    refine ⟨min (-(-debt / S)) amount, ?_, by omega, by omega, rfl, ?_⟩
    · unfold ofInt
      by_cases hm : -(-debt / S) ≤ amount
      · have := Int.mul_le_mul_of_nonneg_right hm (le_of_lt hS)
        rw [min_eq_left this, min_eq_left hm]
      · have := Int.mul_le_mul_of_nonneg_right (show amount ≤ -(-debt / S) by omega) (le_of_lt hS)
        rw [min_eq_right this, min_eq_right (by omega)]
    · intro hro hf
      rw [if_pos (dq.mpr hro)] at h2
      simp only [require_ok] at h2
      rcases h2 with h2 | h2
      · rw [hf] at h2; cases h2
      · unfold ofInt at h2
        have : amount * S ≤ -(-debt / S) * S := by omega
        have := Int.le_of_mul_le_mul_right this hS
        omega
  · rw [if_neg (by rw [Bool.or_eq_true, dq]; exact hc)] at h1
    simp only [ok_inj] at h1
    rw [if_neg hc]
    exact ⟨amount, by rw [← h1]; rfl, by omega, le_refl _, rfl, fun _ _ => rfl⟩

/-- the parts of a successful deposit -/
structure DParts (e : Env) (a : Acct) (amount : Int) (ro existing isNew : Bool) (a' : Acct) (o : Outcome) (b' : Bank) (p' : TokenPosition) (active : Bool) (c : Cache) : Prop where
  pos : 0 < amount
  new : isNew = true → existing = false ∧ e.priceOk = true
  amt : depositAmount a.bankIn.bank (Bank.nativeOf a.bankIn.bank a.pos) amount ro = .ok (o.amount * S)
  bank : a.bankIn.bank.deposit a.pos (o.amount * S) e.now = .ok (b', p', active)
  wallet : o.amount ≤ a.wallet
  limit : p'.indexed > 0 → b'.checkDepositAndOoLimit = .ok ()
  cache : accountCacheSkipping e.rnd e.now a'.st.banks a'.st.ps a'.st.os a'.st.perps = .ok c
  recover : recoverAfterDeposit e a.flag c = .ok a'.flag
  group : checkGroupLimit e a' c = .ok ()
  res : a' = { a.put b' p' with flag := a'.flag, netDeposits := a.netDeposits + o.amount * e.price / S, vault := a.vault + o.amount, wallet := a.wallet - o.amount }
  out : o = { amount := o.amount, closed := !existing && !active }

theorem deposit_parts {e : Env} {a a' : Acct} {amount : Int} {ro existing isNew : Bool} {o : Outcome} (h : deposit e a amount ro existing isNew = .ok (a', o)) :
    ∃ b' p' active c, DParts e a amount ro existing isNew a' o b' p' active c := by
  simp only [deposit, bind_ok, require_ok, ok_inj, cku64_ok, ck64_ok, mul_ok, toU64_ok, Prod.mk.injEq] at h
  obtain ⟨_, hnew, _, h0, n, hn, amt, ham, ⟨b', p', active⟩, hd, moved, ⟨rfl, _⟩, wallet, ⟨rfl, w1, _⟩, vault, ⟨rfl, _⟩, _, hl, v, ⟨rfl, _⟩, usd, ⟨rfl, _⟩, net, ⟨rfl, _⟩, c, hc, f, hf, _, hg, rfl, rfl⟩ := h
  have e1 := native_is hn
  subst e1
  obtain ⟨m, rfl, m0, _⟩ := depositAmount_ok h0 ham
  have hS := S_pos
  have em : m * S / S = m := Int.mul_ediv_cancel _ (by omega)
  simp only [em] at w1 hd hc hf hg hl ham ⊢
  refine ⟨b', p', active, c, ⟨h0, ?_, ham, hd, by dsimp only; omega, ?_, hc, hf, hg, ?_, rfl⟩⟩
  · intro hi
    rw [hi] at hnew
    simp only [if_true, bind_ok, require_ok] at hnew
    obtain ⟨_, g1, g2⟩ := hnew
    exact ⟨g1, g2⟩
  · intro hp
    rw [if_pos hp] at hl
    exact hl
  · dsimp only
    unfold Fx.toInt
    have := usd_eq m e.price
    unfold ofInt at this
    rw [this]

/-- **C64.** A deposit takes from the wallet exactly what it adds to the account: `o.amount` native tokens go to the vault, and the claims on the bank grow by that amount, up to rounding. The amount is
the requested one, or, when depositing "reduce only" or into a bank whose deposits are reduce-only, at most the debt rounded up (a bank whose deposits are reduce-only accepts no other deposit). A new
position needs a good oracle and the owner's or delegate's signature, and no deposit without that signature closes a position. -/
theorem C64_deposit {e : Env} {a a' : Acct} {amount : Int} {ro existing isNew : Bool} {o : Outcome} (hb : a.bankIn.bank.Pos) (hok : a.Ok) (h : deposit e a amount ro existing isNew = .ok (a', o)) :
    let debt := max (-Bank.nativeOf a.bankIn.bank a.pos) 0
    Touches e.now a a' ∧ 0 ≤ o.amount ∧ o.amount ≤ amount ∧
    o.amount = (if ro = true ∨ a.bankIn.bank.reduceOnly = 1 then min (-(-debt / S)) amount else amount) ∧ (a.bankIn.bank.reduceOnly = 1 → ro = false → o.amount = amount) ∧
    a'.vault = a.vault + o.amount ∧ a'.wallet = a.wallet - o.amount ∧ 0 ≤ a'.wallet ∧ a'.netDeposits = a.netDeposits + o.amount * e.price / S ∧
    (∃ active, Bank.Effect a.bankIn.bank a.pos (o.amount * S) a'.bankIn.bank a'.pos active ∧ (o.closed = true ↔ existing = false ∧ active = false)) ∧
    (isNew = true → existing = false ∧ e.priceOk = true) := by
  intro debt
  obtain ⟨b', p', active, c, P⟩ := deposit_parts h
  obtain ⟨m, em, m0, m1, m2, m3⟩ := depositAmount_ok P.pos P.amt
  have hS := S_pos
  have em : o.amount = m := Int.eq_of_mul_eq_mul_right (by omega) em
  rw [← em] at m0 m1 m2 m3
  have T := touches_put (p := p') hok (deposit_config (now := e.now) hb P.bank)
  have eb : a'.bankIn.bank = b' := by
    have : a'.bankIn = (a.put b' p').bankIn := by rw [P.res]; rfl
    rw [this, put_bankIn hok]
  have ep : a'.pos = p' := by rw [P.res]; rfl
  have hc : o.closed = (!existing && !active) := by rw [P.out]
  have hw := P.wallet
  refine ⟨?_, m0, m1, m2, m3, ?_, ?_, ?_, ?_, ⟨active, ?_, ?_⟩, P.new⟩
  · rw [P.res]
    exact ⟨T.k, T.ti, T.banks, T.config, T.ps, T.os, T.perps, T.ok⟩
  · rw [P.res]
  · rw [P.res]
  · rw [P.res]; dsimp only; omega
  · rw [P.res]
  · rw [eb, ep]
    exact Bank.depositWrapper_effect hb P.bank
  · rw [hc]; simp

/-- **C64.** Limits of a deposit: if it leaves a positive balance, deposits plus potential tokens are within the bank's deposit limit; with a deposit limit of the group, all banks had to be usable and the
account's assets (init weights), rounded down to native quote, are within it. -/
theorem C64_deposit_limits {e : Env} {a a' : Acct} {amount : Int} {ro existing isNew : Bool} {o : Outcome} (hok : a.Ok) (h : deposit e a amount ro existing isNew = .ok (a', o)) :
    (0 < a'.pos.indexed → a'.bankIn.bank.depositLimit ≠ 0 →
      Bank.depositsOf a'.bankIn.bank + a'.bankIn.bank.potentialSerumTokens * S ≤ a'.bankIn.bank.depositLimit * S) ∧
    (0 < e.depositLimitQuote → ∃ c assets liabs, accountCacheSkipping e.rnd e.now a'.st.banks a'.st.ps a'.st.os a'.st.perps = .ok c ∧ c.tokens.length = a'.st.ps.length ∧
      c.assetsAndLiabs e.fd .init true = .ok (assets, liabs) ∧ assets < (e.depositLimitQuote + 1) * S) := by
  obtain ⟨b', p', active, c, P⟩ := deposit_parts h
  have hS := S_pos
  have eb : a'.bankIn.bank = b' := by
    have : a'.bankIn = (a.put b' p').bankIn := by rw [P.res]; rfl
    rw [this, put_bankIn hok]
  have ep : a'.pos = p' := by rw [P.res]; rfl
  refine ⟨?_, ?_⟩
  · rw [eb, ep]
    intro h1 h2
    exact Bank.C06_check_sound (P.limit h1) h2
  · intro hq
    have hg := P.group
    unfold checkGroupLimit at hg
    rw [if_pos hq] at hg
    simp only [bind_ok, require_ok, toU64_ok] at hg
    obtain ⟨_, g1, ⟨assets, liabs⟩, g2, n, ⟨rfl, _⟩, g3⟩ := hg
    refine ⟨c, assets, liabs, P.cache, g1, g2, ?_⟩
    unfold roundToZero at g3
    rw [Int.mul_ediv_cancel _ (by omega)] at g3
    by_contra hc
    have h0 : (0 : Int) ≤ assets := by
      have : 0 ≤ (e.depositLimitQuote + 1) * S := Int.mul_nonneg (by omega) (by omega)
      omega
    have t := tdiv_bounds (a := assets) (b := S) h0 hS
    have : Int.tdiv assets S * S ≤ e.depositLimitQuote * S := Int.mul_le_mul_of_nonneg_right g3 (by omega)
    rw [Int.add_mul] at hc
    omega

/-- **C64.** A deposit into an account that is being liquidated succeeds only if it ends the liquidation: the liquidation-end health after it, computed from the state without unusable banks, is above
-1 native quote token. Otherwise the liquidation flag does not change. -/
theorem C64_deposit_recovers {e : Env} {a a' : Acct} {amount : Int} {ro existing isNew : Bool} {o : Outcome} (h : deposit e a amount ro existing isNew = .ok (a', o)) :
    (e.inRegion = false → a.flag.being = true → a'.flag.being = false ∧
      ∃ health, accountHealth e.rnd e.fd e.now a'.st.used.banks a'.st.used.ps a'.st.used.os a'.st.used.perps .liqEnd = .ok health ∧ -S < health) ∧
    (e.inRegion = true ∨ a.flag.being = false → a'.flag = a.flag) := by
  obtain ⟨b', p', active, c, P⟩ := deposit_parts h
  have hr := P.recover
  unfold recoverAfterDeposit at hr
  refine ⟨?_, ?_⟩
  · intro h1 h2
    rw [if_pos ⟨h1, h2⟩] at hr
    simp only [bind_ok, require_ok, ok_inj] at hr
    obtain ⟨x, hx, _, hrec, hf⟩ := hr
    unfold Account.Liq.maybeRecover at hrec hf
    by_cases hc : a.flag.being = true ∧ x > -Fx.ONE
    · rw [if_pos hc] at hf
      refine ⟨by rw [← hf], x, ?_, ?_⟩
      · simp only [accountHealth, bind_ok]
        exact ⟨c, C57_skipping (st := a'.st) P.cache, hx⟩
      · have := hc.2
        have e1 : (Fx.ONE : Int) = S := rfl
        omega
    · rw [if_neg hc] at hrec
      cases hrec
  · intro hc
    have hn : ¬(e.inRegion = false ∧ a.flag.being = true) := by
      rintro ⟨g1, g2⟩
      rcases hc with hc | hc
      · rw [hc] at g1; cases g1
      · rw [hc] at g2; cases g2
    rw [if_neg hn] at hr
    simp only [ok_inj] at hr
    exact hr.symm

/-! ## Health after a deposit -/

/-- the same token with at least the balance; scaled weights, which only init health uses, may differ -/
structure Raised (t t' : TokenInfo) : Prop where
  index : t'.tokenIndex = t.tokenIndex
  prices : t'.prices = t.prices
  initAsset : t'.initAssetWeight = t.initAssetWeight
  initLiab : t'.initLiabWeight = t.initLiabWeight
  maintAsset : t'.maintAssetWeight = t.maintAssetWeight
  maintLiab : t'.maintLiabWeight = t.maintLiabWeight
  balance : t.balanceSpot ≤ t'.balanceSpot

theorem Raised.assetWeight {t t' : TokenInfo} (r : Raised t t') {h : HT} (hh : h ≠ .init) : t'.assetWeight h = t.assetWeight h := by
  cases h
  · exact absurd rfl hh
  · exact r.maintAsset
  · exact r.initAsset

theorem Raised.liabWeight {t t' : TokenInfo} (r : Raised t t') {h : HT} (hh : h ≠ .init) : t'.liabWeight h = t.liabWeight h := by
  cases h
  · exact absurd rfl hh
  · exact r.maintLiab
  · exact r.initLiab

theorem Raised.worth {t t' : TokenInfo} (r : Raised t t') {h : HT} (hh : h ≠ .init) (b : Int) : worth t' h b = worth t h b := by
  unfold Health.worth
  rw [r.assetWeight hh, r.liabWeight hh, r.prices]

theorem tokenIdx_congr {ts ts' : List TokenInfo} (h : List.Forall₂ Raised ts ts') (ti : Nat) : findToken ts' ti = findToken ts ti := by
  unfold findToken
  induction h with
  | nil => rfl
  | cons r _ ih => rw [List.findIdx?_cons, List.findIdx?_cons, r.index, ih]

/-- a higher balance of one token, and the funds in orders -/
structure RaisedCache (c c' : Cache) : Prop where
  tokens : List.Forall₂ Raised c.tokens c'.tokens
  serums : c'.serums = c.serums
  perps : c'.perps = c.perps

theorem RaisedCache.at {c c' : Cache} (r : RaisedCache c c') {i : Nat} {t : TokenInfo} (h : c.tokens[i]? = some t) : ∃ t', c'.tokens[i]? = some t' ∧ Raised t t' := forall₂_some r.tokens h

theorem RaisedCache.balances {c c' : Cache} (r : RaisedCache c c') {h : HT} {bs bs' : List Int} (h1 : c.balances h = .ok bs) (h2 : c'.balances h = .ok bs') (k : Nat) : balAt bs k ≤ balAt bs' k := by
  obtain ⟨l1, v1, _⟩ := balancesI_ok h1
  obtain ⟨l2, v2, _⟩ := balancesI_ok h2
  have hl := (forall₂_getElem.mp r.tokens).1
  by_cases hk : k < c.tokens.length
  · have ht := List.getElem?_eq_getElem hk
    obtain ⟨t', ht', R⟩ := r.at ht
    rw [balAt_eq (v1 k _ ht), balAt_eq (v2 k _ ht'), r.perps]
    have : sumOf (perpOn c' h false k) c.perps = sumOf (perpOn c h false k) c.perps := by
      apply sumOf_congr
      intro p _
      unfold perpOn
      have : c'.tokenIdx p.settleTokenIndex = c.tokenIdx p.settleTokenIndex := tokenIdx_congr r.tokens _
      rw [this]
    have := R.balance
    omega
  · unfold balAt
    rw [List.getD_eq_getElem?_getD, List.getD_eq_getElem?_getD, List.getElem?_eq_none (by omega), List.getElem?_eq_none (by omega)]

/-- Raising balances does not lower maintenance or liquidation-end health (up to rounding), if each token is used by one market with reserved funds at most, or is weighted alike as asset and liability. -/
theorem raised_health {fd : FDiv} (hfd : FdOk fd) {c c' : Cache} (r : RaisedCache c c') {h : HT} (hh : h ≠ .init) (sane : AllSane c'.tokens h) (nn : c'.MarketsNonNeg)
    (hne : ∀ s ∈ c'.serums, s.baseIdx ≠ s.quoteIdx) {bs bs' mr' : List I80F48} {rs' : List Serum3Reserved} (hb : c.balances h = .ok bs) (hb' : c'.balances h = .ok bs')
    (hres : c'.reservations fd h = .ok (mr', rs')) (hu : Unshared c'.tokens h (c'.serums.zip rs')) {v v' : I80F48} (h1 : c.health fd h = .ok v) (h2 : c'.health fd h = .ok v') :
    v * (S * S) ≤ v' * (S * S) + slack c' h bs' rs' + tokenExcess bs c.tokens.length := by
  simp only [Cache.health, bind_ok] at h1 h2
  obtain ⟨bs1, hb1, h1⟩ := h1
  obtain ⟨bs2, hb2, h2⟩ := h2
  rw [hb] at hb1; simp at hb1; subst hb1
  rw [hb'] at hb2; simp at hb2; subst hb2
  have hl := (forall₂_getElem.mp r.tokens).1
  have back : ∀ {i : Nat} {t' : TokenInfo}, c'.tokens[i]? = some t' → ∃ t, c.tokens[i]? = some t ∧ Raised t t' := by
    intro i t' ht'
    have : i < c.tokens.length := by have := getElem?_lt ht'; omega
    have ht := List.getElem?_eq_getElem this
    exact ⟨_, ht, (forall₂_getElem.mp r.tokens).2 i _ _ ht ht'⟩
  have sane0 : AllSane c.tokens h := by
    intro t ht
    obtain ⟨i, hi, rfl⟩ := List.getElem_of_mem ht
    obtain ⟨t', ht', R⟩ := r.at (List.getElem?_eq_getElem hi)
    have s := sane t' (List.mem_of_getElem? ht')
    have e1 := R.assetWeight hh
    have e2 := R.liabWeight hh
    have e3 := R.prices
    exact ⟨by rw [← e1]; exact s.aw, by rw [← e3]; exact s.ap, by rw [← e2]; exact s.lw, by rw [← e3]; exact s.lp, by rw [← e1, ← e2, ← e3]; exact s.le⟩
  have nn0 : c.MarketsNonNeg := by
    intro s hs
    exact nn s (by rw [r.serums]; exact hs)
  obtain ⟨mr, rs, r1, _⟩ := healthSum_ok h1
  obtain ⟨dirs, hd, hge⟩ := healthSum_ge hfd sane nn (balancesI_ok hb').1 h2 hres hne hu
  have hle := healthSum_le hfd sane0 nn0 (balancesI_ok hb).1 h1 r1 dirs (by rw [hd, r.serums])
  have hcv : ∀ k, convAll ((c.serums.zip rs).zip dirs) k ≤ convAll ((c'.serums.zip rs').zip dirs) k := by
    obtain ⟨a1, _, _, d1⟩ := reservations_ok r1
    obtain ⟨a2, _, _, d2⟩ := reservations_ok hres
    apply convAll_mono
    · simp [a1, a2, r.serums]
    · intro i x y hx hy
      obtain ⟨q, b, z1, z2, z3, z4⟩ := d1 x (List.mem_of_getElem? hx)
      obtain ⟨q', b', z1', z2', z3', z4'⟩ := d2 y (List.mem_of_getElem? hy)
      have hs : x.1 = y.1 := by
        rw [List.getElem?_zip_eq_some] at hx hy
        rw [r.serums] at hy
        have := hx.1.symm.trans hy.1
        simpa using this
      rw [← hs] at z1' z2' z3' z4'
      obtain ⟨q0, y1, R1⟩ := back z1'
      obtain ⟨b0, y2, R2⟩ := back z2'
      rw [z1] at y1; simp at y1; subst y1
      rw [z2] at y2; simp at y2; subst y2
      have ea : x.1.allReservedAsBase fd h q' b' = x.1.allReservedAsBase fd h q b := by
        unfold Serum3Info.allReservedAsBase; rw [R1.prices, R2.prices]
      have eq : x.1.allReservedAsQuote fd h q' b' = x.1.allReservedAsQuote fd h q b := by
        unfold Serum3Info.allReservedAsQuote; rw [R1.prices, R2.prices]
      rw [ea, z3] at z3'
      rw [eq, z4] at z4'
      exact ⟨hs, le_of_eq (ok_inj.mp z3'), le_of_eq (ok_inj.mp z4')⟩
  have hw : totalWorth c.tokens h (fun k => balAt bs k + convAll ((c.serums.zip rs).zip dirs) k) ≤
      totalWorth c'.tokens h (fun k => balAt bs' k + convAll ((c'.serums.zip rs').zip dirs) k) := by
    have e : totalWorth c'.tokens h (fun k => balAt bs' k + convAll ((c'.serums.zip rs').zip dirs) k) =
        totalWorth c.tokens h (fun k => balAt bs' k + convAll ((c'.serums.zip rs').zip dirs) k) := by
      unfold totalWorth
      rw [← hl]
      apply sumOf_congr
      intro k hk
      unfold worthAt
      have hk : k < c.tokens.length := List.mem_range.mp hk
      obtain ⟨t', ht', R⟩ := r.at (List.getElem?_eq_getElem hk)
      rw [ht', List.getElem?_eq_getElem hk]
      exact R.worth hh _
    rw [e]
    apply totalWorth_mono sane0
    intro k
    have := r.balances hb hb' k
    have := hcv k
    omega
  omega

/-- after a deposit the balance is not lower -/
theorem deposit_raises {b b' : Bank} {p p' : TokenPosition} {amt now : Int} {active : Bool} (hb : b.Pos) (h : b.deposit p amt now = .ok (b', p', active)) : Bank.nativeOf b p ≤ Bank.nativeOf b' p' := by
  obtain ⟨q1, h1, e1, _⟩ := Bank.depositWrapper_ok h
  obtain ⟨ha, hc1⟩ := Bank.depositInternal_ok hb h1
  have ei : ∀ (x : TokenPosition), Bank.nativeOf b' x = Bank.nativeOf b x := by
    intro x
    have := Bank.depositWrapper_effect hb h
    unfold Bank.nativeOf
    rw [this.depositIndex, this.borrowIndex]
  rw [ei]
  cases active with
  | true => have := (Bank.C03_deposit_rounding hb h).1; omega
  | false =>
    cases hc1 with
    | dust c st nb hp =>
      have : p'.indexed = 0 := e1
      unfold Bank.nativeOf
      rw [this, if_neg (by omega), if_neg (by omega), Int.zero_mul, Int.zero_ediv]
      have : p.indexed * b.borrowIndex ≤ 0 := Int.mul_nonpos_of_nonpos_of_nonneg (by omega) (by have := hb.2; omega)
      have := floor_mono this
      simpa using this

/-- the caches before and after a deposit -/
theorem deposit_caches {e : Env} {a a' : Acct} {amount : Int} {ro existing isNew : Bool} {o : Outcome} {c c' : Cache} (hb : a.bankIn.bank.Pos) (hok : a.Ok)
    (d1 : (a.st.ps.map (·.tokenIndex)).Nodup) (h : deposit e a amount ro existing isNew = .ok (a', o))
    (hc : accountCache e.rnd e.now a.st.banks a.st.ps a.st.os a.st.perps = .ok c) (hc' : accountCache e.rnd e.now a'.st.banks a'.st.ps a'.st.os a'.st.perps = .ok c') : RaisedCache c c' := by
  obtain ⟨b', p', active, _, P⟩ := deposit_parts h
  obtain ⟨T, _⟩ := C64_deposit hb hok h
  have hr := deposit_raises hb P.bank
  have eb : a'.bankIn.bank = b' := by
    have : a'.bankIn = (a.put b' p').bankIn := by rw [P.res]; rfl
    rw [this, put_bankIn hok]
  have ep : a'.pos = p' := by rw [P.res]; rfl
  have eti : a'.st.ps.map (·.tokenIndex) = a.st.ps.map (·.tokenIndex) := by
    rw [T.ps, List.map_set]
    apply List.ext_getElem?
    intro i
    by_cases hi : a.k = i
    · subst hi
      rw [List.getElem?_set_self (by rw [List.length_map]; exact getElem?_lt hok), List.getElem?_map, hok]
      rfl
    · rw [List.getElem?_set_ne hi]
  obtain ⟨f1, f2, f3, f4⟩ := accountCache_for d1 hc
  obtain ⟨g1, g2, g3, g4⟩ := accountCache_for (by rw [eti]; exact d1) hc'
  have i1 : c.tokens.map (·.tokenIndex) = a.st.ps.map (·.tokenIndex) := tokenFor_index (List.Forall₂.imp (fun _ _ h => h.tracks) f1)
  have i2 : c'.tokens.map (·.tokenIndex) = a'.st.ps.map (·.tokenIndex) := tokenFor_index (List.Forall₂.imp (fun _ _ h => h.tracks) g1)
  rw [T.os] at g2
  rw [T.perps] at g3
  refine ⟨?_, ?_, ?_⟩
  · rw [forall₂_getElem] at f1 g1 ⊢
    have hlen : a'.st.ps.length = a.st.ps.length := by rw [T.ps, List.length_set]
    refine ⟨by omega, ?_⟩
    intro i t t' ht ht'
    have hi : i < a.st.ps.length := by have := getElem?_lt ht; omega
    have hp := List.getElem?_eq_getElem hi
    have F := f1.2 i _ t hp ht
    by_cases hik : i = a.k
    · subst hik
      rw [hok] at hp
      injection hp with hp
      rw [← hp] at F
      have hp' : a'.st.ps[a.k]? = some ⟨a.ti, a'.pos.indexed⟩ := by rw [T.ps, List.getElem?_set_self hi]
      have G := g1.2 a.k _ t' hp' ht'
      dsimp only at F G
      have cfg := T.config
      have eB : a'.st.banks a.ti = a'.bankIn := by unfold Acct.bankIn; rw [T.ti]
      rw [eB] at G
      have eA : a.st.banks a.ti = a.bankIn := rfl
      rw [eA] at F
      have m1 := F.maint
      have m2 := G.maint
      rw [cfg.maint, m1] at m2
      simp only [ok_inj, Prod.mk.injEq] at m2
      refine ⟨G.index.trans F.index.symm, ?_, ?_, ?_, m2.1.symm, m2.2.symm, ?_⟩
      · have x1 := G.oracle.trans (cfg.oracle.trans F.oracle.symm)
        have x2 := G.stable.trans (cfg.stable.trans F.stable.symm)
        cases hx : t.prices; cases hy : t'.prices
        rw [hx, hy] at x1 x2
        dsimp only at x1 x2
        rw [x1, x2]
      · exact G.initAsset.trans (cfg.initAsset.trans F.initAsset.symm)
      · exact G.initLiab.trans (cfg.initLiab.trans F.initLiab.symm)
      · rw [F.balance, G.balance, T.os]
        have n1 : Bank.nativeOf a.bankIn.bank a.pos = a.pos.indexed * (if a.pos.indexed > 0 then a.bankIn.bank.depositIndex else a.bankIn.bank.borrowIndex) / S := by
          unfold Bank.nativeOf; split <;> rfl
        have n2 : Bank.nativeOf b' p' = a'.pos.indexed * (if a'.pos.indexed > 0 then a'.bankIn.bank.depositIndex else a'.bankIn.bank.borrowIndex) / S := by
          rw [eb, ep]; unfold Bank.nativeOf; split <;> rfl
        dsimp only
        rw [← n1, ← n2]
        omega
    · have hp' : a'.st.ps[i]? = some a.st.ps[i] := by rw [T.ps, List.getElem?_set_ne (fun e => hik e.symm), hp]
      have G := g1.2 i _ t' hp' ht'
      have hnt : a.st.ps[i].tokenIndex ≠ a.ti := by
        intro ht
        exact hik (nodup_at d1 hp hok ht)
      rw [T.banks _ hnt, T.os] at G
      have := tracks_strip F.tracks G.tracks
      have e1 := congrArg TokenInfo.tokenIndex this
      have e2 := congrArg TokenInfo.prices this
      have e3 := congrArg TokenInfo.initAssetWeight this
      have e4 := congrArg TokenInfo.initLiabWeight this
      have e5 := congrArg TokenInfo.maintAssetWeight this
      have e6 := congrArg TokenInfo.maintLiabWeight this
      have e7 := congrArg TokenInfo.balanceSpot this
      exact ⟨e1.symm, e2.symm, e3.symm, e4.symm, e5.symm, e6.symm, le_of_eq e7⟩
  · exact (forall₂_eq (forall₂_unique (R := MarketFor c.tokens) (R' := MarketFor c'.tokens) (Q := (· = ·))
      (fun _ _ _ => market_unique (by rw [i1, i2, eti]) (by rw [i1]; exact d1)) f2 g2)).symm
  · exact (forall₂_eq (forall₂_unique (R := PerpFor) (R' := PerpFor) (Q := (· = ·)) (fun _ _ _ => perp_unique) f3 g3)).symm

/-- **C64.** What a deposit does to health: if each token of the account is in at most one spot market with reserved funds (or weighted alike as asset and liability), the maintenance and the
liquidation-end health after the deposit are not lower than before, up to rounding (`slack` and `tokenExcess`, about 2^-48 per native token and unit of price). Without that condition it is false:
`C64_deposit_can_lower_health`. -/
theorem C64_deposit_health {e : Env} (hfd : FdOk e.fd) {a a' : Acct} {amount : Int} {ro existing isNew : Bool} {o : Outcome} {c c' : Cache} (hb : a.bankIn.bank.Pos) (hok : a.Ok)
    (d1 : (a.st.ps.map (·.tokenIndex)).Nodup) (h : deposit e a amount ro existing isNew = .ok (a', o))
    (hc : accountCache e.rnd e.now a.st.banks a.st.ps a.st.os a.st.perps = .ok c) (hc' : accountCache e.rnd e.now a'.st.banks a'.st.ps a'.st.os a'.st.perps = .ok c')
    {ht : HT} (hh : ht = .maint ∨ ht = .liqEnd) (sane : AllSane c'.tokens ht) (nn : c'.MarketsNonNeg)
    (hne : ∀ s ∈ c'.serums, s.baseIdx ≠ s.quoteIdx) {bs bs' mr' : List I80F48} {rs' : List Serum3Reserved} (hbs : c.balances ht = .ok bs) (hbs' : c'.balances ht = .ok bs')
    (hres : c'.reservations e.fd ht = .ok (mr', rs')) (hu : Unshared c'.tokens ht (c'.serums.zip rs')) {v v' : I80F48}
    (hv : accountHealth e.rnd e.fd e.now a.st.banks a.st.ps a.st.os a.st.perps ht = .ok v) (hv' : accountHealth e.rnd e.fd e.now a'.st.banks a'.st.ps a'.st.os a'.st.perps ht = .ok v') :
    v * (S * S) ≤ v' * (S * S) + slack c' ht bs' rs' + tokenExcess bs c.tokens.length := by
  simp only [accountHealth, bind_ok] at hv hv'
  obtain ⟨c1, k1, hv⟩ := hv
  obtain ⟨c2, k2, hv'⟩ := hv'
  rw [hc] at k1
  rw [hc'] at k2
  cases ok_inj.mp k1
  cases ok_inj.mp k2
  exact raised_health hfd (deposit_caches hb hok d1 h hc hc') (by rcases hh with rfl | rfl <;> simp) sane nn hne hbs hbs' hres hu hv hv'

/-! ## Forced withdrawals -/

/-- **C64.** A forced withdrawal is possible only from a bank marked for it. Anyone may call it; it pays the whole balance, rounded down, to a token account of the owner. It never makes a loan: the bank's borrows
and fees do not change and afterwards do not exceed its deposits. The position is closed exactly if no order needs it. -/
theorem C64_force_withdraw {e : Env} {fw : Bool} {a a' : Acct} {o : Outcome} (hb : a.bankIn.bank.Pos) (hr : 0 ≤ a.bankIn.bank.loanOriginationFeeRate) (hok : a.Ok)
    (h : forceWithdraw e fw a = .ok (a', o)) :
    fw = true ∧ Touches e.now a a' ∧ a'.flag = a.flag ∧ 0 ≤ Bank.nativeOf a.bankIn.bank a.pos ∧ o.amount = Bank.nativeOf a.bankIn.bank a.pos / S ∧
    a'.vault = a.vault - o.amount ∧ 0 ≤ a'.vault ∧ a'.wallet = a.wallet + o.amount ∧ a'.netDeposits = a.netDeposits - o.amount * e.price / S ∧
    Bank.Effect a.bankIn.bank a.pos (-(o.amount * S)) a'.bankIn.bank a'.pos (!o.closed) ∧
    a'.bankIn.bank.indexedBorrows = a.bankIn.bank.indexedBorrows ∧ a'.bankIn.bank.collectedFeesNative = a.bankIn.bank.collectedFeesNative ∧
    a'.bankIn.bank.borrowIndex * a'.bankIn.bank.indexedBorrows / S ≤ a'.bankIn.bank.depositIndex * a'.bankIn.bank.indexedDeposits / S ∧
    (o.closed = true ↔ a.pos.inUseCount = 0) := by
  have hS := S_pos
  simp only [forceWithdraw, bind_ok, require_ok, ok_inj, cku64_ok, ck64_ok, mul_ok, toU64_ok, Prod.mk.injEq] at h
  obtain ⟨_, hfw, n, hn, _, h0, m, ⟨rfl, m0, _⟩, ⟨b', p', active⟩, hw, _, hv, vault, ⟨rfl, v0, _⟩, wallet, ⟨rfl, _⟩, v, ⟨rfl, _⟩, usd, ⟨rfl, _⟩, net, ⟨rfl, _⟩, _, hl, rfl, rfl⟩ := h
  have e1 := native_is hn
  subst e1
  have cfg := withdrawWithoutFee_config (now := e.now) hb hw
  have T := touches_put (p := p') hok cfg
  have hE := Bank.withdrawWithoutFee_effect hb hr hw
  have fb := mulFloor_bounds (Bank.nativeOf a.bankIn.bank a.pos)
  have hw2 := hw
  unfold Bank.withdrawWithoutFee at hw2
  simp only [bind_ok, ok_inj, Prod.mk.injEq] at hw2
  obtain ⟨⟨b1, p1, w⟩, hw2, rfl, rfl, hact⟩ := hw2
  obtain ⟨g1, g2, g3, g4, g5, g6⟩ := (Bank.C04_withdraw_excess hb hr hw2).1 (by unfold ofInt; omega)
  have eb : (a.put b1 p1).bankIn.bank = b1 := by rw [put_bankIn hok]
  have eb' : ({ a.put b1 p1 with netDeposits := a.netDeposits - Fx.toInt (ofInt (Bank.nativeOf a.bankIn.bank a.pos / S) * e.price / S), vault := a.vault - Bank.nativeOf a.bankIn.bank a.pos / S, wallet := a.wallet + Bank.nativeOf a.bankIn.bank a.pos / S } : Acct).bankIn.bank = b1 := eb
  rw [eb']
  refine ⟨hfw, ⟨T.k, T.ti, T.banks, T.config, T.ps, T.os, T.perps, T.ok⟩, rfl, h0, rfl, rfl, v0, rfl, ?_, ?_, g5, g6, ?_, ?_⟩
  · dsimp only
    unfold Fx.toInt
    rw [usd_eq]
  · dsimp only
    rw [Bool.not_not]
    exact hE
  · have := Serum.maxUtil_ok hl
    rw [show (Fx.ONE : Int) = S from rfl, Int.mul_ediv_cancel_left _ (by omega)] at this
    exact this
  · dsimp only at hact ⊢
    rw [← hact]
    obtain ⟨q1, k1, _, _⟩ := Bank.withdrawWrapper_ok hw2
    unfold Bank.withdrawInternal at k1
    simp only [bind_ok, require_ok] at k1
    obtain ⟨_, _, n2, hn2, k1⟩ := k1
    have hn2' := native_is hn2
    unfold ofInt at k1
    rw [if_pos (by omega)] at k1
    simp only [bind_ok, sub_ok] at k1
    obtain ⟨nn, ⟨rfl, _⟩, k1⟩ := k1
    rw [if_pos (by omega)] at k1
    by_cases hu : a.pos.inUseCount = 0
    · rw [if_pos ⟨by show _ < S; omega, by simp [TokenPosition.isInUse, hu]⟩] at k1
      simp only [bind_ok, ok_inj, Prod.mk.injEq] at k1
      obtain ⟨_, _, _, _, _, _, rfl⟩ := k1
      simp [hu]
    · rw [if_neg (by rintro ⟨_, hx⟩; simp [TokenPosition.isInUse] at hx; omega)] at k1
      simp only [bind_ok, ok_inj, Prod.mk.injEq] at k1
      obtain ⟨_, _, _, _, _, _, _, _, rfl⟩ := k1
      simp [hu]

end Wallet
end Mango
