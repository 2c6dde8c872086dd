import Verif.Props.SettlementHealth
/-!
# C72: settling fees and withdrawing them
-/
namespace Mango
namespace Settlement
open Fx Health Bank Liquidation

/-! ## perp_settle_fees -/

/-- **C72 (recorded transfers).** What the statistics record is a nearest whole number of native units, ties away from zero. -/
theorem C72_recorded (x : I80F48) : (0 ≤ x → roundNearest x * S - S / 2 ≤ x ∧ x < roundNearest x * S + S / 2) ∧ roundNearest (-x) = -roundNearest x := by
  unfold roundNearest S
  by_cases h : x ≥ 0
  · rw [if_pos h]
    refine ⟨fun _ => by omega, ?_⟩
    by_cases h0 : x = 0
    · subst h0; decide
    · rw [if_neg (by omega)]; simp
  · rw [if_neg h, if_pos (by omega)]; omega

example : roundNearest (S + S / 2) = 2 ∧ roundNearest (-(S + S / 2)) = -2 ∧ roundNearest (S + S / 2 - 1) = 1 := by decide

theorem settleFees_zero {e : Env} {s s' : Sys} {mi i : Nat} {maxAmount : Int} (h : settleFees e s mi i maxAmount = .ok (s', 0)) :
    ∃ a j p p' m', s.accts[i]? = some a ∧ a.perps[j]? = some p ∧ p.market = mi ∧ 0 < maxAmount ∧ Perp.settleFees e.lim (s.markets mi) p.pos (e.oracle mi) maxAmount = .ok (p', m', 0) ∧
      s' = { s with accts := s.accts.set i (a.setPerp j { p with pos := p' }) } := by
  unfold settleFees at h
  simp only [bind_ok, require_ok, Prod.exists] at h
  obtain ⟨_, h0, a, h1, j, p, h2, p', m', x, h3, h⟩ := h
  by_cases hx : x = 0
  · rw [if_pos hx] at h
    simp only [ok_inj, Prod.mk.injEq] at h
    obtain ⟨rfl, _⟩ := h
    subst hx
    exact ⟨a, j, p, p', m', acct_ok h1, (perp_ok h2).1, (perp_ok h2).2, h0, h3, rfl⟩
  · rw [if_neg hx] at h
    simp only [bind_ok, ok_inj, Prod.mk.injEq, Prod.exists] at h
    obtain ⟨_, _, _, _, _, _, _, _, _, _, _, _, _, _, _, _, _, _, _, _, _, _, h⟩ := h
    exact absurd h hx

structure FeeParts (e : Env) (s s' : Sys) (mi i : Nat) (maxAmount amt : Int) (a a' : Acct) (j k : Nat) (p : PerpSlot) (p' : Perp.Pos) (m' : Perp.Market) (t t' : TokenPosition) (b : Bank) (r : Bool) (c : Cache) (hv : I80F48) : Prop where
  pos : 0 < maxAmount
  acct : s.accts[i]? = some a
  perp : a.perps[j]? = some p ∧ p.market = mi
  settle : Perp.settleFees e.lim (s.markets mi) p.pos (e.oracle mi) maxAmount = .ok (p', m', amt)
  tok : a.toks[k]? = some ((s.markets mi).settleTokenIndex, t)
  wd : (s.banks (s.markets mi).settleTokenIndex).bank.withdrawWithoutFee t amt e.now = .ok (b, t', r)
  after : a' = { (a.setPerp j ⟨mi, p', p.transfers - roundNearest amt⟩).setTok k (s.markets mi).settleTokenIndex t' with transfers := a.transfers - roundNearest amt }
  out : s' = { s.setBank (s.markets mi).settleTokenIndex b with markets := fun x => if x = mi then m' else s.markets x, accts := s.accts.set i a' }
  cache : a'.cache e s' = .ok c
  health : c.health e.fd .init = .ok hv ∧ 0 ≤ hv

theorem settleFees_parts {e : Env} {s s' : Sys} {mi i : Nat} {maxAmount amt : Int} (hne : amt ≠ 0) (h : settleFees e s mi i maxAmount = .ok (s', amt)) :
    ∃ a a' j k p p' m' t t' b r c hv, FeeParts e s s' mi i maxAmount amt a a' j k p p' m' t t' b r c hv := by
  unfold settleFees at h
  simp only [bind_ok, require_ok, Prod.exists] at h
  obtain ⟨_, h0, a, h1, j, p, h2, p', m', x, h3, h⟩ := h
  by_cases hx : x = 0
  · rw [if_pos hx] at h
    simp only [ok_inj, Prod.mk.injEq] at h
    exact absurd h.2.symm hne
  · rw [if_neg hx] at h
    simp only [bind_ok, require_ok, ck64_ok, ok_inj, Prod.mk.injEq, Prod.exists] at h
    obtain ⟨n, ⟨rfl, _⟩, _, _, t1, ⟨rfl, _⟩, t2, ⟨rfl, _⟩, k, t, h4, b, t', r, h5, c, h6, hv, h7, _, h8, rfl, rfl⟩ := h
    exact ⟨a, _, j, k, p, p', m', t, t', b, r, c, hv, h0, acct_ok h1, perp_ok h2, h3, tok_ok h4, h5, rfl, rfl, h6, h7, h8⟩

/-- what settling fees of `amt` does -/
structure FeesSettled (e : Env) (s s' : Sys) (mi i : Nat) (maxAmount amt : Int) : Prop where
  /-- the position gains `amt` after paying its funding; the statistic counts rounded tokens -/
  position : ∃ p p', s.perpAt i mi = some p ∧ s'.perpAt i mi = some p' ∧ Perp.Paid (s.markets mi) p.pos amt p'.pos ∧ p'.transfers = p.transfers - roundNearest amt ∧
    (amt ≠ 0 → amt ≤ -pnl (s.markets mi) p.pos (e.oracle mi))
  /-- at most the request and the market's accrued fees -/
  amount : 0 ≤ amt ∧ amt ≤ maxAmount * S ∧ (amt ≠ 0 → amt ≤ (s.markets mi).feesAccrued)
  /-- accrued fees become settled fees -/
  market : s'.markets mi = { s.markets mi with feesAccrued := (s.markets mi).feesAccrued - amt, feesSettled := (s.markets mi).feesSettled + amt }
  markets : ∀ x, x ≠ mi → s'.markets x = s.markets x
  perps : ∀ k x, x ≠ mi ∨ k ≠ i → s'.perpAt k x = s.perpAt k x
  toks : ∀ k x, x ≠ (s.markets mi).settleTokenIndex ∨ k ≠ i ∨ amt = 0 → s'.tokAt k x = s.tokAt k x
  banks : ∀ t, t ≠ (s.markets mi).settleTokenIndex ∨ amt = 0 → s'.banks t = s.banks t
  accounts : s'.accts.length = s.accts.length
  /-- the account-wide transfers statistic follows; open orders accounts and the number of slots stay -/
  stats : ∀ n c c', s.accts[n]? = some c → s'.accts[n]? = some c' → c'.os = c.os ∧ c'.slots = c.slots ∧ c'.transfers = c.transfers - (if n = i then roundNearest amt else 0)
  ok : s'.Ok
  /-- after a settlement the account's initial health is not negative -/
  health : amt ≠ 0 → ∃ a c hv, s'.accts[i]? = some a ∧ a.cache e s' = .ok c ∧ c.health e.fd .init = .ok hv ∧ 0 ≤ hv

theorem fees_pnl {lim : I80F48 → Int} {m m' : Perp.Market} {p p' : Perp.Pos} {oracle x : I80F48} {maxAmount : Int} (h : Perp.settleFees lim m p oracle maxAmount = .ok (p', m', x)) (hx : x ≠ 0) :
    x ≤ -pnl m p oracle ∧ x ≤ m.feesAccrued := by
  unfold Perp.settleFees at h
  simp only [bind_ok] at h
  obtain ⟨p0, h1, u, h2, y, h3, h⟩ := h
  have eu := unsettled_pnl (Perp.settleFunding_paid h1) h2
  split at h
  · simp only [ok_inj, Prod.mk.injEq] at h
    exact absurd h.2.2.symm hx
  · next hc =>
    simp only [bind_ok, require_ok, ok_inj, Prod.mk.injEq] at h
    obtain ⟨sa, h4, fa, h5, _, h6, ns, _, p1, h7, fees, _, st, _, rfl, rfl, rfl⟩ := h
    have e1 := Perp.fxabs_ok h4
    have e2 := Perp.fxabs_ok h5
    rw [abs_of_neg (by omega)] at e1
    rw [abs_of_pos (by omega)] at e2
    have hl := limit_bound h3
    rw [← eu]
    have : y < 0 := by omega
    by_cases hu : u < 0
    · have := hl.2 hu; omega
    · exfalso
      unfold Perp.Pos.applyPnlSettleLimit at h3
      split at h3
      · rw [ok_inj] at h3; omega
      · simp only [bind_ok, ok_inj, Prod.exists] at h3
        obtain ⟨lo, hi, hlim, rfl⟩ := h3
        have hhi : 0 ≤ hi := by
          unfold Perp.Pos.availableSettleLimit at hlim
          split at hlim
          · next hf => exact absurd hf ‹_›
          · simp only [bind_ok, ok_inj, Prod.mk.injEq, Prod.exists] at hlim
            obtain ⟨_, _, _, _, rfl⟩ := hlim
            omega
        have : 0 ≤ Fx.ofInt hi := by unfold Fx.ofInt S; omega
        omega

/-- **C72, settle fees.** -/
theorem C72_settle_fees {e : Env} {s s' : Sys} (hs : s.Ok) {mi i : Nat} {maxAmount amt : Int} (h : settleFees e s mi i maxAmount = .ok (s', amt)) : FeesSettled e s s' mi i maxAmount amt := by
  by_cases hz : amt = 0
  · subst hz
    obtain ⟨a, j, p, p', m', h1, h2, h3, h0, h4, rfl⟩ := settleFees_zero h
    have ha := hs a (List.mem_of_getElem? h1)
    have la := (List.getElem?_eq_some_iff.mp h1).1
    obtain ⟨q1, q2, q3, q4, q5⟩ := Perp.C50_settle_fees (by omega) h4
    have hq : ∀ k x, (⟨s.banks, s.markets, s.accts.set i (a.setPerp j { p with pos := p' })⟩ : Sys).perpAt k x = if k = i then (if x = mi then some { p with pos := p' } else a.perpOf x) else s.perpAt k x := by
      intro k x
      rw [Sys.perpAt_set _ _ la, perpOf_set (p' := { p with pos := p' }) ha h2 rfl, h3]
    refine ⟨⟨p, { p with pos := p' }, ?_, ?_, q1, ?_, fun h => absurd rfl h⟩, ⟨by omega, by unfold S; omega, fun h => absurd rfl h⟩, ?_, fun _ _ => rfl, ?_, ?_, fun _ _ => rfl, by simp, ?_, ?_, fun h => absurd rfl h⟩
    · unfold Sys.perpAt; rw [h1, ← h3]; exact perpOf_at ha h2
    · rw [hq, if_pos rfl, if_pos rfl]
    · dsimp only; unfold roundNearest S; simp
    · dsimp only; simp
    · intro k x hk
      rw [hq]
      by_cases hki : k = i
      · subst hki
        rw [if_pos rfl, if_neg (by rcases hk with h | h; exact h; exact absurd rfl h)]
        unfold Sys.perpAt; rw [h1]; rfl
      · rw [if_neg hki]
    · intro k x _
      rw [Sys.tokAt_set _ _ la]
      by_cases hki : k = i
      · subst hki
        rw [if_pos rfl]
        unfold Sys.tokAt; rw [h1]; rfl
      · rw [if_neg hki]
    · intro n c c' hc hc'
      dsimp only at hc'
      by_cases hn : n = i
      · subst hn
        rw [List.getElem?_set_self la, Option.some.injEq] at hc'
        rw [h1, Option.some.injEq] at hc
        subst hc; subst hc'
        exact ⟨rfl, rfl, by rw [if_pos rfl]; unfold roundNearest S Acct.setPerp; simp⟩
      · rw [List.getElem?_set_ne (fun h => hn h.symm), hc, Option.some.injEq] at hc'
        subst hc'
        exact ⟨rfl, rfl, by rw [if_neg hn]; omega⟩
    · intro b hb
      rcases List.mem_or_eq_of_mem_set hb with h | h
      · exact hs b h
      · rw [h]; exact setPerp_ok ha h2 rfl
  · obtain ⟨a, a', j, k, p, p', m', t, t', b, r, c, hv, P⟩ := settleFees_parts hz h
    have ha := hs a (List.mem_of_getElem? P.acct)
    have la := (List.getElem?_eq_some_iff.mp P.acct).1
    have hpos := P.pos
    obtain ⟨hpj, hpm⟩ := P.perp
    obtain ⟨q1, q2, q3, q4, q5⟩ := Perp.C50_settle_fees (by omega) P.settle
    obtain ⟨v1, v2⟩ := fees_pnl P.settle hz
    have hout := P.out
    have hafter := P.after
    have oa := setPerp_ok (p' := ⟨mi, p', p.transfers - roundNearest amt⟩) ha hpj hpm.symm
    have tk1 : (a.setPerp j ⟨mi, p', p.transfers - roundNearest amt⟩).toks[k]? = some ((s.markets mi).settleTokenIndex, t) := P.tok
    have oa2 := setTok_ok (t' := t') oa tk1
    have a'perp : ∀ x, a'.perpOf x = if x = mi then some ⟨mi, p', p.transfers - roundNearest amt⟩ else a.perpOf x := by
      intro x
      rw [hafter]
      have := perpOf_set (p' := ⟨mi, p', p.transfers - roundNearest amt⟩) ha hpj hpm.symm x
      rw [hpm] at this
      exact this
    have a'tok : ∀ x, a'.tokOf x = if x = (s.markets mi).settleTokenIndex then some t' else a.tokOf x := by
      intro x
      rw [hafter]
      exact tokOf_set (t' := t') oa tk1 x
    have hq : ∀ n x, s'.perpAt n x = if n = i then a'.perpOf x else s.perpAt n x := by
      intro n x; rw [hout]; exact Sys.perpAt_set _ _ la n x
    have ht : ∀ n x, s'.tokAt n x = if n = i then a'.tokOf x else s.tokAt n x := by
      intro n x; rw [hout]; exact Sys.tokAt_set _ _ la n x
    refine ⟨⟨p, ⟨mi, p', p.transfers - roundNearest amt⟩, ?_, ?_, q1, rfl, fun _ => v1⟩, ⟨q3, q5, fun _ => v2⟩, ?_, ?_, ?_, ?_, ?_, by rw [hout]; simp, ?_, ?_, fun _ => ⟨a', c, hv, ?_, P.cache, P.health.1, P.health.2⟩⟩
    · unfold Sys.perpAt; rw [P.acct, ← hpm]; exact perpOf_at ha hpj
    · rw [hq, if_pos rfl, a'perp, if_pos rfl]
    · rw [hout]; dsimp only; rw [if_pos rfl, q2]
    · intro x hx; rw [hout]; dsimp only; rw [if_neg hx]
    · intro n x hx
      rw [hq]
      by_cases hn : n = i
      · subst hn
        rw [if_pos rfl, a'perp, if_neg (by rcases hx with h | h; exact h; exact absurd rfl h)]
        unfold Sys.perpAt; rw [P.acct]; rfl
      · rw [if_neg hn]
    · intro n x hx
      rw [ht]
      by_cases hn : n = i
      · subst hn
        rw [if_pos rfl, a'tok, if_neg (by rcases hx with h | h | h; exact h; exact absurd rfl h; exact absurd h hz)]
        unfold Sys.tokAt; rw [P.acct]; rfl
      · rw [if_neg hn]
    · intro x hx
      rw [hout]; dsimp only [Sys.setBank]
      rw [if_neg (by rcases hx with h | h; exact h; exact absurd h hz)]
    · intro n c c' hc hc'
      rw [hout] at hc'
      dsimp only at hc'
      by_cases hn : n = i
      · subst hn
        rw [List.getElem?_set_self la, Option.some.injEq] at hc'
        have h1 := P.acct
        rw [hc, Option.some.injEq] at h1
        subst h1; subst hc'
        rw [hafter, if_pos rfl]
        exact ⟨rfl, rfl, rfl⟩
      · rw [List.getElem?_set_ne (fun h => hn h.symm), hc, Option.some.injEq] at hc'
        subst hc'
        exact ⟨rfl, rfl, by rw [if_neg hn]; omega⟩
    · intro x hx
      rw [hout] at hx
      rcases List.mem_or_eq_of_mem_set hx with h | h
      · exact hs x h
      · rw [h, hafter]; exact ⟨oa2.toks, oa2.perps⟩
    · rw [hout]; dsimp only; exact List.getElem?_set_self la

/-- **C72, settle fees, tokens.** In the settle token exactly the settled amount is withdrawn from the account, without a loan fee; the tokens stay in the vault for the DAO (see `C72_fee_history`). -/
theorem C72_fee_tokens {e : Env} {s s' : Sys} (hs : s.Ok) {mi i : Nat} {maxAmount amt : Int} (hz : amt ≠ 0) (h : settleFees e s mi i maxAmount = .ok (s', amt)) (vault : Int) :
    Bank.runOps (s.ledger (s.markets mi).settleTokenIndex vault) [.pos (.withdrawWithoutFee amt) 0 i false e.now] = .ok (s'.ledger (s.markets mi).settleTokenIndex (vault - amt)) := by
  have F := C72_settle_fees hs h
  obtain ⟨a, a', j, k, p, p', m', t, t', b, r, c, hv, P⟩ := settleFees_parts hz h
  have ha := hs a (List.mem_of_getElem? P.acct)
  have la := (List.getElem?_eq_some_iff.mp P.acct).1
  have t0 : s.tokAt i (s.markets mi).settleTokenIndex = some t := by unfold Sys.tokAt; rw [P.acct]; exact tokOf_at ha P.tok
  have hout := P.out
  have t1 : s'.tokAt i (s.markets mi).settleTokenIndex = some t' := by
    rw [hout]
    have := Sys.tokAt_set (s := s) (a := a') (s.setBank (s.markets mi).settleTokenIndex b).banks (fun x => if x = mi then m' else s.markets x) la i (s.markets mi).settleTokenIndex
    rw [if_pos rfl] at this
    refine this.trans ?_
    rw [P.after]
    have := tokOf_set (t' := t') (setPerp_ok (p' := ⟨mi, p', p.transfers - roundNearest amt⟩) ha P.perp.1 P.perp.2.symm) P.tok (s.markets mi).settleTokenIndex
    rw [if_pos rfl] at this
    exact this
  have hb : (s'.banks (s.markets mi).settleTokenIndex).bank = b := by rw [hout]; dsimp only [Sys.setBank]; rw [if_pos rfl]
  have hwd := P.wd
  have ftok := F.toks
  have facc := F.accounts
  generalize (s.markets mi).settleTokenIndex = ti at *
  unfold Sys.ledger
  rw [facc, hb]
  generalize hN : s.accts.length = N at *
  have st1 := Liquidation.step_pos (s := ⟨[(s.banks ti).bank], (List.range N).map (fun i => (s.tokAt i ti).getD {}), vault⟩) (op := .withdrawWithoutFee amt) (k := 0) (i := i) (now := e.now)
    (b := (s.banks ti).bank) (p := t) rfl (by dsimp only; rw [range_get la, t0]; rfl) hwd
  have g0 : ∀ n, n ≠ i → (fun n => (s'.tokAt n ti).getD {}) n = (fun n => (s.tokAt n ti).getD {}) n := by
    intro n hn
    dsimp only
    rw [ftok n ti (Or.inr (Or.inl hn))]
  have e1 := ledger_set la g0
  dsimp only at st1
  rw [t1] at e1
  simp only [Option.getD_some] at e1
  rw [e1] at st1
  rw [Bank.runOps, st1]
  dsimp only [bind, Except.bind]
  rw [Bank.runOps]
  simp only [List.set_cons_zero, Bank.PosOp.inflow]
  congr 2

/-- **C72, settle fees, health.** If the account has no pending fills (and no funds in spot orders), its maintenance and liquidation-end health does not fall. -/
theorem C72_fee_health {e : Env} (hfd0 : ∀ p x, e.fd 0 p = .ok x → x = 0) {s s' : Sys} (hs : s.Ok) {mi i : Nat} {maxAmount amt : Int} (hz : amt ≠ 0)
    (hpos : (s.banks (s.markets mi).settleTokenIndex).bank.Pos) (hu : TokInUse s i (s.markets mi).settleTokenIndex)
    (h : settleFees e s mi i maxAmount = .ok (s', amt)) {a a' : Acct} (ha : s.accts[i]? = some a) (ha' : s'.accts[i]? = some a') (hn : NoneReserved a.os)
    {c c' : Cache} (hc : a.cache e s = .ok c) (hc' : a'.cache e s' = .ok c') {ht : HT} (hh : ht ≠ .init) (hw : PerpForce.WeightsOk (s.markets mi)) (ho : 0 ≤ e.oracle mi)
    (hp : ∀ p, s.perpAt i mi = some p → 0 ≤ p.pos.bids ∧ p.pos.takerBase = 0 ∧ p.pos.takerQuote = 0)
    (hpr : ∀ tk ∈ c.tokens, tk.tokenIndex = (s.markets mi).settleTokenIndex → PricesOk tk ht)
    {H H' : I80F48} (hH : c.health e.fd ht = .ok H) (hH' : c'.health e.fd ht = .ok H') : H ≤ H' := by
  obtain ⟨b, b', j, k, p, p', m', t, t', bk, r, cc, hv, P⟩ := settleFees_parts hz h
  have hacct := P.acct
  rw [ha, Option.some.injEq] at hacct
  subst hacct
  have hok := hs a (List.mem_of_getElem? ha)
  have la := (List.getElem?_eq_some_iff.mp ha).1
  have hout := P.out
  have hb' : s'.accts[i]? = some b' := by rw [hout]; dsimp only; exact List.getElem?_set_self la
  rw [ha', Option.some.injEq] at hb'
  subst hb'
  have hp0 := P.pos
  obtain ⟨q1, q2, q3, q4, q5⟩ := Perp.C50_settle_fees (by omega) P.settle
  obtain ⟨v1, v2⟩ := fees_pnl P.settle hz
  have t0 : s.tokAt i (s.markets mi).settleTokenIndex = some t := by unfold Sys.tokAt; rw [ha]; exact tokOf_at hok P.tok
  obtain ⟨n1, _⟩ := withdraw_inuse hpos (hu _ t0) P.wd
  have M : Moved e.now s s' i (s.markets mi).settleTokenIndex mi a a' k j t t' p ⟨mi, p', p.transfers - roundNearest amt⟩ := by
    refine ⟨ha, ha', hok, P.tok, ?_, P.perp.1, ⟨P.perp.2, rfl⟩, ?_, ?_, ?_, ?_, ?_, ?_, rfl⟩
    · rw [P.after]; rfl
    · rw [P.after]; rfl
    · rw [P.after]; rfl
    · rw [hout]; dsimp only [Sys.setBank]; rw [if_pos rfl]; exact Wallet.withdrawWithoutFee_config hpos P.wd
    · intro x hx; rw [hout]; dsimp only [Sys.setBank]; rw [if_neg hx]
    · intro x hx; rw [hout]; dsimp only; rw [if_neg hx]
    · rw [hout]; dsimp only; rw [if_pos rfl]; exact ⟨_, _, q2⟩
  have hpp : s.perpAt i mi = some p := by
    unfold Sys.perpAt; rw [ha, ← P.perp.2]; exact perpOf_at hok P.perp.1
  obtain ⟨tk, u, h1, h2, h3, h4, h5⟩ := moved_health hfd0 M q1 hc hc' hn
  have htk : tk.tokenIndex = (s.markets mi).settleTokenIndex := ((findToken_iff h4 h1 _).1 h2).symm
  have hpr := hpr tk (List.mem_of_getElem? h1) htk
  have key := h5 ht false H H' hh hH hH'
  rw [counted_false, counted_false] at key
  obtain ⟨p1, p2⟩ := hp p hpp
  have rl := raw_le_pnl h3 hw ho p1 p2 ht
  have z1 : PerpForce.weighed (overall (s.markets mi) ht) (raw u ht + amt) = raw u ht + amt := by unfold PerpForce.weighed; rw [if_neg (by omega)]
  have z2 : PerpForce.weighed (overall (s.markets mi) ht) (raw u ht) = raw u ht := by unfold PerpForce.weighed; rw [if_neg (by omega)]
  rw [z1, z2] at key
  generalize nativeOf (s.banks (s.markets mi).settleTokenIndex).bank t' = n' at *
  generalize nativeOf (s.banks (s.markets mi).settleTokenIndex).bank t = n at *
  have := PerpForce.tokenValue_mono hpr.tokenOk (show balanceI c ht false tk ≤ balanceI c ht false tk + (n' - n) + (raw u ht + amt - raw u ht) by omega)
  omega

/-! ## Withdrawing settled fees -/

/-- what concerns the fees of one market and the vault of its settle token: fees settled so far (bits), whole tokens withdrawn, tokens in the vault, and the net inflow of everything else (tokens, in bits; as in
`TokenState.vault`) -/
structure FeeState where
  settled : Int
  withdrawn : Int
  vault : Int
  inflow : Int
  deriving Repr, DecidableEq

/-- events: fees of an account are settled (its tokens stay in the vault: the ledger's inflow falls); the admin withdraws; tokens come into (or leave) the vault for another reason -/
inductive FeeOp where
  | settle (amt : Int)
  | withdraw
  | flow (tokens : Int)

def feeStep (s : FeeState) : FeeOp → Res FeeState
  | .settle amt => do
      require (amt ≥ 0) .settlementAmountMustBePositive
      let x ← Fx.add s.settled amt
      .ok { s with settled := x, inflow := s.inflow - amt }
  | .withdraw => do
      let (amount, w) ← withdrawFees s.settled s.withdrawn s.vault
      .ok { s with withdrawn := w, vault := s.vault - amount }
  | .flow d => do
      require (0 ≤ s.vault + d) .panic
      .ok { s with vault := s.vault + d, inflow := s.inflow + d * S }

def feeRun (s : FeeState) : List FeeOp → Res FeeState
  | [] => .ok s
  | o :: os => do
      let s ← feeStep s o
      feeRun s os

/-- **C72, withdrawing fees.** The admin takes at most what is in the vault and at most the fees settled but not yet withdrawn. -/
theorem C72_withdraw_fees {settled withdrawn vault amount w : Int} (hv : 0 ≤ vault) (h : withdrawFees settled withdrawn vault = .ok (amount, w)) :
    0 ≤ amount ∧ amount ≤ vault ∧ w = withdrawn + amount ∧ w * S ≤ settled ∧ (amount < vault → settled < (w + 1) * S) := by
  unfold withdrawFees Perp.toU64 at h
  simp only [bind_ok, cku64_ok, floor_ok, ok_inj, Prod.mk.injEq] at h
  obtain ⟨fl, ⟨hfl, _⟩, u, ⟨hu, _⟩, fees, ⟨hf, hf0⟩, ww, ⟨hw, _⟩, rfl, rfl⟩ := h
  have hS := S_pos
  have hu' : u = settled / S := by
    rw [hu, hfl]; unfold Fx.toInt; exact Int.mul_ediv_cancel _ (by omega)
  have f := mulFloor_bounds settled
  rw [← hu'] at f
  have mono : ∀ {x y : Int}, x ≤ y → x * S ≤ y * S := fun h => Int.mul_le_mul_of_nonneg_right h hS.le
  refine ⟨by omega, by omega, hw, ?_, ?_⟩
  · have := mono (show ww ≤ u by omega)
    omega
  · intro hlt
    have : ww = u := by omega
    rw [this, Int.add_mul]
    omega

/-- **C72, fee history.** Whatever the order of settlements, withdrawals and other token movements: total fees withdrawn never exceed total fees settled, and the vault holds everything the ledger says plus the fees
settled and not yet withdrawn. So withdrawing fees never takes users' tokens. -/
theorem C72_fee_history {ops : List FeeOp} {s s' : FeeState} (h : feeRun s ops = .ok s') (h0 : 0 ≤ s.vault ∧ s.withdrawn * S ≤ s.settled ∧ s.vault * S = s.inflow + s.settled - s.withdrawn * S) :
    0 ≤ s'.vault ∧ s'.withdrawn * S ≤ s'.settled ∧ s'.vault * S = s'.inflow + s'.settled - s'.withdrawn * S ∧ s'.inflow ≤ s'.vault * S := by
  induction ops generalizing s with
  | nil =>
    rw [feeRun, ok_inj] at h
    subst h
    exact ⟨h0.1, h0.2.1, h0.2.2, by omega⟩
  | cons o os ih =>
    rw [feeRun] at h
    simp only [bind_ok] at h
    obtain ⟨s1, h1, h⟩ := h
    apply ih h
    obtain ⟨v0, v1, v2⟩ := h0
    cases o with
    | settle amt =>
      simp only [feeStep, bind_ok, require_ok, add_ok, ok_inj] at h1
      obtain ⟨_, ha, x, ⟨rfl, _⟩, rfl⟩ := h1
      dsimp only
      omega
    | withdraw =>
      simp only [feeStep, bind_ok, ok_inj, Prod.exists] at h1
      obtain ⟨amount, w, hw, rfl⟩ := h1
      obtain ⟨a1, a2, a3, a4, _⟩ := C72_withdraw_fees v0 hw
      dsimp only
      have e1 : (s.vault - amount) * S = s.vault * S - amount * S := by ring
      have e2 : w * S = s.withdrawn * S + amount * S := by rw [a3]; ring
      omega
    | flow d =>
      simp only [feeStep, bind_ok, require_ok, ok_inj] at h1
      obtain ⟨_, hd, rfl⟩ := h1
      dsimp only
      have e1 : (s.vault + d) * S = s.vault * S + d * S := by ring
      omega

end Settlement
end Mango
