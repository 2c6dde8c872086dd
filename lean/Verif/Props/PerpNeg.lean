import Verif.Props.PerpNegAmounts
import Verif.Props.Bankruptcy
/-!
# C73: liquidation of negative perp pnl and perp bankruptcy, part 2: conditions, moves, health
-/
namespace Mango
namespace Liquidation
open Fx Health Bank
open Settlement (pnl)

/-! ## Taking the instruction apart -/

/-- what the insurance fund can pay for this market -/
def fundOf (s : NegLiq) : Int := if s.eligible then s.vault else 0

structure NegDone (env : NegEnv) (s s' : NegLiq) (H : Int) (mt : Int) (r : NegReport) (emax : Int) (ff : Int) (B : Perp.Bankrupt) (s1 s2 : NegLiq) : Prop where
  max : s.cache.perpMaxSettle env.fd s.market.settleTokenIndex = .ok emax
  factor : ff = S + s.fee
  run : Perp.bankruptcy env.lim s.market s.liqee s.liqor s.oracle s.price s.insPrice ff env.now emax (pnlForHealth s H) mt (fundOf s) = .ok B
  settle : negSettle env s B.settlement = .ok s1
  insure : negInsure env s1 B.insurance = .ok s2
  cache : s2.cache.recomputePerp B.market B.liqee = .ok s'.cache
  state : s' = { s2 with market := B.market, liqee := B.liqee, liqor := B.liqor, cache := s'.cache }
  report : r = ⟨B.settlement, B.insurance, B.insuranceLiab, B.socialized⟩

theorem negAction_ok {env : NegEnv} {s s' : NegLiq} {H : I80F48} {mt : Int} {r : NegReport} (h : negAction env s H mt = .ok (s', r)) :
    ∃ emax ff B s1 s2, NegDone env s s' H mt r emax ff B s1 s2 := by
  have hONE : ONE = S := rfl
  simp only [negAction, bind_ok, add_ok, ok_inj, Prod.mk.injEq] at h
  obtain ⟨emax, h1, ff, ⟨h2, _⟩, B, h3, s1, h4, s2, h5, c, h6, rfl, rfl⟩ := h
  exact ⟨emax, ff, B, s1, s2, h1, by rw [h2, hONE], h3, h4, h5, h6, rfl, rfl⟩

/-- the fields the instruction never touches -/
structure NegSame (s s' : NegLiq) : Prop where
  fee : s'.fee = s.fee
  eligible : s'.eligible = s.eligible
  oracle : s'.oracle = s.oracle
  price : s'.price = s.price
  insPrice : s'.insPrice = s.insPrice
  liqorFlag : s'.liqorFlag = s.liqorFlag
  liqeeFlag : s'.liqeeFlag = s.liqeeFlag

theorem NegSame.trans {a b c : NegLiq} (h : NegSame a b) (k : NegSame b c) : NegSame a c :=
  ⟨k.1.trans h.1, k.2.trans h.2, k.3.trans h.3, k.4.trans h.4, k.5.trans h.5, k.6.trans h.6, k.7.trans h.7⟩

theorem negSettle_same {env : NegEnv} {s s' : NegLiq} {x : I80F48} (h : negSettle env s x = .ok s') : NegSame s s' ∧ s'.ins = s.ins ∧ s'.vault = s.vault ∧ s'.market = s.market ∧
    (0 < x → ∃ b a1 a2 w, s.bank.deposit s.liqorTok x env.now = .ok (b, s'.liqorTok, a1) ∧ b.withdrawWithoutFee s.liqeeTok x env.now = .ok (s'.bank, s'.liqeeTok, a2) ∧
      env.scaled s'.bank = .ok w ∧ s.cache.adjustTokenBalance s.market.settleTokenIndex w (-x) = .ok s'.cache) ∧ (¬ 0 < x → s' = s) := by
  unfold negSettle at h
  by_cases hx : x > 0
  · rw [if_pos hx] at h
    simp only [bind_ok, ok_inj, neg_ok, Prod.exists] at h
    obtain ⟨b, rt, a1, h1, b', et, a2, h2, w1, w2, h3, _, ⟨rfl, _⟩, c, h4, rfl⟩ := h
    exact ⟨⟨rfl, rfl, rfl, rfl, rfl, rfl, rfl⟩, rfl, rfl, rfl, fun _ => ⟨b, a1, a2, (w1, w2), h1, h2, h3, h4⟩, fun hc => absurd hx hc⟩
  · rw [if_neg hx, ok_inj] at h
    subst h
    exact ⟨⟨rfl, rfl, rfl, rfl, rfl, rfl, rfl⟩, rfl, rfl, rfl, fun hc => absurd hc hx, fun _ => rfl⟩

theorem negInsure_same {env : NegEnv} {s s' : NegLiq} {n : Int} (h : negInsure env s n = .ok s') : NegSame s s' ∧ s'.liqeeTok = s.liqeeTok ∧ s'.cache = s.cache ∧ s'.market = s.market ∧
    (0 < n → s'.vault = s.vault - n ∧
      (s.ins = none → s'.ins = none ∧ ∃ a, s.bank.deposit s.liqorTok (n * S) env.now = .ok (s'.bank, s'.liqorTok, a)) ∧
      (∀ b p, s.ins = some (b, p) → s'.bank = s.bank ∧ s'.liqorTok = s.liqorTok ∧ ∃ b' p' a, s'.ins = some (b', p') ∧ b.deposit p (n * S) env.now = .ok (b', p', a))) ∧ (¬ 0 < n → s' = s) := by
  unfold negInsure at h
  by_cases hx : n > 0
  · rw [if_pos hx] at h
    cases hi : s.ins with
    | none =>
      rw [hi] at h
      simp only [bind_ok, ok_inj, Prod.exists] at h
      obtain ⟨b, p, a, h1, rfl⟩ := h
      exact ⟨⟨rfl, rfl, rfl, rfl, rfl, rfl, rfl⟩, rfl, rfl, rfl, fun _ => ⟨rfl, fun _ => ⟨rfl, a, h1⟩, fun b p hc => by simp at hc⟩, fun hc => absurd hx hc⟩
    | some x =>
      obtain ⟨b0, p0⟩ := x
      rw [hi] at h
      simp only [bind_ok, ok_inj, Prod.exists] at h
      obtain ⟨b, p, a, h1, rfl⟩ := h
      refine ⟨⟨rfl, rfl, rfl, rfl, rfl, rfl, rfl⟩, rfl, rfl, rfl, fun _ => ⟨rfl, fun hc => by simp at hc, fun b1 p1 hc => ?_⟩, fun hc => absurd hx hc⟩
      simp only [Option.some.injEq, Prod.mk.injEq] at hc
      obtain ⟨rfl, rfl⟩ := hc
      exact ⟨rfl, rfl, b, p, a, rfl, h1⟩
  · rw [if_neg hx, ok_inj] at h
    subst h
    exact ⟨⟨rfl, rfl, rfl, rfl, rfl, rfl, rfl⟩, rfl, rfl, rfl, fun hc => absurd hc hx, fun _ => rfl⟩

/-- **C73, conditions** Negative perp pnl can be taken over, and a perp loss covered, only by a liqor that is not being liquidated, for an account in which nothing else is left to liquidate (no orders,
no perp base positions or positive pnl, no spot liquidation possible) and which is liquidatable: already in liquidation and not yet recovered, or with negative maintenance health. If it is not,
nothing but its flag can change. Otherwise it leaves liquidation exactly if its liquidation-end health ends above -1, and the liqor ends with non-negative init health (checked later in a health region). -/
theorem C73_conditions {env : NegEnv} {s s' : NegLiq} {mt : Int} {o : Option NegReport} (h : perpLiqNegative env s mt = .ok (s', o)) :
    s.liqorFlag.being = false ∧ (∃ bs, s.cache.balances .liqEnd = .ok bs ∧ AfterPhase2 s.cache bs) ∧
    ∃ le, s.cache.health env.fd .liqEnd = .ok le ∧
      (o = none → s' = { s with liqeeFlag := ⟨false⟩ } ∧ (if s.liqeeFlag.being = true then -S < le else ∃ m, s.cache.health env.fd .maint = .ok m ∧ 0 ≤ m)) ∧
      (o ≠ none → (if s.liqeeFlag.being = true then le ≤ -S else ∃ m, s.cache.health env.fd .maint = .ok m ∧ m < 0) ∧
        (∀ x, env.liqorHealth s' = some x → ∃ v, x = .ok v ∧ 0 ≤ v) ∧
        ∃ le', s'.cache.health env.fd .liqEnd = .ok le' ∧ s'.liqeeFlag.being = decide (le' ≤ -S)) ∧
      (∀ r, o = some r → ∃ emax ff B s1 s2 s3, NegDone env { s with liqeeFlag := ⟨true⟩ } s3 le mt r emax ff B s1 s2 ∧ s' = { s3 with liqeeFlag := s'.liqeeFlag }) := by
  have hONE : ONE = S := rfl
  simp only [perpLiqNegative, bind_ok, require_ok] at h
  obtain ⟨_, h1, le, hle, _, h3, ⟨flag, cl⟩, h5, h⟩ := h
  dsimp only at h
  have hcl := checkLiquidatable_ok h5
  refine ⟨h1, afterPhase2_ok h3, le, hle, ?_⟩
  by_cases hr : cl ≠ .liquidatable
  · rw [if_pos hr] at h
    simp only [ok_inj, Prod.mk.injEq] at h
    obtain ⟨rfl, rfl⟩ := h
    obtain ⟨rfl, hc⟩ := hcl.1 hr
    exact ⟨fun _ => ⟨rfl, hc⟩, fun hn => absurd rfl hn, fun r hn => by simp at hn⟩
  · rw [if_neg hr] at h
    obtain ⟨rfl, hc⟩ := hcl.2 (by simpa using hr)
    simp only [bind_ok, ok_inj, Prod.mk.injEq, Prod.exists] at h
    obtain ⟨s3, rep, ha, le', hle', _, hq, rfl, rfl⟩ := h
    obtain ⟨emax, ff, B, s1, s2, nd⟩ := negAction_ok ha
    have hb : s3.liqeeFlag = ⟨true⟩ := by
      rw [nd.state]
      exact ((negSettle_same nd.settle).1.trans (negInsure_same nd.insure).1).liqeeFlag
    refine ⟨fun hn => by simp at hn, fun _ => ⟨hc, ?_, le', hle', ?_⟩, fun r hr => ?_⟩
    · intro x hx
      rw [hx] at hq
      simp only [bind_ok, require_ok] at hq
      exact hq
    · dsimp only
      rw [hb]
      unfold Account.Liq.maybeRecover
      by_cases hx : le' > -ONE
      · rw [if_pos ⟨rfl, hx⟩]
        have : ¬ le' ≤ -S := by omega
        simp [this]
      · rw [if_neg (by rintro ⟨_, h⟩; exact hx h)]
        have : le' ≤ -S := by omega
        simp [this]
    · simp only [Option.some.injEq] at hr
      subst hr
      exact ⟨emax, ff, B, s1, s2, s3, nd, rfl⟩

/-! ## What moves -/

/-- the operations on the settle token; positions: 0 liqor, 1 liqee -/
def negOps (s : NegLiq) (r : NegReport) (now : Int) : List TokenOp :=
  (if 0 < r.settlement then [.pos (.deposit r.settlement) 0 0 false now, .pos (.withdrawWithoutFee r.settlement) 0 1 false now] else []) ++
  (if 0 < r.insurance ∧ s.ins = none then [.pos (.deposit (r.insurance * S)) 0 0 false now] else [])

/-- **C73, moves** Nothing is created or lost. In settle tokens the liqor receives exactly the settled amount from the liqee; the insurance vault pays exactly the insurance amount, which the liqor is
credited in the insurance token (the settle token itself or another bank); on the perp market, after paying funding, the liqee's pnl rises by the settled, taken over and socialized amounts and the
liqor's falls by the first two; sizes and orders do not change; the market changes only if there is a socialized loss, which is charged to all positions through funding. -/
theorem C73_moves {env : NegEnv} {s s' : NegLiq} {mt : Int} {r : NegReport} (hv : 0 ≤ s.vault) (h : perpLiqNegative env s mt = .ok (s', some r)) :
    Perp.Paid s.market s.liqee (r.settlement + r.liab + r.socialized) s'.liqee ∧ Perp.Paid s.market s.liqor (-(r.settlement + r.liab)) s'.liqor ∧
    (∀ v, runOps ⟨[s.bank], [s.liqorTok, s.liqeeTok], v⟩ (negOps s r env.now) = .ok ⟨[s'.bank], [s'.liqorTok, s'.liqeeTok], v + if s.ins = none then r.insurance * S else 0⟩) ∧
    (s.ins = none → s'.ins = none) ∧
    (∀ b p, s.ins = some (b, p) → ∃ b' p', s'.ins = some (b', p') ∧ ∀ v, runOps ⟨[b], [p], v⟩ (if 0 < r.insurance then [.pos (.deposit (r.insurance * S)) 0 0 false env.now] else []) =
      .ok ⟨[b'], [p'], v + r.insurance * S⟩) ∧
    s'.vault = s.vault - r.insurance ∧ 0 ≤ r.insurance ∧ r.insurance ≤ fundOf s ∧
    (r.socialized = 0 → s'.market = s.market) ∧ (r.socialized ≠ 0 → r.insurance = fundOf s ∧ ∃ x, s.market.socializeLoss (-r.socialized) = .ok (x, s'.market)) := by
  obtain ⟨_, _, le, _, _, _, hd⟩ := C73_conditions h
  obtain ⟨emax, ff, B, s1, s2, s3, nd, hs'⟩ := hd r rfl
  have hf : 0 ≤ fundOf s := by unfold fundOf; split <;> omega
  have hrun := nd.run
  dsimp only at hrun
  have hrun' : Perp.bankruptcy env.lim s.market s.liqee s.liqor s.oracle s.price s.insPrice ff env.now emax (pnlForHealth { s with liqeeFlag := ⟨true⟩ } le) mt (fundOf s) = .ok B := hrun
  obtain ⟨c1, c2, c3, _, c5, c6, c7, c8, c9, c10⟩ := Perp.C50_bankruptcy hf hrun'
  obtain ⟨_, i1, i2, i3, i4, i5⟩ := negSettle_same nd.settle
  obtain ⟨_, j1, j2, j3, j4, j5⟩ := negInsure_same nd.insure
  have hst := nd.state
  have e1 : s'.liqee = B.liqee := by rw [hs', hst]
  have e2 : s'.liqor = B.liqor := by rw [hs', hst]
  have e3 : s'.market = B.market := by rw [hs', hst]
  have e4 : s'.bank = s2.bank := by rw [hs', hst]
  have e5 : s'.liqorTok = s2.liqorTok := by rw [hs', hst]
  have e6 : s'.liqeeTok = s2.liqeeTok := by rw [hs', hst]
  have e7 : s'.ins = s2.ins := by rw [hs', hst]
  have e8 : s'.vault = s2.vault := by rw [hs', hst]
  have hr := nd.report
  subst hr
  dsimp only at *
  rw [e1, e2, e3, e4, e5, e6, e7, e8]
  refine ⟨c1, c2, ?_, ?_, ?_, ?_, c5, c6, c9, c10⟩
  · intro v
    unfold negOps
    have k1 : runOps ⟨[s.bank], [s.liqorTok, s.liqeeTok], v⟩
        (if 0 < B.settlement then [.pos (.deposit B.settlement) 0 0 false env.now, .pos (.withdrawWithoutFee B.settlement) 0 1 false env.now] else []) =
        .ok ⟨[s1.bank], [s1.liqorTok, s1.liqeeTok], v⟩ := by
      by_cases hx : 0 < B.settlement
      · rw [if_pos hx]
        obtain ⟨b, a1, a2, w, g1, g2, _, _⟩ := i4 hx
        have st1 := step_pos (s := ⟨[s.bank], [s.liqorTok, s.liqeeTok], v⟩) (op := .deposit B.settlement) (k := 0) (i := 0) (now := env.now) rfl rfl g1
        have st2 := step_pos (s := ⟨[b], [s1.liqorTok, s.liqeeTok], v + B.settlement⟩) (op := .withdrawWithoutFee B.settlement) (k := 0) (i := 1) (now := env.now) rfl rfl g2
        rw [runOps, st1]
        dsimp only [bind, Except.bind]
        simp only [List.set_cons_zero, PosOp.inflow]
        rw [runOps, st2]
        dsimp only [bind, Except.bind]
        simp only [runOps, List.set_cons_zero, List.set_cons_succ, PosOp.inflow]
        congr 2
        omega
      · rw [if_neg hx, i5 hx]
        rfl
    rw [runOps_append k1]
    by_cases hx : 0 < B.insurance
    · obtain ⟨_, g1, g2⟩ := j4 hx
      cases hi : s.ins with
      | none =>
        obtain ⟨_, a, g⟩ := g1 (by rw [i1]; exact hi)
        rw [if_pos ⟨hx, rfl⟩, if_pos rfl]
        have st1 := step_pos (s := ⟨[s1.bank], [s1.liqorTok, s1.liqeeTok], v⟩) (op := .deposit (B.insurance * S)) (k := 0) (i := 0) (now := env.now) rfl rfl g
        rw [runOps, st1]
        dsimp only [bind, Except.bind]
        simp only [runOps, List.set_cons_zero, PosOp.inflow]
        rw [j1]
      | some y =>
        obtain ⟨g3, g4, _⟩ := g2 y.1 y.2 (by rw [i1]; exact hi)
        rw [if_neg (by simp), if_neg (by simp), g3, g4, j1, Int.add_zero]
        rfl
    · have : B.insurance = 0 := by omega
      rw [if_neg (by rintro ⟨a, _⟩; exact hx a), j5 hx, this]
      simp [runOps]
  · intro hi
    by_cases hx : 0 < B.insurance
    · exact ((j4 hx).2.1 (by rw [i1]; exact hi)).1
    · rw [j5 hx, i1]; exact hi
  · intro b p hi
    by_cases hx : 0 < B.insurance
    · obtain ⟨_, _, b', p', a, g1, g2⟩ := (j4 hx).2.2 b p (by rw [i1]; exact hi)
      refine ⟨b', p', g1, fun v => ?_⟩
      rw [if_pos hx]
      have st1 := step_pos (s := ⟨[b], [p], v⟩) (op := .deposit (B.insurance * S)) (k := 0) (i := 0) (now := env.now) rfl rfl g2
      rw [runOps, st1]
      rfl
    · refine ⟨b, p, by rw [j5 hx, i1]; exact hi, fun v => ?_⟩
      have : B.insurance = 0 := by omega
      rw [if_neg hx, this]
      simp [runOps]
  · by_cases hx : 0 < B.insurance
    · rw [(j4 hx).1, i2]
    · have : B.insurance = 0 := by omega
      rw [j5 hx, i2, this]; simp

end Liquidation
end Mango
