import Verif.Props.SerumPotential
import Verif.Props.HealthUpdate
import Verif.Props.HealthCheck
import Verif.Props.HealthUsed
import Verif.Props.Bank2
/-!
# C61: placing a spot order
-/
namespace Mango
namespace Serum
open Fx Health

def Acct.bankIn (a : Acct) : Tok → BankIn
  | .base => a.baseBank
  | .quote => a.quoteBank
def Side.receiver : Side → Tok
  | .bid => .base
  | .ask => .quote

/-- what placing an order does to the data of the account that health depends on -/
structure Booked (side : Side) (a a' : Acct) (change : I80F48) : Prop where
  recvBank : ∃ pt, a'.bankIn side.receiver = { a.bankIn side.receiver with bank := { (a.bankIn side.receiver).bank with potentialSerumTokens := pt } }
  recvPos : a'.pos side.receiver = a.pos side.receiver
  payerBank : ∃ b pt, Keeps { (a.bankIn side.payer).bank with potentialSerumTokens := pt } b ∧ a'.bankIn side.payer = { a.bankIn side.payer with bank := b }
  native : ∃ n n', (a.pos side.payer).native (a.bankIn side.payer).bank = .ok n ∧ (a'.pos side.payer).native (a'.bankIn side.payer).bank = .ok n' ∧ Fx.sub n' n = .ok change
  base : a'.orders.base = a.orders.base
  quote : a'.orders.quote = a.orders.quote
  market : a'.orders.market = a.orders.market

theorem trackPrices_ids (rnd : ℚ → ℚ) (s : Orders) (x y z : Bool) (side : Side) (price : ℚ) :
    (trackPrices rnd s x y z side price).base = s.base ∧ (trackPrices rnd s x y z side price).quote = s.quote ∧ (trackPrices rnd s x y z side price).market = s.market := by
  cases x <;> cases y <;> cases z <;> cases side <;> exact ⟨rfl, rfl, rfl⟩

theorem native_congr {b b' : Bank} (p : TokenPosition) (h1 : b'.depositIndex = b.depositIndex) (h2 : b'.borrowIndex = b.borrowIndex) : p.native b' = p.native b := by
  unfold TokenPosition.native
  rw [h1, h2]

theorem vaultDifference_change {b b' : Bank} {p p' : TokenPosition} {c c' after before now : Int} {change : I80F48}
    (h : vaultDifference b p c after before now = .ok (b', p', c', change)) : ∃ n n', p.native b = .ok n ∧ p'.native b' = .ok n' ∧ Fx.sub n' n = .ok change := by
  simp only [vaultDifference, bind_ok] at h
  obtain ⟨needed, _, n0, h0, ⟨b1, p1, r⟩, hstep, n1, h1, ch, hch, a, ha, nb, hnb, br, hbr, h⟩ := h
  by_cases hc : needed > 0
  · rw [if_pos hc] at h
    simp only [bind_ok, ok_inj, Prod.mk.injEq] at h
    obtain ⟨_, _, rfl, rfl, _, rfl⟩ := h
    exact ⟨_, _, h0, h1, hch⟩
  · rw [if_neg hc] at h
    simp only [ok_inj, Prod.mk.injEq] at h
    obtain ⟨rfl, rfl, _, rfl⟩ := h
    exact ⟨_, _, h0, h1, hch⟩

theorem placeBook_booked {rnd : ℚ → ℚ} {a a' : Acct} {x : PlaceArgs} {d : PlaceDex} {before change : I80F48} (hb : BanksOk a) (h : placeBook rnd a x d = .ok (a', before, change)) :
    Booked x.side a a' change ∧ (a.pos x.side.payer).native (a.bankIn x.side.payer).bank = .ok before ∧ a'.vault x.side.payer = d.vault ∧ d.vault ≤ a.vault x.side.payer ∧
    a'.vault x.side.receiver = a.vault x.side.receiver ∧ a'.oo = d.oo := by
  unfold placeBook at h
  dsimp only at h
  obtain ⟨t1, t2, t3⟩ := trackPrices_ids rnd a.orders d.hadBids d.hadAsks d.onBook x.side (limitPrice rnd x.lots x.baseLot x.quoteLot)
  revert h
  generalize trackPrices rnd a.orders d.hadBids d.hadAsks d.onBook x.side (limitPrice rnd x.lots x.baseLot x.quoteLot) = s at *
  intro h
  cases hs : x.side with
  | bid =>
    simp only [hs, bind_ok, require_ok] at h
    obtain ⟨_, hv, ⟨s1, bb, qb⟩, hu, n, hn, ⟨qb', qp, br, ch⟩, hd, h⟩ := h
    simp only [ok_inj, Prod.mk.injEq] at h
    obtain ⟨rfl, rfl, rfl⟩ := h
    obtain ⟨es, eb, eq⟩ := updatePotential_ok hu
    obtain ⟨ptq, eqb⟩ := eq a.quoteBank.bank
    obtain ⟨ptb, ebb⟩ := eb a.baseBank.bank
    have hp : (qb.getD a.quoteBank.bank).Pos := by rw [eqb]; exact (hb .quote).1
    have hk := vaultDifference_keeps hp hd
    have i1 : (qb.getD a.quoteBank.bank).depositIndex = a.quoteBank.bank.depositIndex := by rw [eqb]; rfl
    have i2 : (qb.getD a.quoteBank.bank).borrowIndex = a.quoteBank.bank.borrowIndex := by rw [eqb]; rfl
    obtain ⟨m, m', c1, c2, c3⟩ := vaultDifference_change hd
    rw [native_congr _ i1 i2] at c1 hn
    refine ⟨⟨⟨ptb, ?_⟩, rfl, ⟨qb', ptq, ?_, rfl⟩, ⟨m, m', c1, c2, c3⟩, ?_, ?_, ?_⟩, hn, rfl, hv, rfl, rfl⟩
    · simp only [Acct.bankIn, Side.receiver]
      rw [ebb]
      cases x.v2 <;> rfl
    · have : (some a.quoteBank.bank).getD a.quoteBank.bank = a.quoteBank.bank := rfl
      rw [eqb, this] at hk
      exact hk
    · simp only; rw [es]; exact t1
    · simp only; rw [es]; exact t2
    · simp only; rw [es]; exact t3
  | ask =>
    simp only [hs, bind_ok, require_ok] at h
    obtain ⟨_, hv, ⟨s1, bb, qb⟩, hu, n, hn, ⟨bb', bp, br, ch⟩, hd, h⟩ := h
    simp only [ok_inj, Prod.mk.injEq] at h
    obtain ⟨rfl, rfl, rfl⟩ := h
    obtain ⟨es, eb, eq⟩ := updatePotential_ok hu
    obtain ⟨ptq, eqb⟩ := eq a.quoteBank.bank
    obtain ⟨ptb, ebb⟩ := eb a.baseBank.bank
    have hp : (bb.getD a.baseBank.bank).Pos := by rw [ebb]; exact (hb .base).1
    have hk := vaultDifference_keeps hp hd
    have i1 : (bb.getD a.baseBank.bank).depositIndex = a.baseBank.bank.depositIndex := by rw [ebb]; rfl
    have i2 : (bb.getD a.baseBank.bank).borrowIndex = a.baseBank.bank.borrowIndex := by rw [ebb]; rfl
    obtain ⟨m, m', c1, c2, c3⟩ := vaultDifference_change hd
    rw [native_congr _ i1 i2] at c1 hn
    refine ⟨⟨⟨ptq, ?_⟩, rfl, ⟨bb', ptb, ?_, rfl⟩, ⟨m, m', c1, c2, c3⟩, ?_, ?_, ?_⟩, hn, rfl, hv, rfl, rfl⟩
    · simp only [Acct.bankIn, Side.receiver]
      rw [eqb]
      cases x.v2 <;> rfl
    · have : (some a.baseBank.bank).getD a.baseBank.bank = a.baseBank.bank := rfl
      rw [ebb, this] at hk
      exact hk
    · simp only; rw [es]; exact t1
    · simp only; rw [es]; exact t2
    · simp only; rw [es]; exact t3

/-- the steps of the instruction -/
theorem placeOrder_parts {rnd : ℚ → ℚ} {fd : FDiv} {reg : Bool} {c c' : Cache} {f f' : Account.Liq} {a a' : Acct} {x : PlaceArgs} {d : PlaceDex}
    (h : placeOrder rnd fd reg c f a x d = .ok (a', f', c')) :
    x.lots > 0 ∧ x.marketReduceOnly = false ∧ vaultCovers a x = .ok () ∧ (∃ before change, placeBook rnd a x d = .ok (a', before, change) ∧ placeLimits rnd a a' x d before = .ok () ∧
      placeCache rnd c a a' x change = .ok c') ∧ receiverReduceOnly fd c' a x = .ok () ∧
    (reg = false → ∃ pre post, c.health fd .init = .ok pre ∧ f.checkPre pre (c.health fd .liqEnd) = .ok f' ∧ c'.health fd .init = .ok post ∧ Account.checkPost pre post = .ok ()) := by
  simp only [placeOrder, bind_ok, require_ok] at h
  obtain ⟨_, h1, _, h2, _, _, ⟨fl, pre⟩, hpre, _, hv, ⟨a1, before, change⟩, hb, _, hl, c1, hc, _, hro, h⟩ := h
  cases reg with
  | true =>
    simp only [if_true, ok_inj, Prod.mk.injEq] at hpre
    obtain ⟨rfl, rfl⟩ := hpre
    simp only [ok_inj, Prod.mk.injEq] at h
    obtain ⟨rfl, rfl, rfl⟩ := h
    exact ⟨h1, h2, hv, ⟨before, change, hb, hl, hc⟩, hro, fun h => by simp at h⟩
  | false =>
    simp only [Bool.false_eq_true, if_false, bind_ok] at hpre
    obtain ⟨v, e1, fl', e2, e3⟩ := hpre
    simp only [ok_inj, Prod.mk.injEq] at e3
    obtain ⟨rfl, rfl⟩ := e3
    simp only [bind_ok] at h
    obtain ⟨post, g1, _, g2, h⟩ := h
    simp only [ok_inj, Prod.mk.injEq] at h
    obtain ⟨rfl, rfl, rfl⟩ := h
    exact ⟨h1, h2, hv, ⟨before, change, hb, hl, hc⟩, hro, fun _ => ⟨v, post, e1, e2, g1, g2⟩⟩

/-! ## Health -/

/-- balances of positions can be computed if the cache can -/
theorem accountCache_native {rnd : ℚ → ℚ} {now : Int} {banks : Nat → BankIn} {ps : List Health.Pos} {os : List OpenOrd} {perps : List (Perp.Market × Perp.Pos × I80F48)} {c : Cache}
    (distinct : (ps.map (·.tokenIndex)).Nodup) (hv : accountCache rnd now banks ps os perps = .ok c) {k : Nat} {p : Health.Pos} (hk : ps[k]? = some p) :
    ∃ n, nativeIn (banks p.tokenIndex) p.indexed = .ok n := by
  simp only [accountCache, bind_ok] at hv
  obtain ⟨vs, h1, pp, h2, h3⟩ := hv
  obtain ⟨ts0, b1, B, kf, _⟩ := buildCache_built distinct h3
  have F := buildTokens_full b1
  rw [forall₂_getElem] at F
  have hi : k < ts0.length := by have := getElem?_lt hk; omega
  have e1 := F.2 k p _ hk (List.getElem?_eq_getElem hi)
  have V := mapRes_ok h1
  rw [forall₂_getElem] at V
  have hiv : k < vs.length := by have := getElem?_lt hk; omega
  have e3 := V.2 k p _ hk (List.getElem?_eq_getElem hiv)
  generalize vs[k] = w at e3
  simp only [bind_ok, require_ok] at e3
  obtain ⟨_, hgood, e3⟩ := e3
  simp only [posInfo, bind_ok] at e1
  obtain ⟨n, hn, e1⟩ := e1
  rw [e3] at hn
  simp only [viewVal] at hn
  simp only [BankIn.view, bind_ok] at e3
  obtain ⟨⟨ma, ml⟩, m1, sa, m2, sl, m3, e3⟩ := e3
  simp only [ok_inj] at e3
  subst e3
  exact ⟨n, hn⟩

theorem nativeIn_eq (b : BankIn) (p : TokenPosition) : nativeIn b p.indexed = p.native b.bank := by
  unfold nativeIn TokenPosition.native
  split <;> rfl

theorem maintWeights_congr {b b' : Bank} {now : Int} (h1 : b'.maintAssetWeight = b.maintAssetWeight) (h2 : b'.maintLiabWeight = b.maintLiabWeight) (h3 : b'.maintWeightShiftStart = b.maintWeightShiftStart)
    (h4 : b'.maintWeightShiftEnd = b.maintWeightShiftEnd) (h5 : b'.maintWeightShiftDurationInv = b.maintWeightShiftDurationInv) (h6 : b'.maintWeightShiftAssetTarget = b.maintWeightShiftAssetTarget)
    (h7 : b'.maintWeightShiftLiabTarget = b.maintWeightShiftLiabTarget) : b'.maintWeights now = b.maintWeights now := by
  unfold Bank.maintWeights
  rw [h1, h2, h3, h4, h5, h6, h7]

theorem sameConfig_keeps {now : Int} {b : BankIn} {b1 : Bank} {pt : Int} (h : Keeps { b.bank with potentialSerumTokens := pt } b1) : SameConfig now b { b with bank := b1 } := by
  obtain ⟨st, nb, du, d, br, rfl⟩ := h
  exact ⟨rfl, rfl, rfl, rfl, rfl, maintWeights_congr rfl rfl rfl rfl rfl rfl rfl, rfl, rfl, rfl⟩

/-- the state `st` holds the account `a`: its positions at `kb` and `kq`, its open orders account at `ko` -/
structure Holds (st : AcctState) (a : Acct) (kb kq ko : Nat) : Prop where
  base : st.ps[kb]? = some ⟨a.orders.base, a.basePos.indexed⟩
  quote : st.ps[kq]? = some ⟨a.orders.quote, a.quotePos.indexed⟩
  baseBank : st.banks a.orders.base = a.baseBank
  quoteBank : st.banks a.orders.quote = a.quoteBank
  orders : ∃ v, view a.orders a.oo = .ok v ∧ st.os[ko]? = some v

theorem sub_self_ok {n : I80F48} : Fx.sub n n = .ok 0 := by
  unfold Fx.sub Fx.ck
  rw [Int.sub_self]
  rfl

/-- the cache at the end of the instruction comes from that at the start by updates in place -/
theorem placeCache_updates {rnd : ℚ → ℚ} {now : Int} {st : AcctState} {a a' : Acct} {kb kq ko : Nat} {x : PlaceArgs} {c c' : Cache} {change : I80F48} {v' : OpenOrd}
    (distinct : (st.ps.map (·.tokenIndex)).Nodup) (h0 : accountCache rnd now st.banks st.ps st.os st.perps = .ok c) (hne : kb ≠ kq) (hh : Holds st a kb kq ko) (B : Booked x.side a a' change)
    (hv : view a'.orders a'.oo = .ok v') (h : placeCache rnd c a a' x change = .ok c') :
    ∃ us, AllOk now st us ∧ updates rnd st c us = .ok ({
      banks := fun t => if t = a.orders.quote then a'.quoteBank else if t = a.orders.base then a'.baseBank else st.banks t,
      ps := (st.ps.set kb ⟨a.orders.base, a'.basePos.indexed⟩).set kq ⟨a.orders.quote, a'.quotePos.indexed⟩, os := st.os.set ko v', perps := st.perps }, c') := by
  obtain ⟨v, w1, w2⟩ := hh.orders
  have htok : a.orders.base ≠ a.orders.quote := fun e => hne (nodup_at distinct hh.base hh.quote e)
  obtain ⟨ptr, rb⟩ := B.recvBank
  obtain ⟨pb, ptp, keep, pbank⟩ := B.payerBank
  obtain ⟨n, n', c1, c2, c3⟩ := B.native
  have rp := B.recvPos
  have fv : v.baseFree = a.oo.baseFree ∧ v.quoteFree = a.oo.quoteFree ∧ v.base = a.orders.base ∧ v.quote = a.orders.quote ∧ v.marketIndex = a.orders.market := by
    simp only [view, bind_ok] at w1
    obtain ⟨_, _, _, _, _, _, _, _, w1⟩ := w1
    simp only [ok_inj] at w1
    subst w1
    exact ⟨rfl, rfl, rfl, rfl, rfl⟩
  have fv' : v'.baseFree = a'.oo.baseFree ∧ v'.quoteFree = a'.oo.quoteFree ∧ v'.base = a'.orders.base ∧ v'.quote = a'.orders.quote ∧ v'.marketIndex = a'.orders.market := by
    simp only [view, bind_ok] at hv
    obtain ⟨_, _, _, _, _, _, _, _, w1⟩ := hv
    simp only [ok_inj] at w1
    subst w1
    exact ⟨rfl, rfl, rfl, rfl, rfl⟩
  have okSerum : ∀ o, st.os[ko]? = some o → v'.base = o.base ∧ v'.quote = o.quote ∧ v'.marketIndex = o.marketIndex := by
    intro o ho
    rw [w2] at ho
    injection ho with ho
    subst ho
    refine ⟨?_, ?_, ?_⟩
    · rw [fv'.2.2.1, B.base, fv.2.2.1]
    · rw [fv'.2.2.2.1, B.quote, fv.2.2.2.1]
    · rw [fv'.2.2.2.2, B.market, fv.2.2.2.2]
  have cfgR : SameConfig now (a.bankIn x.side.receiver) (a'.bankIn x.side.receiver) := by
    rw [rb]
    exact sameConfig_keeps (Keeps.refl _)
  have cfgP : SameConfig now (a.bankIn x.side.payer) (a'.bankIn x.side.payer) := by
    rw [pbank]
    exact sameConfig_keeps keep
  unfold placeCache at h
  cases hs : x.side with
  | bid =>
    rw [hs] at rb pbank c1 c2 rp cfgR cfgP
    simp only [Acct.bankIn, Side.receiver, Side.payer, Acct.pos] at rb pbank c1 c2 rp cfgR cfgP
    simp only [hs, bind_ok] at h
    obtain ⟨d1, h1, d2, h2, o, h3, db, h4, dq, h5, h⟩ := h
    rw [hv] at h3
    injection h3 with h3
    subst h3
    obtain ⟨m, hm⟩ := accountCache_native distinct h0 hh.base
    rw [hh.baseBank] at hm
    refine ⟨[.token kb a'.baseBank a'.basePos.indexed, .token kq a'.quoteBank a'.quotePos.indexed, .serum ko v'], ⟨?_, ?_, ?_, trivial⟩, ?_⟩
    · intro p hp
      rw [hh.base] at hp
      injection hp with hp
      subst hp
      rw [hh.baseBank]
      exact cfgR
    · intro p hp
      simp only [Upd.state, hh.base] at hp ⊢
      rw [List.getElem?_set_ne hne, hh.quote] at hp
      injection hp with hp
      subst hp
      rw [if_neg (by exact fun e => htok e.symm), hh.quoteBank]
      exact cfgP
    · intro o ho
      have : st.os[ko]? = some o := by
        simp only [Upd.state, hh.base] at ho
        rw [List.getElem?_set_ne hne, hh.quote] at ho
        exact ho
      exact okSerum o this
    · have e1 : (Upd.token kb a'.baseBank a'.basePos.indexed).cache rnd st c = .ok d1 := by
        simp only [Upd.cache, hh.base, hh.baseBank, bind_ok]
        refine ⟨m, hm, m, ?_, 0, sub_self_ok, h1⟩
        rw [rp]
        unfold nativeIn at hm ⊢
        rw [cfgR.depositIndex, cfgR.borrowIndex]
        exact hm
      have s1 : (Upd.token kb a'.baseBank a'.basePos.indexed).state st =
          { st with banks := fun ti => if ti = a.orders.base then a'.baseBank else st.banks ti, ps := st.ps.set kb ⟨a.orders.base, a'.basePos.indexed⟩ } := by
        simp only [Upd.state, hh.base]
      have g1 : (st.ps.set kb ⟨a.orders.base, a'.basePos.indexed⟩)[kq]? = some ⟨a.orders.quote, a.quotePos.indexed⟩ := by
        rw [List.getElem?_set_ne hne]; exact hh.quote
      have e2 : (Upd.token kq a'.quoteBank a'.quotePos.indexed).cache rnd ((Upd.token kb a'.baseBank a'.basePos.indexed).state st) d1 = .ok d2 := by
        rw [s1]
        simp only [Upd.cache, g1, bind_ok]
        rw [if_neg (fun e => htok e.symm), hh.quoteBank]
        refine ⟨n, by rw [nativeIn_eq]; exact c1, n', by rw [nativeIn_eq]; exact c2, change, c3, h2⟩
      have s2 : (Upd.token kq a'.quoteBank a'.quotePos.indexed).state ((Upd.token kb a'.baseBank a'.basePos.indexed).state st) =
          { st with banks := fun ti => if ti = a.orders.quote then a'.quoteBank else if ti = a.orders.base then a'.baseBank else st.banks ti,
                    ps := (st.ps.set kb ⟨a.orders.base, a'.basePos.indexed⟩).set kq ⟨a.orders.quote, a'.quotePos.indexed⟩ } := by
        rw [s1]
        simp only [Upd.state, g1]
      simp only [updates, e1, bind_ok]
      refine ⟨d1, rfl, d2, e2, c', ?_, ?_⟩
      · rw [s2]
        simp only [Upd.cache, w2, bind_ok]
        rw [fv'.1, fv'.2.1, fv.1, fv.2.1]
        exact ⟨db, h4, dq, h5, h⟩
      · rw [s2]
        rfl
  | ask =>
    rw [hs] at rb pbank c1 c2 rp cfgR cfgP
    simp only [Acct.bankIn, Side.receiver, Side.payer, Acct.pos] at rb pbank c1 c2 rp cfgR cfgP
    simp only [hs, bind_ok] at h
    obtain ⟨d1, h1, d2, h2, o, h3, db, h4, dq, h5, h⟩ := h
    rw [hv] at h3
    injection h3 with h3
    subst h3
    obtain ⟨m, hm⟩ := accountCache_native distinct h0 hh.quote
    rw [hh.quoteBank] at hm
    refine ⟨[.token kq a'.quoteBank a'.quotePos.indexed, .token kb a'.baseBank a'.basePos.indexed, .serum ko v'], ⟨?_, ?_, ?_, trivial⟩, ?_⟩
    · intro p hp
      rw [hh.quote] at hp
      injection hp with hp
      subst hp
      rw [hh.quoteBank]
      exact cfgR
    · intro p hp
      simp only [Upd.state, hh.quote] at hp ⊢
      rw [List.getElem?_set_ne (Ne.symm hne), hh.base] at hp
      injection hp with hp
      subst hp
      rw [if_neg (by exact htok), hh.baseBank]
      exact cfgP
    · intro o ho
      have : st.os[ko]? = some o := by
        simp only [Upd.state, hh.quote] at ho
        rw [List.getElem?_set_ne (Ne.symm hne), hh.base] at ho
        exact ho
      exact okSerum o this
    · have e1 : (Upd.token kq a'.quoteBank a'.quotePos.indexed).cache rnd st c = .ok d1 := by
        simp only [Upd.cache, hh.quote, hh.quoteBank, bind_ok]
        refine ⟨m, hm, m, ?_, 0, sub_self_ok, h1⟩
        rw [rp]
        unfold nativeIn at hm ⊢
        rw [cfgR.depositIndex, cfgR.borrowIndex]
        exact hm
      have s1 : (Upd.token kq a'.quoteBank a'.quotePos.indexed).state st =
          { st with banks := fun ti => if ti = a.orders.quote then a'.quoteBank else st.banks ti, ps := st.ps.set kq ⟨a.orders.quote, a'.quotePos.indexed⟩ } := by
        simp only [Upd.state, hh.quote]
      have g1 : (st.ps.set kq ⟨a.orders.quote, a'.quotePos.indexed⟩)[kb]? = some ⟨a.orders.base, a.basePos.indexed⟩ := by
        rw [List.getElem?_set_ne (Ne.symm hne)]; exact hh.base
      have e2 : (Upd.token kb a'.baseBank a'.basePos.indexed).cache rnd ((Upd.token kq a'.quoteBank a'.quotePos.indexed).state st) d1 = .ok d2 := by
        rw [s1]
        simp only [Upd.cache, g1, bind_ok]
        rw [if_neg htok, hh.baseBank]
        refine ⟨n, by rw [nativeIn_eq]; exact c1, n', by rw [nativeIn_eq]; exact c2, change, c3, h2⟩
      have s2 : (Upd.token kb a'.baseBank a'.basePos.indexed).state ((Upd.token kq a'.quoteBank a'.quotePos.indexed).state st) =
          { st with banks := fun ti => if ti = a.orders.base then a'.baseBank else if ti = a.orders.quote then a'.quoteBank else st.banks ti,
                    ps := (st.ps.set kq ⟨a.orders.quote, a'.quotePos.indexed⟩).set kb ⟨a.orders.base, a'.basePos.indexed⟩ } := by
        rw [s1]
        simp only [Upd.state, g1]
      simp only [updates, e1, bind_ok]
      refine ⟨d1, rfl, d2, e2, c', ?_, ?_⟩
      · rw [s2]
        simp only [Upd.cache, w2, bind_ok]
        rw [fv'.1, fv'.2.1, fv.1, fv.2.1]
        exact ⟨db, h4, dq, h5, h⟩
      · rw [s2, List.set_comm _ _ (Ne.symm hne)]
        simp only [Upd.state]
        congr 3
        funext t
        by_cases q1 : t = a.orders.base
        · have q2 : t ≠ a.orders.quote := fun e => htok (q1.symm.trans e)
          simp [q1, htok]
        · simp [q1]

/-- the state with account `a` and its two banks in it; `v`: its open orders account -/
def put (st : AcctState) (a : Acct) (v : OpenOrd) : AcctState :=
  { banks := fun t => if t = a.orders.quote then a.quoteBank else if t = a.orders.base then a.baseBank else st.banks t
    ps := st.ps.map (fun p => if p.tokenIndex = a.orders.quote then ⟨a.orders.quote, a.quotePos.indexed⟩ else if p.tokenIndex = a.orders.base then ⟨a.orders.base, a.basePos.indexed⟩ else p)
    os := st.os.map (fun o => if o.marketIndex = a.orders.market then v else o)
    perps := st.perps }

theorem set_eq_map {α : Type} {f : α → Nat} {l : List α} (h : (l.map f).Nodup) {k : Nat} {x y : α} (hk : l[k]? = some x) : l.set k y = l.map (fun z => if f z = f x then y else z) := by
  apply List.ext_getElem?
  intro i
  rw [List.getElem?_map]
  have hlt := getElem?_lt hk
  by_cases hi : k = i
  · subst hi
    rw [List.getElem?_set_self hlt, hk]
    simp
  · rw [List.getElem?_set_ne hi]
    cases hz : l[i]? with
    | none => rfl
    | some z =>
      simp only [Option.map_some]
      rw [if_neg]
      intro e
      exact hi (nodup_at h hk hz e.symm)

theorem put_eq {st : AcctState} {a a' : Acct} {kb kq ko : Nat} {v v' : OpenOrd} (d1 : (st.ps.map (·.tokenIndex)).Nodup) (d2 : (st.os.map (·.marketIndex)).Nodup) (hne : kb ≠ kq)
    (hb : st.ps[kb]? = some ⟨a.orders.base, a.basePos.indexed⟩) (hq : st.ps[kq]? = some ⟨a.orders.quote, a.quotePos.indexed⟩) (ho : st.os[ko]? = some v) (hm : v.marketIndex = a.orders.market)
    (e1 : a'.orders.base = a.orders.base) (e2 : a'.orders.quote = a.orders.quote) (e3 : a'.orders.market = a.orders.market) :
    ({ banks := fun t => if t = a.orders.quote then a'.quoteBank else if t = a.orders.base then a'.baseBank else st.banks t,
       ps := (st.ps.set kb ⟨a.orders.base, a'.basePos.indexed⟩).set kq ⟨a.orders.quote, a'.quotePos.indexed⟩, os := st.os.set ko v', perps := st.perps } : AcctState) = put st a' v' := by
  have htok : a.orders.base ≠ a.orders.quote := fun e => hne (nodup_at d1 hb hq e)
  unfold put
  rw [e1, e2, e3]
  have g1 : (st.ps.set kb ⟨a.orders.base, a'.basePos.indexed⟩)[kq]? = some ⟨a.orders.quote, a.quotePos.indexed⟩ := by
    rw [List.getElem?_set_ne hne]; exact hq
  have g2 : ((st.ps.set kb ⟨a.orders.base, a'.basePos.indexed⟩).map (·.tokenIndex)).Nodup := by
    rw [List.map_set]
    have : (st.ps.map (·.tokenIndex)).set kb a.orders.base = st.ps.map (·.tokenIndex) := by
      apply List.ext_getElem?
      intro i
      by_cases hi : kb = i
      · subst hi
        rw [List.getElem?_set_self (by rw [List.length_map]; exact getElem?_lt hb), List.getElem?_map, hb]
        rfl
      · rw [List.getElem?_set_ne hi]
    rw [this]
    exact d1
  congr 1
  · rw [set_eq_map g2 g1, set_eq_map d1 hb, List.map_map]
    apply List.map_congr_left
    intro p _
    simp only [Function.comp]
    by_cases h1 : p.tokenIndex = a.orders.base
    · rw [if_pos h1, if_neg htok, if_neg (by rw [h1]; exact htok)]
    · rw [if_neg h1]
  · rw [set_eq_map d2 ho, hm]

/-- the state holds the account: its positions, its banks and its open orders account -/
structure InState (st : AcctState) (a : Acct) : Prop where
  base : ⟨a.orders.base, a.basePos.indexed⟩ ∈ st.ps
  quote : ⟨a.orders.quote, a.quotePos.indexed⟩ ∈ st.ps
  baseBank : st.banks a.orders.base = a.baseBank
  quoteBank : st.banks a.orders.quote = a.quoteBank
  orders : ∃ v ∈ st.os, view a.orders a.oo = .ok v

theorem view_ids {s : Orders} {o : OO} {v : OpenOrd} (h : view s o = .ok v) : v.base = s.base ∧ v.quote = s.quote ∧ v.marketIndex = s.market := by
  simp only [view, bind_ok] at h
  obtain ⟨_, _, _, _, _, _, _, _, h⟩ := h
  simp only [ok_inj] at h
  subst h
  exact ⟨rfl, rfl, rfl⟩

/-- leaving out unusable banks and putting in the account can be exchanged -/
theorem put_used {st : AcctState} {a a' : Acct} {v v' : OpenOrd} (htok : a.orders.base ≠ a.orders.quote) (hin : InState st a) (gb : a.baseBank.bad = false) (gq : a.quoteBank.bad = false)
    (d2 : (st.os.map (·.marketIndex)).Nodup) (hv : v ∈ st.os) (ev : view a.orders a.oo = .ok v) (hv' : view a'.orders a'.oo = .ok v')
    (e1 : a'.orders.base = a.orders.base) (e2 : a'.orders.quote = a.orders.quote) (e3 : a'.orders.market = a.orders.market)
    (b1 : a'.baseBank.bad = a.baseBank.bad) (b2 : a'.quoteBank.bad = a.quoteBank.bad) : (put st a' v').used = put st.used a' v' := by
  obtain ⟨i1, i2, i3⟩ := view_ids ev
  obtain ⟨j1, j2, j3⟩ := view_ids hv'
  have hb : ∀ t, ((put st a' v').banks t).bad = (st.banks t).bad := by
    intro t
    simp only [put, e1, e2]
    by_cases h1 : t = a.orders.quote
    · rw [if_pos h1, h1, hin.quoteBank, b2]
    · rw [if_neg h1]
      by_cases h2 : t = a.orders.base
      · rw [if_pos h2, h2, hin.baseBank, b1]
      · rw [if_neg h2]
  have tk : ∀ p : Health.Pos, (if p.tokenIndex = a'.orders.quote then (⟨a'.orders.quote, a'.quotePos.indexed⟩ : Health.Pos)
      else if p.tokenIndex = a'.orders.base then ⟨a'.orders.base, a'.basePos.indexed⟩ else p).tokenIndex = p.tokenIndex := by
    intro p
    by_cases h1 : p.tokenIndex = a'.orders.quote
    · rw [if_pos h1]; exact h1.symm
    · rw [if_neg h1]
      by_cases h2 : p.tokenIndex = a'.orders.base
      · rw [if_pos h2]; exact h2.symm
      · rw [if_neg h2]
  have ep : (put st a' v').ps.filter (fun p => !((put st a' v').banks p.tokenIndex).bad) = (put st.used a' v').ps := by
    simp only [hb]
    simp only [put, AcctState.used, List.filter_map]
    congr 1
    apply List.filter_congr
    intro p _
    simp only [Function.comp, tk]
  have et : ((put st.used a' v').ps).map (·.tokenIndex) = (st.used.ps).map (·.tokenIndex) := by
    simp only [put, List.map_map]
    apply List.map_congr_left
    intro p _
    simp only [Function.comp, tk]
  have eo : (put st a' v').os.filter (present ((st.used.ps).map (·.tokenIndex))) = (put st.used a' v').os := by
    simp only [put, AcctState.used, List.filter_map]
    congr 1
    apply List.filter_congr
    intro o ho
    simp only [Function.comp]
    by_cases h1 : o.marketIndex = a'.orders.market
    · rw [if_pos h1]
      have : o = v := by
        obtain ⟨x, hx, rfl⟩ := List.getElem_of_mem ho
        obtain ⟨y, hy, ey⟩ := List.getElem_of_mem hv
        have := nodup_at d2 (List.getElem?_eq_getElem hx) (List.getElem?_eq_getElem hy) (by rw [ey, i3, h1, e3])
        subst this
        exact ey
      unfold present
      rw [this, j1, j2, e1, e2, i1, i2]
    · rw [if_neg h1]
  have : (put st a' v').used = { banks := (put st.used a' v').banks, ps := (put st.used a' v').ps, os := (put st.used a' v').os, perps := st.perps } := by
    unfold AcctState.used
    rw [ep, et]
    congr 1
  rw [this]
  rfl

theorem cache_token {rnd : ℚ → ℚ} {now : Int} {st : AcctState} {c : Cache} {t : Nat} (h : accountCacheSkipping rnd now st.banks st.ps st.os st.perps = .ok c)
    (d1 : (st.ps.map (·.tokenIndex)).Nodup) (ht : (c.tokenIdx t).isSome = true) : t ∈ st.used.ps.map (·.tokenIndex) := by
  have f := (accountCache_for (filter_nodup _ d1) (C57_skipping h)).1
  have e : c.tokens.map (·.tokenIndex) = st.used.ps.map (·.tokenIndex) := tokenFor_index (List.Forall₂.imp (fun _ _ h => h.tracks) f)
  rw [← e]
  exact findToken_isSome.mp ht

/-- The cache at the end of the instruction describes the account after it: it comes from the right cache by updates in place. -/
theorem place_shows {rnd : ℚ → ℚ} {fd : FDiv} {reg : Bool} {now : Int} {st : AcctState} {c c' : Cache} {f f' : Account.Liq} {a a' : Acct} {x : PlaceArgs} {d : PlaceDex} (hb : BanksOk a)
    (d1 : (st.ps.map (·.tokenIndex)).Nodup) (d2 : (st.os.map (·.marketIndex)).Nodup) (htok : a.orders.base ≠ a.orders.quote)
    (h0 : accountCacheSkipping rnd now st.banks st.ps st.os st.perps = .ok c) (hin : InState st a) (h : placeOrder rnd fd reg c f a x d = .ok (a', f', c')) :
    ∃ v', view a'.orders a'.oo = .ok v' ∧ ∃ us, AllOk now st.used us ∧ updates rnd st.used c us = .ok ((put st a' v').used, c') := by
  have htoks : (c.tokenIdx a.orders.base).isSome = true ∧ (c.tokenIdx a.orders.quote).isSome = true := by
    simp only [placeOrder, bind_ok, require_ok] at h
    obtain ⟨_, _, _, _, _, g, _⟩ := h
    exact g
  obtain ⟨_, _, _, ⟨before, change, hbook, _, hcache⟩, _, _⟩ := placeOrder_parts h
  obtain ⟨B, -⟩ := placeBook_booked hb hbook
  have hv : ∃ v', view a'.orders a'.oo = .ok v' := by
    unfold placeCache at hcache
    simp only [bind_ok] at hcache
    obtain ⟨_, _, _, _, o, ho, _⟩ := hcache
    exact ⟨o, ho⟩
  obtain ⟨v', hv'⟩ := hv
  refine ⟨v', hv', ?_⟩
  have hc := C57_skipping h0
  have d1' : (st.used.ps.map (·.tokenIndex)).Nodup := filter_nodup _ d1
  have d2' : (st.used.os.map (·.marketIndex)).Nodup := filter_nodup _ d2
  have find : ∀ {t i : Nat} {ind : Int}, i = t → (c.tokenIdx t).isSome = true → (⟨t, ind⟩ : Health.Pos) ∈ st.ps → ∃ k : Nat, st.used.ps[k]? = some (⟨t, ind⟩ : Health.Pos) ∧ (st.banks t).bad = false := by
    intro t i ind _ h1 h2
    have := cache_token h0 d1 h1
    obtain ⟨p, hp, ep⟩ := List.mem_map.mp this
    have hp' := List.mem_filter.mp hp
    have : p = (⟨t, ind⟩ : Health.Pos) := by
      obtain ⟨i1, hi1, e1⟩ := List.getElem_of_mem hp'.1
      obtain ⟨i2, hi2, e2⟩ := List.getElem_of_mem h2
      have := nodup_at d1 (List.getElem?_eq_getElem hi1) (List.getElem?_eq_getElem hi2) (by rw [e1, e2]; exact ep)
      subst this
      exact e1.symm.trans e2
    subst this
    obtain ⟨k, hk, ek⟩ := List.getElem_of_mem hp
    exact ⟨k, by rw [List.getElem?_eq_getElem hk, ek], by simpa using hp'.2⟩
  obtain ⟨kb, k1, gb⟩ := find rfl htoks.1 hin.base
  obtain ⟨kq, k2, gq⟩ := find rfl htoks.2 hin.quote
  rw [hin.baseBank] at gb
  rw [hin.quoteBank] at gq
  obtain ⟨v, hvm, ev⟩ := hin.orders
  obtain ⟨i1, i2, i3⟩ := view_ids ev
  have hvu : v ∈ st.used.os := by
    refine List.mem_filter.mpr ⟨hvm, ?_⟩
    unfold present
    simp only [Bool.and_eq_true, decide_eq_true_eq]
    rw [i1, i2]
    exact ⟨cache_token h0 d1 htoks.1, cache_token h0 d1 htoks.2⟩
  obtain ⟨ko, hko, eko⟩ := List.getElem_of_mem hvu
  have hko' : st.used.os[ko]? = some v := by rw [List.getElem?_eq_getElem hko, eko]
  have hne : kb ≠ kq := by
    intro e
    subst e
    rw [k1] at k2
    injection k2 with k2
    injection k2 with k2 _
    exact htok k2
  have hh : Holds st.used a kb kq ko := ⟨k1, k2, hin.baseBank, hin.quoteBank, v, ev, hko'⟩
  obtain ⟨us, u1, u2⟩ := placeCache_updates d1' hc hne hh B hv' hcache
  refine ⟨us, u1, ?_⟩
  rw [put_eq d1' d2' hne k1 k2 hko' i3 B.base B.quote B.market] at u2
  have bads : a'.baseBank.bad = a.baseBank.bad ∧ a'.quoteBank.bad = a.quoteBank.bad := by
    obtain ⟨pt, r1⟩ := B.recvBank
    obtain ⟨b, pt2, _, r2⟩ := B.payerBank
    cases hs : x.side <;> rw [hs] at r1 r2 <;> simp only [Acct.bankIn, Side.receiver, Side.payer] at r1 r2 <;> rw [r1, r2] <;> exact ⟨rfl, rfl⟩
  rw [put_used htok hin gb gq d2 hvm ev hv' B.base B.quote B.market bads.1 bads.2]
  exact u2

/-- **C61.** Placing a spot order outside a health region. Let `pre` and `post` be the init health before and after, computed from the state; banks that are not passed or have a bad oracle are left
out, which can only lower it (C40). The instruction succeeds only for an account that is not being liquidated, and if `post` is not negative or not worse than `pre` (up to the rounding of C36).
`post` is compared as the cache at the end gives it; this is what computing it afresh gives, if scaling gives the same asset weights at oracle and stable price, and never less. -/
theorem C61_health {rnd : ℚ → ℚ} (hr : Swap.IsFloat rnd) {fd : FDiv} (hfd : ∀ x y z, 0 ≤ x → 0 ≤ y → fd x y = .ok z → 0 ≤ z) {now : Int} {st : AcctState} {c c' : Cache} {f f' : Account.Liq} {a a' : Acct} {x : PlaceArgs} {d : PlaceDex}
    (hb : BanksOk a) (d1 : (st.ps.map (·.tokenIndex)).Nodup) (d2 : (st.os.map (·.marketIndex)).Nodup) (d3 : (st.perps.map (·.1.idx)).Nodup) (htok : a.orders.base ≠ a.orders.quote)
    (h0 : accountCacheSkipping rnd now st.banks st.ps st.os st.perps = .ok c) (hin : InState st a) (h : placeOrder rnd fd false c f a x d = .ok (a', f', c')) :
    ∃ v', view a'.orders a'.oo = .ok v' ∧ f'.being = false ∧ ∃ pre post,
      accountHealth rnd fd now st.used.banks st.used.ps st.used.os st.used.perps .init = .ok pre ∧
      (0 ≤ post ∨ (Account.ceilUnit pre ≤ Account.ceilUnit post ∧ pre - S < post ∧ (ofInt (-1000) ≤ post → pre ≤ post))) ∧ (0 ≤ pre → 0 ≤ post) ∧
      ∀ fresh, accountHealth rnd fd now (put st a' v').used.banks (put st a' v').used.ps (put st a' v').used.os (put st a' v').used.perps .init = .ok fresh →
        ((∀ p ∈ (put st a' v').used.ps, let b := (put st a' v').banks p.tokenIndex; scaledAt rnd b b.high = scaledAt rnd b b.low) → post = fresh) ∧
        ((∀ p ∈ (put st a' v').used.ps, let b := (put st a' v').banks p.tokenIndex; 0 ≤ b.oracle ∧ 0 ≤ b.bank.stablePrice ∧ 0 ≤ b.bank.initAssetWeight ∧ 0 < b.depositScaleStart ∧
            0 ≤ b.bank.depositIndex ∧ 0 ≤ b.bank.indexedDeposits ∧ 0 ≤ b.bank.potentialSerumTokens) →
          (∀ o ∈ (put st a' v').used.os, 0 ≤ o.baseReserved ∧ 0 ≤ o.quoteReserved ∧ 0 ≤ o.lowestAsk ∧ 0 ≤ o.highestBidInv) → fresh ≤ post) := by
  obtain ⟨v', hv', us, u1, u2⟩ := place_shows hb d1 d2 htok h0 hin h
  obtain ⟨_, _, _, _, _, hh⟩ := placeOrder_parts h
  obtain ⟨pre, post, h1, h2, h3, h4⟩ := hh rfl
  have hc := C57_skipping h0
  refine ⟨v', hv', ?_, pre, post, ?_, Account.C36_post_check h4, Account.C36_stays_nonnegative h4, ?_⟩
  · simp only [Account.Liq.checkPre, bind_ok, require_ok] at h2
    obtain ⟨_, _, _, h2, h5⟩ := h2
    simp only [ok_inj] at h5
    rw [← h5]
    exact h2
  · simp only [accountHealth, bind_ok]
    exact ⟨c, hc, h1⟩
  · intro fresh hf
    exact ⟨fun hsc => C57_health (st0 := st.used) (filter_nodup _ d1) (filter_nodup _ d2) d3 hc u1 u2 h3 hf (fun _ => hsc),
      fun h5 h6 => C57_init_at_least (st0 := st.used) hr hfd (filter_nodup _ d1) (filter_nodup _ d2) d3 hc u1 u2 h3 hf h5 h6⟩

/-- **C61.** An account that was being liquidated can place a spot order only if its liquidation has ended: its init or its liquidation-end health before, computed from the state without unusable banks,
is above -1 native quote token. -/
theorem C61_recovers {rnd : ℚ → ℚ} {fd : FDiv} {now : Int} {st : AcctState} {c c' : Cache} {f f' : Account.Liq} {a a' : Acct} {x : PlaceArgs} {d : PlaceDex}
    (h0 : accountCacheSkipping rnd now st.banks st.ps st.os st.perps = .ok c) (h : placeOrder rnd fd false c f a x d = .ok (a', f', c')) (hf : f.being = true) :
    let health (ht : HT) := accountHealth rnd fd now st.used.banks st.used.ps st.used.os st.used.perps ht
    f'.being = false ∧ ∃ v, (health .init = .ok v ∨ health .liqEnd = .ok v) ∧ -S < v := by
  intro health
  obtain ⟨_, _, _, _, _, hh⟩ := placeOrder_parts h
  obtain ⟨pre, post, h1, h2, h3, h4⟩ := hh rfl
  have hc := C57_skipping h0
  obtain ⟨g1, g2⟩ := Account.checkPre_recovers h2
  have key : ∀ ht v, c.health fd ht = .ok v → health ht = .ok v := by
    intro ht v hv
    show accountHealth _ _ _ _ _ _ _ _ = _
    simp only [accountHealth, bind_ok]
    exact ⟨c, hc, hv⟩
  refine ⟨g1, ?_⟩
  rcases g2 hf with g2 | ⟨l, hl, g2⟩
  · exact ⟨pre, Or.inl (key _ _ h1), g2⟩
  · exact ⟨l, Or.inr (key _ _ hl), g2⟩

/-- the most the reserved tokens of all spot markets can become, as the code counts it -/
theorem totalPotential_ok {fd : FDiv} {c : Cache} {ht : HT} {ti k : Nat} {v : Int} (h : totalPotential fd c ht ti = .ok v) (hk : c.tokenIdx ti = some k) (hne : ∀ s ∈ c.serums, s.baseIdx ≠ s.quoteIdx) :
    v = Formula.maxReserved (fun x y => val (fd x y)) c ht k := by
  unfold totalPotential at h
  rw [hk] at h
  obtain ⟨e, hs⟩ := sumM_ok h
  rw [e]
  unfold Formula.maxReserved
  rw [Int.zero_add]
  apply sumOf_congr
  intro s hm
  obtain ⟨w, hw⟩ := hs s hm
  have hn := hne s hm
  rw [val_ok hw]
  by_cases q1 : s.quoteIdx = k
  · rw [if_pos q1] at hw
    simp only [bind_ok] at hw
    obtain ⟨q, g1, b, g2, g3⟩ := hw
    have g1 := Liquidation.at_ok g1
    have g2 := Liquidation.at_ok g2
    simp only [Formula.tokensOf, g1, g2]
    rw [if_neg (by omega), if_pos q1, Int.zero_add]
    exact Formula.asQuote_of g3
  · rw [if_neg q1] at hw
    by_cases q2 : s.baseIdx = k
    · rw [if_pos q2] at hw
      simp only [bind_ok] at hw
      obtain ⟨q, g1, b, g2, g3⟩ := hw
      have g1 := Liquidation.at_ok g1
      have g2 := Liquidation.at_ok g2
      simp only [Formula.tokensOf, g1, g2]
      rw [if_pos q2, if_neg q1, Int.add_zero]
      exact Formula.asBase_of g3
    · rw [if_neg q2] at hw
      simp only [ok_inj] at hw
      cases Formula.tokensOf c s with
      | none => exact hw.symm
      | some bq => dsimp only; rw [if_neg q1, if_neg q2, ← hw]; rfl

/-- free funds of all spot markets in a token, in native units -/
def freeOf (os : List OpenOrd) (t : Nat) : Int := sumOf (fun o => (if o.base = t then o.baseFree else 0) + (if o.quote = t then o.quoteFree else 0)) os

theorem receiverReduceOnly_ok {fd : FDiv} {c : Cache} {a : Acct} {x : PlaceArgs} (h : receiverReduceOnly fd c a x = .ok ()) (hro : (a.bank x.side.receiver).reduceOnly = 1) :
    ∃ k ti p, c.tokenIdx (a.orders.tok x.side.receiver) = some k ∧ c.tokens[k]? = some ti ∧ totalPotential fd c .maint (a.orders.tok x.side.receiver) = .ok p ∧ ti.balanceSpot + p < S := by
  have fin : ∀ (t : Nat), (match c.tokenIdx t with
      | none => (.error .tokenPositionDoesNotExist : Res Unit)
      | some k => do
        let ti ← Serum3Info.at_ c.tokens k
        let p ← totalPotential fd c .maint t
        let b ← Fx.add ti.balanceSpot p
        require (b < ONE) .tokenInReduceOnlyMode) = .ok () →
      ∃ k ti p, c.tokenIdx t = some k ∧ c.tokens[k]? = some ti ∧ totalPotential fd c .maint t = .ok p ∧ ti.balanceSpot + p < S := by
    intro t hr
    cases hk : c.tokenIdx t with
    | none => rw [hk] at hr; simp at hr
    | some k =>
      rw [hk] at hr
      simp only [bind_ok, add_ok, require_ok] at hr
      obtain ⟨ti, h1, p, h2, b, ⟨rfl, _⟩, h3⟩ := hr
      exact ⟨k, ti, p, rfl, Liquidation.at_ok h1, h2, h3⟩
  unfold receiverReduceOnly at h
  cases hs : x.side with
  | bid =>
    rw [hs] at hro
    have hro' : a.baseBank.bank.areDepositsReduceOnly = true := by
      unfold Bank.areDepositsReduceOnly
      rw [show a.baseBank.bank.reduceOnly = 1 from hro]
      rfl
    simp only [hs, hro', if_true, bind_ok, require_ok] at h
    obtain ⟨_, _, h⟩ := h
    exact fin _ h
  | ask =>
    rw [hs] at hro
    have hro' : a.quoteBank.bank.areDepositsReduceOnly = true := by
      unfold Bank.areDepositsReduceOnly
      rw [show a.quoteBank.bank.reduceOnly = 1 from hro]
      rfl
    simp only [hs, hro', if_true, bind_ok, require_ok] at h
    obtain ⟨_, _, h⟩ := h
    exact fin _ h

/-- **C61.** If the bank of the token that would be bought accepts no deposits, an order is accepted only if afterwards the account's balance of the token, with free funds in all spot markets and
with everything that reserved funds can become at oracle prices, is below one native unit: the order can at most repay a debt. -/
theorem C61_reduce_only {rnd : ℚ → ℚ} {fd : FDiv} {reg : Bool} {now : Int} {st : AcctState} {c c' : Cache} {f f' : Account.Liq} {a a' : Acct} {x : PlaceArgs} {d : PlaceDex} (hb : BanksOk a)
    (d1 : (st.ps.map (·.tokenIndex)).Nodup) (d2 : (st.os.map (·.marketIndex)).Nodup) (d3 : (st.perps.map (·.1.idx)).Nodup) (hne : ∀ o ∈ st.os, o.base ≠ o.quote)
    (h0 : accountCacheSkipping rnd now st.banks st.ps st.os st.perps = .ok c) (hin : InState st a) (h : placeOrder rnd fd reg c f a x d = .ok (a', f', c'))
    (hro : (a.bank x.side.receiver).reduceOnly = 1) :
    ∃ v' k, view a'.orders a'.oo = .ok v' ∧ c'.tokenIdx (a.orders.tok x.side.receiver) = some k ∧
      Bank.nativeOf (a'.bank x.side.receiver) (a'.pos x.side.receiver) + freeOf (put st a' v').used.os (a.orders.tok x.side.receiver) * S +
        Formula.maxReserved (fun x y => val (fd x y)) c' .maint k < S := by
  have htok : a.orders.base ≠ a.orders.quote := by
    obtain ⟨v, hv, ev⟩ := hin.orders
    obtain ⟨i1, i2, _⟩ := view_ids ev
    rw [← i1, ← i2]
    exact hne v hv
  obtain ⟨v', hv', us, u1, u2⟩ := place_shows hb d1 d2 htok h0 hin h
  have hc := C57_skipping h0
  have sh := C57_tracking (Shows.fresh hc (filter_nodup _ d1) (filter_nodup _ d2) d3) u1 u2
  obtain ⟨_, _, _, ⟨before, change, hbook, _, hcache⟩, hr, _⟩ := placeOrder_parts h
  obtain ⟨B, -⟩ := placeBook_booked hb hbook
  have hs : ∀ s ∈ c'.serums, s.baseIdx ≠ s.quoteIdx := by
    intro s hs
    obtain ⟨i, hi, rfl⟩ := List.getElem_of_mem hs
    have M := sh.markets
    rw [forall₂_getElem] at M
    have hlt : i < (put st a' v').used.os.length := by rw [M.1]; exact hi
    have m := M.2 i _ _ (List.getElem?_eq_getElem hlt) (List.getElem?_eq_getElem hi)
    obtain ⟨t1, g1, g2⟩ := m.base
    obtain ⟨t2, g3, g4⟩ := m.quote
    intro e
    rw [e] at g1
    rw [g1] at g3
    injection g3 with g3
    subst g3
    have hm : (put st a' v').used.os[i] ∈ (put st a' v').os := (List.mem_filter.mp (List.getElem_mem hlt)).1
    generalize (put st a' v').used.os[i] = oi at *
    simp only [put, List.mem_map] at hm
    obtain ⟨o, ho, eo⟩ := hm
    rw [← eo] at g2 g4
    by_cases hmk : o.marketIndex = a'.orders.market
    · rw [if_pos hmk] at g2 g4
      obtain ⟨j1, j2, _⟩ := view_ids hv'
      exact htok (by rw [← B.base, ← B.quote, ← j1, ← j2, ← g2, ← g4])
    · rw [if_neg hmk] at g2 g4
      exact hne o ho (g2.symm.trans g4)
  have kk : ∃ k, c'.tokenIdx (a.orders.tok x.side.receiver) = some k ∧
      ∃ ti ∈ c'.tokens, ti.tokenIndex = a.orders.tok x.side.receiver ∧ ti.balanceSpot + Formula.maxReserved (fun x y => val (fd x y)) c' .maint k < S := by
    obtain ⟨k, ti, p, hk, h1, h2, h3⟩ := receiverReduceOnly_ok hr hro
    rw [totalPotential_ok h2 hk hs] at h3
    refine ⟨k, hk, ti, List.mem_of_getElem? h1, ?_, h3⟩
    obtain ⟨t0, g1, g2⟩ := findToken_mem hk
    rw [h1] at g1
    injection g1 with g1
    subst g1
    exact g2
  obtain ⟨k, k1, ti, k2, k3, k4⟩ := kk
  refine ⟨v', k, hv', k1, ?_⟩
  -- the balance of that token
  obtain ⟨i, hi, ei⟩ := List.getElem_of_mem k2
  have T := sh.tokens
  rw [forall₂_getElem] at T
  have hlt : i < (put st a' v').used.ps.length := by rw [T.1]; exact hi
  have tr := (T.2 i _ _ (List.getElem?_eq_getElem hlt) (List.getElem?_eq_getElem hi)).like
  rw [ei] at tr
  have tb := tr.balance
  have tx : (put st a' v').used.ps[i].tokenIndex = a.orders.tok x.side.receiver := by
    have := tr.index
    dsimp only at this
    rw [← this]
    exact k3
  have tm : (put st a' v').used.ps[i] ∈ (put st a' v').ps := (List.mem_filter.mp (List.getElem_mem hlt)).1
  generalize (put st a' v').used.ps[i] = p at *
  simp only [put, List.mem_map] at tm
  obtain ⟨q, hq, eq⟩ := tm
  have fr : sumOf (fun o : OpenOrd => (if o.base = p.tokenIndex then o.baseFree * S else 0) + (if o.quote = p.tokenIndex then o.quoteFree * S else 0)) (put st a' v').used.os =
      freeOf (put st a' v').used.os (a.orders.tok x.side.receiver) * S := by
    unfold freeOf
    rw [tx]
    generalize (put st a' v').used.os = l
    induction l with
    | nil => simp
    | cons o l ih =>
      have im : ∀ (P : Prop) [Decidable P] (z : Int), (if P then z * S else 0) = (if P then z else 0) * S := by intro P _ z; split <;> simp
      rw [sumOf_cons, sumOf_cons, ih, im, im, Int.add_mul, Int.add_mul]
  dsimp only at tb
  rw [fr] at tb
  have nat : p.indexed * (if p.indexed > 0 then ((put st a' v').used.banks p.tokenIndex).bank.depositIndex else ((put st a' v').used.banks p.tokenIndex).bank.borrowIndex) / S =
      Bank.nativeOf (a'.bank x.side.receiver) (a'.pos x.side.receiver) := by
    have hind : p.indexed = (a'.pos x.side.receiver).indexed ∧ ((put st a' v').used.banks p.tokenIndex).bank = a'.bank x.side.receiver := by
      have e1 := B.base
      have e2 := B.quote
      have hbk : ∀ t, (put st a' v').used.banks t = if t = a'.orders.quote then a'.quoteBank else if t = a'.orders.base then a'.baseBank else st.banks t := fun _ => rfl
      rw [hbk]
      cases hs : x.side with
      | bid =>
        rw [hs] at tx
        simp only [Side.receiver, Orders.tok, Acct.pos, Acct.bank] at tx ⊢
        rw [tx, e1, e2, if_neg htok, if_pos rfl]
        refine ⟨?_, rfl⟩
        have hq1 : q.tokenIndex = a.orders.base := by
          rw [← tx, ← eq, e1, e2]
          by_cases h1 : q.tokenIndex = a.orders.quote
          · rw [if_pos h1]; exact h1
          · rw [if_neg h1]
            by_cases h2 : q.tokenIndex = a.orders.base
            · rw [if_pos h2]; exact h2
            · rw [if_neg h2]
        rw [← eq, e1, e2, if_neg (by rw [hq1]; exact htok), if_pos hq1]
      | ask =>
        rw [hs] at tx
        simp only [Side.receiver, Orders.tok, Acct.pos, Acct.bank] at tx ⊢
        rw [tx, e2, if_pos rfl]
        refine ⟨?_, rfl⟩
        have hq1 : q.tokenIndex = a.orders.quote := by
          rw [← tx, ← eq, e1, e2]
          by_cases h1 : q.tokenIndex = a.orders.quote
          · rw [if_pos h1]; exact h1
          · rw [if_neg h1]
            by_cases h2 : q.tokenIndex = a.orders.base
            · rw [if_pos h2]; exact h2
            · rw [if_neg h2]
        rw [← eq, e1, e2, if_pos hq1]
    rw [hind.1, hind.2]
    unfold Bank.nativeOf
    split <;> rfl
  rw [nat] at tb
  omega

theorem maxUtil_ok {b : Bank} {m : I80F48} (h : b.enforceMaxUtilization m = .ok ()) : b.borrowIndex * b.indexedBorrows / S ≤ m * (b.depositIndex * b.indexedDeposits / S) / S := by
  simp only [Bank.enforceMaxUtilization, Bank.nativeDeposits, Bank.nativeBorrows, bind_ok, mul_ok, ite_ok, err_ok] at h
  obtain ⟨dd, ⟨rfl, _⟩, bb, ⟨rfl, _⟩, l, ⟨rfl, _⟩, h⟩ := h
  rcases h with ⟨_, h⟩ | ⟨h, _⟩
  · exact h.elim
  · omega

/-- **C61.** Limits an accepted order keeps. `out`: the native tokens that left the vault. Lot price positive, market not reduce-only, enough tokens in the vault; deposits plus potential tokens of the bank
of the token to be bought are within its deposit limit. If more was taken than the position held, the paying bank lends: it is not reduce-only, keeps its minimal ratio of vault to deposits, its net borrow
limit and its deposit limit; otherwise its borrows do not exceed its deposits. -/
theorem C61_limits {rnd : ℚ → ℚ} {fd : FDiv} {reg : Bool} {c c' : Cache} {f f' : Account.Liq} {a a' : Acct} {x : PlaceArgs} {d : PlaceDex} (hb : BanksOk a)
    (h : placeOrder rnd fd reg c f a x d = .ok (a', f', c')) :
    let recv := a'.bank x.side.receiver
    let payer := a'.bank x.side.payer
    let out := a.vault x.side.payer - a'.vault x.side.payer
    let price := max (a'.bankIn x.side.payer).oracle payer.stablePrice
    0 < x.lots ∧ x.marketReduceOnly = false ∧ 0 ≤ out ∧
    (x.side = .ask → x.maxBase * x.baseLot - a.oo.baseFree ≤ a.baseVault) ∧ (x.side = .bid → x.maxQuote - a.oo.quoteFree ≤ a.quoteVault) ∧
    (recv.depositLimit ≠ 0 → Bank.depositsOf recv + recv.potentialSerumTokens * S ≤ recv.depositLimit * S) ∧
    (out * S > Bank.nativeOf (a.bank x.side.payer) (a.pos x.side.payer) →
      payer.reduceOnly ≠ 1 ∧ payer.reduceOnly ≠ 2 ∧
      payer.borrowIndex * payer.indexedBorrows / S ≤ (S - payer.minVaultToDepositsRatio) * (payer.depositIndex * payer.indexedDeposits / S) / S ∧
      (0 ≤ payer.netBorrowLimitPerWindowQuote → 0 ≤ payer.netBorrowsInWindow → payer.netBorrowsInWindow * price ≤ payer.netBorrowLimitPerWindowQuote * S) ∧
      (payer.depositLimit ≠ 0 → Bank.depositsOf payer + payer.potentialSerumTokens * S ≤ payer.depositLimit * S)) ∧
    (out * S ≤ Bank.nativeOf (a.bank x.side.payer) (a.pos x.side.payer) → payer.borrowIndex * payer.indexedBorrows / S ≤ payer.depositIndex * payer.indexedDeposits / S) := by
  obtain ⟨l1, l2, l3, ⟨before, change, hbook, hlim, _⟩, _, _⟩ := placeOrder_parts h
  obtain ⟨B, hbef, v1, v2, v3, _⟩ := placeBook_booked hb hbook
  have hbef := Bank.native_ok hbef
  have hS := S_pos
  have pc : ∀ {b : BankIn} {w : Int}, payerChecks b w before = .ok () →
      (w * S > before → b.bank.reduceOnly ≠ 1 ∧ b.bank.reduceOnly ≠ 2 ∧
        b.bank.borrowIndex * b.bank.indexedBorrows / S ≤ (S - b.bank.minVaultToDepositsRatio) * (b.bank.depositIndex * b.bank.indexedDeposits / S) / S ∧
        (0 ≤ b.bank.netBorrowLimitPerWindowQuote → 0 ≤ b.bank.netBorrowsInWindow → b.bank.netBorrowsInWindow * max b.oracle b.bank.stablePrice ≤ b.bank.netBorrowLimitPerWindowQuote * S) ∧
        (b.bank.depositLimit ≠ 0 → Bank.depositsOf b.bank + b.bank.potentialSerumTokens * S ≤ b.bank.depositLimit * S)) ∧
      (w * S ≤ before → b.bank.borrowIndex * b.bank.indexedBorrows / S ≤ b.bank.depositIndex * b.bank.indexedDeposits / S) := by
    intro b w hp
    unfold payerChecks at hp
    by_cases hc : ofInt w > before
    · rw [if_pos hc] at hp
      simp only [bind_ok, require_ok] at hp
      obtain ⟨_, p1, _, p2, _, p3, p4⟩ := hp
      refine ⟨fun _ => ⟨?_, ?_, ?_, fun q1 q2 => Bank.C05_check_sound p3 q1 q2, fun q => Bank.C06_check_sound p4 q⟩, fun hle => ?_⟩
      · intro e; simp [Bank.areBorrowsReduceOnly, e] at p1
      · intro e; simp [Bank.areBorrowsReduceOnly, e] at p1
      · simp only [Bank.enforceMaxUtilizationOnBorrow, bind_ok, sub_ok] at p2
        obtain ⟨m, ⟨rfl, _⟩, p2⟩ := p2
        exact maxUtil_ok p2
      · unfold ofInt at hc; omega
    · rw [if_neg hc] at hp
      refine ⟨fun hgt => ?_, fun _ => ?_⟩
      · unfold ofInt at hc; omega
      · have := maxUtil_ok hp
        rw [show (Fx.ONE : Int) = S from rfl, Int.mul_ediv_cancel_left _ (by omega)] at this
        exact this
  unfold placeLimits at hlim
  dsimp only
  rw [v1]
  cases hs : x.side with
  | bid =>
    simp only [hs, bind_ok] at hlim
    obtain ⟨_, r1, _, r2, _⟩ := hlim
    simp only [hs, Side.payer, Side.receiver, Acct.vault, Acct.pos, Acct.bank, Acct.bankIn] at hbef v2 ⊢
    obtain ⟨p1, p2⟩ := pc r2
    rw [hbef] at p1 p2
    refine ⟨l1, l2, by omega, by simp, fun _ => ?_, fun q => Bank.C06_check_sound r1 q, p1, p2⟩
    simp only [vaultCovers, hs, require_ok] at l3
    omega
  | ask =>
    simp only [hs, bind_ok] at hlim
    obtain ⟨_, r1, _, r2, _⟩ := hlim
    simp only [hs, Side.payer, Side.receiver, Acct.vault, Acct.pos, Acct.bank, Acct.bankIn] at hbef v2 ⊢
    obtain ⟨p1, p2⟩ := pc r2
    rw [hbef] at p1 p2
    refine ⟨l1, l2, by omega, fun _ => ?_, by simp, fun q => Bank.C06_check_sound r1 q, p1, p2⟩
    simp only [vaultCovers, hs, bind_ok, require_ok, cku64_ok] at l3
    obtain ⟨q, ⟨rfl, _⟩, l3⟩ := l3
    omega

/-- **C61.** With a price band, an order that goes on the book is not priced worse for the account than the band allows: bids not below `oracle / (1 + band)`, asks not above `oracle * (1 + band)`
(in floating point; exactly so without rounding). -/
theorem C61_band {rnd : ℚ → ℚ} {fd : FDiv} {reg : Bool} {c c' : Cache} {f f' : Account.Liq} {a a' : Acct} {x : PlaceArgs} {d : PlaceDex} {band : ℚ}
    (h : placeOrder rnd fd reg c f a x d = .ok (a', f', c')) (hband : x.band = some band) (hon : d.onBook = true) :
    let price := limitPrice rnd x.lots x.baseLot x.quoteLot
    (x.side = .bid → Swap.toF rnd a'.baseBank.oracle ≤ rnd (rnd (price * Swap.toF rnd a'.quoteBank.oracle) * rnd (1 + band))) ∧
    (x.side = .ask → rnd (price * Swap.toF rnd a'.quoteBank.oracle) ≤ rnd (Swap.toF rnd a'.baseBank.oracle * rnd (1 + band))) := by
  obtain ⟨_, _, _, ⟨before, change, _, hlim, _⟩, _, _⟩ := placeOrder_parts h
  unfold placeLimits at hlim
  simp only [bind_ok, hband, hon, if_true] at hlim
  obtain ⟨_, _, _, _, hlim⟩ := hlim
  unfold checkBand at hlim
  cases hs : x.side with
  | bid =>
    simp only [hs, require_ok] at hlim
    exact ⟨fun _ => hlim, by simp⟩
  | ask =>
    simp only [hs, require_ok] at hlim
    exact ⟨by simp, fun _ => hlim⟩

/-- **C61.** Anyone may cancel an account's orders and settle its funds, but only if the account is frozen, the market is being closed, or the account is liquidatable (being liquidated with negative
liquidation-end health beyond dust, or with negative maintenance health); otherwise nothing changes. -/
theorem C61_cancel {rnd : ℚ → ℚ} {fd : FDiv} {c : Cache} {f f' : Account.Liq} {fr fc : Bool} {a : Acct} {bb : Buyback.BB} {after : OO} {vb vq now : Int} {r : Option (Acct × Cache)}
    (h : forceCancel rnd fd c f fr fc a bb after vb vq now = .ok (f', r)) :
    (r.isSome = true → fr = true ∨ fc = true ∨ (f.being = true ∧ ∃ v, c.health fd .liqEnd = .ok v ∧ v ≤ -S) ∨ (f.being = false ∧ ∃ v, c.health fd .maint = .ok v ∧ v < 0)) ∧
    (f.being = false → (∃ v, c.health fd .maint = .ok v ∧ 0 ≤ v) → fr = false → fc = false → r = none ∧ f' = f) := by
  have hO : (Fx.ONE : Int) = S := rfl
  simp only [forceCancel, bind_ok] at h
  obtain ⟨⟨fl, st⟩, hl, h⟩ := h
  dsimp only at h
  have hst : (st = .liquidatable → (f.being = true ∧ ∃ v, c.health fd .liqEnd = .ok v ∧ v ≤ -S) ∨ (f.being = false ∧ ∃ v, c.health fd .maint = .ok v ∧ v < 0)) ∧
      (f.being = false → (∃ v, c.health fd .maint = .ok v ∧ 0 ≤ v) → st = .notLiquidatable ∧ fl = f) := by
    unfold Account.Liq.checkLiquidatable at hl
    cases hb : f.being with
    | true =>
      rw [hb] at hl
      simp only [if_true, bind_ok] at hl
      obtain ⟨v, hv, hl⟩ := hl
      refine ⟨fun e => Or.inl ⟨rfl, v, hv, ?_⟩, by simp⟩
      by_contra hc
      simp only [Account.Liq.maybeRecover, hb, true_and] at hl
      rw [if_pos (show v > -Fx.ONE by rw [hO]; omega)] at hl
      simp only [if_true, ok_inj, Prod.mk.injEq] at hl
      rw [e] at hl
      exact absurd hl.2 (by simp)
    | false =>
      rw [hb] at hl
      simp only [Bool.false_eq_true, if_false, bind_ok] at hl
      obtain ⟨v, hv, hl⟩ := hl
      by_cases h0 : v ≥ 0
      · rw [if_pos h0] at hl
        simp only [ok_inj, Prod.mk.injEq] at hl
        obtain ⟨rfl, rfl⟩ := hl
        exact ⟨fun e => by simp at e, fun _ _ => ⟨rfl, rfl⟩⟩
      · rw [if_neg h0] at hl
        simp only [ok_inj, Prod.mk.injEq] at hl
        obtain ⟨rfl, rfl⟩ := hl
        refine ⟨fun _ => Or.inr ⟨rfl, v, hv, by omega⟩, fun _ ⟨w, hw, w0⟩ => ?_⟩
        rw [hv] at hw
        injection hw with hw
        omega
  by_cases hc : ¬ (fr = true ∨ st = .liquidatable ∨ fc = true)
  · rw [if_pos hc] at h
    simp only [ok_inj, Prod.mk.injEq] at h
    obtain ⟨rfl, rfl⟩ := h
    exact ⟨by simp, fun q1 q2 _ _ => ⟨rfl, (hst.2 q1 q2).2⟩⟩
  · push Not at hc
    refine ⟨fun _ => ?_, fun q1 q2 q3 q4 => ?_⟩
    · rcases hc with q | q | q
      · exact Or.inl q
      · exact Or.inr (Or.inr (hst.1 q))
      · exact Or.inr (Or.inl q)
    · exfalso
      have := (hst.2 q1 q2).1
      rw [q3, q4, this] at hc
      simp at hc

end Serum
end Mango
