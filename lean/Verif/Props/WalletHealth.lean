import Verif.Props.Wallet
/-!
# C64: health of withdrawals

What the health check of a withdrawal compares, in terms of health computed from the account's state.
-/
namespace Mango
namespace Wallet
open Fx Health

/-- changing the position `k` and its bank, seen by a cache that leaves out unusable banks -/
theorem used_ps {st : AcctState} {k : Nat} {p : Health.Pos} {b' : BankIn} {ind : I80F48} (d1 : (st.ps.map (·.tokenIndex)).Nodup) (hk : st.ps[k]? = some p)
    (hb : b'.bad = (st.banks p.tokenIndex).bad) :
    ((Upd.token k b' ind).state st).used =
      { st.used with banks := fun t => if t = p.tokenIndex then b' else st.banks t
                     ps := st.used.ps.map (fun z => if z.tokenIndex = p.tokenIndex then { p with indexed := ind } else z) } := by
  have e0 : (Upd.token k b' ind).state st = { st with banks := fun t => if t = p.tokenIndex then b' else st.banks t
                                                      ps := st.ps.map (fun z => if z.tokenIndex = p.tokenIndex then { p with indexed := ind } else z) } := by
    unfold Upd.state
    dsimp only
    rw [hk]
    dsimp only
    rw [Serum.set_eq_map d1 hk]
  rw [e0]
  have tk : ∀ z : Health.Pos, (if z.tokenIndex = p.tokenIndex then ({ p with indexed := ind } : Health.Pos) else z).tokenIndex = z.tokenIndex := by
    intro z
    by_cases h : z.tokenIndex = p.tokenIndex
    · rw [if_pos h]; exact h.symm
    · rw [if_neg h]
  have bd : ∀ t, (if t = p.tokenIndex then b' else st.banks t).bad = (st.banks t).bad := by
    intro t
    by_cases h : t = p.tokenIndex
    · rw [if_pos h, h, hb]
    · rw [if_neg h]
  have ep : (st.ps.map (fun z => if z.tokenIndex = p.tokenIndex then ({ p with indexed := ind } : Health.Pos) else z)).filter
      (fun z => !(if z.tokenIndex = p.tokenIndex then b' else st.banks z.tokenIndex).bad) =
      (st.ps.filter (fun z => !(st.banks z.tokenIndex).bad)).map (fun z => if z.tokenIndex = p.tokenIndex then { p with indexed := ind } else z) := by
    rw [List.filter_map]
    congr 1
    apply List.filter_congr
    intro z _
    simp only [Function.comp, tk, bd]
  unfold AcctState.used
  dsimp only
  rw [ep, List.map_map]
  have : ((fun (x : Health.Pos) => x.tokenIndex) ∘ fun z => if z.tokenIndex = p.tokenIndex then ({ p with indexed := ind } : Health.Pos) else z) = fun z => z.tokenIndex := by
    funext z
    exact tk z
  rw [this]

/-- a usable position is in the reduced account, and changing it there is the same -/
theorem used_good {st : AcctState} {k : Nat} {p : Health.Pos} {b' : BankIn} {ind : I80F48} (d1 : (st.ps.map (·.tokenIndex)).Nodup) (hk : st.ps[k]? = some p)
    (hb : b'.bad = (st.banks p.tokenIndex).bad) (hg : (st.banks p.tokenIndex).bad = false) :
    ∃ k' : Nat, st.used.ps[k']? = some p ∧ ((Upd.token k b' ind).state st).used = (Upd.token k' b' ind).state st.used := by
  have hm : p ∈ st.used.ps := List.mem_filter.mpr ⟨List.mem_of_getElem? hk, by simp [hg]⟩
  obtain ⟨k', hk', e⟩ := List.getElem_of_mem hm
  have hk2 : st.used.ps[k']? = some p := by rw [List.getElem?_eq_getElem hk', e]
  refine ⟨k', hk2, ?_⟩
  rw [used_ps d1 hk hb]
  have d2 : (st.used.ps.map (·.tokenIndex)).Nodup := filter_nodup _ d1
  unfold Upd.state
  dsimp only
  rw [hk2]
  dsimp only
  rw [Serum.set_eq_map d2 hk2]
  rfl

/-- an unusable position is not there -/
theorem used_bad {st : AcctState} {k : Nat} {p : Health.Pos} {b' : BankIn} {ind : I80F48} (d1 : (st.ps.map (·.tokenIndex)).Nodup) (hk : st.ps[k]? = some p)
    (hb : b'.bad = (st.banks p.tokenIndex).bad) (hg : (st.banks p.tokenIndex).bad = true) :
    ((Upd.token k b' ind).state st).used = { st.used with banks := fun t => if t = p.tokenIndex then b' else st.banks t } ∧ ∀ z ∈ st.used.ps, z.tokenIndex ≠ p.tokenIndex := by
  have hn : ∀ z ∈ st.used.ps, z.tokenIndex ≠ p.tokenIndex := by
    intro z hz e
    have := (List.mem_filter.mp hz).2
    rw [e, hg] at this
    cases this
  refine ⟨?_, hn⟩
  rw [used_ps d1 hk hb]
  congr 1
  rw [List.map_congr_left (g := id)]
  · simp
  · intro z hz
    rw [if_neg (hn z hz)]; rfl

theorem buildTokens_congr {v v' : Nat → View} {sk : Bool} : ∀ {ps : List Health.Pos}, (∀ p ∈ ps, v p.tokenIndex = v' p.tokenIndex) → buildTokens v sk ps = buildTokens v' sk ps := by
  intro ps
  induction ps with
  | nil => intro _; rfl
  | cons p ps ih =>
    intro h
    unfold buildTokens
    have e : posInfo v p = posInfo v' p := by unfold posInfo; rw [h p (by simp)]
    rw [h p (by simp), ih (fun q hq => h q (by simp [hq])), e]

theorem mapRes_congr {α β : Type} {f g : α → Res β} : ∀ {l : List α}, (∀ a ∈ l, f a = g a) → mapRes f l = mapRes g l := by
  intro l
  induction l with
  | nil => intro _; rfl
  | cons a l ih =>
    intro h
    unfold mapRes
    rw [h a (by simp), ih (fun b hb => h b (by simp [hb]))]

/-- banks of tokens the account does not hold do not matter -/
theorem accountCache_congr {rnd : ℚ → ℚ} {now : Int} {banks banks' : Nat → BankIn} {ps : List Health.Pos} {os : List OpenOrd} {perps : List (Perp.Market × Perp.Pos × I80F48)}
    (h : ∀ p ∈ ps, banks p.tokenIndex = banks' p.tokenIndex) : accountCache rnd now banks ps os perps = accountCache rnd now banks' ps os perps := by
  unfold accountCache
  rw [mapRes_congr (g := fun (p : Health.Pos) => do
    require ((banks' p.tokenIndex).bad = false) .invalidBank
    (banks' p.tokenIndex).view rnd now p.tokenIndex) (fun p hp => by rw [h p hp])]
  unfold buildCache
  rw [buildTokens_congr (v' := fun ti => viewVal ((banks' ti).view rnd now ti)) (fun p hp => by rw [h p hp])]

theorem checkPost_refl (x : Int) : 0 ≤ x ∨ (Account.ceilUnit x ≤ Account.ceilUnit x ∧ x - S < x ∧ (ofInt (-1000) ≤ x → x ≤ x)) := by
  have := S_pos
  exact Or.inr ⟨le_refl _, by omega, fun _ => le_refl _⟩

/-- **C64.** An account that was being liquidated can withdraw, outside a health region, only if its liquidation has ended: its init or its liquidation-end health before, computed from the state
without unusable banks, is above -1 native quote token. -/
theorem C64_withdraw_recovers {e : Env} {w : Who} {a a' : Acct} {amount : Int} {allow : Bool} {o : Outcome} (hreg : e.inRegion = false) (h : withdraw e w a amount allow = .ok (a', o))
    (hf : a.flag.being = true) :
    let health (ht : HT) := accountHealth e.rnd e.fd e.now a.st.used.banks a.st.used.ps a.st.used.os a.st.used.perps ht
    ∃ v, (health .init = .ok v ∨ health .liqEnd = .ok v) ∧ -S < v := by
  intro health
  obtain ⟨h0, flag, pre, h1, h2⟩ := withdraw_parts h
  unfold healthBefore at h1
  rw [hreg] at h1
  simp only [Bool.false_eq_true, if_false, bind_ok, ok_inj, Prod.mk.injEq] at h1
  obtain ⟨c, hc, x, hx, f, hp, rfl, rfl⟩ := h1
  have hc' := C57_skipping (st := a.st) hc
  have key : ∀ ht v, c.health e.fd ht = .ok v → health ht = .ok v := by
    intro ht v hv
    show accountHealth _ _ _ _ _ _ _ _ = _
    simp only [accountHealth, bind_ok]
    exact ⟨c, hc', hv⟩
  rcases (Account.checkPre_recovers hp).2 hf with g2 | ⟨l, hl, g2⟩
  · exact ⟨x, Or.inl (key _ _ hx), g2⟩
  · exact ⟨l, Or.inr (key _ _ hl), g2⟩

/-- **C64.** Health of a withdrawal outside a health region. It succeeds only for an account that is not being liquidated. `pre` is the init health before, computed from the state without the banks
that are not passed or whose oracle is bad (this can only lower it, C40). If the token's bank is usable, the init health after it, `post`, must not be negative or not be worse than `pre` (up to the
rounding of C36); `post` is what computing it afresh gives, if scaling gives the same asset weights at oracle and stable price, and never less. If the bank is not usable, only a balance can be paid out, and
only if `pre`, which does not count that balance and does not change, is not negative. -/
theorem C64_withdraw_health {e : Env} (hr : Swap.IsFloat e.rnd) (hfd : ∀ x y z, 0 ≤ x → 0 ≤ y → e.fd x y = .ok z → 0 ≤ z) {w : Who} {a a' : Acct} {amount : Int} {allow : Bool} {o : Outcome}
    (hb : a.bankIn.bank.Pos) (hok : a.Ok) (d1 : (a.st.ps.map (·.tokenIndex)).Nodup) (d2 : (a.st.os.map (·.marketIndex)).Nodup) (d3 : (a.st.perps.map (·.1.idx)).Nodup)
    (hreg : e.inRegion = false) (h : withdraw e w a amount allow = .ok (a', o)) :
    let health (st : AcctState) := accountHealth e.rnd e.fd e.now st.used.banks st.used.ps st.used.os st.used.perps .init
    a'.flag.being = false ∧ ∃ pre, health a.st = .ok pre ∧
      (a.bankIn.bad = false → ∃ post,
        (0 ≤ post ∨ (Account.ceilUnit pre ≤ Account.ceilUnit post ∧ pre - S < post ∧ (ofInt (-1000) ≤ post → pre ≤ post))) ∧ (0 ≤ pre → 0 ≤ post) ∧
        ∀ fresh, health a'.st = .ok fresh →
          ((∀ p ∈ a'.st.used.ps, let b := a'.st.banks p.tokenIndex; scaledAt e.rnd b b.high = scaledAt e.rnd b b.low) → post = fresh) ∧
          ((∀ p ∈ a'.st.used.ps, let b := a'.st.banks p.tokenIndex; 0 ≤ b.oracle ∧ 0 ≤ b.bank.stablePrice ∧ 0 ≤ b.bank.initAssetWeight ∧ 0 < b.depositScaleStart ∧
              0 ≤ b.bank.depositIndex ∧ 0 ≤ b.bank.indexedDeposits ∧ 0 ≤ b.bank.potentialSerumTokens) →
            (∀ o ∈ a'.st.used.os, 0 ≤ o.baseReserved ∧ 0 ≤ o.quoteReserved ∧ 0 ≤ o.lowestAsk ∧ 0 ≤ o.highestBidInv) → fresh ≤ post)) ∧
      (a.bankIn.bad = true → (o.amount = 0 ∨ (0 ≤ pre ∧ o.amount * S ≤ Bank.nativeOf a.bankIn.bank a.pos)) ∧ health a'.st = .ok pre) := by
  intro health
  obtain ⟨h0, flag, pre, h1, h2⟩ := withdraw_parts h
  unfold healthBefore at h1
  rw [hreg] at h1
  simp only [Bool.false_eq_true, if_false, bind_ok, ok_inj, Prod.mk.injEq] at h1
  obtain ⟨c, hc, x, hx, f, hf, rfl, rfl⟩ := h1
  have hc' := C57_skipping (st := a.st) hc
  have hpre : health a.st = .ok x := by
    show accountHealth _ _ _ _ _ _ _ _ = _
    simp only [accountHealth, bind_ok]
    exact ⟨c, hc', hx⟩
  have hflag : f.being = false := by
    simp only [Account.Liq.checkPre, bind_ok, require_ok] at hf
    obtain ⟨_, _, _, hf, h5⟩ := hf
    simp only [ok_inj] at h5
    rw [← h5]; exact hf
  rcases h2 with ⟨h3, rfl, rfl⟩ | ⟨b', p', r, P⟩
  · refine ⟨hflag, x, hpre, fun _ => ⟨x, checkPost_refl x, fun h => h, ?_⟩, fun _ => ⟨Or.inl rfl, hpre⟩⟩
    intro fresh hf
    have : x = fresh := by
      have hh : health a.st = .ok fresh := hf
      rw [hpre] at hh
      exact ok_inj.mp hh
    exact ⟨fun _ => this, fun _ _ => by omega⟩
  · have cfg := withdrawWithFee_config (now := e.now) hb P.bank
    have est : a'.st = (Upd.token a.k { a.bankIn with bank := b' } p'.indexed).state a.st := by rw [P.res]; rfl
    refine ⟨by rw [P.res]; exact hflag, x, hpre, ?_, ?_⟩
    · intro hgood
      obtain ⟨k', hk', eu⟩ := used_good (b' := { a.bankIn with bank := b' }) (ind := p'.indexed) d1 hok rfl hgood
      rw [← est] at eu
      obtain ⟨change, hch, hh⟩ := P.health c x rfl
      have hin : (c.tokenIdx a.ti).isSome = true := by
        have f := (accountCache_for (filter_nodup _ d1) hc').1
        have ei : c.tokens.map (·.tokenIndex) = a.st.used.ps.map (·.tokenIndex) := tokenFor_index (List.Forall₂.imp (fun _ _ h => h.tracks) f)
        apply findToken_isSome.mpr
        rw [ei]
        exact List.mem_map.mpr ⟨_, List.mem_of_getElem? hk', rfl⟩
      unfold withdrawHealth at hh
      rw [if_pos hin] at hh
      simp only [bind_ok] at hh
      obtain ⟨c', g1, post, g2, g3⟩ := hh
      have hu : Upd.cache e.rnd a.st.used c (.token k' { a.bankIn with bank := b' } p'.indexed) = .ok c' := by
        unfold Upd.cache
        dsimp only
        rw [hk']
        dsimp only
        have n1 : nativeIn (a.st.used.banks a.ti) a.pos.indexed = .ok (Bank.nativeOf a.bankIn.bank a.pos) := by
          show nativeIn a.bankIn a.pos.indexed = _
          rw [Serum.nativeIn_eq]; exact P.native
        have n2 : nativeIn { a.bankIn with bank := b' } p'.indexed = .ok (Bank.nativeOf b' p') := by
          rw [Serum.nativeIn_eq]; exact P.after
        rw [n1, n2]
        simp only [bind_ok, ok_inj]
        exact ⟨_, rfl, _, rfl, change, hch, g1⟩
      have ups : updates e.rnd a.st.used c [.token k' { a.bankIn with bank := b' } p'.indexed] = .ok (a'.st.used, c') := by
        simp only [updates, bind_ok, ok_inj]
        exact ⟨c', hu, by rw [eu]⟩
      have aok : AllOk e.now a.st.used [.token k' { a.bankIn with bank := b' } p'.indexed] := by
        refine ⟨?_, trivial⟩
        intro p hp
        rw [hk'] at hp
        injection hp with hp
        subst hp
        exact cfg
      refine ⟨post, Account.C36_post_check g3, Account.C36_stays_nonnegative g3, ?_⟩
      intro fresh hf
      exact ⟨fun hsc => C57_health (st0 := a.st.used) (filter_nodup _ d1) (filter_nodup _ d2) d3 hc' aok ups g2 hf (fun _ => hsc),
        fun h5 h6 => C57_init_at_least (st0 := a.st.used) hr hfd (filter_nodup _ d1) (filter_nodup _ d2) d3 hc' aok ups g2 hf h5 h6⟩
    · intro hbad
      obtain ⟨eu, hn⟩ := used_bad (b' := { a.bankIn with bank := b' }) (ind := p'.indexed) d1 hok rfl hbad
      rw [← est] at eu
      obtain ⟨change, hch, hh⟩ := P.health c x rfl
      have hin : ¬ (c.tokenIdx a.ti).isSome = true := by
        intro hs
        have := Serum.cache_token hc d1 hs
        obtain ⟨z, hz, ez⟩ := List.mem_map.mp this
        exact hn z hz ez
      unfold withdrawHealth at hh
      rw [if_neg hin] at hh
      simp only [bind_ok, require_ok, Account.checkPostStrict] at hh
      obtain ⟨_, g1, g2⟩ := hh
      refine ⟨Or.inr ⟨g2, Int.not_lt.mp (of_decide_eq_false g1)⟩, ?_⟩
      show accountHealth _ _ _ _ _ _ _ _ = _
      rw [eu]
      dsimp only
      unfold accountHealth
      rw [accountCache_congr (banks' := a.st.used.banks)]
      · simp only [bind_ok]
        exact ⟨c, hc', hx⟩
      · intro p hp
        rw [if_neg (hn p hp)]; rfl

end Wallet
end Mango
