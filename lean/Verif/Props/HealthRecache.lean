import Verif.Props.TokenLiqGain
import Verif.Props.HealthUpdate
/-!
# What changed token positions do to freshly computed health

Instructions that compute health anew after changing positions (instead of updating a cache, C57).
-/
namespace Mango
namespace Health
open Fx

/-- the same account except for token positions and the totals of their banks -/
structure Repositioned (now : Int) (st st' : AcctState) : Prop where
  ps : List.Forall₂ (fun p p' => p'.tokenIndex = p.tokenIndex ∧ SameConfig now (st.banks p.tokenIndex) (st'.banks p.tokenIndex)) st.ps st'.ps
  os : st'.os = st.os
  perps : st'.perps = st.perps

/-- the same token with balance changed by `d`; scaled weights, which only init health uses, may differ -/
structure Shifted (t t' : TokenInfo) (d : Int) : Prop where
  index : t'.tokenIndex = t.tokenIndex
  prices : t'.prices = t.prices
  initAsset : t'.initAssetWeight = t.initAssetWeight
  initLiab : t'.initLiabWeight = t.initLiabWeight
  maintAsset : t'.maintAssetWeight = t.maintAssetWeight
  maintLiab : t'.maintLiabWeight = t.maintLiabWeight
  balance : t'.balanceSpot = t.balanceSpot + d

/-- balance of a position, rounded down as in the code -/
def nativeAt (b : BankIn) (indexed : Int) : Int := indexed * (if indexed > 0 then b.bank.depositIndex else b.bank.borrowIndex) / S

theorem recache {rnd : ℚ → ℚ} {now : Int} {st st' : AcctState} {c c' : Cache} (d1 : (st.ps.map (·.tokenIndex)).Nodup) (R : Repositioned now st st')
    (hc : accountCache rnd now st.banks st.ps st.os st.perps = .ok c) (hc' : accountCache rnd now st'.banks st'.ps st'.os st'.perps = .ok c') :
    c'.serums = c.serums ∧ c'.perps = c.perps ∧ c.tokens.length = st.ps.length ∧ c'.tokens.length = st.ps.length ∧
    ∀ (i : Nat) (p p' : Pos) (t t' : TokenInfo), st.ps[i]? = some p → st'.ps[i]? = some p' → c.tokens[i]? = some t → c'.tokens[i]? = some t' →
      TokenFor rnd now (st.banks p.tokenIndex) st.os p t ∧ Shifted t t' (nativeAt (st'.banks p.tokenIndex) p'.indexed - nativeAt (st.banks p.tokenIndex) p.indexed) := by
  have eti : st'.ps.map (·.tokenIndex) = st.ps.map (·.tokenIndex) := by
    have := R.ps
    revert this
    generalize st.ps = l
    generalize st'.ps = l'
    intro h
    induction h with
    | nil => rfl
    | cons h _ ih => rw [List.map_cons, List.map_cons, ih, h.1]
  obtain ⟨f1, f2, f3, f4⟩ := accountCache_for d1 hc
  obtain ⟨g1, g2, g3, g4⟩ := accountCache_for (by rw [eti]; exact d1) hc'
  have i1 : c.tokens.map (·.tokenIndex) = st.ps.map (·.tokenIndex) := tokenFor_index (List.Forall₂.imp (fun _ _ h => h.tracks) f1)
  have i2 : c'.tokens.map (·.tokenIndex) = st'.ps.map (·.tokenIndex) := tokenFor_index (st := st') (List.Forall₂.imp (fun _ _ h => h.tracks) g1)
  rw [R.os] at g2
  rw [R.perps] at g3
  have l0 := (forall₂_getElem.mp R.ps).1
  have l1 := (forall₂_getElem.mp f1).1
  have l2 := (forall₂_getElem.mp g1).1
  refine ⟨?_, ?_, by omega, by omega, ?_⟩
  · exact (forall₂_eq (forall₂_unique (R := MarketFor c.tokens) (R' := MarketFor c'.tokens) (Q := (· = ·))
      (fun _ _ _ => market_unique (by rw [i1, i2, eti]) (by rw [i1]; exact d1)) f2 g2)).symm
  · exact (forall₂_eq (forall₂_unique (R := PerpFor) (R' := PerpFor) (Q := (· = ·)) (fun _ _ _ => perp_unique) f3 g3)).symm
  · intro i p p' t t' hp hp' ht ht'
    have F := (forall₂_getElem.mp f1).2 i _ _ hp ht
    have G := (forall₂_getElem.mp g1).2 i _ _ hp' ht'
    obtain ⟨e1, cfg⟩ := (forall₂_getElem.mp R.ps).2 i _ _ hp hp'
    rw [e1, R.os] at G
    have m1 := F.maint
    have m2 := G.maint
    rw [cfg.maint, m1] at m2
    simp only [ok_inj, Prod.mk.injEq] at m2
    refine ⟨F, G.index.trans (e1.trans F.index.symm), ?_, ?_, ?_, m2.1.symm, m2.2.symm, ?_⟩
    · have x1 := G.oracle.trans (cfg.oracle.trans F.oracle.symm)
      have x2 := G.stable.trans (cfg.stable.trans F.stable.symm)
      cases hx : t.prices; cases hy : t'.prices
      rw [hx, hy] at x1 x2
      dsimp only at x1 x2
      rw [x1, x2]
    · exact G.initAsset.trans (cfg.initAsset.trans F.initAsset.symm)
    · exact G.initLiab.trans (cfg.initLiab.trans F.initLiab.symm)
    · have gb := G.balance
      rw [e1] at gb
      rw [F.balance, gb]
      unfold nativeAt
      omega

theorem Shifted.value {t t' : TokenInfo} {d : Int} (s : Shifted t t' d) {h : HT} (hh : h ≠ .init) (b : Int) : Formula.tokenValue t' h b = Formula.tokenValue t h b := by
  cases h
  · exact absurd rfl hh
  · unfold Formula.tokenValue Formula.assetPrice Formula.liabPrice Formula.assetWeight Formula.liabWeight; rw [s.prices, s.maintAsset, s.maintLiab]
  · unfold Formula.tokenValue Formula.assetPrice Formula.liabPrice Formula.assetWeight Formula.liabWeight; rw [s.prices, s.initAsset, s.initLiab]

/-- no funds in spot orders -/
def NoneReserved (os : List OpenOrd) : Prop := ∀ o ∈ os, o.baseReserved = 0 ∧ o.quoteReserved = 0

/-- Two token positions change, no funds are in spot orders: maintenance and liquidation-end health change by the change of the values of these two balances. -/
theorem two_changed {rnd : ℚ → ℚ} {fd : FDiv} (hfd0 : ∀ p x, fd 0 p = .ok x → x = 0) {now : Int} {st st' : AcctState} {c c' : Cache} (d1 : (st.ps.map (·.tokenIndex)).Nodup)
    (R : Repositioned now st st') (hc : accountCache rnd now st.banks st.ps st.os st.perps = .ok c) (hc' : accountCache rnd now st'.banks st'.ps st'.os st'.perps = .ok c') (hn : NoneReserved st.os)
    {kA kL : Nat} {pA pL : Pos} {iA iL : I80F48} (hne : kA ≠ kL) (hA : st.ps[kA]? = some pA) (hL : st.ps[kL]? = some pL) (hps : st'.ps = (st.ps.set kL { pL with indexed := iL }).set kA { pA with indexed := iA })
    (hbanks : ∀ t, t ≠ pA.tokenIndex → t ≠ pL.tokenIndex → st'.banks t = st.banks t) {h : HT} (hh : h ≠ .init) {H H' : I80F48} (hH : c.health fd h = .ok H) (hH' : c'.health fd h = .ok H') :
    ∃ tA tL, c.tokens[kA]? = some tA ∧ c.tokens[kL]? = some tL ∧ TokenFor rnd now (st.banks pA.tokenIndex) st.os pA tA ∧ TokenFor rnd now (st.banks pL.tokenIndex) st.os pL tL ∧
      H' - H = (Formula.tokenValue tA h (Formula.balance c h tA + (nativeAt (st'.banks pA.tokenIndex) iA - nativeAt (st.banks pA.tokenIndex) pA.indexed)) - Formula.tokenValue tA h (Formula.balance c h tA)) +
        (Formula.tokenValue tL h (Formula.balance c h tL + (nativeAt (st'.banks pL.tokenIndex) iL - nativeAt (st.banks pL.tokenIndex) pL.indexed)) - Formula.tokenValue tL h (Formula.balance c h tL)) := by
  obtain ⟨r1, r2, r3, r4, r5⟩ := recache d1 R hc hc'
  have zero : ∀ x ∈ c.serums, x.reservedBase = 0 ∧ x.reservedQuote = 0 ∧ 0 ≤ x.reservedQuoteAsBaseHighestBid := by
    intro x hx
    obtain ⟨_, f2, _⟩ := accountCache_for d1 hc
    obtain ⟨i, hi, rfl⟩ := List.getElem_of_mem hx
    have hl := (forall₂_getElem.mp f2).1
    have ho := List.getElem?_eq_getElem (show i < st.os.length by omega)
    have M := (forall₂_getElem.mp f2).2 i _ _ ho (List.getElem?_eq_getElem hi)
    obtain ⟨n1, n2⟩ := hn _ (List.mem_of_getElem? ho)
    rw [M.reservedBase, M.reservedQuote, M.highestBid, n1, n2]
    simp
  have dn := (accountCache_for d1 hc).2.2.2
  have eti : st'.ps.map (·.tokenIndex) = st.ps.map (·.tokenIndex) := by
    have := R.ps
    revert this
    generalize st.ps = l
    generalize st'.ps = l'
    intro h
    induction h with
    | nil => rfl
    | cons h _ ih => rw [List.map_cons, List.map_cons, ih, h.1]
  have dn' := (accountCache_for (by rw [eti]; exact d1) hc').2.2.2
  have k1 := Liquidation.health_tokens hfd0 dn zero hH
  have k2 := Liquidation.health_tokens hfd0 dn' (by rw [r1]; exact zero) hH'
  have hA' := getElem?_lt hA
  have hL' := getElem?_lt hL
  have tA := List.getElem?_eq_getElem (show kA < c.tokens.length by omega)
  have tL := List.getElem?_eq_getElem (show kL < c.tokens.length by omega)
  have sA := r5 kA _ _ _ _ hA (by rw [hps, List.getElem?_set_self (by rw [List.length_set]; exact hA')]) tA (List.getElem?_eq_getElem (show kA < c'.tokens.length by omega))
  have sL := r5 kL _ _ _ _ hL (by rw [hps, List.getElem?_set_ne hne, List.getElem?_set_self hL']) tL (List.getElem?_eq_getElem (show kL < c'.tokens.length by omega))
  refine ⟨_, _, tA, tL, sA.1, sL.1, ?_⟩
  have eb : ∀ (t t' : TokenInfo) (d : Int), Shifted t t' d → Formula.balance c' h t' = Formula.balance c h t + d := by
    intro t t' d s
    unfold Formula.balance
    rw [r2, s.balance, s.index]
    omega
  have key : c'.tokens.map (fun t => Formula.tokenValue t h (Formula.balance c' h t)) =
      ((c.tokens.map (fun t => Formula.tokenValue t h (Formula.balance c h t))).set kL (Formula.tokenValue c.tokens[kL] h (Formula.balance c h c.tokens[kL] + (nativeAt (st'.banks pL.tokenIndex) iL - nativeAt (st.banks pL.tokenIndex) pL.indexed)))).set kA
        (Formula.tokenValue c.tokens[kA] h (Formula.balance c h c.tokens[kA] + (nativeAt (st'.banks pA.tokenIndex) iA - nativeAt (st.banks pA.tokenIndex) pA.indexed))) := by
    apply List.ext_getElem?
    intro i
    by_cases hi : i < c.tokens.length
    · have hti := List.getElem?_eq_getElem hi
      have hti' := List.getElem?_eq_getElem (show i < c'.tokens.length by omega)
      rw [List.getElem?_map, hti']
      by_cases eA : i = kA
      · subst eA
        rw [List.getElem?_set_self (by simp; omega), Option.map_some, eb _ _ _ sA.2, sA.2.value hh]
      · rw [List.getElem?_set_ne (fun e => eA e.symm)]
        by_cases eL : i = kL
        · subst eL
          rw [List.getElem?_set_self (by simp; omega), Option.map_some, eb _ _ _ sL.2, sL.2.value hh]
        · rw [List.getElem?_set_ne (fun e => eL e.symm), List.getElem?_map, hti]
          have hp := List.getElem?_eq_getElem (show i < st.ps.length by omega)
          have hp' : st'.ps[i]? = some st.ps[i] := by rw [hps, List.getElem?_set_ne (fun e => eA e.symm), List.getElem?_set_ne (fun e => eL e.symm), hp]
          have sh := (r5 i _ _ _ _ hp hp' hti hti').2
          have hb : st'.banks st.ps[i].tokenIndex = st.banks st.ps[i].tokenIndex :=
            hbanks _ (fun e => eA (nodup_at d1 hp hA e)) (fun e => eL (nodup_at d1 hp hL e))
          rw [hb, Int.sub_self] at sh
          rw [Option.map_some, Option.map_some, eb _ _ _ sh, sh.value hh, Int.add_zero]
    · rw [List.getElem?_eq_none (by simp; omega), List.getElem?_eq_none (by simp; omega)]
  have s1 : ∀ {α : Type} (f : α → Int) (l : List α), sumOf f l = sumOf id (l.map f) := by intro α f l; rw [sumOf_map]; rfl
  rw [s1] at k1 k2
  have gL : (c.tokens.map (fun t => Formula.tokenValue t h (Formula.balance c h t)))[kL]? = some (Formula.tokenValue c.tokens[kL] h (Formula.balance c h c.tokens[kL])) := by rw [List.getElem?_map, tL]; rfl
  have gA : (c.tokens.map (fun t => Formula.tokenValue t h (Formula.balance c h t)))[kA]? = some (Formula.tokenValue c.tokens[kA] h (Formula.balance c h c.tokens[kA])) := by rw [List.getElem?_map, tA]; rfl
  rw [key, sumOf_set id (by rw [List.getElem?_set_ne (fun e => hne e.symm)]; exact gA), sumOf_set id gL, ← k1] at k2
  simp only [id] at k2
  omega

end Health
end Mango
