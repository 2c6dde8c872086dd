import Verif.Props.HealthRecache
import Verif.Props.PerpForceClose
/-!
# Health when one token balance and one perp position change

For settlements: health, and settle health (which ignores negative perp contributions), computed anew from the account.
-/
namespace Mango
namespace Health
open Fx

/-- how a perp position's value counts; with `ign` only if it is positive -/
def counted (ign : Bool) (v : Int) : Int := if ign = false ∨ v > 0 then v else 0

/-- the balance of a token: spot plus the (counted) values of the perp positions that settle in it -/
def balanceI (c : Cache) (h : HT) (ign : Bool) (t : TokenInfo) : Int :=
  t.balanceSpot + sumOf (fun p => if p.settleTokenIndex = t.tokenIndex then counted ign (Formula.perpValue p h) else 0) c.perps

/-- health; with `ign` (and maintenance weights) the settle health of cache.rs:1181-1189 -/
def Cache.healthI (fd : FDiv) (c : Cache) (h : HT) (ign : Bool) : Res I80F48 := do
  let bs ← c.balancesI h ign
  c.healthSum fd h bs

theorem healthI_health (fd : FDiv) (c : Cache) (h : HT) : c.healthI fd h false = c.health fd h := rfl

theorem balancesI_of {c : Cache} {h : HT} {ign : Bool} {bs : List Int} (hd : (c.tokens.map (·.tokenIndex)).Nodup) (hh : c.balancesI h ign = .ok bs) :
    bs.length = c.tokens.length ∧ ∀ (i : Nat) t, c.tokens[i]? = some t → bs[i]? = some (balanceI c h ign t) := by
  obtain ⟨l, e, f⟩ := balancesI_ok hh
  refine ⟨l, ?_⟩
  intro i t ht
  rw [e i t ht]
  unfold balanceI
  rw [Int.add_comm]
  congr 2
  apply sumOf_congr
  intro p hp
  obtain ⟨_, v, hv⟩ := f p hp
  have hidx : c.tokenIdx p.settleTokenIndex = some i ↔ p.settleTokenIndex = t.tokenIndex := findToken_iff hd ht _
  unfold perpOn counted
  by_cases hs : p.settleTokenIndex = t.tokenIndex
  · rw [if_pos hs, if_pos (hidx.mpr hs), val_ok hv, Formula.perpValue_of hv]
  · rw [if_neg hs, if_neg (fun h => hs (hidx.mp h))]

/-- no funds in spot orders, seen from the cache -/
def NoReserved (c : Cache) : Prop := ∀ x ∈ c.serums, x.reservedBase = 0 ∧ x.reservedQuote = 0 ∧ 0 ≤ x.reservedQuoteAsBaseHighestBid

theorem noReserved_of {rnd : ℚ → ℚ} {now : Int} {banks : Nat → BankIn} {ps : List Pos} {os : List OpenOrd} {perps : List (Perp.Market × Perp.Pos × I80F48)} {c : Cache}
    (d1 : (ps.map (·.tokenIndex)).Nodup) (hc : accountCache rnd now banks ps os perps = .ok c) (hn : NoneReserved os) : NoReserved c := by
  intro x hx
  obtain ⟨_, f2, _⟩ := accountCache_for d1 hc
  obtain ⟨i, hi, rfl⟩ := List.getElem_of_mem hx
  have hl := (forall₂_getElem.mp f2).1
  have ho := List.getElem?_eq_getElem (show i < os.length by omega)
  have M := (forall₂_getElem.mp f2).2 i _ _ ho (List.getElem?_eq_getElem hi)
  obtain ⟨n1, n2⟩ := hn _ (List.mem_of_getElem? ho)
  rw [M.reservedBase, M.reservedQuote, M.highestBid, n1, n2]
  simp

/-- without funds in spot orders health is a sum over the tokens -/
theorem healthI_tokens {fd : FDiv} (hfd0 : ∀ p x, fd 0 p = .ok x → x = 0) {c : Cache} (hd : (c.tokens.map (·.tokenIndex)).Nodup) (hz : NoReserved c)
    {h : HT} {ign : Bool} {v : Int} (hv : c.healthI fd h ign = .ok v) : v = sumOf (fun t => Formula.tokenValue t h (balanceI c h ign t)) c.tokens := by
  simp only [Cache.healthI, bind_ok] at hv
  obtain ⟨bs, hb, hv⟩ := hv
  obtain ⟨bl, hb⟩ := balancesI_of hd hb
  obtain ⟨mr, rs, hr, e, f1, f2⟩ := healthSum_ok hv
  obtain ⟨rl, ml, hmr, d⟩ := reservations_ok hr
  have z : sumOf (fun (x : Serum3Info × Serum3Reserved) => val (x.1.contribution h c.tokens bs mr x.2)) (c.serums.zip rs) = 0 := by
    apply sumOf_zero
    intro x hx
    obtain ⟨q, b, h1, h2, h3, h4⟩ := d x hx
    obtain ⟨z1, z2, z3⟩ := hz x.1 (by
      obtain ⟨k, hk⟩ := List.mem_iff_getElem?.mp hx
      rw [List.getElem?_zip_eq_some] at hk
      exact List.mem_of_getElem? hk.1)
    have ha : x.2.asBase = 0 := by
      rw [Formula.asBase_of h3]
      unfold Formula.asBase
      rw [z1, z2]
      simp only [Int.zero_mul, Int.zero_ediv, Int.zero_add]
      have : val (fd 0 (Formula.liabPrice b.prices h)) = 0 := by
        cases he : fd 0 (Formula.liabPrice b.prices h) with
        | ok y => rw [val_ok rfl]; exact hfd0 _ _ he
        | error e => rfl
      rw [this]
      split
      · rfl
      · omega
    unfold Serum3Info.contribution
    rw [if_pos (Or.inl ha)]
    rfl
  rw [z, Int.add_zero] at e
  rw [e]
  have e3 : sumOf (fun (x : TokenInfo × Int) => Formula.tokenValue x.1 h (balanceI c h ign x.1)) (c.tokens.zip bs) = sumOf (fun t => Formula.tokenValue t h (balanceI c h ign t)) c.tokens :=
    sumOf_zip_fst (fun t => Formula.tokenValue t h (balanceI c h ign t)) c.tokens bs bl
  rw [← e3]
  apply sumOf_congr
  intro x hx
  obtain ⟨w, hw⟩ := f1 _ hx
  obtain ⟨k, hk⟩ := List.mem_iff_getElem?.mp hx
  rw [List.getElem?_zip_eq_some] at hk
  have := hb k _ hk.1
  rw [hk.2, Option.some.injEq] at this
  rw [val_ok hw, Formula.tokenValue_of hw, this]

/-- `recache` without the perp positions -/
theorem retoken {rnd : ℚ → ℚ} {now : Int} {st st' : AcctState} {c c' : Cache} (d1 : (st.ps.map (·.tokenIndex)).Nodup)
    (R : List.Forall₂ (fun p p' => p'.tokenIndex = p.tokenIndex ∧ SameConfig now (st.banks p.tokenIndex) (st'.banks p.tokenIndex)) st.ps st'.ps) (hos : st'.os = st.os)
    (hc : accountCache rnd now st.banks st.ps st.os st.perps = .ok c) (hc' : accountCache rnd now st'.banks st'.ps st'.os st'.perps = .ok c') :
    st'.ps.map (·.tokenIndex) = st.ps.map (·.tokenIndex) ∧ c.tokens.length = st.ps.length ∧ c'.tokens.length = st.ps.length ∧
    ∀ (i : Nat) (p p' : Pos) (t t' : TokenInfo), st.ps[i]? = some p → st'.ps[i]? = some p' → c.tokens[i]? = some t → c'.tokens[i]? = some t' →
      TokenFor rnd now (st.banks p.tokenIndex) st.os p t ∧ Shifted t t' (nativeAt (st'.banks p.tokenIndex) p'.indexed - nativeAt (st.banks p.tokenIndex) p.indexed) := by
  have eti : st'.ps.map (·.tokenIndex) = st.ps.map (·.tokenIndex) := by
    revert R
    generalize st.ps = l
    generalize st'.ps = l'
    intro h
    induction h with
    | nil => rfl
    | cons h _ ih => rw [List.map_cons, List.map_cons, ih, h.1]
  obtain ⟨f1, f2, f3, f4⟩ := accountCache_for d1 hc
  obtain ⟨g1, g2, g3, g4⟩ := accountCache_for (by rw [eti]; exact d1) hc'
  have l0 := (forall₂_getElem.mp R).1
  have l1 := (forall₂_getElem.mp f1).1
  have l2 := (forall₂_getElem.mp g1).1
  refine ⟨eti, by omega, by omega, ?_⟩
  intro i p p' t t' hp hp' ht ht'
  have F := (forall₂_getElem.mp f1).2 i _ _ hp ht
  have G := (forall₂_getElem.mp g1).2 i _ _ hp' ht'
  obtain ⟨e1, cfg⟩ := (forall₂_getElem.mp R).2 i _ _ hp hp'
  rw [e1, hos] at G
  have m1 := F.maint
  have m2 := G.maint
  rw [cfg.maint, m1] at m2
  simp only [ok_inj, Prod.mk.injEq] at m2
  refine ⟨F, G.index.trans (e1.trans F.index.symm), ?_, ?_, ?_, m2.1.symm, m2.2.symm, ?_⟩
  · have x1 := G.oracle.trans (cfg.oracle.trans F.oracle.symm)
    have x2 := G.stable.trans (cfg.stable.trans F.stable.symm)
    cases hx : t.prices; cases hy : t'.prices
    rw [hx, hy] at x1 x2
    dsimp only at x1 x2
    rw [x1, x2]
  · exact G.initAsset.trans (cfg.initAsset.trans F.initAsset.symm)
  · exact G.initLiab.trans (cfg.initLiab.trans F.initLiab.symm)
  · have gb := G.balance
    rw [e1] at gb
    rw [F.balance, gb]
    unfold nativeAt
    omega

/-- the same account except for token position `k` (now `indexed = i'`), its bank's totals, and perp position `j` in the same settle token -/
structure OnePerp (now : Int) (st st' : AcctState) (k j : Nat) (p : Pos) (i' : I80F48) (x x' : Perp.Market × Perp.Pos × I80F48) : Prop where
  tok : st.ps[k]? = some p
  ps : st'.ps = st.ps.set k { p with indexed := i' }
  os : st'.os = st.os
  bank : SameConfig now (st.banks p.tokenIndex) (st'.banks p.tokenIndex)
  banks : ∀ t, t ≠ p.tokenIndex → st'.banks t = st.banks t
  perp : st.perps[j]? = some x
  perps : st'.perps = st.perps.set j x'
  settle : x.1.settleTokenIndex = p.tokenIndex
  settle' : x'.1.settleTokenIndex = p.tokenIndex

theorem SameConfig.refl (now : Int) (b : BankIn) : SameConfig now b b := ⟨rfl, rfl, rfl, rfl, rfl, rfl, rfl, rfl, rfl⟩

/-- One token balance and one perp position that settles in this token change: health changes by the change of the value of the token's balance, which changes by both. -/
theorem one_perp {rnd : ℚ → ℚ} {fd : FDiv} (hfd0 : ∀ p x, fd 0 p = .ok x → x = 0) {now : Int} {st st' : AcctState} {c c' : Cache} (d1 : (st.ps.map (·.tokenIndex)).Nodup)
    {k j : Nat} {p : Pos} {i' : I80F48} {x x' : Perp.Market × Perp.Pos × I80F48} (O : OnePerp now st st' k j p i' x x')
    (hc : accountCache rnd now st.banks st.ps st.os st.perps = .ok c) (hc' : accountCache rnd now st'.banks st'.ps st'.os st'.perps = .ok c') (hn : NoneReserved st.os) :
    ∃ t u u', c.tokens[k]? = some t ∧ c.tokenIdx p.tokenIndex = some k ∧ TokenFor rnd now (st.banks p.tokenIndex) st.os p t ∧ PerpFor x u ∧ PerpFor x' u' ∧ NoReserved c ∧ (c.tokens.map (·.tokenIndex)).Nodup ∧
      ∀ (h : HT) (ign : Bool) (H H' : I80F48), h ≠ .init → c.healthI fd h ign = .ok H → c'.healthI fd h ign = .ok H' →
        H' - H = Formula.tokenValue t h (balanceI c h ign t + (nativeAt (st'.banks p.tokenIndex) i' - nativeAt (st.banks p.tokenIndex) p.indexed) +
          (counted ign (Formula.perpValue u' h) - counted ign (Formula.perpValue u h))) - Formula.tokenValue t h (balanceI c h ign t) := by
  have hk := getElem?_lt O.tok
  have hj := getElem?_lt O.perp
  have R : List.Forall₂ (fun p p' => p'.tokenIndex = p.tokenIndex ∧ SameConfig now (st.banks p.tokenIndex) (st'.banks p.tokenIndex)) st.ps st'.ps := by
    rw [forall₂_getElem]
    refine ⟨by rw [O.ps, List.length_set], ?_⟩
    intro i a b ha hb
    rw [O.ps] at hb
    by_cases hi : i = k
    · subst hi
      rw [List.getElem?_set_self hk, Option.some.injEq] at hb
      rw [O.tok, Option.some.injEq] at ha
      subst ha hb
      exact ⟨rfl, O.bank⟩
    · rw [List.getElem?_set_ne (fun e => hi e.symm), ha, Option.some.injEq] at hb
      subst hb
      refine ⟨rfl, ?_⟩
      rw [O.banks _ (fun e => hi (nodup_at d1 ha O.tok e))]
      exact SameConfig.refl _ _
  obtain ⟨eti, r3, r4, r5⟩ := retoken d1 R O.os hc hc'
  obtain ⟨f1, f2, f3, f4⟩ := accountCache_for d1 hc
  obtain ⟨g1, g2, g3, g4⟩ := accountCache_for (by rw [eti]; exact d1) hc'
  have tk := List.getElem?_eq_getElem (show k < c.tokens.length by omega)
  have sk := r5 k _ _ _ _ O.tok (by rw [O.ps, List.getElem?_set_self hk]) tk (List.getElem?_eq_getElem (show k < c'.tokens.length by omega))
  have lp := (forall₂_getElem.mp f3).1
  have lp' := (forall₂_getElem.mp g3).1
  rw [O.perps, List.length_set] at lp'
  have uj := List.getElem?_eq_getElem (show j < c.perps.length by omega)
  obtain ⟨u', uj'⟩ : ∃ u', c'.perps[j]? = some u' := ⟨_, List.getElem?_eq_getElem (show j < c'.perps.length by omega)⟩
  have P := (forall₂_getElem.mp f3).2 j _ _ O.perp uj
  have P' := (forall₂_getElem.mp g3).2 j _ _ (by rw [O.perps, List.getElem?_set_self hj]) uj'
  have hnr := noReserved_of d1 hc hn
  have hnr' := noReserved_of (by rw [eti]; exact d1) hc' (by rw [O.os]; exact hn)
  have hperps : c'.perps = c.perps.set j u' := by
    apply List.ext_getElem?
    intro i
    by_cases hi : i < c.perps.length
    · by_cases e : i = j
      · subst e
        rw [List.getElem?_set_self hi]
        exact uj'
      · rw [List.getElem?_set_ne (fun h => e h.symm)]
        have hx := List.getElem?_eq_getElem (show i < st.perps.length by omega)
        have hi' : i < c'.perps.length := by omega
        have a1 := (forall₂_getElem.mp f3).2 i _ _ hx (List.getElem?_eq_getElem hi)
        have a2 := (forall₂_getElem.mp g3).2 i _ _ (by rw [O.perps, List.getElem?_set_ne (fun h => e h.symm)]; exact hx) (List.getElem?_eq_getElem hi')
        rw [List.getElem?_eq_getElem hi, List.getElem?_eq_getElem hi', perp_unique a1 a2]
    · rw [List.getElem?_eq_none (by omega), List.getElem?_eq_none (by rw [List.length_set]; omega)]
  have hidx : c.tokenIdx p.tokenIndex = some k := (findToken_iff f4 tk _).2 sk.1.index.symm
  refine ⟨_, _, _, tk, hidx, sk.1, P, P', hnr, f4, ?_⟩
  intro h ign H H' hh hH hH'
  have k1 := healthI_tokens hfd0 f4 hnr hH
  have k2 := healthI_tokens hfd0 g4 hnr' hH'
  -- balances of the other tokens
  have eb : ∀ (t t' : TokenInfo) (d : Int), Shifted t t' d → balanceI c' h ign t' = balanceI c h ign t + d +
      (if p.tokenIndex = t.tokenIndex then counted ign (Formula.perpValue u' h) - counted ign (Formula.perpValue c.perps[j] h) else 0) := by
    intro t t' d s
    unfold balanceI
    rw [hperps, sumOf_set _ uj, s.balance, s.index, P.settle, P'.settle, O.settle, O.settle']
    split <;> omega
  have key : c'.tokens.map (fun t => Formula.tokenValue t h (balanceI c' h ign t)) =
      (c.tokens.map (fun t => Formula.tokenValue t h (balanceI c h ign t))).set k (Formula.tokenValue c.tokens[k] h (balanceI c h ign c.tokens[k] +
        (nativeAt (st'.banks p.tokenIndex) i' - nativeAt (st.banks p.tokenIndex) p.indexed) + (counted ign (Formula.perpValue u' h) - counted ign (Formula.perpValue c.perps[j] h)))) := by
    apply List.ext_getElem?
    intro i
    by_cases hi : i < c.tokens.length
    · have hti := List.getElem?_eq_getElem hi
      have hti' := List.getElem?_eq_getElem (show i < c'.tokens.length by omega)
      rw [List.getElem?_map, hti']
      by_cases ek : i = k
      · subst ek
        rw [List.getElem?_set_self (by simpa using hi), Option.map_some, eb _ _ _ sk.2, sk.2.value hh, if_pos sk.1.index.symm]
      · rw [List.getElem?_set_ne (fun e => ek e.symm), List.getElem?_map, hti]
        have hp := List.getElem?_eq_getElem (show i < st.ps.length by omega)
        have hp' : st'.ps[i]? = some st.ps[i] := by rw [O.ps, List.getElem?_set_ne (fun e => ek e.symm), hp]
        have sh := r5 i _ _ _ _ hp hp' hti hti'
        have hne : st.ps[i].tokenIndex ≠ p.tokenIndex := fun e => ek (nodup_at d1 hp O.tok e)
        have shv := sh.2
        rw [O.banks _ hne, Int.sub_self] at shv
        rw [Option.map_some, Option.map_some, eb _ _ _ shv, shv.value hh, if_neg (by rw [sh.1.index]; exact hne.symm), Int.add_zero, Int.add_zero]
    · rw [List.getElem?_eq_none (by simp; omega), List.getElem?_eq_none (by simp; omega)]
  have s1 : ∀ {α : Type} (f : α → Int) (l : List α), sumOf f l = sumOf id (l.map f) := by intro α f l; rw [sumOf_map]; rfl
  rw [s1] at k1 k2
  have gk : (c.tokens.map (fun t => Formula.tokenValue t h (balanceI c h ign t)))[k]? = some (Formula.tokenValue c.tokens[k] h (balanceI c h ign c.tokens[k])) := by rw [List.getElem?_map, tk]; rfl
  rw [key, sumOf_set id gk, ← k1] at k2
  simp only [id] at k2
  omega

end Health
end Mango
