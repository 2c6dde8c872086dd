import Verif.Props.Retriever
import Mathlib.Data.List.Nodup
/-!
# C52: scanning a well laid out account list finds every account
-/
namespace Mango
namespace Oracle
open Fx

/-- a well laid out account list for the group: each section holds only its kind, one oracle per bank and market, no token or market twice -/
structure WellLaid (group : Nat) (bs os ps po oos fbs : List Acc) : Prop where
  banks : ∀ a ∈ bs, ∃ b, a.content = .bank b ∧ b.group = group
  perps : ∀ a ∈ ps, ∃ p, a.content = .perp p ∧ p.group = group
  orders : ∀ a ∈ oos, ∃ o, a.content = .openOrders o
  noBank : ∀ a ∈ os ++ (ps ++ (po ++ (oos ++ fbs))), ∀ b, a.content ≠ .bank b
  noPerp : ∀ a ∈ po ++ (oos ++ fbs), ∀ p, a.content ≠ .perp p
  noOo : ∀ a ∈ fbs, ∀ o, a.content ≠ .openOrders o
  bankOracles : os.length = bs.length
  perpOracles : po.length = ps.length
  tokens : ((bs.filterMap Acc.bank?).map BankAcc.tokenIndex).Nodup
  markets : ((ps.filterMap Acc.perp?).map PerpAcc.marketIndex).Nodup

theorem takeWhile_split {α : Type} {l m : List α} {p : α → Bool} (h1 : ∀ a ∈ l, p a = true) (h2 : ∀ a ∈ m, p a = false) : (l ++ m).takeWhile p = l := by
  induction l with
  | nil =>
    cases m with
    | nil => rfl
    | cons x m => simp [h2 x (by simp)]
  | cons x l ih =>
    rw [List.cons_append, List.takeWhile_cons, if_pos (h1 x (by simp)), ih (fun a ha => h1 a (by simp [ha]))]

theorem filterMap_get {α β : Type} {l : List α} {f : α → Option β} (h : ∀ a ∈ l, (f a).isSome = true) (i : Nat) : (l.filterMap f)[i]? = (l[i]?).bind f := by
  induction l generalizing i with
  | nil => simp
  | cons x l ih =>
    have hx := h x (by simp)
    obtain ⟨y, hy⟩ := Option.isSome_iff_exists.mp hx
    rw [List.filterMap_cons_some hy]
    cases i with
    | zero => simp [hy]
    | succ i => simpa using ih (fun a ha => h a (by simp [ha])) i

theorem filterMap_len {α β : Type} {l : List α} {f : α → Option β} (h : ∀ a ∈ l, (f a).isSome = true) : (l.filterMap f).length = l.length := by
  induction l with
  | nil => simp
  | cons x l ih =>
    obtain ⟨y, hy⟩ := Option.isSome_iff_exists.mp (h x (by simp))
    rw [List.filterMap_cons_some hy]
    simp [ih (fun a ha => h a (by simp [ha]))]

theorem findIdx_of {α : Type} {l : List α} {k : α → Nat} {i : Nat} {x : α} (hd : (l.map k).Nodup) (h : l[i]? = some x) : l.findIdx? (fun y => decide (k y = k x)) = some i := by
  rw [List.findIdx?_eq_some_iff_getElem]
  rw [List.getElem?_eq_some_iff] at h
  obtain ⟨hi, rfl⟩ := h
  refine ⟨hi, by simp, ?_⟩
  intro j hj he
  simp only [decide_eq_true_eq] at he
  have := (List.nodup_iff_injective_getElem.mp hd) (a₁ := ⟨j, by simp; omega⟩) (a₂ := ⟨i, by simpa using hi⟩) (by simpa using he)
  simp only [Fin.mk.injEq] at this
  omega

/-- **C52, scanning finds everything** A well laid out list is accepted. Every bank, market and open orders account in it is found under its token index, market index or key, with the price its own oracle (the one
at the same place in the oracle section) gives; so a lookup fails only if that price does. -/
theorem C52_scan_complete (inv : Nat → Res I80F48) (K : Keys) {group : Nat} {bs os ps po oos fbs : List Acc} (hw : WellLaid group bs os ps po oos fbs) (now : Option (Int × Int)) :
    ∃ s, scanNew (layout bs os ps po oos fbs) group now = .ok s ∧
    (∀ (i : Nat) (a o : Acc) (b : BankAcc), bs[i]? = some a → os[i]? = some o → a.content = .bank b →
      s.bankAndOracle inv K b.tokenIndex =
        (bankPrice inv b.o
            { oracle := o.asOracle, fallback := if b.o.fallback = K.default then none else (fbs.find? (fun x => x.key = b.o.fallback)).map Acc.asOracle,
              usdc := (fbs.find? (fun x => x.key = K.usdc)).map Acc.asOracle,
              sol := (fbs.find? (fun x => x.key = K.sol)).map Acc.asOracle } now).map (fun p => (b, p))) ∧
    (∀ (i : Nat) (a o : Acc) (m : PerpAcc), ps[i]? = some a → po[i]? = some o → a.content = .perp m →
      s.perpAndOracle inv m.marketIndex =
        (perpState inv m.oracle m.decimals m.cfg { oracle := o.asOracle, fallback := none, usdc := none, sol := none } now).map (fun st => (m, st.price))) ∧
    (∀ (i : Nat) (a : Acc) (id : Nat), (oos.map Acc.key).Nodup → oos[i]? = some a → a.content = .openOrders id → s.serumOo a.key = .ok id) := by
  obtain ⟨h1, h2, h3, h4, h5, h6, h7, h8, h9, h10⟩ := hw
  have sb : ∀ a ∈ bs, a.bank?.isSome = true := by
    intro a ha
    obtain ⟨b, hb, _⟩ := h1 a ha
    simp [Acc.bank?, hb]
  have sp : ∀ a ∈ ps, a.perp?.isSome = true := by
    intro a ha
    obtain ⟨b, hb, _⟩ := h2 a ha
    simp [Acc.perp?, hb]
  have so : ∀ a ∈ oos, a.oo?.isSome = true := by
    intro a ha
    obtain ⟨b, hb⟩ := h3 a ha
    simp [Acc.oo?, hb]
  have nb : ∀ a ∈ os ++ (ps ++ (po ++ (oos ++ fbs))), a.bank?.isSome = false := by
    intro a ha
    have := h4 a ha
    unfold Acc.bank?
    split
    · rename_i b hb; exact absurd hb (this b)
    · rfl
  have np : ∀ a ∈ po ++ (oos ++ fbs), a.perp?.isSome = false := by
    intro a ha
    have := h5 a ha
    unfold Acc.perp?
    split
    · rename_i b hb; exact absurd hb (this b)
    · rfl
  have no : ∀ a ∈ fbs, a.oo?.isSome = false := by
    intro a ha
    have := h6 a ha
    unfold Acc.oo?
    split
    · rename_i b hb; exact absurd hb (this b)
    · rfl
  have t1 : (layout bs os ps po oos fbs).takeWhile (fun a => a.bank?.isSome) = bs := takeWhile_split sb nb
  have hlen : (layout bs os ps po oos fbs).length = bs.length * 2 + ps.length * 2 + oos.length + fbs.length := by
    simp [layout, h7, h8]; omega
  have lb := filterMap_len sb
  have lp := filterMap_len sp
  have d1 : (layout bs os ps po oos fbs).drop (2 * bs.length) = ps ++ (po ++ (oos ++ fbs)) := by
    unfold layout
    rw [← List.append_assoc]
    exact List.drop_left' (by simp [h7]; omega)
  have t2 : (ps ++ (po ++ (oos ++ fbs))).takeWhile (fun a => a.perp?.isSome) = ps := takeWhile_split sp np
  have d2 : (layout bs os ps po oos fbs).drop (2 * bs.length + 2 * ps.length) = oos ++ fbs := by
    rw [← List.drop_drop, d1, ← List.append_assoc]
    exact List.drop_left' (by simp [h8]; omega)
  have t3 : (oos ++ fbs).takeWhile (fun a => a.oo?.isSome) = oos := takeWhile_split so no
  have d3 : ((layout bs os ps po oos fbs).drop bs.length).take bs.length = os := by
    unfold layout
    rw [List.drop_left' rfl]
    exact List.take_left' h7
  have d4 : ((layout bs os ps po oos fbs).drop (2 * bs.length + ps.length)).take ps.length = po := by
    rw [← List.drop_drop, d1, List.drop_left' rfl]
    exact List.take_left' h8
  refine ⟨{ banks := bs.filterMap Acc.bank?, oracles := os, perps := ps.filterMap Acc.perp?, perpOracles := po, oos := oos, fallbacks := fbs, now := now }, ?_, ?_, ?_, ?_⟩
  · unfold scanNew
    simp only [t1, lb, d1, t2, lp, d2, t3, d3, d4]
    have r1 : ∀ b ∈ bs.filterMap Acc.bank?, b.group = group := by
      intro b hb
      rw [List.mem_filterMap] at hb
      obtain ⟨a, ha, hb⟩ := hb
      obtain ⟨b', hb', hg⟩ := h1 a ha
      simp [Acc.bank?, hb'] at hb
      rw [← hb]; exact hg
    have r2 : ∀ p ∈ ps.filterMap Acc.perp?, p.group = group := by
      intro b hb
      rw [List.mem_filterMap] at hb
      obtain ⟨a, ha, hb⟩ := hb
      obtain ⟨b', hb', hg⟩ := h2 a ha
      simp [Acc.perp?, hb'] at hb
      rw [← hb]; exact hg
    have r3 : 2 * bs.length ≤ (layout bs os ps po oos fbs).length := by omega
    have r4 : 2 * bs.length + 2 * ps.length ≤ (layout bs os ps po oos fbs).length := by omega
    simp only [require, if_pos r1, if_pos h9, if_pos r3, if_pos r2, if_pos h10, if_pos r4, List.drop_left' rfl]
    rfl
  · intro i a o b ha ho hb
    have hg : (bs.filterMap Acc.bank?)[i]? = some b := by
      rw [filterMap_get sb, ha]
      simp [Acc.bank?, hb]
    unfold Scan.bankAndOracle
    simp only [findIdx_of (k := BankAcc.tokenIndex) h9 hg, hg, ho]
    unfold Scan.infos
    dsimp only
    generalize bankPrice inv b.o _ now = x
    cases x <;> rfl
  · intro i a o m ha ho hm
    have hg : (ps.filterMap Acc.perp?)[i]? = some m := by
      rw [filterMap_get sp, ha]
      simp [Acc.perp?, hm]
    unfold Scan.perpAndOracle
    simp only [findIdx_of (k := PerpAcc.marketIndex) h10 hg, hg, ho]
    generalize perpState inv m.oracle m.decimals m.cfg _ now = x
    cases x <;> rfl
  · intro i a id hd ha hid
    unfold Scan.serumOo
    dsimp only
    have hf : oos.find? (fun x => decide (x.key = a.key)) = some a := by
      have hi := findIdx_of (k := Acc.key) hd ha
      cases hx : oos.find? (fun x => decide (x.key = a.key)) with
      | none =>
        rw [List.find?_eq_none] at hx
        have := hx a (List.mem_of_getElem? ha)
        simp at this
      | some y =>
        have h1 := List.find?_some hx
        have h2 := List.mem_of_find?_eq_some hx
        simp only [decide_eq_true_eq] at h1
        rw [List.inj_on_of_nodup_map hd h2 (List.mem_of_getElem? ha) h1]
    rw [hf]
    simp [Acc.oo?, hid]

/-- a list with two banks, a market, two open orders accounts and a fallback oracle is well laid out -/
example : WellLaid 7 [⟨1, .bank ⟨7, 0, ⟨11, 99, 6, ⟨1, -1⟩⟩⟩⟩, ⟨2, .bank ⟨7, 5, ⟨12, 13, 9, ⟨1, -1⟩⟩⟩⟩] [⟨11, .other⟩, ⟨12, .other⟩] [⟨3, .perp ⟨7, 4, 12, 9, ⟨1, -1⟩⟩⟩] [⟨12, .other⟩]
    [⟨4, .openOrders 40⟩, ⟨5, .openOrders 41⟩] [⟨13, .other⟩] := by
  refine ⟨?_, ?_, ?_, ?_, ?_, ?_, rfl, rfl, by decide, by decide⟩ <;> simp

end Oracle
end Mango
