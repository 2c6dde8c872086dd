import Verif.Bots.Pnl
import Mathlib.Tactic.Linarith
import Mathlib.Data.List.Perm.Basic
import Mathlib.Data.List.Perm.Subperm
/-!
# C99: the pnl service
-/
namespace Mango
namespace PnlService

/-! ## Values -/

/-- C99: what is reported for a position: only positions without base are, gains as they are and losses up to what the account's health allows to settle; never more than either -/
theorem C99_values (a : Account) (market : Nat) (v : Int) :
    (market, v) ∈ computePnl a ↔ ∃ p ∈ a.positions, p.market = market ∧ p.baseLots = 0 ∧
      ((0 < p.quote ∧ v = p.quote) ∨ (p.quote < 0 ∧ 0 < p.maxSettle ∧ v = -(min (-p.quote) p.maxSettle))) := by
  unfold computePnl
  rw [List.mem_filterMap]
  constructor
  · rintro ⟨p, hp, h⟩
    unfold pnlOf at h
    by_cases h1 : p.baseLots ≠ 0
    · rw [if_pos h1] at h; cases h
    rw [if_neg h1] at h
    by_cases h2 : p.quote > 0
    · rw [if_pos h2] at h; cases h; exact ⟨p, hp, rfl, by simpa using h1, Or.inl ⟨h2, rfl⟩⟩
    rw [if_neg h2] at h
    by_cases h3 : p.quote < 0 ∧ p.maxSettle > 0
    · rw [if_pos h3] at h; cases h; exact ⟨p, hp, rfl, by simpa using h1, Or.inr ⟨h3.1, h3.2, by omega⟩⟩
    · rw [if_neg h3] at h; cases h
  · rintro ⟨p, hp, rfl, h1, h2⟩
    refine ⟨p, hp, ?_⟩
    unfold pnlOf
    rw [if_neg (by simpa using h1)]
    rcases h2 with ⟨h2, rfl⟩ | ⟨h2, h3, rfl⟩
    · rw [if_pos h2]
    · rw [if_neg (by omega), if_pos ⟨h2, h3⟩]; congr 2; omega

/-! ## Ranking -/

theorem respond_ok {market limit : Nat} {l : List (Nat × List (Nat × Int))} {r : List (Nat × Int)} :
    respond market limit l = .ok r ↔ (l.take limit).map (fun d => (d.1, entry market d)) = r.map (fun x => (x.1, some x.2)) := by
  unfold respond
  generalize l.take limit = t
  induction t generalizing r with
  | nil =>
    cases r with
    | nil => simp [pure, Except.pure]
    | cons x r => simp [pure, Except.pure]
  | cons d t ih =>
    rw [List.mapM_cons, List.map_cons]
    cases he : entry market d with
    | none =>
      constructor
      · intro h; cases h
      · intro h; cases r <;> simp at h
    | some v =>
      constructor
      · intro h
        simp only [bind_ok] at h
        obtain ⟨a, ha, b, hb, hr⟩ := h
        cases ha; cases hr
        rw [List.map_cons, ih.1 hb]
      · intro h
        cases r with
        | nil => simp at h
        | cons x r =>
          simp only [List.map_cons, List.cons.injEq, Prod.mk.injEq, Option.some.injEq] at h
          simp only [bind_ok]
          obtain ⟨⟨h1, h2⟩, h3⟩ := h
          exact ⟨(d.1, v), rfl, r, ih.2 h3, by rw [h1, h2]; rfl⟩

theorem respond_panic {market limit : Nat} {l : List (Nat × List (Nat × Int))} : respond market limit l = .error .panic ↔ ∃ d ∈ l.take limit, entry market d = none := by
  unfold respond
  generalize l.take limit = t
  induction t with
  | nil => simp [pure, Except.pure]
  | cons d t ih =>
    rw [List.mapM_cons]
    cases he : entry market d with
    | none => exact ⟨fun _ => ⟨d, by simp, he⟩, fun _ => rfl⟩
    | some v =>
      have hs : (do let b ← (Except.ok (d.1, v) : Res (Nat × Int)); let bs ← t.mapM (fun d => match entry market d with
          | some v => (Except.ok (d.1, v) : Res (Nat × Int))
          | none => .error .panic); pure (b :: bs)) = .error .panic ↔ t.mapM (fun d => match entry market d with
          | some v => (Except.ok (d.1, v) : Res (Nat × Int))
          | none => .error .panic) = .error .panic := by
        cases t.mapM (fun d => match entry market d with
          | some v => (Except.ok (d.1, v) : Res (Nat × Int))
          | none => .error .panic) with
        | ok _ => exact ⟨(fun h => by cases h), fun h => by cases h⟩
        | error e => exact ⟨fun h => by cases h; rfl, fun h => by cases h; rfl⟩
      refine hs.trans (ih.trans ?_)
      constructor
      · rintro ⟨x, hx, hn⟩; exact ⟨x, by simp [hx], hn⟩
      · rintro ⟨x, hx, hn⟩
        rcases List.mem_cons.mp hx with rfl | hx
        · rw [he] at hn; cases hn
        · exact ⟨x, hx, hn⟩

theorem le_trans' {a b c : Option Int} (h1 : le a b) (h2 : le b c) : le a c := by
  cases a <;> cases b <;> cases c <;> simp [le] at h1 h2 ⊢; omega

/-- may `v` come before `w`? -/
def before : Order → Int → Int → Prop
  | .asc, v, w => v ≤ w
  | .desc, v, w => w ≤ v

/-- C99: an answer has as many accounts as asked for, or all, each once and with its value, in the requested order, and no account left out has a better one -/
theorem C99_ranking {data : List (Nat × List (Nat × Int))} {market limit : Nat} {o : Order} {r : List (Nat × Int)} (h : Request data market limit o (some (.ok r))) :
    limit ≤ 20 ∧ r.length = min limit data.length ∧
    (∃ listed left, List.Perm data (listed ++ left) ∧ listed.map (fun d => (d.1, entry market d)) = r.map (fun x => (x.1, some x.2)) ∧
      ∀ d ∈ left, ∀ w, entry market d = some w → ∀ x ∈ r, before o x.2 w) ∧
    r.Pairwise (fun x y => before o x.2 y.2) := by
  unfold Request at h
  by_cases hl : limit > 20
  · rw [if_pos hl] at h; cases h
  rw [if_neg hl] at h
  obtain ⟨l, hp, ho, hr⟩ := h
  have hr := respond_ok.1 (Option.some.inj hr).symm
  have hlen : r.length = min limit data.length := by
    have := congrArg List.length hr
    simp only [List.length_map, List.length_take] at this
    rw [← this, hp.length_eq]
  have hsplit : l = l.take limit ++ l.drop limit := (List.take_append_drop limit l).symm
  refine ⟨by omega, hlen, ⟨l.take limit, l.drop limit, ?_, hr, ?_⟩, ?_⟩
  · rw [← hsplit]; exact hp.symm
  · intro d hd w hw x hx
    have hx' : (x.1, some x.2) ∈ r.map (fun x => (x.1, some x.2)) := List.mem_map.2 ⟨x, hx, rfl⟩
    rw [← hr, List.mem_map] at hx'
    obtain ⟨e, he, hxe⟩ := hx'
    simp only [Prod.mk.injEq] at hxe
    cases o with
    | asc =>
      have ho : l.Pairwise _ := ho
      rw [hsplit, List.pairwise_append] at ho
      have := ho.2.2 e he d hd
      rw [hxe.2, hw] at this
      exact this
    | desc =>
      have ho : l.Pairwise _ := ho
      rw [hsplit, List.pairwise_append] at ho
      have := ho.2.2 e he d hd
      rw [hxe.2, hw] at this
      exact this
  · cases o with
    | asc =>
      have ho : l.Pairwise _ := ho
      have h1 : (l.take limit).Pairwise (fun a b => le (entry market a) (entry market b)) := ho.sublist (List.take_sublist _ _)
      have h2 : ((l.take limit).map (fun d => (d.1, entry market d))).Pairwise (fun a b => le a.2 b.2) := List.pairwise_map.2 h1
      rw [hr] at h2
      have h3 := List.pairwise_map.1 h2
      exact h3.imp (fun h => h)
    | desc =>
      have ho : l.Pairwise _ := ho
      have h1 : (l.take limit).Pairwise (fun a b => le (entry market b) (entry market a)) := ho.sublist (List.take_sublist _ _)
      have h2 : ((l.take limit).map (fun d => (d.1, entry market d))).Pairwise (fun a b => le b.2 a.2) := List.pairwise_map.2 h1
      rw [hr] at h2
      have h3 := List.pairwise_map.1 h2
      exact h3.imp (fun h => h)

/-! ## Panics -/

/-- C99, a defect: the service panics when asked for the lowest pnl of a market as soon as one of the accounts has none there; asked for the highest, if fewer accounts than asked for have any. Otherwise it answers -/
theorem C99_panics {data : List (Nat × List (Nat × Int))} {market limit : Nat} (hl : limit ≤ 20) {o : Order} {r : Option (Res (List (Nat × Int)))} (h : Request data market limit o r) :
    (o = .asc → (r = some (.error .panic) ↔ 0 < limit ∧ ∃ d ∈ data, entry market d = none)) ∧
    (o = .desc → (r = some (.error .panic) ↔ (data.filter (fun d => (entry market d).isSome)).length < min limit data.length)) ∧
    (r ≠ some (.error .panic) → ∃ l, r = some (.ok l)) := by
  unfold Request at h
  rw [if_neg (by omega)] at h
  obtain ⟨l, hp, ho, rfl⟩ := h
  have e : (some (respond market limit l) = some (.error .panic)) ↔ ∃ d ∈ l.take limit, entry market d = none := by
    rw [← respond_panic]; exact ⟨fun h => Option.some.inj h, fun h => by rw [h]⟩
  refine ⟨?_, ?_, ?_⟩
  · rintro rfl
    rw [e]
    have ho : l.Pairwise _ := ho
    constructor
    · rintro ⟨d, hd, hn⟩
      refine ⟨?_, d, hp.mem_iff.1 (List.mem_of_mem_take hd), hn⟩
      by_contra hc
      have : limit = 0 := by omega
      subst this
      simp at hd
    · rintro ⟨h0, d, hd, hn⟩
      have hd := hp.mem_iff.2 hd
      cases l with
      | nil => simp at hd
      | cons x l =>
        refine ⟨x, ?_, ?_⟩
        · cases limit with
          | zero => omega
          | succ n => simp
        · rcases List.mem_cons.mp hd with rfl | hd
          · exact hn
          · have := (List.pairwise_cons.1 ho).1 d hd
            rw [hn] at this
            cases he : entry market x with
            | none => rfl
            | some v => rw [he] at this; exact this.elim
  · rintro rfl
    rw [e]
    have ho : l.Pairwise _ := ho
    have hlen : (data.filter (fun d => (entry market d).isSome)).length = (l.filter (fun d => (entry market d).isSome)).length := (hp.filter _).length_eq.symm
    rw [hlen, ← hp.length_eq]
    clear hp hlen e hl
    replace ho : l.Pairwise (fun a b => le (entry market b) (entry market a)) := ho
    induction l generalizing limit with
    | nil => simp
    | cons x l ih =>
      have hx := List.pairwise_cons.1 ho
      cases limit with
      | zero => simp
      | succ n =>
        cases he : entry market x with
        | none =>
          have hnone : ∀ d ∈ l, entry market d = none := by
            intro d hd
            have := hx.1 d hd
            rw [he] at this
            cases h2 : entry market d with
            | none => rfl
            | some v => rw [h2] at this; exact this.elim
          have hz : (x :: l).filter (fun d => (entry market d).isSome) = [] := by
            rw [List.filter_eq_nil_iff]
            intro d hd
            rcases List.mem_cons.mp hd with rfl | hd
            · simp [he]
            · simp [hnone d hd]
          rw [hz]
          simp only [List.length_nil, List.length_cons]
          exact ⟨fun _ => by omega, fun _ => ⟨x, by simp, he⟩⟩
        | some v =>
          have := ih (limit := n) hx.2 hx.2
          rw [List.filter_cons_of_pos (by simp [he]), List.length_cons, List.length_cons, List.take_succ_cons]
          constructor
          · rintro ⟨d, hd, hn⟩
            rcases List.mem_cons.mp hd with rfl | hd
            · rw [he] at hn; cases hn
            · have := this.1 ⟨d, hd, hn⟩; omega
          · intro h
            obtain ⟨d, hd, hn⟩ := this.2 (by omega)
            exact ⟨d, by simp [hd], hn⟩
  · intro hne
    cases hr : respond market limit l with
    | ok r => exact ⟨r, rfl⟩
    | error e =>
      exfalso
      apply hne
      rw [hr]
      congr 1
      by_cases hex : ∃ d ∈ l.take limit, entry market d = none
      · rw [← hr]; exact respond_panic.2 hex
      · exfalso
        have : ∃ r, respond market limit l = .ok r := by
          refine ⟨(l.take limit).map (fun d => (d.1, (entry market d).getD 0)), respond_ok.2 ?_⟩
          rw [List.map_map]
          apply List.map_congr_left
          intro d hd
          cases h2 : entry market d with
          | none => exact absurd ⟨d, hd, h2⟩ hex
          | some v => simp [h2]
        obtain ⟨r, h2⟩ := this
        rw [hr] at h2; cases h2

/-! ## Which accounts -/

/-- C99, a defect: accounts are recognised by the size of a structure of the program which is not how accounts are stored. Only accounts without perp positions (and with exactly one order slot and nothing else) have it, so no pnl is
ever stored -/
theorem C99_nothing {accounts : List Account} (hw : ∀ a ∈ accounts, a.positions.length ≤ a.header.perpCount) :
    ∀ d ∈ update accounts, d.2 = [] ∧ ∃ a ∈ accounts, a.key = d.1 ∧ a.header = ⟨0, 0, 0, 1, 0⟩ := by
  intro d hd
  unfold update at hd
  rw [List.mem_map] at hd
  obtain ⟨a, ha, rfl⟩ := hd
  rw [List.mem_filter] at ha
  obtain ⟨ha, hl⟩ := ha
  have hl : dataLen a = structSize := by simpa using hl
  have hh : a.header = ⟨0, 0, 0, 1, 0⟩ := by
    unfold dataLen structSize Raw.dynamicSize Raw.reservedOffset Raw.tcsVecOffset Raw.perpOoVecOffset Raw.perpVecOffset Raw.serum3VecOffset Raw.tokenVecOffset Raw.szToken Raw.szSerum3 Raw.szPerp Raw.szPerpOo Raw.szTcs Raw.szReserved at hl
    generalize a.header = hd at *
    obtain ⟨t, s, p, o, c⟩ := hd
    dsimp only at hl
    have h1 : t = 0 := by omega
    have h2 : s = 0 := by omega
    have h3 : p = 0 := by omega
    have h4 : c = 0 := by omega
    have h5 : o = 1 := by omega
    subst h1 h2 h3 h4 h5; rfl
  have hp : a.positions = [] := by
    have := hw a ha
    rw [hh] at this
    exact List.length_eq_zero_iff.1 (by simpa using this)
  refine ⟨by simp [computePnl, hp], a, ha, rfl, hh⟩

/-- positions: without base, a gain; a loss, within and above what can be settled; one with base; a loss of which nothing can be settled -/
example : computePnl ⟨1, ⟨8, 4, 4, 16, 0⟩, [⟨0, 0, 50, 9⟩, ⟨1, 0, -50, 80⟩, ⟨2, 0, -50, 20⟩, ⟨3, 7, 50, 9⟩, ⟨4, 0, -50, 0⟩]⟩ = [(0, 50), (1, -50), (2, -20)] := by decide +kernel

def exData : List (Nat × List (Nat × Int)) := [(1, [(0, 50)]), (2, [(0, -20), (1, 3)]), (3, [(1, 4)]), (4, [(0, 70)])]

/-- the two highest of market 0; four panic, as there are only three; the lowest panic -/
example : Request exData 0 2 .desc (some (.ok [(4, 70), (1, 50)])) ∧ Request exData 0 4 .desc (some (.error .panic)) ∧ Request exData 0 1 .asc (some (.error .panic)) := by
  unfold Request
  refine ⟨?_, ?_, ?_⟩
  · rw [if_neg (by omega)]
    refine ⟨[(4, [(0, 70)]), (1, [(0, 50)]), (2, [(0, -20), (1, 3)]), (3, [(1, 4)])], by decide, ?_, by decide⟩
    simp [InOrder, entry, le]
  · rw [if_neg (by omega)]
    refine ⟨[(4, [(0, 70)]), (1, [(0, 50)]), (2, [(0, -20), (1, 3)]), (3, [(1, 4)])], by decide, ?_, by decide⟩
    simp [InOrder, entry, le]
  · rw [if_neg (by omega)]
    refine ⟨[(3, [(1, 4)]), (2, [(0, -20), (1, 3)]), (1, [(0, 50)]), (4, [(0, 70)])], by decide, ?_, by decide⟩
    simp [InOrder, entry, le]

/-- an account as they are created is passed over; the only one that is not has one order slot and nothing else -/
example : update [⟨1, ⟨8, 4, 4, 16, 0⟩, [⟨0, 0, 50, 9⟩]⟩] = [] ∧ update [⟨2, ⟨0, 0, 0, 1, 0⟩, []⟩] = [(2, [])] := by decide +kernel

end PnlService
end Mango
