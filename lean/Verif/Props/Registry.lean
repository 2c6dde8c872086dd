import Verif.Config.Registry
import Mathlib.Tactic.Common
/-!
# C82: what a group lists
-/
namespace Mango
namespace Registry

/-- which content belongs to which address -/
def fits : Addr → Data → Prop
  | .bank i n, .bank i' _ v n' => i' = i ∧ n' = n ∧ v = .vault i n
  | .vault _ _, .vault _ => True
  | .mintInfo m, .mintInfo _ m' _ _ => m' = m
  | .perp i, .perp i' _ _ _ _ => i' = i
  | .spot e, .spot _ _ _ e' => e' = e
  | .spotIndex i, .spotIndex i' => i' = i
  | .key _, .bookSide => True
  | .key _, .queue => True
  | .key _, .zero => True
  | _, _ => False

def Typed (s : State) : Prop := ∀ a d, s.acct a = some d → fits a d

theorem put_acct (s : State) (a x : Addr) (d : Data) : (s.put a d).acct x = if x = a then some d else s.acct x := rfl
theorem close_acct (s : State) (a x : Addr) : (s.close a).acct x = if x = a then none else s.acct x := rfl

theorem Typed.put {s : State} (h : Typed s) {a : Addr} {d : Data} (hd : fits a d) : Typed (s.put a d) := by
  intro x e hx
  rw [put_acct] at hx
  split at hx
  · simp only [Option.some.injEq] at hx
    subst_vars
    exact hd
  · exact h _ _ hx

theorem Typed.close {s : State} (h : Typed s) (a : Addr) : Typed (s.close a) := by
  intro x e hx
  rw [close_acct] at hx
  split at hx
  · cases hx
  · exact h _ _ hx

theorem Typed.closeAll {s : State} (h : Typed s) (l : List Addr) : Typed (s.closeAll l) := by
  unfold State.closeAll
  induction l generalizing s with
  | nil => exact h
  | cons a l ih => exact ih (h.close a)

theorem closeAll_acct (l : List Addr) (s : State) (x : Addr) : (s.closeAll l).acct x = if x ∈ l then none else s.acct x := by
  unfold State.closeAll
  induction l generalizing s with
  | nil => simp
  | cons a l ih =>
    rw [List.foldl_cons, ih, close_acct]
    by_cases h : x = a <;> by_cases h2 : x ∈ l <;> simp [h, h2]

/-- the accounts of tokens: a mint info names banks and vaults in order, they are as named, and there are no others -/
structure TokInv (f : Addr → Option Data) : Prop where
  mi : ∀ i m bs vs, f (.mintInfo m) = some (.mintInfo i m bs vs) → i ≠ 65535 ∧ 0 < bs.length ∧ bs.length ≤ 6 ∧ vs.length = bs.length ∧
    ∀ k, k < bs.length → bs[k]? = some (.bank i k) ∧ vs[k]? = some (.vault i k) ∧ f (.bank i k) = some (.bank i m (.vault i k) k)
  bank : ∀ i m n, f (.bank i n) = some (.bank i m (.vault i n) n) → f (.vault i n) = some (.vault m) ∧ ∃ bs vs, f (.mintInfo m) = some (.mintInfo i m bs vs) ∧ n < bs.length
  vault : ∀ i n m, f (.vault i n) = some (.vault m) → f (.bank i n) = some (.bank i m (.vault i n) n)

/-- the accounts of perp markets: each has book sides and a queue of its own -/
structure PerpInv (f : Addr → Option Data) : Prop where
  own : ∀ i st b a q, f (.perp i) = some (.perp i st b a q) → ∀ x, x = b ∨ x = a ∨ x = q → f x = some .bookSide ∨ f x = some .queue
  apart : ∀ i j st st' b b' a a' q q', i ≠ j → f (.perp i) = some (.perp i st b a q) → f (.perp j) = some (.perp j st' b' a' q') →
    ∀ x, x = b ∨ x = a ∨ x = q → x ≠ b' ∧ x ≠ a' ∧ x ≠ q'
  two : ∀ i st b a q, f (.perp i) = some (.perp i st b a q) → b ≠ a

/-- the accounts of spot markets -/
structure SpotInv (f : Addr → Option Data) : Prop where
  idx : ∀ e i b q, f (.spot e) = some (.spot i b q e) → f (.spotIndex i) = some (.spotIndex i)
  one : ∀ e e' i b q b' q', f (.spot e) = some (.spot i b q e) → f (.spot e') = some (.spot i b' q' e') → e = e'

structure Inv (s : State) : Prop where
  typed : Typed s
  tok : TokInv s.acct
  perp : PerpInv s.acct
  spot : SpotInv s.acct

theorem TokInv.frame {f g : Addr → Option Data} (h : TokInv f) (h1 : ∀ i n, g (.bank i n) = f (.bank i n)) (h2 : ∀ i n, g (.vault i n) = f (.vault i n)) (h3 : ∀ m, g (.mintInfo m) = f (.mintInfo m)) :
    TokInv g := by
  constructor
  · intro i m bs vs
    simp only [h1, h3]
    exact h.mi i m bs vs
  · intro i m n
    simp only [h1, h2, h3]
    exact h.bank i m n
  · intro i n m
    simp only [h1, h2]
    exact h.vault i n m

theorem PerpInv.frame {f g : Addr → Option Data} (h : PerpInv f) (h1 : ∀ i, g (.perp i) = f (.perp i)) (h2 : ∀ x, f x = some .bookSide ∨ f x = some .queue → g x = f x) : PerpInv g := by
  constructor
  · intro i st b a q
    rw [h1]
    intro hp x hx
    have := h.own i st b a q hp x hx
    rw [h2 x this]
    exact this
  · intro i j st st' b b' a a' q q'
    simp only [h1]
    exact h.apart i j st st' b b' a a' q q'
  · intro i st b a q
    rw [h1]
    exact h.two i st b a q

theorem SpotInv.frame {f g : Addr → Option Data} (h : SpotInv f) (h1 : ∀ e, g (.spot e) = f (.spot e)) (h2 : ∀ i, g (.spotIndex i) = f (.spotIndex i)) : SpotInv g := by
  constructor
  · intro e i b q
    simp only [h1, h2]
    exact h.idx e i b q
  · intro e e' i b q b' q'
    simp only [h1]
    exact h.one e e' i b q b' q'

theorem inv_new (t : Bool) : Inv (State.new t) := by
  constructor
  · intro a d h
    cases h
  all_goals constructor <;> simp [State.new]

theorem init_ok {s s' : State} {a : Addr} {d : Data} : s.init a d = .ok s' ↔ s.acct a = none ∧ s' = s.put a d := by
  unfold State.init
  simp only [bind_ok, require_ok, ok_inj, exists_const]
  tauto

/-- writes to addresses that are not keys leave book sides and queues alone -/
theorem key_of {s : State} (h : Typed s) {x : Addr} (hx : s.acct x = some .bookSide ∨ s.acct x = some .queue ∨ s.acct x = some .zero) : ∃ k, x = .key k := by
  rcases hx with hx | hx | hx <;> have := h _ _ hx <;> cases x <;> simp_all [fits]

theorem inv_register {s s' : State} {t : Bool} {i m : Nat} (I : Inv s) (h : register s t i m = .ok s') : Inv s' := by
  unfold register at h
  simp only [bind_ok, require_ok, init_ok, ok_inj] at h
  obtain ⟨s1, ⟨h1, rfl⟩, s2, ⟨h2, rfl⟩, s3, ⟨h3, rfl⟩, _, h4, _, h5, rfl⟩ := h
  simp only [put_acct, reduceCtorEq, if_false] at h2 h3
  refine ⟨((I.typed.put (by simp [fits])).put (by simp [fits])).put (by simp [fits]), ?_, ?_, ?_⟩
  · have hm : ∀ m' i' bs vs, s.acct (.mintInfo m') = some (.mintInfo i' m' bs vs) → i' ≠ i := by
      rintro m' i' bs vs hx rfl
      obtain ⟨_, hl, _, _, hk⟩ := I.tok.mi _ _ _ _ hx
      have := (hk 0 hl).2.2
      rw [h1] at this
      cases this
    constructor
    · intro i' m' bs vs
      simp only [put_acct, reduceCtorEq, if_false, Addr.mintInfo.injEq, Addr.bank.injEq]
      by_cases hmm : m' = m
      · subst hmm
        simp only [if_true, Option.some.injEq, Data.mintInfo.injEq, and_imp]
        rintro rfl _ rfl rfl
        refine ⟨h5, by simp, by simp, by simp, ?_⟩
        intro k hk
        have : k = 0 := by simpa using hk
        subst this
        simp
      · rw [if_neg hmm]
        intro hx
        obtain ⟨a1, a2, a3, a4, a5⟩ := I.tok.mi _ _ _ _ hx
        refine ⟨a1, a2, a3, a4, ?_⟩
        intro k hk
        have := a5 k hk
        have hne := hm _ _ _ _ hx
        simp only [hne, false_and, if_false]
        exact this
    · intro i' m' n
      simp only [put_acct, reduceCtorEq, if_false, Addr.mintInfo.injEq, Addr.bank.injEq, Addr.vault.injEq]
      by_cases hin : i' = i ∧ n = 0
      · obtain ⟨rfl, rfl⟩ := hin
        simp only [and_self, if_true, Option.some.injEq, Data.bank.injEq, and_true, true_and]
        rintro rfl
        exact ⟨rfl, [.bank i' 0], [.vault i' 0], by simp, by simp⟩
      · rw [if_neg hin, if_neg hin]
        intro hx
        obtain ⟨b1, bs, vs, b2, b3⟩ := I.tok.bank _ _ _ hx
        refine ⟨b1, bs, vs, ?_, b3⟩
        have hmm : m' ≠ m := by
          rintro rfl
          rw [h3] at b2
          cases b2
        rw [if_neg hmm]
        exact b2
    · intro i' n m'
      simp only [put_acct, reduceCtorEq, if_false, Addr.bank.injEq, Addr.vault.injEq]
      by_cases hin : i' = i ∧ n = 0
      · obtain ⟨rfl, rfl⟩ := hin
        simp
      · rw [if_neg hin, if_neg hin]
        exact I.tok.vault _ _ _
  · refine I.perp.frame (by simp [put_acct]) ?_
    intro x hx
    obtain ⟨k, rfl⟩ := key_of I.typed (by tauto)
    simp [put_acct]
  · exact I.spot.frame (by simp [put_acct]) (by simp [put_acct])

theorem inv_addBank {s s' : State} {i n m : Nat} {e mi : Addr} (I : Inv s) (h : addBank s i n m e mi = .ok s') : Inv s' := by
  unfold addBank at h
  simp only [bind_ok, require_ok] at h
  obtain ⟨_, _, h⟩ := h
  split at h
  · rename_i i' m' v' n' i'' m'' bs vs h1 h2
    simp only [bind_ok, require_ok, init_ok, ok_inj] at h
    obtain ⟨_, ⟨rfl, rfl⟩, _, ⟨rfl, rfl⟩, s1, ⟨h3, rfl⟩, s2, ⟨h4, rfl⟩, _, h5, _, rfl, rfl⟩ := h
    simp only [put_acct, reduceCtorEq, if_false] at h4
    have hmi : mi = .mintInfo m'' := by
      have := I.typed _ _ h2
      cases mi <;> simp_all [fits]
    subst hmi
    obtain ⟨c1, c2, c3, c4, c5⟩ := I.tok.mi _ _ _ _ h2
    refine ⟨((I.typed.put (by simp [fits])).put (by simp [fits])).put (by simp [fits]), ?_, ?_, ?_⟩
    · constructor
      · intro i m bs' vs'
        simp only [put_acct, reduceCtorEq, if_false, Addr.mintInfo.injEq, Addr.bank.injEq]
        by_cases hmm : m = m''
        · subst hmm
          simp only [if_true, Option.some.injEq, Data.mintInfo.injEq, and_imp]
          rintro rfl _ rfl rfl
          refine ⟨c1, by simp, by simp; omega, by simp [c4], ?_⟩
          intro k hk
          simp only [List.length_append, List.length_cons, List.length_nil] at hk
          by_cases hkl : k = bs.length
          · subst hkl
            refine ⟨by simp, ?_, by simp⟩
            rw [← c4]
            simp
          · have hk' : k < bs.length := by omega
            obtain ⟨d1, d2, d3⟩ := c5 k hk'
            rw [List.getElem?_append_left hk', List.getElem?_append_left (by omega)]
            refine ⟨d1, d2, ?_⟩
            rw [if_neg (by omega)]
            exact d3
        · rw [if_neg hmm]
          intro hx
          obtain ⟨a1, a2, a3, a4, a5⟩ := I.tok.mi _ _ _ _ hx
          refine ⟨a1, a2, a3, a4, ?_⟩
          intro k hk
          obtain ⟨d1, d2, d3⟩ := a5 k hk
          refine ⟨d1, d2, ?_⟩
          rw [if_neg]
          · exact d3
          · rintro ⟨rfl, rfl⟩
            rw [h3] at d3
            cases d3
      · intro i m n
        simp only [put_acct, reduceCtorEq, if_false, Addr.mintInfo.injEq, Addr.bank.injEq, Addr.vault.injEq]
        by_cases hin : i = i'' ∧ n = bs.length
        · obtain ⟨rfl, rfl⟩ := hin
          simp only [and_self, if_true, Option.some.injEq, Data.bank.injEq, and_true, true_and]
          rintro rfl
          exact ⟨rfl, _, _, by rw [if_pos rfl], by simp⟩
        · rw [if_neg hin, if_neg hin]
          intro hx
          obtain ⟨b1, bs', vs', b2, b3⟩ := I.tok.bank _ _ _ hx
          by_cases hmm : m = m''
          · subst hmm
            rw [h2] at b2
            simp only [Option.some.injEq, Data.mintInfo.injEq] at b2
            obtain ⟨rfl, _, rfl, rfl⟩ := b2
            exact ⟨b1, _, _, by rw [if_pos rfl], by simp; omega⟩
          · exact ⟨b1, bs', vs', by rw [if_neg hmm]; exact b2, b3⟩
      · intro i n m
        simp only [put_acct, reduceCtorEq, if_false, Addr.bank.injEq, Addr.vault.injEq]
        by_cases hin : i = i'' ∧ n = bs.length
        · obtain ⟨rfl, rfl⟩ := hin
          simp
        · rw [if_neg hin, if_neg hin]
          exact I.tok.vault _ _ _
    · refine I.perp.frame (by simp [put_acct]) ?_
      intro x hx
      obtain ⟨k, rfl⟩ := key_of I.typed (by tauto)
      simp [put_acct]
    · exact I.spot.frame (by simp [put_acct]) (by simp [put_acct])
  · cases h

theorem inv_deregister {s s' : State} {mi : Addr} (I : Inv s) (h : deregister s mi = .ok s') : Inv s' := by
  unfold deregister at h
  simp only [bind_ok, require_ok] at h
  obtain ⟨_, _, h⟩ := h
  split at h
  · rename_i i m bs vs h1
    simp only [bind_ok, ok_inj] at h
    obtain ⟨_, h2, rfl⟩ := h
    have hmi : mi = .mintInfo m := by
      have := I.typed _ _ h1
      cases mi <;> simp_all [fits]
    subst hmi
    obtain ⟨hi, hb, h6, hv, hk⟩ := I.tok.mi _ _ _ _ h1
    have mb : ∀ x, x ∈ bs ↔ ∃ k, k < bs.length ∧ x = .bank i k := by
      intro x
      rw [List.mem_iff_getElem?]
      constructor
      · rintro ⟨k, hx⟩
        have hl : k < bs.length := by
          rw [List.getElem?_eq_some_iff] at hx
          exact hx.1
        have := (hk k hl).1
        exact ⟨k, hl, by rw [this, Option.some.injEq] at hx; exact hx.symm⟩
      · rintro ⟨k, hl, rfl⟩
        exact ⟨k, (hk k hl).1⟩
    have mv : ∀ x, x ∈ vs ↔ ∃ k, k < bs.length ∧ x = .vault i k := by
      intro x
      rw [List.mem_iff_getElem?]
      constructor
      · rintro ⟨k, hx⟩
        have hl : k < bs.length := by
          rw [List.getElem?_eq_some_iff] at hx
          rw [← hv]
          exact hx.1
        have := (hk k hl).2.1
        exact ⟨k, hl, by rw [this, Option.some.injEq] at hx; exact hx.symm⟩
      · rintro ⟨k, hl, rfl⟩
        exact ⟨k, (hk k hl).2.1⟩
    have key : ∀ x, (((s.closeAll vs).closeAll bs).close (.mintInfo m)).acct x = if x = .mintInfo m then none else if x ∈ bs then none else if x ∈ vs then none else s.acct x := by
      intro x
      simp only [close_acct, closeAll_acct]
    have kb : ∀ j k, (((s.closeAll vs).closeAll bs).close (.mintInfo m)).acct (.bank j k) = if j = i ∧ k < bs.length then none else s.acct (.bank j k) := by
      intro j k
      rw [key]
      simp only [mb, mv, reduceCtorEq, if_false, and_false, exists_const, Addr.bank.injEq]
      by_cases hh : j = i ∧ k < bs.length
      · rw [if_pos ⟨k, hh.2, hh.1, rfl⟩, if_pos hh]
      · rw [if_neg, if_neg hh]
        rintro ⟨k', a, b, rfl⟩
        exact hh ⟨b, a⟩
    have kv : ∀ j k, (((s.closeAll vs).closeAll bs).close (.mintInfo m)).acct (.vault j k) = if j = i ∧ k < bs.length then none else s.acct (.vault j k) := by
      intro j k
      rw [key]
      simp only [mb, mv, reduceCtorEq, if_false, and_false, exists_const, Addr.vault.injEq]
      by_cases hh : j = i ∧ k < bs.length
      · rw [if_pos ⟨k, hh.2, hh.1, rfl⟩, if_pos hh]
      · rw [if_neg, if_neg hh]
        rintro ⟨k', a, b, rfl⟩
        exact hh ⟨b, a⟩
    have km : ∀ m', (((s.closeAll vs).closeAll bs).close (.mintInfo m)).acct (.mintInfo m') = if m' = m then none else s.acct (.mintInfo m') := by
      intro m'
      rw [key]
      simp only [mb, mv, reduceCtorEq, and_false, exists_const, if_false, Addr.mintInfo.injEq]
    refine ⟨((I.typed.closeAll _).closeAll _).close _, ?_, ?_, ?_⟩
    · constructor
      · intro j m' bs' vs'
        rw [km]
        split
        · intro hx
          cases hx
        · rename_i hmm
          intro hx
          obtain ⟨a1, a2, a3, a4, a5⟩ := I.tok.mi _ _ _ _ hx
          refine ⟨a1, a2, a3, a4, ?_⟩
          intro k hkl
          obtain ⟨d1, d2, d3⟩ := a5 k hkl
          refine ⟨d1, d2, ?_⟩
          rw [kb, if_neg]
          · exact d3
          · rintro ⟨rfl, hkb⟩
            have := (hk k hkb).2.2
            rw [d3] at this
            simp at this
            exact hmm this
      · intro j m' n
        rw [kb, kv]
        split
        · intro hx
          cases hx
        · rename_i hh
          intro hx
          obtain ⟨b1, bs', vs', b2, b3⟩ := I.tok.bank _ _ _ hx
          refine ⟨b1, bs', vs', ?_, b3⟩
          rw [km, if_neg]
          · exact b2
          · rintro rfl
            rw [h1] at b2
            simp only [Option.some.injEq, Data.mintInfo.injEq] at b2
            obtain ⟨rfl, _, rfl, rfl⟩ := b2
            exact hh ⟨rfl, b3⟩
      · intro j n m'
        rw [kb, kv]
        split
        · intro hx
          cases hx
        · exact I.tok.vault _ _ _
    · refine I.perp.frame ?_ ?_
      · intro j
        rw [key]
        simp [mb, mv]
      · intro x hx
        obtain ⟨k, rfl⟩ := key_of I.typed (by tauto)
        rw [key]
        simp [mb, mv]
    · refine I.spot.frame ?_ ?_ <;> intro j <;> rw [key] <;> simp [mb, mv]
  · cases h

theorem inv_perpCreate {s s' : State} {i st : Nat} {b a q : Addr} (I : Inv s) (h : perpCreate s i st b a q = .ok s') : Inv s' := by
  unfold perpCreate at h
  simp only [bind_ok, require_ok, init_ok, ok_inj] at h
  obtain ⟨s1, ⟨h1, rfl⟩, _, h2, _, h3, _, h4, _, h5, rfl⟩ := h
  simp only [put_acct] at h2 h3 h4
  have g : ∀ x, (if x = Addr.perp i then some (Data.perp i st b a q) else s.acct x) = some .zero → s.acct x = some .zero := by
    intro x hx
    split at hx
    · cases hx
    · exact hx
  replace h2 := g _ h2
  replace h3 := g _ h3
  replace h4 := g _ h4
  obtain ⟨kb, rfl⟩ := key_of I.typed (.inr (.inr h2))
  obtain ⟨ka, rfl⟩ := key_of I.typed (.inr (.inr h3))
  obtain ⟨kq, rfl⟩ := key_of I.typed (.inr (.inr h4))
  refine ⟨(((I.typed.put (by simp [fits])).put (by simp [fits])).put (by simp [fits])).put (by simp [fits]), ?_, ?_, ?_⟩
  · exact I.tok.frame (by simp [put_acct]) (by simp [put_acct]) (by simp [put_acct])
  · obtain ⟨own, apart, two⟩ := I.perp
    have fresh : ∀ j st' b' a' q', s.acct (.perp j) = some (.perp j st' b' a' q') → ∀ x, x = Addr.key kb ∨ x = .key ka ∨ x = .key kq → x ≠ b' ∧ x ≠ a' ∧ x ≠ q' := by
      intro j st' b' a' q' hp x hx
      have hz : s.acct x = some .zero := by
        rcases hx with rfl | rfl | rfl <;> assumption
      refine ⟨?_, ?_, ?_⟩ <;> rintro rfl
      · rcases own _ _ _ _ _ hp x (.inl rfl) with h | h <;> rw [hz] at h <;> cases h
      · rcases own _ _ _ _ _ hp x (.inr (.inl rfl)) with h | h <;> rw [hz] at h <;> cases h
      · rcases own _ _ _ _ _ hp x (.inr (.inr rfl)) with h | h <;> rw [hz] at h <;> cases h
    constructor
    · intro j st' b' a' q'
      simp only [put_acct, reduceCtorEq, if_false, Addr.perp.injEq]
      by_cases hj : j = i
      · subst hj
        simp only [if_true, Option.some.injEq, Data.perp.injEq, and_imp, true_and]
        rintro rfl rfl rfl rfl x hx
        rcases hx with rfl | rfl | rfl <;> simp only [Addr.key.injEq] <;> grind
      · rw [if_neg hj]
        intro hp x hx
        have := own _ _ _ _ _ hp x hx
        have hf := fresh _ _ _ _ _ hp
        have n1 : x ≠ .key kb := by rintro rfl; have := hf _ (.inl rfl); tauto
        have n2 : x ≠ .key ka := by rintro rfl; have := hf _ (.inr (.inl rfl)); tauto
        have n3 : x ≠ .key kq := by rintro rfl; have := hf _ (.inr (.inr rfl)); tauto
        have n4 : x ≠ .perp i := by
          obtain ⟨k, rfl⟩ := key_of I.typed (x := x) (by tauto)
          simp
        rw [if_neg n1, if_neg n2, if_neg n3, if_neg n4]
        exact this
    · intro j j' st1 st2 b1 b2 a1 a2 q1 q2 hne
      simp only [put_acct, reduceCtorEq, if_false, Addr.perp.injEq]
      by_cases hj : j = i
      · have hj' : j' ≠ i := by omega
        subst hj
        rw [if_neg hj', if_pos rfl]
        intro hp hp'
        simp only [Option.some.injEq, Data.perp.injEq, true_and] at hp
        obtain ⟨rfl, rfl, rfl, rfl⟩ := hp
        exact fresh _ _ _ _ _ hp'
      · rw [if_neg hj]
        intro hp
        by_cases hj' : j' = i
        · subst hj'
          rw [if_pos rfl]
          intro hp'
          simp only [Option.some.injEq, Data.perp.injEq, true_and] at hp'
          obtain ⟨rfl, rfl, rfl, rfl⟩ := hp'
          have hf := fresh _ _ _ _ _ hp
          intro x hx
          refine ⟨?_, ?_, ?_⟩ <;> rintro rfl
          · have := hf _ (.inl rfl); tauto
          · have := hf _ (.inr (.inl rfl)); tauto
          · have := hf _ (.inr (.inr rfl)); tauto
        · rw [if_neg hj']
          intro hp'
          exact apart _ _ _ _ _ _ _ _ _ _ hne hp hp'
    · intro j st' b' a' q'
      simp only [put_acct, reduceCtorEq, if_false, Addr.perp.injEq]
      by_cases hj : j = i
      · rw [if_pos hj]
        intro hp
        simp only [Option.some.injEq, Data.perp.injEq] at hp
        obtain ⟨_, _, rfl, rfl, _⟩ := hp
        exact h5
      · rw [if_neg hj]
        exact two _ _ _ _ _
  · exact I.spot.frame (by simp [put_acct]) (by simp [put_acct])

theorem inv_perpClose {s s' : State} {m : Addr} (I : Inv s) (h : perpClose s m = .ok s') : Inv s' := by
  unfold perpClose at h
  simp only [bind_ok, require_ok] at h
  obtain ⟨_, _, h⟩ := h
  split at h
  · rename_i i st b a q h1
    simp only [bind_ok, require_ok, ok_inj] at h
    obtain ⟨_, h2, _, h3, _, h4, rfl⟩ := h
    have hm : m = .perp i := by
      have := I.typed _ _ h1
      cases m <;> simp_all [fits]
    subst hm
    obtain ⟨kb, rfl⟩ := key_of I.typed (.inl h2)
    obtain ⟨ka, rfl⟩ := key_of I.typed (.inl h3)
    obtain ⟨kq, rfl⟩ := key_of I.typed (.inr (.inl h4))
    refine ⟨(((I.typed.close _).close _).close _).close _, ?_, ?_, ?_⟩
    · exact I.tok.frame (by simp [close_acct]) (by simp [close_acct]) (by simp [close_acct])
    · obtain ⟨own, apart, two⟩ := I.perp
      constructor
      · intro j st' b' a' q'
        simp only [close_acct, reduceCtorEq, if_false, Addr.perp.injEq]
        by_cases hj : j = i
        · rw [if_pos hj]
          intro hx
          cases hx
        · rw [if_neg hj]
          intro hp x hx
          have := own _ _ _ _ _ hp x hx
          have hf := apart _ _ _ _ _ _ _ _ _ _ hj hp h1 x hx
          have n4 : x ≠ .perp i := by
            obtain ⟨k, rfl⟩ := key_of I.typed (x := x) (by tauto)
            simp
          rw [if_neg hf.1, if_neg hf.2.1, if_neg hf.2.2, if_neg n4]
          exact this
      · intro j j' st1 st2 b1 b2 a1 a2 q1 q2 hne
        simp only [close_acct, reduceCtorEq, if_false, Addr.perp.injEq]
        split
        · intro hx
          cases hx
        · intro hp
          split
          · intro hx
            cases hx
          · exact apart _ _ _ _ _ _ _ _ _ _ hne hp
      · intro j st' b' a' q'
        simp only [close_acct, reduceCtorEq, if_false, Addr.perp.injEq]
        split
        · intro hx
          cases hx
        · exact two _ _ _ _ _
    · exact I.spot.frame (by simp [close_acct]) (by simp [close_acct])
  · cases h

theorem inv_spotRegister {mints : Nat → Nat × Nat} {s s' : State} {i e : Nat} {b q : Addr} (I : Inv s) (h : spotRegister mints s i e b q = .ok s') : Inv s' := by
  unfold spotRegister at h
  split at h
  · rename_i h1 h2
    simp only [bind_ok, require_ok, init_ok, ok_inj] at h
    obtain ⟨s1, ⟨h3, rfl⟩, s2, ⟨h4, rfl⟩, _, h5, _, h6, rfl⟩ := h
    simp only [put_acct, reduceCtorEq, if_false] at h4
    refine ⟨(I.typed.put (by simp [fits])).put (by simp [fits]), ?_, ?_, ?_⟩
    · exact I.tok.frame (by simp [put_acct]) (by simp [put_acct]) (by simp [put_acct])
    · refine I.perp.frame (by simp [put_acct]) ?_
      intro x hx
      obtain ⟨k, rfl⟩ := key_of I.typed (by tauto)
      simp [put_acct]
    · obtain ⟨idx, one⟩ := I.spot
      constructor
      · intro e' i' b' q'
        simp only [put_acct, reduceCtorEq, if_false, Addr.spot.injEq, Addr.spotIndex.injEq]
        grind
      · intro e1 e2 i' b1 q1 b2 q2
        simp only [put_acct, reduceCtorEq, if_false, Addr.spot.injEq]
        grind
  · cases h

theorem inv_spotDeregister {s s' : State} {m r : Addr} (I : Inv s) (h : spotDeregister s m r = .ok s') : Inv s' := by
  unfold spotDeregister at h
  simp only [bind_ok, require_ok] at h
  obtain ⟨_, _, h⟩ := h
  split at h
  · rename_i i b q e j h1 h2
    simp only [bind_ok, require_ok, ok_inj] at h
    obtain ⟨_, rfl, rfl⟩ := h
    have hm : m = .spot e := by
      have := I.typed _ _ h1
      cases m <;> simp_all [fits]
    have hr : r = .spotIndex i := by
      have := I.typed _ _ h2
      cases r <;> simp_all [fits]
    subst hm hr
    refine ⟨(I.typed.close _).close _, ?_, ?_, ?_⟩
    · exact I.tok.frame (by simp [close_acct]) (by simp [close_acct]) (by simp [close_acct])
    · refine I.perp.frame (by simp [close_acct]) ?_
      intro x hx
      obtain ⟨k, rfl⟩ := key_of I.typed (by tauto)
      simp [close_acct]
    · obtain ⟨idx, one⟩ := I.spot
      constructor
      · intro e' i' b' q'
        simp only [close_acct, reduceCtorEq, if_false, Addr.spot.injEq, Addr.spotIndex.injEq]
        grind
      · intro e1 e2 i' b1 q1 b2 q2
        simp only [close_acct, reduceCtorEq, if_false, Addr.spot.injEq]
        grind
  · cases h

theorem inv_fresh {s s' : State} {k : Nat} (I : Inv s) (h : s.init (.key k) .zero = .ok s') : Inv s' := by
  rw [init_ok] at h
  obtain ⟨h1, rfl⟩ := h
  refine ⟨I.typed.put (by simp [fits]), ?_, ?_, ?_⟩
  · exact I.tok.frame (by simp [put_acct]) (by simp [put_acct]) (by simp [put_acct])
  · refine I.perp.frame (by simp [put_acct]) ?_
    intro x hx
    rw [put_acct, if_neg]
    rintro rfl
    rw [h1] at hx
    simp at hx
  · exact I.spot.frame (by simp [put_acct]) (by simp [put_acct])

theorem inv_step {mints : Nat → Nat × Nat} {s s' : State} {op : Op} (I : Inv s) (h : step mints s op = .ok s') : Inv s' := by
  cases op with
  | setTesting b =>
    simp only [step, ok_inj] at h
    subst h
    exact ⟨I.1, I.2, I.3, I.4⟩
  | register => exact inv_register I h
  | addBank => exact inv_addBank I h
  | deregister => exact inv_deregister I h
  | perpCreate => exact inv_perpCreate I h
  | perpClose => exact inv_perpClose I h
  | spotRegister => exact inv_spotRegister I h
  | spotDeregister => exact inv_spotDeregister I h
  | fresh => exact inv_fresh I h

theorem Reachable.inv {mints : Nat → Nat × Nat} {s : State} (h : Reachable mints s) : Inv s := by
  induction h with
  | new t => exact inv_new t
  | step _ h ih => exact inv_step ih h

theorem bank_at {s : State} (I : Inv s) {a v : Addr} {i m n : Nat} (h : s.acct a = some (.bank i m v n)) : a = .bank i n ∧ v = .vault i n := by
  have := I.typed _ _ h
  cases a <;> simp_all [fits]

theorem mi_at {s : State} (I : Inv s) {a : Addr} {i m : Nat} {bs vs : List Addr} (h : s.acct a = some (.mintInfo i m bs vs)) : a = .mintInfo m := by
  have := I.typed _ _ h
  cases a <;> simp_all [fits]

theorem perp_at {s : State} (I : Inv s) {a b k q : Addr} {i st : Nat} (h : s.acct a = some (.perp i st b k q)) : a = .perp i := by
  have := I.typed _ _ h
  cases a <;> simp_all [fits]

theorem spot_at {s : State} (I : Inv s) {a : Addr} {i b q e : Nat} (h : s.acct a = some (.spot i b q e)) : a = .spot e := by
  have := I.typed _ _ h
  cases a <;> simp_all [fits]

/-! ## The claims -/

/-- **C82.** A token index stands for one mint and a mint has one token index; banks of a token have different numbers, and no two banks share a vault. -/
theorem C82_tokens {mints : Nat → Nat × Nat} {s : State} (hs : Reachable mints s) {a a' v v' : Addr} {i i' m m' n n' : Nat}
    (h : s.acct a = some (.bank i m v n)) (h' : s.acct a' = some (.bank i' m' v' n')) :
    (i = i' ↔ m = m') ∧ (i = i' → n = n' → a = a') ∧ (v = v' → a = a') := by
  have I := hs.inv
  obtain ⟨rfl, rfl⟩ := bank_at I h
  obtain ⟨rfl, rfl⟩ := bank_at I h'
  obtain ⟨_, bs, vs, g1, g2⟩ := I.tok.bank _ _ _ h
  obtain ⟨_, bs', vs', g1', g2'⟩ := I.tok.bank _ _ _ h'
  have z := ((I.tok.mi _ _ _ _ g1).2.2.2.2 0 (by omega)).2.2
  have z' := ((I.tok.mi _ _ _ _ g1').2.2.2.2 0 (by omega)).2.2
  refine ⟨⟨?_, ?_⟩, ?_, ?_⟩
  · rintro rfl
    rw [z] at z'
    simp at z'
    exact z'
  · rintro rfl
    rw [g1] at g1'
    simp at g1'
    exact g1'.1
  · rintro rfl rfl
    rfl
  · intro hv
    simp only [Addr.vault.injEq] at hv
    rw [hv.1, hv.2]

/-- **C82.** Each bank is named, with its vault, by the mint info of its mint, at the place of its number; the vault is a token account of the mint. No other mint info has its index. -/
theorem C82_bank_listed {mints : Nat → Nat × Nat} {s : State} (hs : Reachable mints s) {a v : Addr} {i m n : Nat} (h : s.acct a = some (.bank i m v n)) :
    s.acct v = some (.vault m) ∧ (∃ mi bs vs, s.acct mi = some (.mintInfo i m bs vs) ∧ bs[n]? = some a ∧ vs[n]? = some v) ∧
      ∀ a1 a2 i1 i2 m1 m2 bs1 bs2 vs1 vs2, s.acct a1 = some (.mintInfo i1 m1 bs1 vs1) → s.acct a2 = some (.mintInfo i2 m2 bs2 vs2) → i1 = i2 ∨ m1 = m2 → a1 = a2 := by
  have I := hs.inv
  obtain ⟨rfl, rfl⟩ := bank_at I h
  obtain ⟨g0, bs, vs, g1, g2⟩ := I.tok.bank _ _ _ h
  obtain ⟨_, _, _, _, hk⟩ := I.tok.mi _ _ _ _ g1
  refine ⟨g0, ⟨_, bs, vs, g1, (hk n g2).1, (hk n g2).2.1⟩, ?_⟩
  intro a1 a2 i1 i2 m1 m2 bs1 bs2 vs1 vs2 h1 h2 hor
  obtain rfl := mi_at I h1
  obtain rfl := mi_at I h2
  rcases hor with rfl | rfl
  · obtain ⟨_, l1, _, _, k1⟩ := I.tok.mi _ _ _ _ h1
    obtain ⟨_, l2, _, _, k2⟩ := I.tok.mi _ _ _ _ h2
    have z1 := (k1 0 l1).2.2
    have z2 := (k2 0 l2).2.2
    rw [z1] at z2
    simp at z2
    rw [z2]
  · rfl

/-- **C82.** What a mint info names exists: between one and six banks of its token and mint, numbered in order, each with its vault. -/
theorem C82_listed_exists {mints : Nat → Nat × Nat} {s : State} (hs : Reachable mints s) {a : Addr} {i m : Nat} {bs vs : List Addr} (h : s.acct a = some (.mintInfo i m bs vs)) :
    1 ≤ bs.length ∧ bs.length ≤ 6 ∧ vs.length = bs.length ∧ i ≠ 65535 ∧
      ∀ (k : Nat) b, bs[k]? = some b → ∃ v, vs[k]? = some v ∧ s.acct b = some (.bank i m v k) ∧ s.acct v = some (.vault m) := by
  have I := hs.inv
  obtain rfl := mi_at I h
  obtain ⟨h1, h2, h3, h4, hk⟩ := I.tok.mi _ _ _ _ h
  refine ⟨h2, h3, h4, h1, ?_⟩
  intro k b hb
  have hl : k < bs.length := by
    rw [List.getElem?_eq_some_iff] at hb
    exact hb.1
  obtain ⟨k1, k2, k3⟩ := hk k hl
  rw [k1, Option.some.injEq] at hb
  subst hb
  exact ⟨_, k2, k3, (I.tok.bank _ _ _ k3).1⟩

/-- **C82.** A perp market index stands for one market, its two book sides are different accounts, and no book side or event queue belongs to two markets. -/
theorem C82_perps {mints : Nat → Nat × Nat} {s : State} (hs : Reachable mints s) {a a' b b' k k' q q' : Addr} {i i' st st' : Nat}
    (h : s.acct a = some (.perp i st b k q)) (h' : s.acct a' = some (.perp i' st' b' k' q')) :
    (i = i' → a = a') ∧ b ≠ k ∧ (a ≠ a' → ∀ x ∈ [b, k, q], x ∉ [b', k', q']) := by
  have I := hs.inv
  obtain rfl := perp_at I h
  obtain rfl := perp_at I h'
  refine ⟨by rintro rfl; rfl, I.perp.two _ _ _ _ _ h, ?_⟩
  intro hne x hx
  have hii : i ≠ i' := by
    rintro rfl
    exact hne rfl
  have := I.perp.apart _ _ _ _ _ _ _ _ _ _ hii h h' x (by simpa using hx)
  simpa using this

/-- **C82.** A spot market index stands for one market, and an external market is listed at most once. -/
theorem C82_spots {mints : Nat → Nat × Nat} {s : State} (hs : Reachable mints s) {a a' : Addr} {i i' b b' q q' e e' : Nat}
    (h : s.acct a = some (.spot i b q e)) (h' : s.acct a' = some (.spot i' b' q' e')) : (i = i' ↔ e = e') ∧ (e = e' → a = a') := by
  have I := hs.inv
  obtain rfl := spot_at I h
  obtain rfl := spot_at I h'
  refine ⟨⟨?_, ?_⟩, by rintro rfl; rfl⟩
  · rintro rfl
    exact I.spot.one _ _ _ _ _ _ _ h h'
  · rintro rfl
    rw [h] at h'
    simp at h'
    exact h'.1

/-- **C82.** Outside testing groups nothing that is listed is changed or removed. -/
theorem C82_permanent {mints : Nat → Nat × Nat} {s s' : State} {op : Op} (ht : s.testing = false) (h : step mints s op = .ok s') {a : Addr} {d : Data} (ha : s.acct a = some d) (hd : d ≠ .zero) :
    s'.acct a = some d := by
  have keep : ∀ {t : State} {x : Addr} {e : Data}, t.acct a = some d → t.acct x = none → (t.put x e).acct a = some d := by
    intro t x e h1 h2
    rw [put_acct, if_neg]
    · exact h1
    · rintro rfl
      rw [h1] at h2
      cases h2
  cases op with
  | setTesting b =>
    simp only [step, ok_inj] at h
    subst h
    exact ha
  | register t i m =>
    simp only [step, register, bind_ok, require_ok, init_ok, ok_inj] at h
    obtain ⟨s1, ⟨h1, rfl⟩, s2, ⟨h2, rfl⟩, s3, ⟨h3, rfl⟩, _, h4, _, h5, rfl⟩ := h
    exact keep (keep (keep ha h1) h2) h3
  | addBank => simp [step, addBank, bind_ok, require_ok, ht] at h
  | deregister => simp [step, deregister, bind_ok, require_ok, ht] at h
  | perpClose => simp [step, perpClose, bind_ok, require_ok, ht] at h
  | spotDeregister => simp [step, spotDeregister, bind_ok, require_ok, ht] at h
  | perpCreate i st b k q =>
    simp only [step, perpCreate, bind_ok, require_ok, init_ok, ok_inj] at h
    obtain ⟨s1, ⟨h1, rfl⟩, _, h2, _, h3, _, h4, _, h5, rfl⟩ := h
    have h0 := keep (e := .perp i st b k q) ha h1
    have ne : ∀ x, (s.put (.perp i) (.perp i st b k q)).acct x = some .zero → a ≠ x := by
      rintro x hx rfl
      rw [h0] at hx
      simp at hx
      exact hd hx
    rw [put_acct, if_neg (ne _ h4), put_acct, if_neg (ne _ h3), put_acct, if_neg (ne _ h2)]
    exact h0
  | spotRegister i e b q =>
    simp only [step, spotRegister] at h
    split at h
    · simp only [bind_ok, require_ok, init_ok, ok_inj] at h
      obtain ⟨s1, ⟨h3, rfl⟩, s2, ⟨h4, rfl⟩, _, h5, _, h6, rfl⟩ := h
      exact keep (keep ha h3) h4
    · cases h
  | fresh k =>
    simp only [step, init_ok] at h
    obtain ⟨h1, rfl⟩ := h
    exact keep ha h1

/-- a history of a group that never was a testing group -/
inductive Serious (mints : Nat → Nat × Nat) : State → Prop
  | new : Serious mints (State.new false)
  | step {s s' : State} {op : Op} : Serious mints s → op ≠ .setTesting true → step mints s op = .ok s' → Serious mints s'

theorem testing_step {mints : Nat → Nat × Nat} {s s' : State} {op : Op} (h : step mints s op = .ok s') (ht : s.testing = false) (ho : op ≠ .setTesting true) : s'.testing = false := by
  cases op with
  | setTesting b =>
    simp only [step, ok_inj] at h
    subst h
    cases b
    · rfl
    · exact absurd rfl ho
  | register t i m =>
    simp only [step, register, bind_ok, require_ok, init_ok, ok_inj] at h
    obtain ⟨s1, ⟨h1, rfl⟩, s2, ⟨h2, rfl⟩, s3, ⟨h3, rfl⟩, _, h4, _, h5, rfl⟩ := h
    exact ht
  | addBank => simp [step, addBank, bind_ok, require_ok, ht] at h
  | deregister => simp [step, deregister, bind_ok, require_ok, ht] at h
  | perpClose => simp [step, perpClose, bind_ok, require_ok, ht] at h
  | spotDeregister => simp [step, spotDeregister, bind_ok, require_ok, ht] at h
  | perpCreate i st b k q =>
    simp only [step, perpCreate, bind_ok, require_ok, init_ok, ok_inj] at h
    obtain ⟨s1, ⟨h1, rfl⟩, _, h2, _, h3, _, h4, _, h5, rfl⟩ := h
    exact ht
  | spotRegister i e b q =>
    simp only [step, spotRegister] at h
    split at h
    · simp only [bind_ok, require_ok, init_ok, ok_inj] at h
      obtain ⟨s1, ⟨h3, rfl⟩, s2, ⟨h4, rfl⟩, _, h5, _, h6, rfl⟩ := h
      exact ht
    · cases h
  | fresh k =>
    simp only [step, init_ok] at h
    obtain ⟨h1, rfl⟩ := h
    exact ht

theorem Serious.reachable {mints : Nat → Nat × Nat} {s : State} (h : Serious mints s) : Reachable mints s ∧ s.testing = false := by
  induction h with
  | new => exact ⟨.new _, rfl⟩
  | step _ ho h ih => exact ⟨.step ih.1 h, testing_step h ih.2 ho⟩

/-- what a step adds to the spot markets -/
theorem spot_new {mints : Nat → Nat × Nat} {s s' : State} {op : Op} (h : step mints s op = .ok s') (ht : s.testing = false) {a : Addr} {i b q e : Nat} (ha : s'.acct a = some (.spot i b q e)) :
    s.acct a = some (.spot i b q e) ∨ ∃ x y v w n k, s.acct x = some (.bank b (mints e).1 v n) ∧ s.acct y = some (.bank q (mints e).2 w k) := by
  have old : ∀ {t : State} {x : Addr} {d : Data}, (t.put x d).acct a = some (.spot i b q e) → d ≠ .spot i b q e → t.acct a = some (.spot i b q e) := by
    intro t x d h1 h2
    rw [put_acct] at h1
    split at h1
    · simp at h1
      exact absurd h1 h2
    · exact h1
  cases op with
  | setTesting b =>
    simp only [step, ok_inj] at h
    subst h
    exact .inl ha
  | register t i m =>
    simp only [step, register, bind_ok, require_ok, init_ok, ok_inj] at h
    obtain ⟨s1, ⟨h1, rfl⟩, s2, ⟨h2, rfl⟩, s3, ⟨h3, rfl⟩, _, h4, _, h5, rfl⟩ := h
    exact .inl (old (old (old ha (by simp)) (by simp)) (by simp))
  | addBank => simp [step, addBank, bind_ok, require_ok, ht] at h
  | deregister => simp [step, deregister, bind_ok, require_ok, ht] at h
  | perpClose => simp [step, perpClose, bind_ok, require_ok, ht] at h
  | spotDeregister => simp [step, spotDeregister, bind_ok, require_ok, ht] at h
  | perpCreate i st b k q =>
    simp only [step, perpCreate, bind_ok, require_ok, init_ok, ok_inj] at h
    obtain ⟨s1, ⟨h1, rfl⟩, _, h2, _, h3, _, h4, _, h5, rfl⟩ := h
    exact .inl (old (old (old (old ha (by simp)) (by simp)) (by simp)) (by simp))
  | spotRegister i' e' x y =>
    simp only [step, spotRegister] at h
    split at h
    · rename_i bi bm v n qi qm w k h1 h2
      simp only [bind_ok, require_ok, init_ok, ok_inj] at h
      obtain ⟨s1, ⟨h3, rfl⟩, s2, ⟨h4, rfl⟩, _, h5, _, h6, rfl⟩ := h
      have ha1 := old ha (by simp)
      rw [put_acct] at ha1
      split at ha1
      · simp only [Option.some.injEq, Data.spot.injEq] at ha1
        obtain ⟨rfl, rfl, rfl, rfl⟩ := ha1
        subst h5 h6
        exact .inr ⟨x, y, v, w, n, k, h1, h2⟩
      · exact .inl ha1
    · cases h
  | fresh k =>
    simp only [step, init_ok] at h
    obtain ⟨h1, rfl⟩ := h
    exact .inl (old ha (by simp))

/-- **C82.** In a group that never was a testing group, a listed spot market's base and quote token indexes are those of the external market's mints, at every later time. -/
theorem C82_spot_tokens {mints : Nat → Nat × Nat} {s : State} (hs : Serious mints s) {a : Addr} {i b q e : Nat} (h : s.acct a = some (.spot i b q e)) :
    ∃ x y v w n k, s.acct x = some (.bank b (mints e).1 v n) ∧ s.acct y = some (.bank q (mints e).2 w k) := by
  induction hs with
  | new => cases h
  | @step s s' op hs ho hst ih =>
    have ht := hs.reachable.2
    rcases spot_new hst ht h with h | ⟨x, y, v, w, n, k, h1, h2⟩
    · obtain ⟨x, y, v, w, n, k, h1, h2⟩ := ih h
      exact ⟨x, y, v, w, n, k, C82_permanent ht hst h1 (by simp), C82_permanent ht hst h2 (by simp)⟩
    · exact ⟨x, y, v, w, n, k, C82_permanent ht hst h1 (by simp), C82_permanent ht hst h2 (by simp)⟩

/-- **C82.** A token can be listed exactly if its index and its mint are not in use (and the index is allowed). -/
theorem C82_register_iff {mints : Nat → Nat × Nat} {s : State} (hs : Reachable mints s) (t : Bool) (i m : Nat) :
    (∃ s', register s t i m = .ok s') ↔ i ≠ 65535 ∧ (t = true → i ≠ 0) ∧ ∀ a i' m' v n, s.acct a = some (.bank i' m' v n) → i' ≠ i ∧ m' ≠ m := by
  have I := hs.inv
  constructor
  · rintro ⟨s', h⟩
    unfold register at h
    simp only [bind_ok, require_ok, init_ok, ok_inj] at h
    obtain ⟨s1, ⟨h1, rfl⟩, s2, ⟨h2, rfl⟩, s3, ⟨h3, rfl⟩, _, h4, _, h5, rfl⟩ := h
    simp only [put_acct, reduceCtorEq, if_false] at h2 h3
    refine ⟨h5, h4, ?_⟩
    intro a i' m' v n ha
    obtain ⟨rfl, rfl⟩ := bank_at I ha
    obtain ⟨_, bs, vs, g1, g2⟩ := I.tok.bank _ _ _ ha
    have z := ((I.tok.mi _ _ _ _ g1).2.2.2.2 0 (by omega)).2.2
    constructor
    · rintro rfl
      rw [h1] at z
      cases z
    · rintro rfl
      rw [h3] at g1
      cases g1
  · rintro ⟨h5, h4, hu⟩
    have h1 : s.acct (.bank i 0) = none := by
      cases hx : s.acct (.bank i 0) with
      | none => rfl
      | some d =>
        have := I.typed _ _ hx
        cases d <;> simp [fits] at this
        obtain ⟨rfl, rfl, rfl⟩ := this
        exact absurd rfl (hu _ _ _ _ _ hx).1
    have h2 : s.acct (.vault i 0) = none := by
      cases hx : s.acct (.vault i 0) with
      | none => rfl
      | some d =>
        have := I.typed _ _ hx
        cases d <;> simp [fits] at this
        have := I.tok.vault _ _ _ hx
        rw [h1] at this
        cases this
    have h3 : s.acct (.mintInfo m) = none := by
      cases hx : s.acct (.mintInfo m) with
      | none => rfl
      | some d =>
        have := I.typed _ _ hx
        cases d <;> simp [fits] at this
        subst this
        obtain ⟨_, l, _, _, hk⟩ := I.tok.mi _ _ _ _ hx
        exact absurd rfl (hu _ _ _ _ _ (hk 0 l).2.2).2
    refine ⟨((s.put (.bank i 0) (.bank i m (.vault i 0) 0)).put (.vault i 0) (.vault m)).put (.mintInfo m) (.mintInfo i m [.bank i 0] [.vault i 0]), ?_⟩
    unfold register
    simp only [bind_ok, require_ok, init_ok, ok_inj]
    exact ⟨_, ⟨h1, rfl⟩, _, ⟨by simpa [put_acct] using h2, rfl⟩, _, ⟨by simpa [put_acct] using h3, rfl⟩, (), h4, (), h5, rfl⟩

/-! ## Examples -/

/-- two tokens, a perp market and a spot market in a group that is not a testing group -/
def exOps : List Op := [.register false 0 100, .register true 1 101, .fresh 1, .fresh 2, .fresh 3, .perpCreate 0 0 (.key 1) (.key 2) (.key 3), .spotRegister 7 55 (.bank 1 0) (.bank 0 0)]

def runOps (mints : Nat → Nat × Nat) (s : State) : List Op → Res State
  | [] => .ok s
  | op :: ops => do
    let s ← step mints s op
    runOps mints s ops

theorem Serious.run {mints : Nat → Nat × Nat} {s s' : State} {ops : List Op} (hs : Serious mints s) (ho : ∀ op ∈ ops, op ≠ .setTesting true) (h : runOps mints s ops = .ok s') : Serious mints s' := by
  induction ops generalizing s with
  | nil =>
    simp only [runOps, ok_inj] at h
    exact h ▸ hs
  | cons op ops ih =>
    simp only [runOps, bind_ok] at h
    obtain ⟨s1, h1, h2⟩ := h
    exact ih (.step hs (ho op (by simp)) h1) (fun o hm => ho o (by simp [hm])) h2

def exMints : Nat → Nat × Nat := fun _ => (101, 100)
def exState : State := (runOps exMints (State.new false) exOps).toOption.getD (State.new false)
theorem exState_ok : runOps exMints (State.new false) exOps = .ok exState := by rfl
theorem ex_serious : Serious exMints exState := Serious.run .new (by intro op h; simp [exOps] at h; rcases h with rfl | rfl | rfl | rfl | rfl | rfl | rfl <;> simp) exState_ok

example := C82_tokens ex_serious.reachable.1 (a := .bank 0 0) (a' := .bank 1 0) rfl rfl
example := C82_bank_listed ex_serious.reachable.1 (a := .bank 1 0) rfl
example := C82_listed_exists ex_serious.reachable.1 (a := .mintInfo 101) rfl
example := C82_perps ex_serious.reachable.1 (a := .perp 0) (a' := .perp 0) rfl rfl
example := C82_spots ex_serious.reachable.1 (a := .spot 55) (a' := .spot 55) rfl rfl
example := C82_spot_tokens ex_serious (a := .spot 55) rfl
example : ∃ s', register exState true 2 102 = .ok s' := ⟨_, rfl⟩
example : ∃ s', step exMints exState (.register true 2 102) = .ok s' ∧ s'.acct (.bank 0 0) = some (.bank 0 100 (.vault 0 0) 0) := ⟨_, rfl, rfl⟩

end Registry
end Mango
