import Verif.Misc.Buyback
import Verif.ListSum
/-! # C34 Buyback fees expire between one and two intervals after accrual -/
namespace Mango
namespace Buyback
open Fx

/-! ## Specification: a list of fee lots, oldest first -/

/-- fees accrued at `time`, of which `amount` is left -/
structure Lot where
  time : Int
  amount : Int
  deriving DecidableEq, Repr

/-- A lot can be used until the end of the interval after the one it was accrued in; interval 0: forever. -/
def Live (I now : Int) (l : Lot) : Bool := decide (I = 0 ∨ now / I ≤ l.time / I + 1)

/-- fees usable at time `now` -/
def avail (I now : Int) (ls : List Lot) : Int := sumOf Lot.amount (ls.filter (Live I now))

/-- use up `n`, oldest lots first -/
def consume : Int → List Lot → List Lot
  | _, [] => []
  | n, l :: ls => if n ≤ l.amount then { l with amount := l.amount - n } :: ls else { l with amount := 0 } :: consume (n - l.amount) ls

def specStep (I : Int) (ls : List Lot) : Op → List Lot
  | .accrue now a => ls ++ [⟨now, a⟩]
  | .use now n => if n ≤ avail I now ls then consume n (ls.filter (Live I now)) else ls

def specRun (I : Int) : List Lot → List Op → List Lot
  | ls, [] => ls
  | ls, o :: os => specRun I (specStep I ls o) os

/-- a lot is usable for at least one interval and less than two -/
theorem C34_lifetime {I now : Int} {l : Lot} (hI : 0 < I) :
    (now < l.time + I → Live I now l = true) ∧ (l.time + 2 * I ≤ now → Live I now l = false) := by
  unfold Live
  simp only [decide_eq_true_eq, decide_eq_false_iff_not, not_or]
  constructor
  · intro h
    right
    have h1 : (l.time + I) / I = l.time / I + 1 := Int.add_ediv_of_dvd_right (Int.dvd_refl I) |>.trans (by rw [Int.ediv_self (by omega)])
    rw [← h1]
    exact Int.ediv_le_ediv hI (by omega)
  · intro h
    refine ⟨by omega, ?_⟩
    have h1 : (l.time + 2 * I) / I = l.time / I + 2 := Int.add_mul_ediv_right _ _ (by omega)
    have := Int.ediv_le_ediv hI h
    omega

/-! ## Relation between the code's three fields and the lots -/

/-- sum of the lots of window `w` -/
def winSum (I w : Int) (ls : List Lot) : Int := sumOf (fun l => if l.time / I = w then l.amount else 0) ls

structure Rel (I : Int) (b : BB) (ls : List Lot) (last : Int) : Prop where
  le : ∀ l ∈ ls, l.time ≤ last
  sorted : ls.Pairwise (fun a b => a.time ≤ b.time)
  nonneg : ∀ l ∈ ls, 0 ≤ l.amount
  cap : sumOf Lot.amount ls ≤ U64MAX
  zero : I = 0 → b.current = sumOf Lot.amount ls ∧ b.previous = 0
  win : 0 < I → (b = {} ∧ ls = []) ∨
    (b.expiry = (last / I + 1) * I ∧ b.current = winSum I (last / I) ls ∧ b.previous = winSum I (last / I - 1) ls)

theorem winSum_nonneg {I w : Int} {ls : List Lot} (h : ∀ l ∈ ls, 0 ≤ l.amount) : 0 ≤ winSum I w ls := by
  apply sumOf_nonneg_mem
  intro l hl
  have := h l hl
  split <;> omega

/-- live lots at a time in window `w` are those of windows `w` and `w - 1` -/
theorem avail_eq {I now : Int} (hI : 0 < I) : ∀ {ls : List Lot}, (∀ l ∈ ls, l.time ≤ now) →
    avail I now ls = winSum I (now / I) ls + winSum I (now / I - 1) ls := by
  intro ls
  induction ls with
  | nil => intro _; simp [avail, winSum]
  | cons l ls ih =>
    intro h
    have e := ih (fun x hx => h x (by simp [hx]))
    have hl := Int.ediv_le_ediv hI (h l (by simp))
    unfold avail winSum at *
    rw [List.filter_cons]
    by_cases hv : Live I now l = true
    · rw [if_pos hv]
      have : now / I ≤ l.time / I + 1 := by
        unfold Live at hv; simp only [decide_eq_true_eq] at hv; omega
      simp only [sumOf_cons, e]
      by_cases h1 : l.time / I = now / I
      · rw [if_pos h1, if_neg (by omega)]; omega
      · rw [if_neg h1, if_pos (by omega)]; omega
    · rw [if_neg hv]
      have : ¬ now / I ≤ l.time / I + 1 := by
        intro hc; exact hv (by unfold Live; simp only [decide_eq_true_eq]; exact Or.inr hc)
      simp only [sumOf_cons, e]
      rw [if_neg (by omega), if_neg (by omega)]; omega

theorem winSum_filter {I now w : Int} (hI : 0 < I) (hw : now / I - 1 ≤ w) (ls : List Lot) : winSum I w (ls.filter (Live I now)) = winSum I w ls := by
  induction ls with
  | nil => rfl
  | cons l ls ih =>
    unfold winSum at *
    rw [List.filter_cons]
    split
    · simp [ih]
    · rename_i hv
      have : ¬ now / I ≤ l.time / I + 1 := by
        intro hc; exact hv (by unfold Live; simp only [decide_eq_true_eq]; exact Or.inr hc)
      simp only [sumOf_cons, ih]
      rw [if_neg (by omega)]; omega

theorem winSum_zero_of_lt {I w : Int} {ls : List Lot} (h : ∀ l ∈ ls, l.time / I < w) : winSum I w ls = 0 := by
  apply sumOf_zero
  intro l hl
  have := h l hl
  rw [if_neg (by omega)]

/-- what `expire` leaves: exactly the live lots, split by window -/
theorem expire_rel {I : Int} (hI : 0 ≤ I) {b : BB} {ls : List Lot} {last now : Int} (r : Rel I b ls last) (h0 : 0 ≤ last) (hn : last ≤ now)
    (hb : now + 2 * I ≤ U64MAX) :
    ∃ b', expire b now I = .ok b' ∧ (I = 0 → b' = b) ∧
      (0 < I → b'.expiry = (now / I + 1) * I ∧ b'.current = winSum I (now / I) ls ∧ b'.previous = winSum I (now / I - 1) ls) := by
  unfold expire
  by_cases hz : I = 0
  · rw [if_pos (Or.inl hz)]
    exact ⟨b, rfl, fun _ => rfl, fun h => by omega⟩
  have hI' : 0 < I := by omega
  have m1 : now / I * I ≤ now := Int.ediv_mul_le now (by omega)
  have m2 : now < (now / I + 1) * I := Int.lt_ediv_add_one_mul_self now hI'
  have l2 : last < (last / I + 1) * I := Int.lt_ediv_add_one_mul_self last hI'
  have l1 : last / I * I ≤ last := Int.ediv_mul_le last (by omega)
  have n0 : 0 ≤ now / I := Int.ediv_nonneg (by omega) hI
  have hdl := Int.ediv_le_ediv hI' hn
  have w0 : 0 ≤ (now / I + 1) * I := Int.mul_nonneg (by omega) hI
  have e1 : (now / I + 1) * I = now / I * I + I := by rw [Int.add_mul, Int.one_mul]
  have e2 : (last / I + 1) * I = last / I * I + I := by rw [Int.add_mul, Int.one_mul]
  have ck' : cku64 ((now / I + 1) * I) = .ok ((now / I + 1) * I) := by rw [cku64_ok]; exact ⟨rfl, w0, by omega⟩
  rcases r.win hI' with ⟨rfl, rfl⟩ | ⟨he, hc, hp⟩
  · rw [if_neg (by intro h; simp at h; omega)]
    have ce : cku64 (({} : BB).expiry + I) = .ok I := by rw [cku64_ok]; simp; omega
    rw [ce, ck']
    refine ⟨_, rfl, fun h => absurd h hz, fun _ => ?_⟩
    simp [winSum]
  · by_cases hlt : now < b.expiry
    · rw [if_pos (Or.inr hlt)]
      have : now / I = last / I := by
        have : now / I < last / I + 1 := by
          rw [Int.ediv_lt_iff_lt_mul hI', ← he]; exact hlt
        omega
      refine ⟨b, rfl, fun h => absurd h hz, fun _ => ?_⟩
      rw [this]; exact ⟨he, hc, hp⟩
    · rw [if_neg (by rintro (h | h); exact hz h; exact hlt h)]
      have ce : cku64 (b.expiry + I) = .ok (b.expiry + I) := by rw [cku64_ok]; exact ⟨rfl, by rw [he]; omega, by rw [he]; omega⟩
      rw [ce, ck']
      refine ⟨_, rfl, fun h => absurd h hz, fun _ => ?_⟩
      have hgt : last / I + 1 ≤ now / I := by
        rw [Int.le_ediv_iff_mul_le hI']; omega
      refine ⟨rfl, ?_, ?_⟩
      · dsimp only
        rw [winSum_zero_of_lt]
        intro l hl
        have := Int.ediv_le_ediv hI' (r.le l hl)
        omega
      · dsimp only
        by_cases h2 : now < b.expiry + I
        · rw [if_pos h2]
          have : now / I < last / I + 2 := by
            rw [Int.ediv_lt_iff_lt_mul hI', show (last / I + 2) * I = (last / I + 1) * I + I by rw [Int.add_mul, Int.add_mul]; omega, ← he]; exact h2
          rw [hc, show now / I - 1 = last / I by omega]
        · rw [if_neg h2, winSum_zero_of_lt]
          intro l hl
          have := Int.ediv_le_ediv hI' (r.le l hl)
          have : last / I + 2 ≤ now / I := by
            rw [Int.le_ediv_iff_mul_le hI', show (last / I + 2) * I = (last / I + 1) * I + I by rw [Int.add_mul, Int.add_mul]; omega, ← he]; omega
          omega

theorem winSum_cons {I w : Int} {l : Lot} {ls : List Lot} : winSum I w (l :: ls) = (if l.time / I = w then l.amount else 0) + winSum I w ls := by
  simp [winSum]

/-- consuming takes from the older window first -/
theorem consume_win {I w : Int} : ∀ {ls : List Lot} {n : Int}, 0 ≤ n → (∀ l ∈ ls, 0 ≤ l.amount) → (∀ l ∈ ls, l.time / I = w ∨ l.time / I = w - 1) →
    ls.Pairwise (fun a b => a.time / I ≤ b.time / I) → n ≤ sumOf Lot.amount ls →
    (n ≤ winSum I (w - 1) ls → winSum I (w - 1) (consume n ls) = winSum I (w - 1) ls - n ∧ winSum I w (consume n ls) = winSum I w ls) ∧
    (winSum I (w - 1) ls < n → winSum I (w - 1) (consume n ls) = 0 ∧ winSum I w (consume n ls) = winSum I w ls - (n - winSum I (w - 1) ls)) := by
  intro ls
  induction ls with
  | nil => intro n h0 _ _ _ hs; simp [consume, winSum] at *; omega
  | cons l ls ih =>
    intro n h0 hn hw hp hs
    have hl := hn l (by simp)
    have hwl := hw l (by simp)
    rw [List.pairwise_cons] at hp
    have z : l.time / I = w → winSum I (w - 1) ls = 0 := by
      intro e
      apply sumOf_zero
      intro x hx
      have := hp.1 x hx
      rw [if_neg (by omega)]
    have nn := winSum_nonneg (I := I) (w := w - 1) (fun x hx => hn x (List.mem_cons_of_mem l hx))
    simp only [consume]
    by_cases hc : n ≤ l.amount
    · rw [if_pos hc]
      rcases hwl with e | e
      · have := z e
        have e' : ¬ w = w - 1 := by omega
        simp only [winSum_cons, e, e', if_true, if_false]
        constructor <;> intro h <;> constructor <;> first | trivial | omega
      · have e' : ¬ w - 1 = w := by omega
        simp only [winSum_cons, e, e', if_true, if_false]
        constructor <;> intro h <;> constructor <;> first | trivial | omega
    · rw [if_neg hc]
      have := ih (n := n - l.amount) (by omega) (fun x hx => hn x (List.mem_cons_of_mem l hx)) (fun x hx => hw x (List.mem_cons_of_mem l hx)) hp.2
        (by simp only [sumOf_cons] at hs; omega)
      rcases hwl with e | e
      · have := z e
        have e' : ¬ w = w - 1 := by omega
        simp only [winSum_cons, e, e', if_true, if_false]
        constructor <;> intro h <;> constructor <;> first | trivial | omega
      · have e' : ¬ w - 1 = w := by omega
        simp only [winSum_cons, e, e', if_true, if_false]
        constructor <;> intro h <;> constructor <;> first | trivial | omega

theorem consume_sum : ∀ {ls : List Lot} {n : Int}, n ≤ sumOf Lot.amount ls → ls ≠ [] ∨ n = 0 → sumOf Lot.amount (consume n ls) = sumOf Lot.amount ls - n := by
  intro ls
  induction ls with
  | nil => intro n h h2; simp at h2; simp [consume, h2]
  | cons l ls ih =>
    intro n h _
    simp only [consume]
    split
    · simp; omega
    · simp only [sumOf_cons] at h ⊢
      by_cases hne : ls = []
      · subst hne; simp at h; omega
      · rw [ih (by omega) (Or.inl hne)]; omega

theorem consume_mem : ∀ {ls : List Lot} {n : Int}, (∀ l ∈ ls, 0 ≤ l.amount) → ∀ l ∈ consume n ls, 0 ≤ l.amount ∧ ∃ l' ∈ ls, l'.time = l.time := by
  intro ls
  induction ls with
  | nil => intro n _ l hl; simp [consume] at hl
  | cons x ls ih =>
    intro n h l hl
    have hx := h x (by simp)
    simp only [consume] at hl
    split at hl
    · rcases List.mem_cons.mp hl with rfl | hl
      · exact ⟨by dsimp only; omega, x, by simp, rfl⟩
      · exact ⟨h l (by simp [hl]), l, by simp [hl], rfl⟩
    · rcases List.mem_cons.mp hl with rfl | hl
      · exact ⟨Int.le_refl _, x, by simp, rfl⟩
      · obtain ⟨a, l', b, c⟩ := ih (fun y hy => h y (by simp [hy])) l hl
        exact ⟨a, l', by simp [b], c⟩

theorem consume_sorted : ∀ {ls : List Lot} {n : Int}, ls.Pairwise (fun a b => a.time ≤ b.time) → (consume n ls).Pairwise (fun a b => a.time ≤ b.time) := by
  intro ls
  have times : ∀ {ls : List Lot} {n : Int}, (consume n ls).map Lot.time = ls.map Lot.time := by
    intro ls
    induction ls with
    | nil => intro n; rfl
    | cons x ls ih => intro n; simp only [consume]; split <;> simp [ih]
  intro n h
  have h' : (ls.map Lot.time).Pairwise (· ≤ ·) := List.pairwise_map.mpr h
  rw [← times (n := n)] at h'
  exact List.pairwise_map.mp h'

theorem avail_zero (now : Int) (ls : List Lot) : avail 0 now ls = sumOf Lot.amount ls ∧ ls.filter (Live 0 now) = ls := by
  have : ls.filter (Live 0 now) = ls := List.filter_eq_self.mpr (fun l _ => by simp [Live])
  exact ⟨by unfold avail; rw [this], this⟩

theorem filter_sum_le {q : Lot → Bool} {ls : List Lot} (h : ∀ l ∈ ls, 0 ≤ l.amount) : sumOf Lot.amount (ls.filter q) ≤ sumOf Lot.amount ls := by
  induction ls with
  | nil => simp
  | cons a l ih =>
    have h1 := ih (fun x hx => h x (by simp [hx]))
    have h2 := h a (by simp)
    rw [List.filter_cons]
    split <;> simp <;> omega

theorem winSum_append {I w : Int} {ls : List Lot} {l : Lot} : winSum I w (ls ++ [l]) = winSum I w ls + (if l.time / I = w then l.amount else 0) := by
  simp [winSum, sumOf_append]

/-- after expiry, the available amount is the sum of the live lots -/
theorem expire_accrued {I : Int} (hI : 0 ≤ I) {b : BB} {ls : List Lot} {last now : Int} (r : Rel I b ls last) (h0 : 0 ≤ last) (hn : last ≤ now)
    (hb : now + 2 * I ≤ U64MAX) :
    ∃ b', expire b now I = .ok b' ∧ accrued b' = avail I now ls ∧ b'.current + b'.previous = avail I now ls ∧ 0 ≤ b'.previous ∧ 0 ≤ b'.current := by
  obtain ⟨b', h1, h2, h3⟩ := expire_rel hI r h0 hn hb
  have key : b'.current + b'.previous = avail I now ls ∧ 0 ≤ b'.previous ∧ 0 ≤ b'.current := by
    by_cases hz : I = 0
    · rw [h2 hz]
      obtain ⟨e1, e2⟩ := r.zero hz
      subst hz
      rw [(avail_zero now ls).1, e1, e2]
      have := sumOf_nonneg_mem (f := Lot.amount) r.nonneg
      omega
    · obtain ⟨_, e2, e3⟩ := h3 (by omega)
      rw [avail_eq (by omega) (fun l hl => Int.le_trans (r.le l hl) hn), e2, e3]
      have a := winSum_nonneg (I := I) (w := now / I) r.nonneg
      have b := winSum_nonneg (I := I) (w := now / I - 1) r.nonneg
      omega
  refine ⟨b', h1, ?_, key⟩
  unfold accrued
  rw [key.1]
  have : avail I now ls ≤ sumOf Lot.amount ls := filter_sum_le r.nonneg
  have := r.cap
  omega

theorem step_accrue {I : Int} (hI : 0 ≤ I) {b : BB} {ls : List Lot} {last now a : Int} (r : Rel I b ls last) (h0 : 0 ≤ last) (hn : last ≤ now)
    (hb : now + 2 * I ≤ U64MAX) (ha : 0 ≤ a) (hc : sumOf Lot.amount ls + a ≤ U64MAX) :
    ∃ b', step I b (.accrue now a) = .ok b' ∧ Rel I b' (ls ++ [⟨now, a⟩]) now := by
  obtain ⟨b1, h1, h2, h3⟩ := expire_rel hI r h0 hn hb
  obtain ⟨b2, h4, _, h5, h6, h7⟩ := expire_accrued hI r h0 hn hb
  rw [h1] at h4; simp at h4; subst h4
  have hcap : avail I now ls ≤ sumOf Lot.amount ls := filter_sum_le r.nonneg
  have hcur : (accrue b1 a).current = b1.current + a := by unfold accrue; dsimp only; omega
  refine ⟨accrue b1 a, by simp only [step, h1]; rfl, ?_, ?_, ?_, ?_, ?_, ?_⟩
  · intro l hl
    rcases List.mem_append.mp hl with hl | hl
    · exact Int.le_trans (r.le l hl) hn
    · simp at hl; subst hl; exact Int.le_refl _
  · rw [List.pairwise_append]
    refine ⟨r.sorted, by simp, ?_⟩
    intro x hx y hy
    simp at hy; subst hy
    exact Int.le_trans (r.le x hx) hn
  · intro l hl
    rcases List.mem_append.mp hl with hl | hl
    · exact r.nonneg l hl
    · simp at hl; subst hl; exact ha
  · rw [sumOf_append]; simp; omega
  · intro hz
    rw [hcur, sumOf_append]
    have e := r.zero hz
    rw [h2 hz]
    refine ⟨by simp [e.1], ?_⟩
    unfold accrue; exact e.2
  · intro hp
    right
    obtain ⟨e1, e2, e3⟩ := h3 hp
    refine ⟨e1, ?_, ?_⟩
    · rw [hcur, winSum_append, e2]; simp
    · rw [winSum_append]; unfold accrue; dsimp only; rw [e3, if_neg (by omega)]; omega

theorem step_use {I : Int} (hI : 0 ≤ I) {b : BB} {ls : List Lot} {last now n : Int} (r : Rel I b ls last) (h0 : 0 ≤ last) (hn : last ≤ now)
    (hb : now + 2 * I ≤ U64MAX) (ha : 0 ≤ n) :
    (n ≤ avail I now ls → ∃ b', step I b (.use now n) = .ok b' ∧ Rel I b' (consume n (ls.filter (Live I now))) now) ∧
    (avail I now ls < n → ∃ e, step I b (.use now n) = .error e) := by
  obtain ⟨b1, h1, h2, h3⟩ := expire_rel hI r h0 hn hb
  obtain ⟨b2, h4, _, h5, h6, h7⟩ := expire_accrued hI r h0 hn hb
  rw [h1] at h4; simp at h4; subst h4
  have hcap : avail I now ls ≤ sumOf Lot.amount ls := filter_sum_le r.nonneg
  have hstep : step I b (.use now n) = reduce b1 n := by simp only [step, h1]; rfl
  rw [hstep]
  constructor
  · intro hle
    have fn : ∀ l ∈ ls.filter (Live I now), 0 ≤ l.amount := fun l hl => r.nonneg l (List.mem_filter.mp hl).1
    have fs : (ls.filter (Live I now)).Pairwise (fun a b => a.time ≤ b.time) := r.sorted.filter _
    have common : ∀ b', (I = 0 → b'.current = sumOf Lot.amount (consume n (ls.filter (Live I now))) ∧ b'.previous = 0) →
        (0 < I → b'.expiry = (now / I + 1) * I ∧ b'.current = winSum I (now / I) (consume n (ls.filter (Live I now))) ∧
          b'.previous = winSum I (now / I - 1) (consume n (ls.filter (Live I now)))) → Rel I b' (consume n (ls.filter (Live I now))) now := by
      intro b' hz hw
      refine ⟨?_, consume_sorted fs, fun l hl => (consume_mem fn l hl).1, ?_, hz, fun hp => Or.inr (hw hp)⟩
      · intro l hl
        obtain ⟨_, l', hl', e⟩ := consume_mem fn l hl
        rw [← e]
        exact Int.le_trans (r.le l' (List.mem_filter.mp hl').1) hn
      · by_cases hne : ls.filter (Live I now) = []
        · rw [hne]; simp [consume]; decide
        · rw [consume_sum hle (Or.inl hne)]
          have := r.cap
          unfold avail at hcap
          omega
    by_cases hz : I = 0
    · have e := r.zero hz
      have e2 := h2 hz
      subst hz
      rw [(avail_zero now ls).1] at hle h5
      rw [(avail_zero now ls).2] at common ⊢
      rw [e2] at h5 ⊢
      unfold reduce
      have hcs : ∀ m, m = n → m ≤ sumOf Lot.amount ls → sumOf Lot.amount (consume m ls) = sumOf Lot.amount ls - n := by
        intro m hm hms
        subst hm
        by_cases hne : ls = []
        · subst hne; simp at hms; rw [consume_sum (by simpa using hms) (Or.inr (by omega))]
        · exact consume_sum hms (Or.inl hne)
      by_cases hgt : n > b.previous
      · rw [if_pos hgt]
        have hr : require (n - b.previous ≤ b.current) Err.panic = .ok () := by rw [require_ok]; omega
        refine ⟨_, by simp only [hr]; rfl, common _ (fun _ => ?_) (fun h => by omega)⟩
        dsimp only
        rw [hcs n rfl hle]
        refine ⟨by omega, rfl⟩
      · rw [if_neg hgt]
        refine ⟨_, rfl, common _ (fun _ => ?_) (fun h => by omega)⟩
        dsimp only
        rw [hcs n rfl hle]
        exact ⟨by omega, by omega⟩
    · have hp : 0 < I := by omega
      obtain ⟨e1, e2, e3⟩ := h3 hp
      have fw : ∀ l ∈ ls.filter (Live I now), l.time / I = now / I ∨ l.time / I = now / I - 1 := by
        intro l hl
        obtain ⟨hl1, hl2⟩ := List.mem_filter.mp hl
        unfold Live at hl2
        simp only [decide_eq_true_eq] at hl2
        have := Int.ediv_le_ediv hp (Int.le_trans (r.le l hl1) hn)
        omega
      have cw := consume_win (I := I) (w := now / I) ha fn fw (fs.imp (fun h => Int.ediv_le_ediv hp h)) hle
      rw [winSum_filter hp (by omega), winSum_filter hp (by omega)] at cw
      unfold reduce
      by_cases hgt : n > b1.previous
      · rw [if_pos hgt]
        have hr : require (n - b1.previous ≤ b1.current) Err.panic = .ok () := by rw [require_ok]; omega
        refine ⟨_, by simp only [hr]; rfl, common _ (fun h => absurd h hz) (fun _ => ?_)⟩
        dsimp only
        have := cw.2 (by omega)
        exact ⟨e1, by omega, by omega⟩
      · rw [if_neg hgt]
        refine ⟨_, rfl, common _ (fun h => absurd h hz) (fun _ => ?_)⟩
        dsimp only
        have := cw.1 (by omega)
        exact ⟨e1, by omega, by omega⟩
  · intro hlt
    unfold reduce
    rw [if_pos (by omega)]
    refine ⟨.panic, ?_⟩
    have : ¬ (n - b1.previous ≤ b1.current) := by omega
    simp [require, this, bind, Except.bind]

/-- admissible histories: time does not run backwards, amounts are u64, nothing saturates or leaves the u64 range -/
def Good (I : Int) : Int → Int → List Op → Prop
  | _, _, [] => True
  | last, tot, .accrue now a :: os => last ≤ now ∧ now + 2 * I ≤ U64MAX ∧ 0 ≤ a ∧ tot + a ≤ U64MAX ∧ Good I now (tot + a) os
  | last, tot, .use now n :: os => last ≤ now ∧ now + 2 * I ≤ U64MAX ∧ 0 ≤ n ∧ Good I now tot os

/-- time of the last instruction -/
def lastTime : Int → List Op → Int
  | t, [] => t
  | _, o :: os => lastTime o.now os

theorem run_rel {I : Int} (hI : 0 ≤ I) : ∀ {os : List Op} {b : BB} {ls : List Lot} {last l0 tot : Int}, Rel I b ls l0 → 0 ≤ l0 → l0 ≤ last →
    sumOf Lot.amount ls ≤ tot → Good I last tot os →
    ∃ l1, 0 ≤ l1 ∧ l1 ≤ lastTime last os ∧ Rel I (run I b os) (specRun I ls os) l1 := by
  intro os
  induction os with
  | nil => intro b ls last l0 tot r h0 h1 _ _; exact ⟨l0, h0, h1, r⟩
  | cons o os ih =>
    intro b ls last l0 tot r h0 h1 hs hg
    cases o with
    | accrue now a =>
      obtain ⟨g1, g2, g3, g4, g5⟩ := hg
      obtain ⟨b', e, r'⟩ := step_accrue hI r h0 (Int.le_trans h1 g1) g2 g3 (by omega)
      simp only [run, stepT, e, specRun, specStep, lastTime, Op.now]
      exact ih r' (by omega) (Int.le_refl _) (by rw [sumOf_append]; simp; omega) g5
    | use now n =>
      obtain ⟨g1, g2, g3, g5⟩ := hg
      obtain ⟨u1, u2⟩ := step_use hI r h0 (Int.le_trans h1 g1) g2 g3
      by_cases hle : n ≤ avail I now ls
      · obtain ⟨b', e, r'⟩ := u1 hle
        simp only [run, stepT, e, specRun, specStep, if_pos hle, lastTime, Op.now]
        refine ih r' (by omega) (Int.le_refl _) ?_ g5
        by_cases hne : ls.filter (Live I now) = []
        · rw [hne]; simp [consume]
          have := sumOf_nonneg_mem (f := Lot.amount) r.nonneg; omega
        · rw [consume_sum hle (Or.inl hne)]
          have : sumOf Lot.amount (ls.filter (Live I now)) ≤ sumOf Lot.amount ls := filter_sum_le r.nonneg
          omega
      · obtain ⟨e, he⟩ := u2 (by omega)
        simp only [run, stepT, he, specRun, specStep, if_neg hle, lastTime, Op.now]
        exact ih r h0 (by omega) hs g5

theorem rel_init (I : Int) : Rel I {} [] 0 := by
  refine ⟨by simp, by simp, by simp, by simp; decide, fun _ => ⟨rfl, rfl⟩, fun _ => Or.inl ⟨rfl, rfl⟩⟩

/-- **C34** After every admissible history of accruals and uses, at every later time: the amount the account can use for buyback is exactly
the sum of what is left of the fees accrued in the current or the previous interval (uses take the oldest first), and a use succeeds exactly
when it does not exceed that. With `C34_lifetime`: fees stay usable at least one and at most two intervals. -/
theorem C34_available_fees {I : Int} (hI : 0 ≤ I) {os : List Op} (hg : Good I 0 0 os) {now : Int} (hn : lastTime 0 os ≤ now) (hb : now + 2 * I ≤ U64MAX) :
    (∃ b, expire (run I {} os) now I = .ok b ∧ accrued b = avail I now (specRun I [] os)) ∧
    (∀ n, 0 ≤ n → ((∃ b, step I (run I {} os) (.use now n) = .ok b) ↔ n ≤ avail I now (specRun I [] os))) := by
  obtain ⟨l1, h1, h2, r⟩ := run_rel hI (rel_init I) (Int.le_refl 0) (Int.le_refl 0) (by simp : sumOf Lot.amount [] ≤ 0) hg
  obtain ⟨b, e1, e2, _⟩ := expire_accrued hI r h1 (Int.le_trans h2 hn) hb
  refine ⟨⟨b, e1, e2⟩, ?_⟩
  intro n h0
  obtain ⟨u1, u2⟩ := step_use hI r h1 (Int.le_trans h2 hn) hb h0
  constructor
  · rintro ⟨b', hb'⟩
    by_contra hc
    obtain ⟨e, he⟩ := u2 (by omega)
    rw [he] at hb'; simp at hb'
  · intro h
    obtain ⟨b', hb', _⟩ := u1 h
    exact ⟨b', hb'⟩

/-- **C34, exchange** A buyback uses up at most the requested amount and the accrued fees, gives fee tokens worth at most the amount used up,
at most what the DAO has, and takes MNGO that at the bonus price are worth (up to one last place) exactly that amount. The accrued fees go down by the
value exchanged, rounded up to a whole unit: never by more than the requested amount. The prices are assumed positive. -/
theorem C34_exchange {b b' : BB} (hc : 0 ≤ b.current) (hp : 0 ≤ b.previous) {maxUsd : Int} {daoFees feesPrice accountMngo mngoPrice bonus : I80F48} {x : Exchange}
    (hfp : 0 < feesPrice) (hPp : 0 < mngoPrice * bonus / S) (h : buyback b maxUsd daoFees feesPrice accountMngo mngoPrice bonus = .ok (some (x, b'))) :
    0 ≤ x.usd ∧ x.usd ≤ Fx.ofInt maxUsd ∧ x.usd ≤ Fx.ofInt (b.current + b.previous) ∧
    0 ≤ x.fees ∧ x.fees ≤ daoFees ∧ x.fees * feesPrice ≤ x.usd * S ∧ x.usd * S < x.fees * feesPrice + feesPrice ∧
    0 ≤ x.mngo ∧ x.mngo ≤ accountMngo ∧ x.usd * S ≤ x.mngo * (mngoPrice * bonus / S) ∧ x.mngo * (mngoPrice * bonus / S) < (x.usd + 1) * S ∧
    (∃ used, 0 ≤ used ∧ used ≤ maxUsd ∧ x.usd ≤ Fx.ofInt used ∧ Fx.ofInt used < x.usd + S ∧ b'.current + b'.previous = b.current + b.previous - used ∧
      0 ≤ b'.current ∧ 0 ≤ b'.previous) := by
  simp only [buyback, bind_ok, mul_ok, ite_ok, div_ok, require_ok, ceil_ok] at h
  obtain ⟨dao, ⟨hd, _⟩, ⟨_, h⟩ | ⟨c1, ⟨_, h⟩ | ⟨c2, h⟩⟩⟩ := h
  · simp at h
  · simp at h
  obtain ⟨price, ⟨hpr, _⟩, m, ⟨hp0, hm, _⟩, y, ⟨hy, _⟩, fees, ⟨_, hf, _⟩, _, hr, c, ⟨hcc, _⟩, b1, hb1, h⟩ := h
  simp only [Except.ok.injEq, Option.some.injEq, Prod.mk.injEq] at h
  obtain ⟨rfl, rfl⟩ := h
  dsimp only
  subst hpr
  generalize mngoPrice * bonus / S = P at *
  generalize hu : min (ofInt (min maxUsd (accrued b))) dao = u at *
  have hS := S_pos
  have u1 : u ≤ ofInt (min maxUsd (accrued b)) := by omega
  have u2 : ofInt (min maxUsd (accrued b)) ≤ ofInt maxUsd := by unfold ofInt; exact Int.mul_le_mul_of_nonneg_right (by omega) (by omega)
  have u3 : ofInt (min maxUsd (accrued b)) ≤ ofInt (b.current + b.previous) := by
    unfold ofInt; exact Int.mul_le_mul_of_nonneg_right (by unfold accrued; omega) (by omega)
  have yb := mulFloor_bounds (min m accountMngo * P)
  rw [← hy] at yb
  have tb := tdiv_bounds (a := u * S) (b := P) (Int.mul_nonneg (by omega) (by omega)) hPp
  rw [← hm] at tb
  have hmn : 0 ≤ min m accountMngo := by omega
  have hy0 : 0 ≤ y := by rw [hy]; exact floor_nonneg (Int.mul_nonneg hmn (by omega))
  have hmp : min m accountMngo * P ≤ m * P := Int.mul_le_mul_of_nonneg_right (by omega) (by omega)
  have hyu : y ≤ u := by
    have : y * S ≤ u * S := by omega
    exact Int.le_of_mul_le_mul_right this hS
  have hmin : min u y = y := by omega
  rw [hmin] at hf hcc ⊢
  have fb := tdiv_bounds (a := y * S) (b := feesPrice) (Int.mul_nonneg hy0 (by omega)) hfp
  rw [← hf] at fb
  have hused : toInt c = -((-y) / S) := by unfold toInt; rw [hcc, Int.mul_ediv_cancel _ (by omega)]
  have cb := mulFloor_bounds (-y)
  generalize (-y) / S = q at *
  have hcm : -q * S = -(q * S) := Int.neg_mul _ _
  have hqle : -q ≤ min maxUsd (accrued b) := by
    by_contra hcon
    have h1 : (min maxUsd (accrued b) + 1) * S ≤ -q * S := Int.mul_le_mul_of_nonneg_right (by omega) (by omega)
    rw [Int.add_mul] at h1
    unfold ofInt at u1
    omega
  have hq0 : 0 ≤ -q := by
    by_contra hcon
    have h1 : 1 * S ≤ q * S := Int.mul_le_mul_of_nonneg_right (by omega) (by omega)
    omega
  have hy1 : (y + 1) * S = y * S + S := by rw [Int.add_mul, Int.one_mul]
  refine ⟨hy0, by omega, by omega, by omega, hr, fb.1, fb.2.1, hmn, by omega, by omega, by omega, -q, hq0, by omega, ?_, ?_, ?_⟩
  · unfold ofInt; omega
  · unfold ofInt; omega
  · rw [hused] at hb1
    have ha : accrued b ≤ b.current + b.previous := by unfold accrued; omega
    unfold reduce at hb1
    by_cases hgt : -q > b.previous
    · rw [if_pos hgt] at hb1
      simp only [bind_ok, require_ok] at hb1
      obtain ⟨_, h1, h2⟩ := hb1
      simp at h2; subst h2
      exact ⟨by dsimp only; omega, by dsimp only; omega, Int.le_refl _⟩
    · rw [if_neg hgt] at hb1
      simp at hb1; subst hb1
      exact ⟨by dsimp only; omega, hc, by dsimp only; omega⟩

/-- a history with accruals in three windows, a use across two of them and a failing use -/
example : Good 100 0 0 [.accrue 10 50, .accrue 120 30, .use 150 60, .use 190 40, .accrue 250 7] := by
  refine ⟨?_, ?_, ?_, ?_, ?_, ?_, ?_, ?_, ?_, ?_, ?_, ?_, ?_, ?_, ?_, ?_, ?_, ?_, trivial⟩ <;> decide
/-- at time 260 the 20 units left of the second accrual (previous window) and the 7 new ones are usable; the first ones have been used -/
example : avail 100 260 (specRun 100 [] [.accrue 10 50, .accrue 120 30, .use 150 60, .use 190 40, .accrue 250 7]) = 27 ∧
    accrued (run 100 {} [.accrue 10 50, .accrue 120 30, .use 150 60, .use 190 40, .accrue 250 7]) = 27 := by decide +kernel
/-- an exchange: 60 usd requested, 50 accrued, MNGO at 0.5 with a bonus of 1.25, fee tokens at 1 -/
example : buyback ⟨30, 20, 0⟩ 60 (1000 * S) S (1000 * S) (S / 2) (S * 5 / 4) = .ok (some (⟨50 * S, 80 * S, 50 * S⟩, ⟨0, 0, 0⟩)) := by decide +kernel

end Buyback
end Mango
