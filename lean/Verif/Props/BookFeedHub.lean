import Verif.Props.BookFeed
import Mathlib.Data.List.Sort
/-!
# C78: the whole order book service with a subscriber
-/
namespace Mango
namespace BookFeed

/-- the effect of the messages still to come on what a subscriber of levels sees -/
def catchUp (d : Depth) : List BookMsg → Depth
  | [] => d
  | .levelUpdate sd u :: rest => catchUp (applyLevels d sd u) rest
  | _ :: rest => catchUp d rest

theorem catchUp_append (d : Depth) (x y : List BookMsg) : catchUp d (x ++ y) = catchUp (catchUp d x) y := by
  induction x generalizing d with
  | nil => rfl
  | cons m x ih => cases m <;> simp [catchUp, ih]

/-- book and oracle accounts always give sorted orders -/
def Sorts {β ω : Type} (viewOf : Side → β → ω → Nat → Option (List Order)) : Prop := ∀ sd b o now l, viewOf sd b o now = some l → Sorted l

/-- the last checkpoint after some messages -/
def lastCp (cp : Option (List Level × List Level)) : List BookMsg → Option (List Level × List Level)
  | [] => cp
  | .levelCheckpoint b a :: rest => lastCp (some (b, a)) rest
  | _ :: rest => lastCp cp rest

/-- each level update was already in the checkpoint before it, if there was one -/
def Fresh (cp : Option (List Level × List Level)) : List BookMsg → Prop
  | [] => True
  | .levelCheckpoint b a :: rest => Fresh (some (b, a)) rest
  | .levelUpdate sd u :: rest => (∀ c, cp = some c → applyLevels (fromCheckpoint c.1 c.2) sd u = fromCheckpoint c.1 c.2) ∧ Fresh cp rest
  | _ :: rest => Fresh cp rest

theorem fresh_append (cp : Option (List Level × List Level)) (x y : List BookMsg) (hx : Fresh cp x) (hy : Fresh (lastCp cp x) y) : Fresh cp (x ++ y) := by
  induction x generalizing cp with
  | nil => exact hy
  | cons m x ih =>
    cases m with
    | levelCheckpoint b a => exact ih _ hx hy
    | levelUpdate sd u => exact ⟨hx.1, ih _ hx.2 hy⟩
    | bookCheckpoint b a => exact ih _ hx hy
    | bookUpdate sd a r => exact ih _ hx hy

theorem lastCp_none (ch : List BookMsg) (h : ∀ cb ca, BookMsg.levelCheckpoint cb ca ∉ ch) : lastCp none ch = none := by
  induction ch with
  | nil => rfl
  | cons m ch ih =>
    have := ih (fun cb ca hm => h cb ca (List.mem_cons_of_mem _ hm))
    cases m with
    | levelCheckpoint b a => exact absurd (by simp) (h b a)
    | levelUpdate sd u => exact this
    | bookCheckpoint b a => exact this
    | bookUpdate sd a r => exact this

structure Inv (rnd : ℚ → ℚ) (f : BookService) (ch : List BookMsg) (cp : Option (List Level × List Level)) (view : Option Depth) : Prop where
  sorted : ∀ sd l, f.cache sd = some l → Sorted l
  fresh : Fresh cp ch
  none : (f.cache .bid = none ∨ f.cache .ask = none) → cp = none ∧ view = none ∧ ∀ cb ca, BookMsg.levelCheckpoint cb ca ∉ ch
  some : ∀ b a, f.cache .bid = some b → f.cache .ask = some a →
    (∀ d, view = some d → catchUp d ch = depths rnd b a) ∧
    (∀ c, cp = some c → catchUp (fromCheckpoint c.1 c.2) ch = depths rnd b a) ∧
    (∀ l1 cb ca l2, ch = l1 ++ BookMsg.levelCheckpoint cb ca :: l2 → catchUp (fromCheckpoint cb ca) l2 = depths rnd b a)

/-- both sides, named -/
def pair (sd : Side) (x y : List Order) : List Order × List Order := match sd with | .bid => (x, y) | .ask => (y, x)

theorem updates_apply (rnd : ℚ → ℚ) (sd : Side) (cur prev : List Order) (oth : Option (List Order)) (d : Depth) :
    catchUp d (publishBook rnd sd cur prev oth) = applyLevels d sd (levelUpdate rnd cur prev) := by
  have e : catchUp d (publishBook rnd sd cur prev oth) = catchUp d ((if levelUpdate rnd cur prev ≠ [] then [BookMsg.levelUpdate sd (levelUpdate rnd cur prev)] else []) ++
      (if additions cur prev ≠ [] ∧ removals cur prev ≠ [] then [BookMsg.bookUpdate sd (additions cur prev) (removals cur prev)] else [])) := by
    unfold publishBook
    rw [List.append_assoc]
    cases oth <;> cases sd <;> rfl
  rw [e]
  by_cases h1 : levelUpdate rnd cur prev ≠ []
  · rw [if_pos h1]
    by_cases h2 : additions cur prev ≠ [] ∧ removals cur prev ≠ []
    · rw [if_pos h2]; rfl
    · rw [if_neg h2]; rfl
  · rw [if_neg h1, not_not.mp h1]
    by_cases h2 : additions cur prev ≠ [] ∧ removals cur prev ≠ []
    · rw [if_pos h2]; rfl
    · rw [if_neg h2]; rfl

theorem catch_publish (rnd : ℚ → ℚ) (sd : Side) {cur prev o : List Order} (hc : Sorted cur) (hp : Sorted prev) (oth : Option (List Order)) (d : Depth)
    (hd : d = depths rnd (pair sd prev o).1 (pair sd prev o).2 ∨ d = depths rnd (pair sd cur o).1 (pair sd cur o).2) :
    catchUp d (publishBook rnd sd cur prev oth) = depths rnd (pair sd cur o).1 (pair sd cur o).2 := by
  rw [updates_apply]
  have hs : d sd = depth rnd prev ∨ d sd = depth rnd cur := by
    rcases hd with h | h <;> subst h <;> cases sd <;> simp [depths, pair]
    all_goals first | exact Or.inl rfl | exact Or.inr rfl
  obtain ⟨h1, h2⟩ := C78_update rnd hc hp sd d hs
  have h3 : d sd.other = depth rnd o := by
    rcases hd with h | h <;> subst h <;> cases sd <;> rfl
  rw [h3] at h2
  funext x
  cases sd <;> cases x <;> simp only [Side.other] at h1 h2 <;> first | rw [h1]; rfl | rw [h2]; rfl

theorem publish_checkpoints (rnd : ℚ → ℚ) (sd : Side) {cur prev : List Order} {oth : Option (List Order)} {l1 l2 : List BookMsg} {cb ca : List Level}
    (h : publishBook rnd sd cur prev oth = l1 ++ .levelCheckpoint cb ca :: l2) :
    ∃ o, oth = some o ∧ cb = levels rnd (pair sd cur o).1 ∧ ca = levels rnd (pair sd cur o).2 ∧
      ∀ d, catchUp d l2 = catchUp d (publishBook rnd sd cur prev oth) := by
  have hm : BookMsg.levelCheckpoint cb ca ∈ publishBook rnd sd cur prev oth := by rw [h]; simp
  have hrest : ∀ m ∈ (if levelUpdate rnd cur prev ≠ [] then [BookMsg.levelUpdate sd (levelUpdate rnd cur prev)] else []) ++
      (if additions cur prev ≠ [] ∧ removals cur prev ≠ [] then [BookMsg.bookUpdate sd (additions cur prev) (removals cur prev)] else []),
      ∀ x y, m ≠ .levelCheckpoint x y := by
    intro m hm x y e
    subst e
    rcases List.mem_append.mp hm with hm | hm
    · by_cases h1 : levelUpdate rnd cur prev ≠ []
      · rw [if_pos h1] at hm; simp at hm
      · rw [if_neg h1] at hm; simp at hm
    · by_cases h2 : additions cur prev ≠ [] ∧ removals cur prev ≠ []
      · rw [if_pos h2] at hm; simp at hm
      · rw [if_neg h2] at hm; simp at hm
  generalize hR : (if levelUpdate rnd cur prev ≠ [] then [BookMsg.levelUpdate sd (levelUpdate rnd cur prev)] else []) ++
      (if additions cur prev ≠ [] ∧ removals cur prev ≠ [] then [BookMsg.bookUpdate sd (additions cur prev) (removals cur prev)] else []) = R at hrest
  cases oth with
  | none =>
    exfalso
    unfold publishBook at hm
    simp only [List.nil_append] at hm
    rw [hR] at hm
    exact hrest _ hm _ _ rfl
  | some o =>
    have hpub : publishBook rnd sd cur prev (some o) = .bookCheckpoint (pair sd cur o).1 (pair sd cur o).2 ::
        .levelCheckpoint (levels rnd (pair sd cur o).1) (levels rnd (pair sd cur o).2) :: R := by
      unfold publishBook
      rw [List.append_assoc, hR]
      cases sd <;> rfl
    rw [hpub] at h ⊢
    refine ⟨o, rfl, ?_⟩
    cases l1 with
    | nil => simp at h
    | cons m1 l1 =>
      simp only [List.cons_append, List.cons.injEq] at h
      cases l1 with
      | nil =>
        simp only [List.nil_append, List.cons.injEq, BookMsg.levelCheckpoint.injEq] at h
        obtain ⟨_, ⟨e1, e2⟩, e3⟩ := h
        exact ⟨e1.symm, e2.symm, fun d => by rw [← e3]; rfl⟩
      | cons m2 l1 =>
        exfalso
        simp only [List.cons_append, List.cons.injEq] at h
        exact hrest (.levelCheckpoint cb ca) (by rw [h.2.2]; simp) _ _ rfl

theorem publish_fresh (rnd : ℚ → ℚ) (sd : Side) {cur prev o : List Order} (hc : Sorted cur) (hp : Sorted prev) (ho : Sorted o) (cp : Option (List Level × List Level)) :
    Fresh cp (publishBook rnd sd cur prev (some o)) := by
  have key : applyLevels (fromCheckpoint (levels rnd (pair sd cur o).1) (levels rnd (pair sd cur o).2)) sd (levelUpdate rnd cur prev) =
      fromCheckpoint (levels rnd (pair sd cur o).1) (levels rnd (pair sd cur o).2) := by
    have e : fromCheckpoint (levels rnd (pair sd cur o).1) (levels rnd (pair sd cur o).2) = depths rnd (pair sd cur o).1 (pair sd cur o).2 := by
      cases sd
      · exact C78_checkpoint rnd hc ho
      · exact C78_checkpoint rnd ho hc
    rw [e, ← updates_apply rnd sd cur prev none]
    exact catch_publish rnd sd hc hp none _ (Or.inr rfl)
  have hpub : publishBook rnd sd cur prev (some o) = .bookCheckpoint (pair sd cur o).1 (pair sd cur o).2 ::
      .levelCheckpoint (levels rnd (pair sd cur o).1) (levels rnd (pair sd cur o).2) ::
      ((if levelUpdate rnd cur prev ≠ [] then [BookMsg.levelUpdate sd (levelUpdate rnd cur prev)] else []) ++
      (if additions cur prev ≠ [] ∧ removals cur prev ≠ [] then [BookMsg.bookUpdate sd (additions cur prev) (removals cur prev)] else [])) := by
    unfold publishBook
    rw [List.append_assoc]
    cases sd <;> rfl
  rw [hpub]
  simp only [Fresh]
  by_cases h1 : levelUpdate rnd cur prev ≠ []
  · rw [if_pos h1]
    refine ⟨fun c hc => by injection hc with hc; rw [← hc]; exact key, ?_⟩
    by_cases h2 : additions cur prev ≠ [] ∧ removals cur prev ≠ []
    · rw [if_pos h2]; trivial
    · rw [if_neg h2]; trivial
  · rw [if_neg h1]
    by_cases h2 : additions cur prev ≠ [] ∧ removals cur prev ≠ []
    · rw [if_pos h2]; trivial
    · rw [if_neg h2]; trivial

theorem fresh_none (ch : List BookMsg) (h : ∀ cb ca, BookMsg.levelCheckpoint cb ca ∉ ch) : Fresh none ch := by
  induction ch with
  | nil => trivial
  | cons m ch ih =>
    have := ih (fun cb ca hm => h cb ca (List.mem_cons_of_mem _ hm))
    cases m with
    | levelCheckpoint b a => exact absurd (by simp) (h b a)
    | levelUpdate sd u => exact ⟨fun c hc => (by cases hc), this⟩
    | bookCheckpoint b a => exact this
    | bookUpdate sd a r => exact this

theorem other_none {f : BookService} {sd : Side} (h : f.cache sd.other = none) : f.cache .bid = none ∨ f.cache .ask = none := by
  cases sd
  · exact Or.inr h
  · exact Or.inl h

/-- one side of a round keeps the invariant -/
theorem side_inv {β ω : Type} (rnd : ℚ → ℚ) (viewOf : Side → β → ω → Nat → Option (List Order)) (hv : Sorts viewOf) (f : BookService) (ch : List BookMsg)
    (cp : Option (List Level × List Level)) (view : Option Depth) (w : World β ω) (now : Nat) (sd : Side) (hi : Inv rnd f ch cp view) :
    Inv rnd (f.side rnd viewOf w now sd).1 (ch ++ (f.side rnd viewOf w now sd).2) cp view := by
  unfold BookService.side
  split
  · rename_i bv b ov o _ _
    by_cases hn : isNewer bv (f.bookVersion sd) = false ∧ isNewer ov f.oracleVersion = false
    · rw [if_pos hn]; simpa using hi
    · rw [if_neg hn]
      cases hvw : viewOf sd b o now with
      | none => exact ⟨by simpa using hi.sorted, by simpa using hi.fresh, by simpa using hi.none, by simpa using hi.some⟩
      | some orders =>
        have hso := hv _ _ _ _ _ hvw
        simp only
        have hsame : ∀ x, (if x = sd then some orders else f.cache x) = if x = sd then some orders else f.cache x := fun _ => rfl
        cases hold : f.cache sd with
        | none =>
          -- first orders of this side
          have hno := hi.none (by cases sd <;> simp [hold])
          refine ⟨?_, by simpa using hi.fresh, ?_, ?_⟩
          · intro x l hl
            simp only at hl
            by_cases hx : x = sd
            · rw [if_pos hx] at hl; injection hl with hl; rw [← hl]; exact hso
            · rw [if_neg hx] at hl; exact hi.sorted x l hl
          · intro _; simpa using hno
          · intro bb aa _ _
            refine ⟨?_, ?_, ?_⟩
            · intro d hd; rw [hno.2.1] at hd; cases hd
            · intro d hd; rw [hno.1] at hd; cases hd
            · intro l1 cb ca l2 he
              exact absurd (by rw [List.append_nil] at he; rw [he]; simp) (hno.2.2 cb ca)
        | some old =>
          have hsold := hi.sorted sd old hold
          simp only
          refine ⟨?_, ?_, ?_, ?_⟩
          · intro x l hl
            simp only at hl
            by_cases hx : x = sd
            · rw [if_pos hx] at hl; injection hl with hl; rw [← hl]; exact hso
            · rw [if_neg hx] at hl; exact hi.sorted x l hl
          · apply fresh_append _ _ _ hi.fresh
            cases hoth : f.cache sd.other with
            | some o' => exact publish_fresh rnd sd hso hsold (hi.sorted _ _ hoth) _
            | none =>
              have hno := hi.none (other_none hoth)
              rw [hno.1, lastCp_none _ hno.2.2]
              apply fresh_none
              intro cb ca hm
              obtain ⟨l1, l2, e⟩ := List.append_of_mem hm
              obtain ⟨o', ho', _⟩ := publish_checkpoints rnd sd e
              cases ho'
          · intro hnn
            simp only at hnn
            have hoth : f.cache sd.other = none := by
              cases sd <;> simp [Side.other] at hnn ⊢ <;> exact hnn
            have hno := hi.none (other_none hoth)
            refine ⟨hno.1, hno.2.1, ?_⟩
            intro cb ca hm
            rcases List.mem_append.mp hm with hm | hm
            · exact hno.2.2 cb ca hm
            · obtain ⟨l1, l2, e⟩ := List.append_of_mem hm
              obtain ⟨o', ho', _⟩ := publish_checkpoints rnd sd e
              rw [hoth] at ho'; cases ho'
          · intro bb aa hb ha
            simp only at hb ha
            -- the other side and both pairs
            obtain ⟨o', hoth, hpair⟩ : ∃ o', f.cache sd.other = some o' ∧ pair sd orders o' = (bb, aa) := by
              cases sd with
              | bid => simp at hb ha; exact ⟨aa, ha, by rw [hb]; rfl⟩
              | ask => simp at hb ha; exact ⟨bb, hb, by rw [ha]; rfl⟩
            obtain ⟨i1, i2, i3⟩ := hi.some (pair sd old o').1 (pair sd old o').2 (by cases sd <;> simp [pair, hold] <;> exact hoth)
              (by cases sd <;> simp [pair, hold] <;> exact hoth)
            have key : ∀ d, d = depths rnd (pair sd old o').1 (pair sd old o').2 ∨ d = depths rnd bb aa →
                catchUp d (publishBook rnd sd orders old (f.cache sd.other)) = depths rnd bb aa := by
              intro d hd
              have := catch_publish rnd sd (o := o') hso hsold (f.cache sd.other) d (by rw [hpair]; exact hd)
              rw [hpair] at this; exact this
            refine ⟨?_, ?_, ?_⟩
            · intro d hd; rw [catchUp_append, i1 d hd]; exact key _ (Or.inl rfl)
            · intro c hc; rw [catchUp_append, i2 c hc]; exact key _ (Or.inl rfl)
            · intro l1 cb ca l2 he
              -- the checkpoint is an old one or a new one
              rw [List.append_eq_append_iff] at he
              rcases he with ⟨m, e1, e2⟩ | ⟨m, e1, e2⟩
              · obtain ⟨o2, ho2, hcb, hca, hcat⟩ := publish_checkpoints rnd sd e2
                rw [hoth] at ho2; injection ho2 with ho2; subst ho2
                rw [hcat, hcb, hca, hpair]
                have h1 : Sorted bb := by have := hpair; cases sd <;> simp [pair] at this <;> first | (rw [← this.1]; exact hso) | (rw [← this.1]; exact hi.sorted _ _ hoth)
                have h2 : Sorted aa := by have := hpair; cases sd <;> simp [pair] at this <;> first | (rw [← this.2]; exact hso) | (rw [← this.2]; exact hi.sorted _ _ hoth)
                rw [C78_checkpoint rnd h1 h2]
                exact key _ (Or.inr rfl)
              · cases m with
                | nil =>
                  obtain ⟨o2, ho2, hcb, hca, hcat⟩ := publish_checkpoints rnd sd (l1 := []) (by simpa using e2.symm)
                  rw [hoth] at ho2; injection ho2 with ho2; subst ho2
                  rw [hcat, hcb, hca, hpair]
                  have h1 : Sorted bb := by have := hpair; cases sd <;> simp [pair] at this <;> first | (rw [← this.1]; exact hso) | (rw [← this.1]; exact hi.sorted _ _ hoth)
                  have h2 : Sorted aa := by have := hpair; cases sd <;> simp [pair] at this <;> first | (rw [← this.2]; exact hso) | (rw [← this.2]; exact hi.sorted _ _ hoth)
                  rw [C78_checkpoint rnd h1 h2]
                  exact key _ (Or.inr rfl)
                | cons m ms =>
                  simp only [List.cons_append, List.cons.injEq] at e2
                  obtain ⟨rfl, rfl⟩ := e2
                  rw [catchUp_append, i3 l1 cb ca ms e1]
                  exact key _ (Or.inl rfl)
  · simpa using hi

def HInv (rnd : ℚ → ℚ) (h : Hub) : Prop := Inv rnd h.filter h.channel h.checkpoint h.view ∧ (h.subscribed = false → h.view = none)

theorem step_inv {β ω : Type} (rnd : ℚ → ℚ) (viewOf : Side → β → ω → Nat → Option (List Order)) (hv : Sorts viewOf) (h : Hub) (op : HubOp β ω) (hi : HInv rnd h) :
    HInv rnd (h.step rnd viewOf op) := by
  obtain ⟨hi, hs⟩ := hi
  cases op with
  | round w now =>
    refine ⟨?_, hs⟩
    have h1 := side_inv rnd viewOf hv _ _ _ _ w now .bid hi
    have h2 := side_inv rnd viewOf hv _ _ _ _ w now .ask h1
    rw [List.append_assoc] at h2
    exact h2
  | subscribe =>
    unfold Hub.step
    by_cases hsub : h.subscribed = true
    · simp only; rw [if_pos hsub]; exact ⟨hi, hs⟩
    · simp only; rw [if_neg hsub]
      refine ⟨⟨hi.sorted, hi.fresh, ?_, ?_⟩, by simp⟩
      · intro hn
        have := hi.none hn
        exact ⟨this.1, by simp [this.1], this.2.2⟩
      · intro b a hb ha
        obtain ⟨i1, i2, i3⟩ := hi.some b a hb ha
        refine ⟨?_, i2, i3⟩
        intro d hd
        simp only at hd
        cases hc : h.checkpoint with
        | none => rw [hc] at hd; cases hd
        | some c => rw [hc] at hd; injection hd with hd; rw [← hd]; exact i2 c hc
  | unsubscribe =>
    refine ⟨⟨hi.sorted, hi.fresh, ?_, ?_⟩, fun _ => rfl⟩
    · intro hn; have := hi.none hn; exact ⟨this.1, rfl, this.2.2⟩
    · intro b a hb ha
      obtain ⟨i1, i2, i3⟩ := hi.some b a hb ha
      exact ⟨fun d hd => (by cases hd), i2, i3⟩
  | receive =>
    have h3 : ∀ m rest (hch : h.channel = m :: rest) b a, h.filter.cache .bid = some b → h.filter.cache .ask = some a →
        ∀ l1 cb ca l2, rest = l1 ++ BookMsg.levelCheckpoint cb ca :: l2 → catchUp (fromCheckpoint cb ca) l2 = depths rnd b a := by
      intro m rest hch b a hb ha l1 cb ca l2 e
      exact (hi.some b a hb ha).2.2 (m :: l1) cb ca l2 (by rw [hch, e]; rfl)
    have h4 : ∀ m rest (hch : h.channel = m :: rest), (h.filter.cache .bid = none ∨ h.filter.cache .ask = none) →
        ∀ cb ca, BookMsg.levelCheckpoint cb ca ∉ rest := by
      intro m rest hch hn cb ca hm
      exact (hi.none hn).2.2 cb ca (by rw [hch]; exact List.mem_cons_of_mem _ hm)
    unfold Hub.step
    simp only
    split
    · exact ⟨hi, hs⟩
    · rename_i cb ca rest hch
      have hfr := hi.fresh
      rw [hch] at hfr
      refine ⟨⟨hi.sorted, hfr, ?_, ?_⟩, hs⟩
      · intro hn
        exact absurd (by rw [hch]; simp) ((hi.none hn).2.2 cb ca)
      · intro b a hb ha
        obtain ⟨i1, i2, i3⟩ := hi.some b a hb ha
        refine ⟨?_, ?_, h3 _ _ hch b a hb ha⟩
        · intro d hd; have := i1 d hd; rw [hch] at this; exact this
        · intro c hc
          simp only at hc
          injection hc with hc
          rw [← hc]
          exact i3 [] cb ca rest (by rw [hch]; rfl)
    · rename_i sd u rest hch
      have hfr := hi.fresh
      rw [hch] at hfr
      refine ⟨⟨hi.sorted, hfr.2, ?_, ?_⟩, ?_⟩
      · intro hn
        have := hi.none hn
        refine ⟨this.1, ?_, h4 _ _ hch hn⟩
        simp only
        rw [this.2.1]; simp
      · intro b a hb ha
        obtain ⟨i1, i2, i3⟩ := hi.some b a hb ha
        refine ⟨?_, ?_, h3 _ _ hch b a hb ha⟩
        · intro d hd
          simp only at hd
          by_cases hsub : h.subscribed = true
          · rw [if_pos hsub] at hd
            cases hvw : h.view with
            | none => rw [hvw] at hd; cases hd
            | some d0 =>
              rw [hvw] at hd; injection hd with hd
              have := i1 d0 hvw; rw [hch] at this
              rw [← hd]; exact this
          · rw [hs (by simpa using hsub)] at hd; simp at hd
        · intro c hc
          have := i2 c hc
          rw [hch] at this
          have hf := hfr.1 c hc
          simp only [catchUp] at this
          rw [hf] at this
          exact this
      · intro hsub
        simp only
        simp only at hsub
        rw [hsub, hs hsub]; simp
    · rename_i m rest hn1 hn2 hch
      have hfr := hi.fresh
      rw [hch] at hfr
      have hcu : ∀ d, catchUp d (m :: rest) = catchUp d rest := by
        intro d; cases m with
        | levelCheckpoint b a => exact absurd rfl (hn1 b a)
        | levelUpdate sd u => exact absurd rfl (hn2 sd u)
        | bookCheckpoint b a => rfl
        | bookUpdate sd a r => rfl
      have hfr' : Fresh h.checkpoint rest := by
        cases m with
        | levelCheckpoint b a => exact absurd rfl (hn1 b a)
        | levelUpdate sd u => exact absurd rfl (hn2 sd u)
        | bookCheckpoint b a => exact hfr
        | bookUpdate sd a r => exact hfr
      refine ⟨⟨hi.sorted, hfr', ?_, ?_⟩, hs⟩
      · intro hn
        have := hi.none hn
        exact ⟨this.1, this.2.1, h4 _ _ hch hn⟩
      · intro b a hb ha
        obtain ⟨i1, i2, i3⟩ := hi.some b a hb ha
        rw [hch] at i1 i2
        exact ⟨fun d hd => by rw [← hcu]; exact i1 d hd, fun c hc => by rw [← hcu]; exact i2 c hc, h3 _ _ hch b a hb ha⟩

theorem run_inv {β ω : Type} (rnd : ℚ → ℚ) (viewOf : Side → β → ω → Nat → Option (List Order)) (hv : Sorts viewOf) (ops : List (HubOp β ω)) (h : Hub) (hi : HInv rnd h) :
    HInv rnd (h.run rnd viewOf ops) := by
  induction ops generalizing h with
  | nil => exact hi
  | cons op ops ih => exact ih _ (step_inv rnd viewOf hv h op hi)

/-- **C78** Whatever updates the service gets and in whatever order its tasks run: a subscriber that has been given a checkpoint has, once the messages still on their way are applied,
exactly the levels of the last bids and asks the service read; both have been read. -/
theorem C78_subscriber {β ω : Type} (rnd : ℚ → ℚ) (viewOf : Side → β → ω → Nat → Option (List Order)) (hv : Sorts viewOf) (ops : List (HubOp β ω)) {d : Depth}
    (hd : (Hub.run rnd viewOf {} ops).view = some d) :
    ∃ bids asks, (Hub.run rnd viewOf {} ops).filter.cache .bid = some bids ∧ (Hub.run rnd viewOf {} ops).filter.cache .ask = some asks ∧
      catchUp d (Hub.run rnd viewOf {} ops).channel = depths rnd bids asks := by
  have hi := run_inv rnd viewOf hv ops {} ⟨⟨fun sd l h => by (cases h), trivial, fun _ => ⟨rfl, rfl, fun _ _ h => by cases h⟩, fun b a h => by cases h⟩, fun _ => rfl⟩
  obtain ⟨hi, _⟩ := hi
  cases hb : (Hub.run rnd viewOf {} ops).filter.cache .bid with
  | none => rw [(hi.none (Or.inl hb)).2.1] at hd; cases hd
  | some b =>
    cases ha : (Hub.run rnd viewOf {} ops).filter.cache .ask with
    | none => rw [(hi.none (Or.inr ha)).2.1] at hd; cases hd
    | some a => exact ⟨b, a, rfl, rfl, (hi.some b a hb ha).1 d hd⟩

/-- with nothing on its way: exactly the levels -/
theorem C78_subscriber_now {β ω : Type} (rnd : ℚ → ℚ) (viewOf : Side → β → ω → Nat → Option (List Order)) (hv : Sorts viewOf) (ops : List (HubOp β ω)) {d : Depth}
    (hd : (Hub.run rnd viewOf {} ops).view = some d) (hch : (Hub.run rnd viewOf {} ops).channel = []) :
    ∃ bids asks, (Hub.run rnd viewOf {} ops).filter.cache .bid = some bids ∧ (Hub.run rnd viewOf {} ops).filter.cache .ask = some asks ∧ d = depths rnd bids asks := by
  obtain ⟨b, a, hb, ha, h⟩ := C78_subscriber rnd viewOf hv ops hd
  rw [hch] at h
  exact ⟨b, a, hb, ha, h⟩

/-- **C78** The service reads a side again when its account, or the oracle, has a newer version than the last one it handled for the side, and then has the orders of that account. -/
theorem C78_current {β ω : Type} (rnd : ℚ → ℚ) (viewOf : Side → β → ω → Nat → Option (List Order)) (f : BookService) (w : World β ω) (now : Nat) (sd : Side)
    {bv ov : Version} {b : β} {o : ω} {orders : List Order} (hb : w.book sd = some (bv, b)) (ho : w.oracle = some (ov, o))
    (hn : isNewer bv (f.bookVersion sd) = true ∨ isNewer ov f.oracleVersion = true) (hv : viewOf sd b o now = some orders) :
    (f.side rnd viewOf w now sd).1.cache sd = some orders ∧ (f.side rnd viewOf w now sd).1.cache sd.other = f.cache sd.other ∧
    (f.side rnd viewOf w now sd).1.bookVersion sd = bv ∧ (f.side rnd viewOf w now sd).1.oracleVersion = ov ∧
    (∀ old, f.cache sd = some old → (f.side rnd viewOf w now sd).2 = publishBook rnd sd orders old (f.cache sd.other)) := by
  have hnn : ¬ (isNewer bv (f.bookVersion sd) = false ∧ isNewer ov f.oracleVersion = false) := by
    intro h; rcases hn with h' | h' <;> simp_all
  unfold BookService.side
  rw [hb, ho]
  simp only
  rw [if_neg hnn, hv]
  refine ⟨by simp, by cases sd <;> simp [Side.other], by simp, rfl, ?_⟩
  intro old hold
  simp only [hold]

/-- **C78** (finding) Both sides share the oracle's last version, and the bids are handled first: when only the oracle changed, the asks are not read again and subscribers get nothing about them,
though the prices of oracle-pegged asks have moved. -/
theorem C78_asks_stale {β ω : Type} (rnd : ℚ → ℚ) (viewOf : Side → β → ω → Nat → Option (List Order)) (f : BookService) (w : World β ω) (now : Nat)
    {bv av ov : Version} {b a : β} {o : ω} (hb : w.book .bid = some (bv, b)) (ha : w.book .ask = some (av, a)) (ho : w.oracle = some (ov, o))
    (hav : isNewer av (f.bookVersion .ask) = false) :
    (f.round rnd viewOf w now).1.cache .ask = f.cache .ask ∧ (f.round rnd viewOf w now).2 = (f.side rnd viewOf w now .bid).2 := by
  have hself : ∀ v : Version, isNewer v v = false := by intro v; simp [isNewer]
  have h1 : (f.side rnd viewOf w now .bid).1.cache .ask = f.cache .ask ∧ (f.side rnd viewOf w now .bid).1.bookVersion .ask = f.bookVersion .ask ∧
      isNewer ov (f.side rnd viewOf w now .bid).1.oracleVersion = false := by
    unfold BookService.side
    rw [hb, ho]
    simp only
    by_cases hn : isNewer bv (f.bookVersion .bid) = false ∧ isNewer ov f.oracleVersion = false
    · rw [if_pos hn]; exact ⟨rfl, rfl, hn.2⟩
    · rw [if_neg hn]
      cases viewOf .bid b o now with
      | none => exact ⟨rfl, by simp, hself ov⟩
      | some orders => exact ⟨by simp, by simp, hself ov⟩
  have h2 : (f.side rnd viewOf w now .bid).1.side rnd viewOf w now .ask = ((f.side rnd viewOf w now .bid).1, []) := by
    generalize (f.side rnd viewOf w now .bid).1 = g at h1 ⊢
    unfold BookService.side
    rw [ha, ho]
    simp only
    rw [if_pos ⟨by rw [h1.2.1]; exact hav, h1.2.2⟩]
  unfold BookService.round
  simp only
  rw [h2]
  exact ⟨h1.1, by simp⟩

/-- **C78** An update of orders, when there is one, says which orders came and which went. -/
theorem C78_orders (cur prev : List Order) (o : Order) : o ∈ cur ↔ (o ∈ prev ∧ o ∉ removals cur prev) ∨ o ∈ additions cur prev := by
  have hr : o ∈ removals cur prev ↔ o ∈ prev ∧ o ∉ cur := by
    unfold removals
    rw [List.mem_filter, Option.isNone_iff_eq_none, List.find?_eq_none]
    refine and_congr Iff.rfl ⟨fun h hm => h o hm (by simp), fun h x hx e => h (by rw [decide_eq_true_eq.mp e]; exact hx)⟩
  have ha : o ∈ additions cur prev ↔ o ∈ cur ∧ o ∉ prev := by
    unfold additions
    rw [List.mem_filter, Option.isNone_iff_eq_none, List.find?_eq_none]
    refine and_congr Iff.rfl ⟨fun h hm => h o hm (by simp), fun h x hx e => h (by rw [decide_eq_true_eq.mp e]; exact hx)⟩
  rw [hr, ha]; tauto

/-- **C78** (finding) When orders only came, or only went, subscribers of orders are told nothing; otherwise they are told everything. -/
theorem C78_orders_missing (rnd : ℚ → ℚ) (sd : Side) (cur prev : List Order) (oth : Option (List Order)) :
    (((∀ o ∈ prev, o ∈ cur) ∨ (∀ o ∈ cur, o ∈ prev)) → ∀ s a r, BookMsg.bookUpdate s a r ∉ publishBook rnd sd cur prev oth) ∧
    (¬ ((∀ o ∈ prev, o ∈ cur) ∨ (∀ o ∈ cur, o ∈ prev)) → BookMsg.bookUpdate sd (additions cur prev) (removals cur prev) ∈ publishBook rnd sd cur prev oth) := by
  have hr : removals cur prev = [] ↔ ∀ o ∈ prev, o ∈ cur := by
    unfold removals
    rw [List.filter_eq_nil_iff]
    refine forall₂_congr fun o ho => ?_
    rw [Option.isNone_iff_eq_none, List.find?_eq_none]
    constructor
    · intro h; by_contra hm; exact h (fun x hx e => hm (by rw [decide_eq_true_eq.mp e]; exact hx))
    · intro h h2; exact h2 o h (by simp)
  have ha : additions cur prev = [] ↔ ∀ o ∈ cur, o ∈ prev := by
    unfold additions
    rw [List.filter_eq_nil_iff]
    refine forall₂_congr fun o ho => ?_
    rw [Option.isNone_iff_eq_none, List.find?_eq_none]
    constructor
    · intro h; by_contra hm; exact h (fun x hx e => hm (by rw [decide_eq_true_eq.mp e]; exact hx))
    · intro h h2; exact h2 o h (by simp)
  rw [← hr, ← ha]
  constructor
  · intro h s a r hm
    unfold publishBook at hm
    rw [if_neg (c := additions cur prev ≠ [] ∧ removals cur prev ≠ []) (by tauto), List.append_nil] at hm
    rcases List.mem_append.mp hm with hm | hm
    · cases oth with
      | none => cases hm
      | some o => simp at hm
    · by_cases h1 : levelUpdate rnd cur prev ≠ []
      · rw [if_pos h1] at hm; simp at hm
      · rw [if_neg h1] at hm; cases hm
  · intro h
    unfold publishBook
    rw [if_pos (c := additions cur prev ≠ [] ∧ removals cur prev ≠ []) (by tauto)]
    simp

/-! Examples: a book of fixed orders, and one whose orders move with the oracle. -/

/-- the account holds (offset, quantity, owner) triples; an order's price is the oracle price plus the offset -/
def bxView : Side → List (ℚ × ℚ × Nat) → ℚ → Nat → Option (List Order) := fun sd b o _ =>
  let l := b.map (fun x => ({ price := o + x.1, quantity := x.2.1, owner := x.2.2 } : Order))
  some (match sd with
    | .bid => l.insertionSort (fun x y => y.price ≤ x.price)
    | .ask => l.insertionSort (fun x y => x.price ≤ y.price))

/-- the hypothesis on `viewOf` can be met -/
theorem bx_sorts : Sorts bxView := by
  intro sd b o now l h
  unfold bxView at h
  injection h with h
  subst h
  cases sd with
  | bid =>
    refine Or.inr (List.pairwise_map.mpr ?_)
    haveI : Std.Total (fun x y : Order => y.price ≤ x.price) := ⟨fun a b => le_total _ _⟩
    haveI : IsTrans Order (fun x y : Order => y.price ≤ x.price) := ⟨fun a b c h1 h2 => le_trans h2 h1⟩
    exact List.pairwise_insertionSort (fun x y : Order => y.price ≤ x.price) _
  | ask =>
    refine Or.inl (List.pairwise_map.mpr ?_)
    haveI : Std.Total (fun x y : Order => x.price ≤ y.price) := ⟨fun a b => le_total _ _⟩
    haveI : IsTrans Order (fun x y : Order => x.price ≤ y.price) := ⟨fun a b c h1 h2 => le_trans h1 h2⟩
    exact List.pairwise_insertionSort (fun x y : Order => x.price ≤ y.price) _

def bxW (bv av ov : Nat) (b a : List (ℚ × ℚ × Nat)) (o : ℚ) : World (List (ℚ × ℚ × Nat)) ℚ where
  book := fun sd => match sd with | .bid => some ((bv, 0), b) | .ask => some ((av, 0), a)
  oracle := some ((ov, 0), o)

/-- read both sides, change the bids, receive, subscribe, change both sides (a level goes, one comes, one changes), receive -/
def bxOps : List (HubOp (List (ℚ × ℚ × Nat)) ℚ) :=
  [.round (bxW 1 1 1 [(-1, 5, 1), (-1, 2, 2)] [(1, 3, 3)] 100) 0, .round (bxW 2 1 1 [(-1, 5, 1)] [(1, 3, 3)] 100) 0, .receive, .receive, .subscribe,
   .round (bxW 3 2 1 [(-2, 4, 1), (-1, 6, 1)] [(2, 1, 3)] 100) 0, .receive, .receive, .receive, .receive, .receive, .receive, .receive, .receive, .receive, .receive]

def bxEnd : Hub := Hub.run id bxView {} bxOps

/-- the subscriber has the book -/
example : bxEnd.channel = [] ∧ bxEnd.view.map (fun d => (d .bid 99, d .bid 98, d .ask 101, d .ask 102, d .ask 99)) = some (6, 4, 0, 1, 0) := by
  decide +kernel

/-- only the oracle moves: the bids follow it, the asks do not -/
example : ((bxEnd.filter.round id bxView (bxW 3 2 2 [(-2, 4, 1), (-1, 6, 1)] [(2, 1, 3)] 110) 0).1.cache .bid,
    (bxEnd.filter.round id bxView (bxW 3 2 2 [(-2, 4, 1), (-1, 6, 1)] [(2, 1, 3)] 110) 0).1.cache .ask) =
    (some [⟨109, 6, 1⟩, ⟨108, 4, 1⟩], some [⟨102, 1, 3⟩]) := by
  decide +kernel

end BookFeed
end Mango
