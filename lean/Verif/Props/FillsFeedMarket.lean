import Verif.Props.FillsFeed
import Verif.Perp.Trace
import Verif.Perp.System
/-!
# C77: the event queue of every market has a history as the fills feed's theorems ask for
-/
namespace Mango
namespace Feeds
open Perp Book

/-- from a queue with a history, a queue with a longer history -/
def Continues (q q' : Queue) : Prop := ∀ cap log, Chain cap q log → ∃ more, Chain cap q' (log ++ more)

/-- a queue and what becomes of it by pushing and popping events -/
inductive Moves : Queue → Queue → Prop
  | refl (q : Queue) : Moves q q
  | trans {a b c : Queue} : Moves a b → Moves b c → Moves a c
  | push {q q' : Queue} {e : Event} : seqOf e = q.seqNum → q.pushBack e = .ok q' → Moves q q'
  | pop {q q' : Queue} {e : Event} : q.popFront = .ok (e, q') → Moves q q'

theorem Moves.continues {q q' : Queue} (h : Moves q q') : Continues q q' := by
  induction h with
  | refl q => exact fun _ log h => ⟨[], by simpa using h⟩
  | trans _ _ ih1 ih2 =>
    intro cap log h
    obtain ⟨m1, h1⟩ := ih1 cap log h
    obtain ⟨m2, h2⟩ := ih2 cap _ h1
    exact ⟨m1 ++ m2, by rw [← List.append_assoc]; exact h2⟩
  | push hs h => exact fun _ _ hc => ⟨[_], .push hc hs h⟩
  | pop h => exact fun _ log hc => ⟨[], by rw [List.append_nil]; exact .pop hc h⟩

theorem trace_moves {c : MCtx} {s s' : MState} {items : List Item} {acts : List Act} (h : Trace c s items acts s') : Moves s.queue s'.queue := by
  induction h with
  | nil | full | outside | noQuote => exact .refl _
  | block => exact .refl _
  | drop s i rest acts s' q _ _ _ hp _ ih => exact .trans (.push rfl hp) ih
  | ignore s i rest acts s' _ _ _ _ ih => exact ih
  | cancel s i rest acts s' q _ _ _ _ hp _ ih => exact .trans (.push rfl hp) ih
  | fill s i rest acts s' q base _ _ _ _ _ hp _ ih => exact .trans (.push rfl hp) ih

theorem dropExpired_moves {side : Side} {c : Comp} {now : Nat} {b b' : BookSide} {q q' : Queue} (h : dropExpired side c now b q = .ok (b', q')) : Moves q q' := by
  simp only [dropExpired, bind_ok] at h
  obtain ⟨⟨x, b1⟩, _, h⟩ := h
  cases x with
  | none => simp only [ok_inj, Prod.mk.injEq] at h; rw [h.2]; exact .refl _
  | some l =>
    simp only [bind_ok, ok_inj, Prod.mk.injEq] at h
    obtain ⟨q1, hq, _, rfl⟩ := h
    exact .push rfl hq

theorem evictWorst_moves {side : Side} {price oracle : Int} {now : Nat} {b b' : BookSide} {q q' : Queue} (h : evictWorst side price now oracle b q = .ok (b', q')) :
    Moves q q' := by
  unfold evictWorst at h
  by_cases hf : b.isFull = true
  · rw [if_pos hf] at h
    simp only [bind_ok] at h
    obtain ⟨⟨x, b1⟩, _, h⟩ := h
    cases x with
    | none => cases h
    | some l =>
      obtain ⟨l, wp⟩ := l
      simp only [bind_ok, require_ok, ok_inj, Prod.mk.injEq] at h
      obtain ⟨_, _, q1, hq, _, rfl⟩ := h
      exact .push rfl hq
  · rw [if_neg hf] at h
    simp only [ok_inj, Prod.mk.injEq] at h
    rw [h.2]; exact .refl _

theorem newOrder_moves {o : Order} {oracle : I80F48} {u now limit : Nat} {s : NOState} {r : Option Nat × NOState} (h : newOrder o oracle u now limit s = .ok r) :
    Moves s.queue r.2.queue := by
  simp only [newOrder, bind_ok] at h
  obtain ⟨o1, _, ⟨pr, pd⟩, _, ⟨oid, m⟩, _, ⟨m1, a1⟩, _, p, _, items, _, st, hst, tq, _, tb, _, ⟨m2, a2⟩, _, b1, _, b2, _, post, _, h⟩ := h
  obtain ⟨acts, ht⟩ := matchLoop_trace hst
  have h1 := trace_moves ht
  cases post with
  | none => simp only [ok_inj] at h; subst h; exact h1
  | some t =>
    simp only [bind_ok, ok_inj] at h
    obtain ⟨s2, hp, rfl⟩ := h
    refine h1.trans ?_
    simp only [postOrder, bind_ok, ok_inj] at hp
    obtain ⟨⟨b3, q3⟩, hd, ⟨b4, q4⟩, he, slot, _, ⟨x, y, b5⟩, _, a3, _, rfl⟩ := hp
    exact (dropExpired_moves hd).trans (evictWorst_moves he)

theorem consumeOne_moves {s s' : PSys} {avail : List Nat} (h : consumeOne s avail = .ok (some s')) : Moves s.queue s'.queue := by
  unfold consumeOne at h
  split at h
  · cases h
  · rename_i f _
    split at h
    · split at h
      · split at h
        · cases h
        · simp only [bind_ok, ok_inj, Option.some.injEq] at h
          obtain ⟨⟨a1, m1⟩, _, ⟨a2, m2⟩, _, ⟨e, q⟩, hq, rfl⟩ := h
          exact .pop hq
      · cases h
    · split at h
      · split at h
        · split at h
          · simp only [bind_ok, ok_inj, Option.some.injEq] at h
            obtain ⟨⟨a1, m1⟩, _, ⟨a2, m2⟩, _, ⟨e, q⟩, hq, rfl⟩ := h
            exact .pop hq
          · cases h
        · cases h
      · cases h
  · split at h
    · split at h
      · cases h
      · simp only [bind_ok, ok_inj, Option.some.injEq] at h
        obtain ⟨a1, _, ⟨e, q⟩, hq, rfl⟩ := h
        exact .pop hq
    · cases h

theorem consumeLoop_moves (n : Nat) : ∀ {s s' : PSys} {avail : List Nat}, consumeLoop n s avail = .ok s' → Moves s.queue s'.queue := by
  induction n with
  | zero => intro s s' avail h; simp only [consumeLoop, ok_inj] at h; rw [h]; exact .refl _
  | succ n ih =>
    intro s s' avail h
    simp only [consumeLoop, bind_ok] at h
    obtain ⟨r, hr, h⟩ := h
    cases r with
    | none => simp only [ok_inj] at h; rw [h]; exact .refl _
    | some s1 => exact (consumeOne_moves hr).trans (ih h)

theorem pstep_moves {s s' : PSys} {op : POp} (h : pstep s op = .ok s') : Moves s.queue s'.queue := by
  cases op with
  | place u o oracle now limit room =>
    simp only [pstep, placeOp, bind_ok, require_ok] at h
    obtain ⟨_, _, _, _, h⟩ := h
    split at h
    · cases h
    · simp only [bind_ok, ok_inj] at h
      obtain ⟨a1, _, p, _, o1, _, r, hr, rfl⟩ := h
      exact newOrder_moves hr
  | cancelId u id =>
    simp only [pstep, cancelOp] at h
    split at h
    · cases h
    · simp only [bind_ok, ok_inj] at h
      obtain ⟨x, _, rfl⟩ := h
      exact .refl _
  | cancelClient u id =>
    simp only [pstep, cancelOp] at h
    split at h
    · cases h
    · simp only [bind_ok, ok_inj] at h
      obtain ⟨x, _, rfl⟩ := h
      exact .refl _
  | cancelAll u l so =>
    simp only [pstep, cancelOp] at h
    split at h
    · cases h
    · simp only [bind_ok, ok_inj] at h
      obtain ⟨x, _, rfl⟩ := h
      exact .refl _
  | consume limit avail => exact consumeLoop_moves _ h
  | deactivate u =>
    simp only [pstep, deactivateOp] at h
    split at h
    · cases h
    · simp only [bind_ok, require_ok, ok_inj] at h
      obtain ⟨_, _, _, _, _, _, _, _, _, _, _, _, rfl⟩ := h
      exact .refl _
  | forceClose a b price =>
    simp only [pstep, forceCloseOp, bind_ok, require_ok] at h
    obtain ⟨_, _, _, _, h⟩ := h
    split at h
    · simp only [bind_ok, require_ok, ok_inj] at h
      obtain ⟨_, _, _, _, _, _, _, _, _, _, _, _, _, _, _, _, _, _, _, _, _, _, rfl⟩ := h
      exact .refl _
    · cases h
  | liqBase a b base ql qr =>
    simp only [pstep, liqBaseOp, bind_ok, require_ok] at h
    obtain ⟨_, _, h⟩ := h
    split at h
    · simp only [bind_ok, require_ok, ok_inj] at h
      obtain ⟨_, _, _, _, _, _, _, _, _, _, _, _, _, _, _, _, _, _, rfl⟩ := h
      exact .refl _
    · cases h
  | resize u n =>
    simp only [pstep] at h
    split at h
    · cases h
    · simp only [bind_ok, ok_inj] at h
      obtain ⟨_, _, rfl⟩ := h
      exact .refl _
  | create n => simp only [pstep, ok_inj] at h; subst h; exact .refl _
  | close u =>
    simp only [pstep] at h
    split at h
    · cases h
    · simp only [bind_ok, ok_inj, require_ok] at h
      obtain ⟨_, _, rfl⟩ := h
      exact .refl _
  | ensure u =>
    simp only [pstep] at h
    split at h
    · cases h
    · simp only [bind_ok, ok_inj] at h
      obtain ⟨_, _, rfl⟩ := h
      exact .refl _
  | quotes =>
    simp only [pstep] at h
    split at h
    · cases h
    · simp only [bind_ok, ok_inj] at h
      obtain ⟨_, _, rfl⟩ := h
      exact .refl _
  | market m => simp only [pstep, ok_inj] at h; subst h; exact .refl _
  | otherSlot u i oo =>
    simp only [pstep] at h
    split at h
    · cases h
    · simp only [bind_ok, ok_inj, require_ok] at h
      obtain ⟨_, _, _, _, rfl⟩ := h
      exact .refl _

theorem prun_moves (ops : List POp) : ∀ s : PSys, Moves s.queue (prun s ops).queue := by
  induction ops with
  | nil => intro s; exact .refl _
  | cons op ops ih =>
    intro s
    simp only [prun]
    cases h : pstep s op with
    | ok s' => exact (pstep_moves h).trans (ih s')
    | error e => exact ih s

/-- **C77** The event queue of every market, after any instructions by anyone, has a history of the kind the other theorems ask for; further instructions continue this history. -/
theorem C77_market (m : Market) (bookNodes queueLen : Nat) (fill : Event) (ops more : List POp) :
    ∃ log new, Chain queueLen (prun (PSys.init m bookNodes queueLen fill) ops).queue log ∧
      Chain queueLen (prun (prun (PSys.init m bookNodes queueLen fill) ops) more).queue (log ++ new) := by
  obtain ⟨log, h⟩ := (prun_moves ops (PSys.init m bookNodes queueLen fill)).continues queueLen [] (.init fill)
  rw [List.nil_append] at h
  obtain ⟨new, h2⟩ := (prun_moves more _).continues queueLen log h
  exact ⟨log, new, h, h2⟩

end Feeds
end Mango
