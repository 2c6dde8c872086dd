import Verif.Feeds.Fills
import Verif.Props.Queue
import Mathlib.Tactic.Linarith
/-!
# C77: the fills feed reports every fill once

Specification: `Chain cap q log` says that `q` is the event queue of a market after some history of pushed and consumed events, and `log` is the list of all events ever pushed, the oldest first.
On a fork of the blockchain a queue has another history.
-/
namespace Mango
namespace Feeds
open Perp

/-- the sequence number an event carries -/
def seqOf : Event → Int
  | .fill f => f.seqNum
  | .out o => o.seqNum

/-- `q` is the queue of a market after a history in which the events `log` were pushed, in this order; each event carries the queue's sequence number at its push (book.rs) -/
inductive Chain (cap : Nat) : Queue → List Event → Prop
  | init (e : Event) : Chain cap (EventQueue.init e cap) []
  | push {q q' : Queue} {log : List Event} {e : Event} : Chain cap q log → seqOf e = q.seqNum → q.pushBack e = .ok q' → Chain cap q' (log ++ [e])
  | pop {q q' : Queue} {log : List Event} {e : Event} : Chain cap q log → q.popFront = .ok (e, q') → Chain cap q' log

/-- the ring buffer holds the last `cap` events, each at its sequence number modulo `cap`; `log.length - count` events were consumed -/
structure RingIs (cap : Nat) (q : Queue) (log : List Event) : Prop where
  len : q.buf.length = cap
  seq : q.seqNum = log.length
  count : q.count ≤ cap
  le : q.count ≤ log.length
  head : q.head = (log.length - q.count) % cap
  at_ : ∀ n, n < log.length → log.length ≤ n + cap → q.buf[n % cap]? = log[n]?
  seqs : ∀ (n : Nat) (e : Event), log[n]? = some e → seqOf e = (n : Int)

theorem mod_ne {n m cap : Nat} (h : n < m) (h2 : m < n + cap) : n % cap ≠ m % cap := by
  intro e
  have h1 := Nat.sub_mod_eq_zero_of_mod_eq (m := m) (k := cap) e.symm
  rw [Nat.mod_eq_of_lt (by omega)] at h1
  omega

theorem chain_ring {cap : Nat} (hc : 0 < cap) {q : Queue} {log : List Event} (h : Chain cap q log) : RingIs cap q log := by
  induction h with
  | init e => constructor <;> simp [EventQueue.init]
  | @push q q' log e _ hs hp ih =>
    obtain ⟨i1, i2, i3, i4, i5, i6, i7⟩ := ih
    unfold EventQueue.pushBack EventQueue.full at hp
    by_cases hf : q.count = q.buf.length
    · simp [hf] at hp
    · simp only [beq_iff_eq, hf, if_false, bind_ok, cku64_ok] at hp
      obtain ⟨sq, ⟨hsq, _⟩, hp⟩ := hp
      cases hp
      have hslot : (q.head + q.count) % q.buf.length = log.length % cap := by
        rw [i1, i5, Nat.mod_add_mod]
        congr 1; omega
      constructor
      · simp [i1]
      · simp [hsq, i2]
      · simp only; omega
      · simp only [List.length_append, List.length_cons, List.length_nil]; omega
      · simp only [List.length_append, List.length_cons, List.length_nil]
        rw [i5]; congr 1; omega
      · intro n hn hw
        simp only [List.length_append, List.length_cons, List.length_nil] at hn hw
        simp only [hslot]
        by_cases hnl : n = log.length
        · subst hnl
          rw [List.getElem?_append_right (le_refl _)]
          have : log.length % cap < q.buf.length := by rw [i1]; exact Nat.mod_lt _ hc
          simp [this]
        · rw [List.getElem?_set_ne (by exact (mod_ne (by omega) (by omega)).symm), i6 n (by omega) (by omega), List.getElem?_append_left (by omega)]
      · intro n e' hne
        by_cases hnl : n < log.length
        · rw [List.getElem?_append_left hnl] at hne; exact i7 n e' hne
        · have hle : n < (log ++ [e]).length := (List.getElem?_eq_some_iff.mp hne).1
          simp only [List.length_append, List.length_cons, List.length_nil] at hle
          have : n = log.length := by omega
          subst this
          rw [List.getElem?_append_right (le_refl _)] at hne
          simp at hne
          rw [← hne, hs, i2]
  | @pop q q' log e _ hp ih =>
    obtain ⟨i1, i2, i3, i4, i5, i6, i7⟩ := ih
    unfold EventQueue.popFront EventQueue.isEmpty EventQueue.len at hp
    by_cases hf : q.count = 0
    · simp [hf] at hp
    · simp only [beq_iff_eq, hf, if_false] at hp
      split at hp
      · cases hp
      · cases hp
        refine ⟨i1, i2, by simp only; omega, by simp only; omega, ?_, i6, i7⟩
        simp only
        rw [i1, i5, Nat.mod_add_mod]
        congr 1; omega

/-- how often a fill was reported as new, minus how often it was revoked -/
def net (ms : List Msg) (f : FillEv) : Int := (ms.count (.update .new f) : Int) - ms.count (.update .revoke f)

/-- the fill is among the events of this history -/
def Has (log : List Event) (f : FillEv) : Prop := .fill f ∈ log

instance (log : List Event) (f : FillEv) : Decidable (Has log f) := inferInstanceAs (Decidable (_ ∈ _))

/-- 1 if the fill happened in this history, 0 if not -/
def happened (log : List Event) (f : FillEv) : Int := if Has log f then 1 else 0

/-- two numbers compared like the service compares versions: by slot, then by write version -/
def Newer (v last : Nat × Nat) : Prop := last.1 < v.1 ∨ (last.1 = v.1 ∧ last.2 < v.2)

instance (v last : Nat × Nat) : Decidable (Newer v last) := inferInstanceAs (Decidable (_ ∨ _))

/-- the queue states the service takes notice of: those newer than all before -/
def taken (last : Nat × Nat) : List ((Nat × Nat) × Queue) → List Queue
  | [] => []
  | (v, q) :: rest => if Newer v last then q :: taken v rest else taken last rest

theorem newer_iff (v last : Nat × Nat) : newer v last = true ↔ Newer v last := by
  obtain ⟨a, b⟩ := v
  obtain ⟨c, d⟩ := last
  simp only [newer, Newer, Bool.and_eq_true, Bool.not_eq_true', decide_eq_false_iff_not, Bool.and_eq_false_iff, Prod.mk.injEq]
  omega

/-- the messages for consecutive queue states -/
def pubs (cap : Nat) : List Queue → List Msg
  | [] => []
  | [_] => []
  | p :: q :: rest => (publish cap p q).1 ++ pubs cap (q :: rest)

theorem run_dead (cap : Nat) (seen : List ((Nat × Nat) × Queue)) (s : Service) (h : s.alive = false) : s.run cap seen = (s, []) := by
  induction seen with
  | nil => rfl
  | cons x rest ih =>
    obtain ⟨v, q⟩ := x
    simp [Service.run, Service.see, h, ih]

theorem run_pubs (cap : Nat) (seen : List ((Nat × Nat) × Queue)) : ∀ s : Service, (s.run cap seen).1.alive = true →
    (s.run cap seen).2 = pubs cap (s.cache.toList ++ taken s.version seen) := by
  induction seen with
  | nil => intro s _; cases s.cache <;> rfl
  | cons x rest ih =>
    obtain ⟨v, q⟩ := x
    intro s ha
    have halive : s.alive = true := by
      by_contra hd
      rw [run_dead cap _ s (by simpa using hd)] at ha
      exact hd ha
    simp only [Service.run] at ha ⊢
    by_cases hn : Newer v s.version
    · cases hc : s.cache with
      | none =>
        have he : s.see cap v q = ({ s with version := v, cache := some q }, []) := by
          simp [Service.see, halive, (newer_iff v s.version).mpr hn, hc]
        rw [he] at ha ⊢
        have := ih _ ha
        simp [taken, hn, this]
      | some prev =>
        have he : s.see cap v q = ({ s with version := v, cache := some q, alive := (publish cap prev q).2 }, (publish cap prev q).1) := by
          simp [Service.see, halive, (newer_iff v s.version).mpr hn, hc]
        rw [he] at ha ⊢
        have := ih _ ha
        simp [taken, hn, this, pubs]
    · have he : s.see cap v q = (s, []) := by
        have : newer v s.version = false := by
          cases hh : newer v s.version with
          | false => rfl
          | true => exact absurd ((newer_iff _ _).mp hh) hn
        simp [Service.see, this]
      rw [he] at ha ⊢
      have := ih _ ha
      simp [taken, hn, this]

theorem count_range {α : Type} [BEq α] [LawfulBEq α] (x : α) (g : Nat → List α) (n : Nat) (k : Nat) : ∀ a : Nat,
    (∀ i, a ≤ i → i < a + k → i ≠ n → (g i).count x = 0) →
    ((List.range' a k).flatMap g).count x = if a ≤ n ∧ n < a + k then (g n).count x else 0 := by
  induction k with
  | zero => intro a _; simp
  | succ k ih =>
    intro a h
    rw [List.range'_succ, List.flatMap_cons, List.count_append, ih (a + 1) (fun i h1 h2 h3 => h i (by omega) (by omega) h3)]
    by_cases hn : n = a
    · subst hn
      rw [if_neg (by omega), if_pos (by omega)]; omega
    · rw [h a (le_refl _) (by omega) (fun e => hn e.symm)]
      by_cases hr : a + 1 ≤ n ∧ n < a + 1 + k
      · rw [if_pos hr, if_pos (by omega)]; omega
      · rw [if_neg hr, if_neg (by omega)]

theorem has_iff {cap : Nat} {q : Queue} {log : List Event} (h : RingIs cap q log) {f : FillEv} {n : Nat} (hf : f.seqNum = n) :
    Has log f ↔ log[n]? = some (.fill f) := by
  unfold Has
  constructor
  · intro hm
    obtain ⟨i, hi⟩ := List.mem_iff_getElem?.mp hm
    have := h.seqs i _ hi
    simp only [seqOf, hf] at this
    have : n = i := by omega
    subst this; exact hi
  · intro hm; exact List.mem_of_getElem? hm

theorem fill_seq {cap : Nat} {q : Queue} {log : List Event} (h : RingIs cap q log) {i : Nat} {f : FillEv} (hm : f ∈ fillOf log[i]?) : f.seqNum = i := by
  unfold fillOf at hm
  split at hm
  · rename_i g hg
    simp only [List.mem_singleton] at hm
    subst hm
    exact h.seqs i _ hg
  · simp at hm

theorem fill_at {e : Option Event} {f : FillEv} (h : f ∈ fillOf e) : e = some (.fill f) := by
  unfold fillOf at h
  split at h
  · simp only [List.mem_singleton] at h; rw [h]
  · simp at h

theorem count_fill (st : Status) (e : Option Event) (f : FillEv) :
    ((fillOf e).map (Msg.update st)).count (.update st f) = if e = some (.fill f) then 1 else 0 := by
  unfold fillOf
  split
  · rename_i g
    by_cases hg : g = f
    · simp [hg]
    · simp [hg]
  · rename_i hne
    rw [if_neg (fun h => hne f h)]; rfl

theorem count_other {st st' : Status} (e : Option Event) (f : FillEv) (h : st ≠ st') :
    ((fillOf e).map (Msg.update st)).count (.update st' f) = 0 := by
  rw [List.count_eq_zero]
  intro hm
  obtain ⟨g, _, hg⟩ := List.mem_map.mp hm
  cases hg
  exact h rfl

theorem startSeq_eq {cap : Nat} {p q : Queue} {lp lq : List Event} (hp : RingIs cap p lp) (hq : RingIs cap q lq) :
    startSeq cap p q = max lp.length lq.length - cap := by
  unfold startSeq
  rw [hp.seq, hq.seq]
  omega

/-- one publication -/
theorem publish_net {cap : Nat} {p q : Queue} {lp lq : List Event} (hp : RingIs cap p lp) (hq : RingIs cap q lq) (hfork : lp.length ≤ lq.length + cap)
    {f : FillEv} {n : Nat} (hf : f.seqNum = n) (hn : lp.length ≤ n + cap) (hn' : lq.length ≤ n + cap) :
    net (publish cap p q).1 f = happened lq f - happened lp f := by
  have hst := startSeq_eq hp hq
  have hnet : net (publish cap p q).1 f = net (updates cap p q) f + net (drops cap p q) f := by
    have h0 : ∀ ms : List Msg, (∀ st g, Msg.update st g ∉ ms) → ∀ st, ms.count (.update st f) = 0 := by
      intro ms h st
      rw [List.count_eq_zero]; exact h st f
    unfold publish net
    simp only
    by_cases hh : q.head = 0 ∨ p.head = 0
    · rw [if_pos hh]; simp only [List.count_append]; omega
    · rw [if_neg hh]
      simp only [List.count_append]
      rw [h0 [.checkpoint (window cap p q)] (by simp) .new, h0 [.checkpoint (window cap p q)] (by simp) .revoke]
      rw [h0 (if q.head ≠ p.head then _ else []) (by intro st g; split <;> simp) .new,
        h0 (if q.head ≠ p.head then _ else []) (by intro st g; split <;> simp) .revoke]
      omega
  rw [hnet]
  have hqs : q.seqNum.toNat = lq.length := by rw [hq.seq]; simp
  have hps : p.seqNum.toNat = lp.length := by rw [hp.seq]; simp
  -- the updates
  have hu : net (updates cap p q) f = if n < lq.length then happened lq f - (if n < lp.length then happened lp f else 0) else 0 := by
    have hz : ∀ st i, startSeq cap p q ≤ i → i < startSeq cap p q + (q.seqNum.toNat - startSeq cap p q) → i ≠ n →
        (updatesAt cap p q i).count (.update st f) = 0 := by
      intro st i h1 h2 h3
      rw [hst, hqs] at h2
      rw [hst] at h1
      rw [List.count_eq_zero]
      intro hm
      have hcur : q.buf[i % cap]? = lq[i]? := hq.at_ i (by omega) (by omega)
      unfold updatesAt at hm
      simp only at hm
      split at hm
      · obtain ⟨g, hg, hg2⟩ := List.mem_map.mp hm
        cases hg2
        rw [hcur] at hg
        have := fill_seq hq hg
        omega
      · rename_i hlt
        rw [hp.seq] at hlt
        have hprev : p.buf[i % cap]? = lp[i]? := hp.at_ i (by omega) (by omega)
        split at hm
        · rcases List.mem_append.mp hm with hm | hm
          · obtain ⟨g, hg, hg2⟩ := List.mem_map.mp hm
            cases hg2
            rw [hprev] at hg
            have := fill_seq hp hg
            omega
          · obtain ⟨g, hg, hg2⟩ := List.mem_map.mp hm
            cases hg2
            rw [hcur] at hg
            have := fill_seq hq hg
            omega
        · simp at hm
    have hN := count_range (.update .new f) (updatesAt cap p q) n (q.seqNum.toNat - startSeq cap p q) (startSeq cap p q) (hz .new)
    have hR := count_range (.update .revoke f) (updatesAt cap p q) n (q.seqNum.toNat - startSeq cap p q) (startSeq cap p q) (hz .revoke)
    have hrange : (startSeq cap p q ≤ n ∧ n < startSeq cap p q + (q.seqNum.toNat - startSeq cap p q)) ↔ n < lq.length := by
      rw [hst, hqs]; omega
    simp only [hrange] at hN hR
    unfold net updates
    rw [hN, hR]
    by_cases hl : n < lq.length
    · rw [if_pos hl, if_pos hl, if_pos hl]
      have hcur : q.buf[n % cap]? = lq[n]? := hq.at_ n hl hn'
      unfold updatesAt happened
      simp only [has_iff hq hf, has_iff hp hf]
      by_cases hlp : n < lp.length
      · have hprev : p.buf[n % cap]? = lp[n]? := hp.at_ n hlp hn
        rw [if_neg (show ¬ p.seqNum ≤ n by rw [hp.seq]; omega), if_pos hlp, hcur, hprev]
        by_cases he : lp[n]? = lq[n]?
        · rw [if_neg (by simpa using he), he]; simp
        · rw [if_pos he, List.count_append, List.count_append, count_fill, count_fill, count_other _ _ (by decide), count_other _ _ (by decide)]
          split <;> split <;> simp
      · rw [if_pos (show p.seqNum ≤ n by rw [hp.seq]; omega), if_neg hlp, hcur, count_fill, count_other _ _ (by decide)]
        split <;> simp
    · rw [if_neg hl, if_neg hl, if_neg hl]; rfl
  have hd : net (drops cap p q) f = if lq.length ≤ n ∧ n < lp.length then - happened lp f else 0 := by
    have hz : ∀ st i, q.seqNum.toNat ≤ i → i < q.seqNum.toNat + (p.seqNum.toNat - q.seqNum.toNat) → i ≠ n →
        ((fillOf p.buf[i % cap]?).map (Msg.update .revoke)).count (.update st f) = 0 := by
      intro st i h1 h2 h3
      rw [hqs, hps] at h2
      rw [hqs] at h1
      rw [List.count_eq_zero]
      intro hm
      have hprev : p.buf[i % cap]? = lp[i]? := hp.at_ i (by omega) (by omega)
      obtain ⟨g, hg, hg2⟩ := List.mem_map.mp hm
      cases hg2
      rw [hprev] at hg
      have := fill_seq hp hg
      omega
    have hN := count_range (.update .new f) (fun i => (fillOf p.buf[i % cap]?).map (Msg.update .revoke)) n _ _ (hz .new)
    have hR := count_range (.update .revoke f) (fun i => (fillOf p.buf[i % cap]?).map (Msg.update .revoke)) n _ _ (hz .revoke)
    have hrange : (q.seqNum.toNat ≤ n ∧ n < q.seqNum.toNat + (p.seqNum.toNat - q.seqNum.toNat)) ↔ (lq.length ≤ n ∧ n < lp.length) := by
      rw [hqs, hps]; omega
    simp only [hrange] at hN hR
    unfold net drops
    rw [hN, hR]
    by_cases hl : lq.length ≤ n ∧ n < lp.length
    · rw [if_pos hl, if_pos hl, if_pos hl, hp.at_ n hl.2 hn, count_fill, count_other _ _ (by decide)]
      unfold happened
      simp only [has_iff hp hf]
      split <;> simp
    · rw [if_neg hl, if_neg hl, if_neg hl]; rfl
  have h0 : ∀ {x : Queue} {l : List Event}, RingIs cap x l → l.length ≤ n → happened l f = 0 := by
    intro x l hx hl
    unfold happened
    rw [if_neg]
    rw [has_iff hx hf, List.getElem?_eq_none hl]
    simp
  rw [hu, hd]
  by_cases h1 : n < lq.length
  · rw [if_pos h1, if_neg (show ¬ (lq.length ≤ n ∧ n < lp.length) by omega)]
    by_cases h2 : n < lp.length
    · rw [if_pos h2]; omega
    · rw [if_neg h2, h0 hp (by omega)]; omega
  · rw [if_neg h1, h0 hq (by omega)]
    by_cases h2 : n < lp.length
    · rw [if_pos (by omega)]; omega
    · rw [if_neg (by omega), h0 hp (by omega)]; omega

/-- consecutive queue states do not roll back by more than the queue's capacity -/
def ShallowForks (cap : Nat) : List (List Event) → Prop
  | [] => True
  | [_] => True
  | p :: q :: rest => p.length ≤ q.length + cap ∧ ShallowForks cap (q :: rest)

theorem pubs_net {cap : Nat} (hc : 0 < cap) {f : FillEv} {n : Nat} (hf : f.seqNum = n) (rest : List (Queue × List Event)) :
    ∀ x : Queue × List Event, (∀ y ∈ x :: rest, Chain cap y.1 y.2 ∧ y.2.length ≤ n + cap) → ShallowForks cap ((x :: rest).map Prod.snd) →
    net (pubs cap ((x :: rest).map Prod.fst)) f = happened ((x :: rest).getLast (by simp)).2 f - happened x.2 f := by
  induction rest with
  | nil => intro x _ _; simp [pubs, net]
  | cons y rest ih =>
    intro x h hs
    have hx := h x (by simp)
    have hy := h y (by simp)
    have h1 := publish_net (chain_ring hc hx.1) (chain_ring hc hy.1) hs.1 hf hx.2 hy.2
    have h2 := ih y (fun z hz => h z (by simp only [List.mem_cons] at hz ⊢; tauto)) hs.2
    have : net (pubs cap ((x :: y :: rest).map Prod.fst)) f = net (publish cap x.1 y.1).1 f + net (pubs cap ((y :: rest).map Prod.fst)) f := by
      simp only [List.map_cons, pubs, net, List.count_append]; omega
    have hl : (x :: y :: rest).getLast (by simp) = (y :: rest).getLast (by simp) := List.getLast_cons (by simp)
    rw [this, h1, h2, hl]
    omega

/-- **C77** Whatever queue states the service sees, in whatever order, with forks: as long as it has not crashed, for every fill within a queue's length of the newest sequence number seen, the
number of times it was reported as new minus the number of times it was revoked is 1 if the fill is in the history of the last queue state taken notice of and was not in that of the first,
0 if it is in both or neither, and -1 if it only was in the first. -/
theorem C77_exactly_once {cap : Nat} (hc : 0 < cap) (seen : List ((Nat × Nat) × Queue)) (first : Queue × List Event) (rest : List (Queue × List Event))
    (htaken : taken (0, 0) seen = (first :: rest).map Prod.fst) (hchain : ∀ y ∈ first :: rest, Chain cap y.1 y.2)
    (hforks : ShallowForks cap ((first :: rest).map Prod.snd)) (halive : ((Service.run {} cap seen).1).alive = true)
    {f : FillEv} (hpos : 0 ≤ f.seqNum) (hrecent : ∀ y ∈ first :: rest, (y.2.length : Int) ≤ f.seqNum + cap) :
    net (Service.run {} cap seen).2 f = happened ((first :: rest).getLast (by simp)).2 f - happened first.2 f := by
  rw [run_pubs cap seen {} halive]
  simp only [Option.toList_none, List.nil_append, htaken]
  exact pubs_net hc (n := f.seqNum.toNat) (by omega) rest first (fun y hy => ⟨hchain y hy, by have := hrecent y hy; omega⟩) hforks

/-- the reports of new and revoked fills among the messages -/
def reports (ms : List Msg) : List Msg := ms.filter (fun m => match m with | .update _ _ => true | _ => false)

/-- the fills of a history -/
def fillsOf (log : List Event) : List FillEv := log.filterMap (fun e => match e with | .fill f => some f | .out _ => none)

/-- each history continues the one before, by at most a queue's length of events -/
def Grows (cap : Nat) : List (List Event) → Prop
  | [] => True
  | [_] => True
  | p :: q :: rest => (∃ new, q = p ++ new ∧ new.length ≤ cap) ∧ Grows cap (q :: rest)

theorem flatMap_log (log : List Event) : ∀ (a : Nat) (pre : List Event), pre.length = a →
    (List.range' a log.length).flatMap (fun n => fillOf (pre ++ log)[n]?) = fillsOf log := by
  induction log with
  | nil => intros; rfl
  | cons e log ih =>
    intro a pre hp
    rw [List.length_cons, List.range'_succ, List.flatMap_cons]
    have := ih (a + 1) (pre ++ [e]) (by simp [hp])
    simp only [List.append_assoc, List.singleton_append] at this
    rw [this]
    subst hp
    have h0 : (pre ++ e :: log)[pre.length]? = some e := by simp
    rw [h0]
    cases e <;> simp [fillOf, fillsOf]

theorem flatMap_nil {α β : Type} (l : List α) (g : α → List β) (h : ∀ x ∈ l, g x = []) : l.flatMap g = [] := by
  rw [List.flatMap_eq_nil_iff]; exact h

theorem reports_updates (st : Status) (fs : List FillEv) : reports (fs.map (.update st)) = fs.map (.update st) := by
  unfold reports
  rw [List.filter_eq_self]
  intro m hm
  obtain ⟨f, _, rfl⟩ := List.mem_map.mp hm
  rfl

theorem publish_grows {cap : Nat} {p q : Queue} {lp new : List Event} (hp : RingIs cap p lp) (hq : RingIs cap q (lp ++ new)) (hnew : new.length ≤ cap) :
    reports (publish cap p q).1 = (fillsOf new).map (.update .new) := by
  have hst := startSeq_eq hp hq
  have hqs : q.seqNum.toNat = lp.length + new.length := by rw [hq.seq, Int.toNat_natCast, List.length_append]
  have hps : p.seqNum.toNat = lp.length := by rw [hp.seq]; simp
  have hst' : startSeq cap p q ≤ lp.length := by rw [hst]; simp only [List.length_append]; omega
  have hstc : lp.length + new.length ≤ startSeq cap p q + cap := by rw [hst]; simp only [List.length_append]; omega
  have hu : updates cap p q = (fillsOf new).map (.update .new) := by
    unfold updates
    rw [hqs]
    have hsplit : List.range' (startSeq cap p q) (lp.length + new.length - startSeq cap p q) =
        List.range' (startSeq cap p q) (lp.length - startSeq cap p q) ++ List.range' lp.length new.length := by
      have := List.range'_append (s := startSeq cap p q) (m := lp.length - startSeq cap p q) (n := new.length) (step := 1)
      rw [Nat.one_mul, show startSeq cap p q + (lp.length - startSeq cap p q) = lp.length by omega,
        show lp.length - startSeq cap p q + new.length = lp.length + new.length - startSeq cap p q by omega] at this
      exact this.symm
    rw [hsplit, List.flatMap_append, flatMap_nil, List.nil_append]
    · rw [← flatMap_log new lp.length lp rfl, List.map_flatMap]
      apply List.flatMap_congr
      intro n hn
      have hn := List.mem_range'_1.mp hn
      unfold updatesAt
      simp only
      rw [if_pos (by rw [hp.seq]; omega), hq.at_ n (by simp; omega) (by simp only [List.length_append]; omega)]
    · intro n hn
      have hn := List.mem_range'_1.mp hn
      unfold updatesAt
      simp only
      rw [if_neg (by rw [hp.seq]; omega), if_neg]
      rw [hq.at_ n (by simp; omega) (by simp only [List.length_append]; omega), hp.at_ n (by omega) (by omega), List.getElem?_append_left (by omega)]
      simp
  have hd : drops cap p q = [] := by
    unfold drops
    rw [hqs, hps, show lp.length - (lp.length + new.length) = 0 by omega]
    rfl
  unfold publish
  simp only
  rw [hu, hd, List.append_nil]
  split
  · exact reports_updates _ _
  · simp only [reports, List.filter_append]
    have h1 := reports_updates .new (fillsOf new)
    unfold reports at h1
    rw [h1]
    split <;> simp

theorem pubs_grows {cap : Nat} (hc : 0 < cap) (rest : List (Queue × List Event)) :
    ∀ x : Queue × List Event, (∀ y ∈ x :: rest, Chain cap y.1 y.2) → Grows cap ((x :: rest).map Prod.snd) →
    ∃ new, ((x :: rest).getLast (by simp)).2 = x.2 ++ new ∧ reports (pubs cap ((x :: rest).map Prod.fst)) = (fillsOf new).map (.update .new) := by
  induction rest with
  | nil => intro x _ _; exact ⟨[], by simp, rfl⟩
  | cons y rest ih =>
    intro x h hs
    obtain ⟨⟨new, hn, hlen⟩, hs2⟩ := hs
    have hx := chain_ring hc (h x (by simp))
    have hy := chain_ring hc (h y (by simp))
    rw [hn] at hy
    have h1 := publish_grows hx hy hlen
    obtain ⟨new2, h2, h3⟩ := ih y (fun z hz => h z (by simp only [List.mem_cons] at hz ⊢; tauto)) hs2
    have hl : (x :: y :: rest).getLast (by simp) = (y :: rest).getLast (by simp) := List.getLast_cons (by simp)
    refine ⟨new ++ new2, ?_, ?_⟩
    · rw [hl, h2, hn, List.append_assoc]
    · have : reports (pubs cap ((x :: y :: rest).map Prod.fst)) = reports (publish cap x.1 y.1).1 ++ reports (pubs cap ((y :: rest).map Prod.fst)) := by
        simp only [List.map_cons, pubs, reports, List.filter_append]
      rw [this, h1, h3]
      simp [fillsOf, List.filterMap_append]

/-- **C77** Without forks and with at most a queue's length of new events between the queue states taken notice of, the reports are exactly the fills that happened since the first one, in order,
each reported once as new; nothing is revoked. -/
theorem C77_in_order {cap : Nat} (hc : 0 < cap) (seen : List ((Nat × Nat) × Queue)) (first : Queue × List Event) (rest : List (Queue × List Event))
    (htaken : taken (0, 0) seen = (first :: rest).map Prod.fst) (hchain : ∀ y ∈ first :: rest, Chain cap y.1 y.2)
    (hgrows : Grows cap ((first :: rest).map Prod.snd)) (halive : ((Service.run {} cap seen).1).alive = true) :
    ∃ new, ((first :: rest).getLast (by simp)).2 = first.2 ++ new ∧ reports (Service.run {} cap seen).2 = (fillsOf new).map (.update .new) := by
  rw [run_pubs cap seen {} halive]
  simp only [Option.toList_none, List.nil_append, htaken]
  exact pubs_grows hc rest first hchain hgrows

/-- **C77** A head update is sent exactly if the position of the oldest unconsumed event changed. If neither queue is full, it gives the numbers of events consumed so far. -/
theorem C77_head {cap : Nat} (hc : 0 < cap) {p q : Queue} {lp lq : List Event} (hp : Chain cap p lp) (hq : Chain cap q lq) (h : (publish cap p q).2 = true) :
    ((∃ a b c d, Msg.headUpdate a b c d ∈ (publish cap p q).1) ↔ q.head ≠ p.head) ∧
    (∀ a b c d, Msg.headUpdate a b c d ∈ (publish cap p q).1 →
      a = q.head ∧ b = p.head ∧ (q.count < cap → c = lq.length - q.count) ∧ (p.count < cap → d = lp.length - p.count)) := by
  have hno : ∀ a b c d, Msg.headUpdate a b c d ∉ updates cap p q ++ drops cap p q := by
    intro a b c d hm
    rcases List.mem_append.mp hm with hm | hm
    · obtain ⟨n, _, hm⟩ := List.mem_flatMap.mp hm
      unfold updatesAt at hm
      simp only at hm
      split at hm
      · obtain ⟨g, _, hg⟩ := List.mem_map.mp hm; cases hg
      · split at hm
        · rcases List.mem_append.mp hm with hm | hm <;> (obtain ⟨g, _, hg⟩ := List.mem_map.mp hm; cases hg)
        · simp at hm
    · obtain ⟨n, _, hm⟩ := List.mem_flatMap.mp hm
      obtain ⟨g, _, hg⟩ := List.mem_map.mp hm; cases hg
  have hseq : ∀ {x : Queue} {l : List Event}, Chain cap x l → x.head ≠ 0 → x.count < cap → nextSeq x.buf[x.head - 1]? = l.length - x.count := by
    intro x l hx hh hcnt
    obtain ⟨i1, i2, i3, i4, i5, i6, i7⟩ := chain_ring hc hx
    have hge : 0 < l.length - x.count := by
      rcases Nat.eq_zero_or_pos (l.length - x.count) with h0 | h0
      · rw [h0] at i5; simp at i5; omega
      · exact h0
    obtain ⟨m, hm⟩ : ∃ m, l.length - x.count = m + 1 := ⟨l.length - x.count - 1, by omega⟩
    have hmod : x.head - 1 = m % cap := by
      rw [i5, hm]
      have h1 : (m + 1) % cap ≠ 0 := by rw [← hm, ← i5]; exact hh
      have h2 := Nat.mod_lt m hc
      have h3 : (m + 1) % cap = (m % cap + 1) % cap := by rw [Nat.mod_add_mod]
      rw [h3] at h1 ⊢
      rcases Nat.lt_or_ge (m % cap + 1) cap with h4 | h4
      · rw [Nat.mod_eq_of_lt h4]; omega
      · have : m % cap + 1 = cap := by omega
        rw [this, Nat.mod_self] at h1; omega
    rw [hmod, i6 m (by omega) (by omega)]
    have hml : m < l.length := by omega
    rw [List.getElem?_eq_getElem hml]
    have := i7 m l[m] (List.getElem?_eq_getElem hml)
    cases hl : l[m] with
    | fill f => rw [hl] at this; simp only [seqOf] at this; simp only [nextSeq]; omega
    | out o => rw [hl] at this; simp only [seqOf] at this; simp only [nextSeq]; omega
  unfold publish at h ⊢
  simp only at h ⊢
  by_cases hh : q.head = 0 ∨ p.head = 0
  · rw [if_pos hh] at h; cases h
  · rw [if_neg hh]
    simp only
    have hq0 : q.head ≠ 0 := fun e => hh (Or.inl e)
    have hp0 : p.head ≠ 0 := fun e => hh (Or.inr e)
    by_cases hd : q.head = p.head
    · rw [if_neg (by simpa using hd)]
      refine ⟨⟨?_, fun hn => absurd hd hn⟩, ?_⟩
      · rintro ⟨a, b, c, d, hm⟩
        simp only [List.append_nil] at hm
        rcases List.mem_append.mp hm with hm | hm
        · exact absurd hm (hno _ _ _ _)
        · simp at hm
      · intro a b c d hm
        simp only [List.append_nil] at hm
        rcases List.mem_append.mp hm with hm | hm
        · exact absurd hm (hno _ _ _ _)
        · simp at hm
    · rw [if_pos hd]
      refine ⟨⟨fun _ => hd, fun _ => ⟨_, _, _, _, List.mem_append_left _ (List.mem_append_right _ (List.mem_singleton.mpr rfl))⟩⟩, ?_⟩
      intro a b c d hm
      rcases List.mem_append.mp hm with hm | hm
      · rcases List.mem_append.mp hm with hm | hm
        · exact absurd hm (hno _ _ _ _)
        · simp only [List.mem_singleton, Msg.headUpdate.injEq] at hm
          obtain ⟨rfl, rfl, rfl, rfl⟩ := hm
          exact ⟨rfl, rfl, fun hx => hseq hq hq0 hx, fun hx => hseq hp hp0 hx⟩
      · simp at hm

/-- **C77** The checkpoint that goes with a publication lists the fills of the last `cap` events, in order (counted from the newer of the two queue states). -/
theorem C77_checkpoint {cap : Nat} (hc : 0 < cap) {p q : Queue} {lp lq : List Event} (hp : Chain cap p lp) (hq : Chain cap q lq) (h : (publish cap p q).2 = true) :
    .checkpoint (fillsOf (lq.drop (max lp.length lq.length - cap))) ∈ (publish cap p q).1 := by
  have hp := chain_ring hc hp
  have hq := chain_ring hc hq
  have hst := startSeq_eq hp hq
  have hqs : q.seqNum.toNat = lq.length := by rw [hq.seq]; simp
  have hw : window cap p q = fillsOf (lq.drop (startSeq cap p q)) := by
    unfold window
    rw [hqs]
    rcases Nat.le_total (startSeq cap p q) lq.length with hle | hle
    · have := flatMap_log (lq.drop (startSeq cap p q)) (startSeq cap p q) (lq.take (startSeq cap p q)) (by simp [hle])
      rw [List.length_drop, List.take_append_drop] at this
      rw [← this]
      apply List.flatMap_congr
      intro n hn
      have hn := List.mem_range'_1.mp hn
      rw [hq.at_ n (by omega) (by omega)]
    · rw [Nat.sub_eq_zero_of_le hle, List.drop_eq_nil_of_le hle]; rfl
  unfold publish at h ⊢
  simp only at h ⊢
  by_cases hh : q.head = 0 ∨ p.head = 0
  · rw [if_pos hh] at h; cases h
  · rw [if_neg hh, hw, hst]
    simp

/-- **Finding (C77).** The service crashes if in the queue state it sees, or in the one before, the number of events consumed so far is a multiple of the queue's length (0 for a new market): the
oldest unconsumed event is then at the start of the ring buffer, and the service looks at the position before it. -/
theorem C77_crash {cap : Nat} (hc : 0 < cap) {p q : Queue} {lp lq : List Event} (hp : Chain cap p lp) (hq : Chain cap q lq) :
    (publish cap p q).2 = false ↔ cap ∣ (lp.length - p.count) ∨ cap ∣ (lq.length - q.count) := by
  have hp := (chain_ring hc hp).head
  have hq := (chain_ring hc hq).head
  rw [Nat.dvd_iff_mod_eq_zero, Nat.dvd_iff_mod_eq_zero, ← hp, ← hq]
  unfold publish
  simp only
  by_cases hh : q.head = 0 ∨ p.head = 0
  · rw [if_pos hh]; tauto
  · rw [if_neg hh]; simp; tauto

/-! ## Examples -/

def fxFill (n : Nat) (qty : Int) : FillEv :=
  { takerSide := .bid, makerOut := false, makerSlot := 0, timestamp := 5, seqNum := n, maker := 1, makerOrderId := 7, makerClientOrderId := 0, makerFee := 0, makerTimestamp := 1,
    taker := 2, takerClientOrderId := 0, price := 100, quantity := qty }
def fxOut (n : Nat) : Event := .out { side := .ask, ownerSlot := 0, timestamp := 5, seqNum := n, owner := 1, quantity := 1, orderId := 9 }

/-- run pushes (with the right sequence numbers) and pops on a queue of length 3 -/
def fxQ : List (Option Event) → Queue
  | [] => EventQueue.init (.fill (fxFill 0 0)) 3
  | some e :: rest => match (fxQ rest).pushBack e with | .ok q => q | .error _ => fxQ rest
  | none :: rest => match (fxQ rest).popFront with | .ok (_, q) => q | .error _ => fxQ rest

/-- newest first: two fills and an out, two consumed -/
def fxA : List (Option Event) := [none, none, some (fxOut 2), some (.fill (fxFill 1 20)), some (.fill (fxFill 0 10))]
/-- then one more fill -/
def fxB : List (Option Event) := some (.fill (fxFill 3 40)) :: fxA
/-- a fork: event 2 was another fill, event 3 did not happen -/
def fxC : List (Option Event) := [none, none, some (.fill (fxFill 2 33)), some (.fill (fxFill 1 20)), some (.fill (fxFill 0 10))]

def fxLog (h : List (Option Event)) : List Event := h.reverse.filterMap id

theorem fx_chain (h : List (Option Event)) (hok : ∀ k, k < h.length →
    (match h.drop k with
     | [] => true
     | some e :: rest => decide (seqOf e = (fxQ rest).seqNum) && ((fxQ rest).pushBack e).toOption.isSome
     | none :: rest => ((fxQ rest).popFront).toOption.isSome) = true) : Chain 3 (fxQ h) (fxLog h) := by
  induction h with
  | nil => exact .init _
  | cons x rest ih =>
    have hrest := ih (fun k hk => by have := hok (k + 1) (by simpa using hk); simpa using this)
    have h0 := hok 0 (by simp)
    simp only [List.drop_zero] at h0
    cases x with
    | none =>
      simp only at h0
      cases hp : (fxQ rest).popFront with
      | error e => rw [hp] at h0; cases h0
      | ok r =>
        have : fxQ (none :: rest) = r.2 := by simp [fxQ, hp]
        rw [this]
        have hl : fxLog (none :: rest) = fxLog rest := by simp [fxLog]
        rw [hl]
        exact .pop hrest hp
    | some e =>
      simp only [Bool.and_eq_true, decide_eq_true_eq] at h0
      cases hp : (fxQ rest).pushBack e with
      | error e => rw [hp] at h0; cases h0.2
      | ok r =>
        have : fxQ (some e :: rest) = r := by simp [fxQ, hp]
        rw [this]
        have hl : fxLog (some e :: rest) = fxLog rest ++ [e] := by simp [fxLog]
        rw [hl]
        exact .push hrest h0.1 hp

/-- the service sees state A, an outdated one, B, then the fork C: fill 3 is reported, then revoked, and fill 2 of the fork is reported -/
def fxSeen : List ((Nat × Nat) × Queue) := [((10, 1), fxQ fxA), ((9, 7), fxQ []), ((10, 2), fxQ fxB), ((11, 0), fxQ fxC)]

example : (∀ h ∈ [fxA, fxB, fxC], Chain 3 (fxQ h) (fxLog h)) ∧
    taken (0, 0) fxSeen = [fxA, fxB, fxC].map fxQ ∧ (Service.run {} 3 fxSeen).1.alive = true ∧
    ShallowForks 3 ([fxA, fxB, fxC].map fxLog) ∧ (∀ h ∈ [fxA, fxB, fxC], ((fxLog h).length : Int) ≤ (fxFill 2 33).seqNum + (3 : Nat)) ∧
    reports (Service.run {} 3 fxSeen).2 = [.update .new (fxFill 3 40), .update .new (fxFill 2 33), .update .revoke (fxFill 3 40)] ∧
    net (Service.run {} 3 fxSeen).2 (fxFill 2 33) = 1 ∧ net (Service.run {} 3 fxSeen).2 (fxFill 3 40) = 0 := by
  refine ⟨?_, by decide +kernel, by decide +kernel, ⟨by decide +kernel, by decide +kernel, trivial⟩, by decide +kernel, by decide +kernel, by decide +kernel, by decide +kernel⟩
  intro h hh
  apply fx_chain
  simp only [List.mem_cons, List.not_mem_nil, or_false] at hh
  rcases hh with rfl | rfl | rfl <;> decide +kernel

/-- growing histories: B continues A -/
example : Grows 3 ([fxA, fxB].map fxLog) := ⟨⟨[.fill (fxFill 3 40)], by decide +kernel, by decide +kernel⟩, trivial⟩

/-- **Finding (C77).** In a head update, the sequence number of a full queue is wrong: here 1 of 4 events was consumed (of a queue of 3), but 4 is reported. -/
theorem C77_full_queue_head :
    (fxQ (some (.fill (fxFill 3 1)) :: none :: [some (fxOut 2), some (fxOut 1), some (fxOut 0)])).count = 3 ∧
    Msg.headUpdate 1 2 4 2 ∈ (publish 3 (fxQ fxA) (fxQ (some (.fill (fxFill 3 1)) :: none :: [some (fxOut 2), some (fxOut 1), some (fxOut 0)]))).1 := by
  decide +kernel

end Feeds
end Mango
