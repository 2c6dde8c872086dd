import Verif.Bots.Keeper
import Verif.Props.FillsFeedMarket
import Verif.Props.Trading
import Verif.Props.TradingEx
/-!
# C95: the keeper
-/
namespace Mango
namespace Keeper
open Perp

/-! ## Specification -/

/-- the account is needed to execute the event -/
def names (u : Nat) : Event → Prop
  | .fill f => u = f.maker ∨ u = f.taker
  | .out e => u = e.owner

theorem mem_accountsOf {u : Nat} {e : Event} : u ∈ accountsOf e ↔ names u e := by
  cases e <;> simp [accountsOf, names]

/-! ## Looking at the queue -/

theorem insertAll_spec (us : List Nat) : ∀ {set : List Nat}, set.Nodup → (insertAll set us).Nodup ∧ ∀ u, u ∈ insertAll set us ↔ u ∈ set ∨ u ∈ us := by
  induction us with
  | nil => intro set h; exact ⟨h, by simp [insertAll]⟩
  | cons v us ih =>
    intro set h
    simp only [insertAll, List.foldl_cons]
    by_cases hv : v ∈ set
    · rw [if_pos hv]
      obtain ⟨h1, h2⟩ := ih h
      refine ⟨h1, fun u => ?_⟩
      rw [show u ∈ List.foldl (fun s u => if u ∈ s then s else s ++ [u]) set us ↔ u ∈ set ∨ u ∈ us from h2 u]
      constructor
      · rintro (h | h)
        · exact .inl h
        · exact .inr (by simp [h])
      · rintro (h | h)
        · exact .inl h
        · rcases List.mem_cons.1 h with rfl | h
          · exact .inl hv
          · exact .inr h
    · rw [if_neg hv]
      obtain ⟨h1, h2⟩ := ih (set := set ++ [v]) (by
        rw [List.nodup_append]
        exact ⟨h, by simp, by intro a ha b hb; simp at hb; subst hb; intro e; subst e; exact hv ha⟩)
      refine ⟨h1, fun u => ?_⟩
      rw [show u ∈ List.foldl (fun s u => if u ∈ s then s else s ++ [u]) (set ++ [v]) us ↔ u ∈ set ++ [v] ∨ u ∈ us from h2 u]
      simp only [List.mem_append, List.mem_cons, List.not_mem_nil, or_false]
      tauto

theorem empty_of_peek {q : Queue} (hI : EventQueue.Inv q) (h : q.peekFront = none) : q.toList = [] := by
  have hc : q.count = 0 := by
    unfold EventQueue.peekFront at h
    split at h
    · rename_i he
      unfold EventQueue.isEmpty EventQueue.len at he
      exact beq_iff_eq.1 he
    · rw [List.getElem?_eq_getElem hI.head_lt] at h
      cases h
  simp [EventQueue.toList, hc]

theorem look_spec : ∀ (k : Nat) {q : Queue} {set : List Nat} {n : Nat}, EventQueue.Inv q → set.Nodup → ∃ set', look k q set n = .ok (set', n + min k q.toList.length) ∧ set'.Nodup ∧
    ∀ u, u ∈ set' ↔ u ∈ set ∨ ∃ e ∈ q.toList.take k, names u e := by
  intro k
  induction k with
  | zero => intro q set n _ h; exact ⟨set, by simp [look], h, by simp⟩
  | succ k ih =>
    intro q set n hI h
    simp only [look]
    cases hp : q.peekFront with
    | none =>
      have he := empty_of_peek hI hp
      exact ⟨set, by simp [he], h, by simp [he]⟩
    | some e =>
      obtain ⟨q1, hq⟩ := peek_pop hI hp
      obtain ⟨hI1, hl, _, _⟩ := popFront_ok hI hq
      obtain ⟨i1, i2⟩ := insertAll_spec (accountsOf e) h
      obtain ⟨set', h1, h2, h3⟩ := ih (q := q1) (set := insertAll set (accountsOf e)) (n := n + 1) hI1 i1
      refine ⟨set', ?_, h2, fun u => ?_⟩
      · rw [hq]
        have e1 : n + min (k + 1) q.toList.length = n + 1 + min k q1.toList.length := by rw [hl]; simp only [List.length_cons]; omega
        rw [e1]; exact h1
      · rw [h3 u, i2 u, hl, List.take_succ_cons, mem_accountsOf]
        constructor
        · rintro ((h | h) | ⟨e', he', hn⟩)
          · exact .inl h
          · exact .inr ⟨e, by simp, h⟩
          · exact .inr ⟨e', by simp [he'], hn⟩
        · rintro (h | ⟨e', he', hn⟩)
          · exact .inl (.inl h)
          · rcases List.mem_cons.1 he' with rfl | he'
            · exact .inl (.inr hn)
            · exact .inr ⟨e', he', hn⟩

/-- C95: the keeper looks at the first ten events and passes exactly the accounts they name, each once; it sends nothing exactly if there are no events -/
theorem C95_accounts {s : PSys} (h : Reachable s) :
    (findAccounts s.queue = .ok none ↔ pending s = []) ∧
    (pending s ≠ [] → ∃ avail, findAccounts s.queue = .ok (some (avail, min 10 (pending s).length)) ∧ avail.Nodup ∧ ∀ u, u ∈ avail ↔ ∃ e ∈ (pending s).take 10, names u e) := by
  obtain ⟨sp, hI⟩ := h.inv
  obtain ⟨set, h1, h2, h3⟩ := look_spec 10 (q := s.queue) (set := []) (n := 0) hI.queue List.nodup_nil
  have hf : findAccounts s.queue = if min 10 (pending s).length = 0 then .ok none else .ok (some (set, min 10 (pending s).length)) := by
    unfold findAccounts
    rw [h1, Nat.zero_add]
    rfl
  rw [hf]
  have hz : min 10 (pending s).length = 0 ↔ pending s = [] := by rw [← List.length_eq_zero_iff]; omega
  refine ⟨?_, fun hne => ?_⟩
  · constructor
    · intro he
      by_cases hc : min 10 (pending s).length = 0
      · exact hz.1 hc
      · rw [if_neg hc] at he; cases he
    · intro he; rw [if_pos (hz.2 he)]
  · rw [if_neg (fun hc => hne (hz.1 hc))]
    refine ⟨set, rfl, h2, fun u => ?_⟩
    rw [h3 u]
    constructor
    · rintro (h | h)
      · cases h
      · exact h
    · exact fun h => .inr h

/-! ## What other instructions do in between -/

theorem moves_spec {q q' : Queue} (h : Feeds.Moves q q') : EventQueue.Inv q → EventQueue.Inv q' ∧ ∃ j new, j ≤ q.toList.length + (new : List Event).length ∧ q'.toList = (q.toList ++ new).drop j := by
  induction h with
  | refl q => exact fun hI => ⟨hI, 0, [], by omega, by simp⟩
  | trans _ _ ih1 ih2 =>
    intro hI
    obtain ⟨hI1, j1, n1, l1, e1⟩ := ih1 hI
    obtain ⟨hI2, j2, n2, l2, e2⟩ := ih2 hI1
    refine ⟨hI2, j1 + j2, n1 ++ n2, ?_, ?_⟩
    · rw [e1] at l2; simp only [List.length_drop, List.length_append] at l2 ⊢; omega
    · rw [e2, e1, ← List.append_assoc, ← List.drop_drop, List.drop_append_of_le_length (l₁ := _ ++ n1) (by simpa using l1)]
  | push _ hp =>
    intro hI
    obtain ⟨h1, h2, _, _⟩ := pushBack_ok hI hp
    exact ⟨h1, 0, [_], by omega, by simpa using h2⟩
  | pop hp =>
    intro hI
    obtain ⟨h1, h2, _, _⟩ := popFront_ok hI hp
    exact ⟨h1, 1, [], by rw [h2]; simp, by rw [h2]; simp⟩

/-- C95: whatever instructions are executed in between, the first events are consumed first and new ones come after the others -/
theorem C95_between {s : PSys} (h : Reachable s) (ops : List POp) :
    ∃ (j : Nat) (new : List Event), j ≤ (pending s).length + new.length ∧ pending (prun s ops) = (pending s ++ new).drop j := by
  obtain ⟨sp, hI⟩ := h.inv
  exact (moves_spec (Feeds.prun_moves ops s) hI.queue).2

/-! ## What the keeper's instruction does -/

theorem consumeOne_spec {s : PSys} {avail : List Nat} (hI : EventQueue.Inv s.queue) {r : Option PSys} (h : consumeOne s avail = .ok r) :
    (r = none → pending s = [] ∨ ∃ e rest, pending s = e :: rest ∧ ∃ u, names u e ∧ u ∉ avail) ∧
    (∀ s', r = some s' → EventQueue.Inv s'.queue ∧ ∃ e, pending s = e :: pending s') := by
  have key : ∀ {e : Event} {s' : PSys} {q : Queue}, s.queue.popFront = .ok (e, q) → s'.queue = q → EventQueue.Inv s'.queue ∧ ∃ e, pending s = e :: pending s' := by
    intro e s' q hq hs
    obtain ⟨h1, h2, _, _⟩ := popFront_ok hI hq
    rw [← hs] at h1 h2
    exact ⟨h1, e, h2⟩
  have front : ∀ {e : Event}, s.queue.peekFront = some e → ∃ rest, pending s = e :: rest := by
    intro e he
    obtain ⟨q, hq⟩ := peek_pop hI he
    exact ⟨_, (popFront_ok hI hq).2.1⟩
  unfold consumeOne at h
  split at h
  · rename_i hp
    cases h
    exact ⟨fun _ => .inl (empty_of_peek hI hp), (fun s' hs => by cases hs)⟩
  · rename_i f hp
    obtain ⟨rest, hr⟩ := front hp
    split at h
    · split at h
      · split at h
        · cases h
        · simp only [bind_ok, ok_inj] at h
          obtain ⟨⟨a1, m1⟩, _, ⟨a2, m2⟩, _, ⟨e, q⟩, hq, rfl⟩ := h
          exact ⟨(fun hn => by cases hn), (fun s' hs => by cases hs; exact key hq rfl)⟩
      · rename_i hn
        cases h
        exact ⟨fun _ => .inr ⟨_, rest, hr, f.maker, .inl rfl, hn⟩, (fun s' hs => by cases hs)⟩
    · split at h
      · split at h
        · split at h
          · simp only [bind_ok, ok_inj] at h
            obtain ⟨⟨a1, m1⟩, _, ⟨a2, m2⟩, _, ⟨e, q⟩, hq, rfl⟩ := h
            exact ⟨(fun hn => by cases hn), (fun s' hs => by cases hs; exact key hq rfl)⟩
          · cases h
        · rename_i hn
          cases h
          exact ⟨fun _ => .inr ⟨_, rest, hr, f.taker, .inr rfl, hn⟩, (fun s' hs => by cases hs)⟩
      · rename_i hn
        cases h
        exact ⟨fun _ => .inr ⟨_, rest, hr, f.maker, .inl rfl, hn⟩, (fun s' hs => by cases hs)⟩
  · rename_i e hp
    obtain ⟨rest, hr⟩ := front hp
    split at h
    · split at h
      · cases h
      · simp only [bind_ok, ok_inj] at h
        obtain ⟨a1, _, ⟨e', q⟩, hq, rfl⟩ := h
        exact ⟨(fun hn => by cases hn), (fun s' hs => by cases hs; exact key hq rfl)⟩
    · rename_i hn
      cases h
      exact ⟨fun _ => .inr ⟨_, rest, hr, e.owner, rfl, hn⟩, (fun s' hs => by cases hs)⟩

theorem consumeLoop_spec {avail : List Nat} : ∀ (n : Nat) {s s' : PSys}, EventQueue.Inv s.queue → consumeLoop n s avail = .ok s' →
    ∃ k, k ≤ n ∧ k ≤ (pending s).length ∧ pending s' = (pending s).drop k ∧
      (k < n → pending s' = [] ∨ ∃ e rest, pending s' = e :: rest ∧ ∃ u, names u e ∧ u ∉ avail) := by
  intro n
  induction n with
  | zero => intro s s' _ h; simp only [consumeLoop, ok_inj] at h; subst h; exact ⟨0, by omega, by omega, rfl, fun h => by omega⟩
  | succ n ih =>
    intro s s' hI h
    simp only [consumeLoop, bind_ok] at h
    obtain ⟨r, hr, h⟩ := h
    obtain ⟨c1, c2⟩ := consumeOne_spec hI hr
    cases r with
    | none => simp only [ok_inj] at h; subst h; exact ⟨0, by omega, by omega, rfl, fun _ => c1 rfl⟩
    | some s1 =>
      obtain ⟨hI1, e, he⟩ := c2 s1 rfl
      obtain ⟨k, h1, h2, h3, h4⟩ := ih hI1 h
      refine ⟨k + 1, by omega, by rw [he]; simpa using h2, by rw [he, h3]; rfl, fun hk => h4 (by omega)⟩

/-- the instruction with the accounts of the first ten events seen earlier -/
theorem consumes_seen {s : PSys} (h : Reachable s) {avail : List Nat} (hav : ∀ u, u ∈ avail ↔ ∃ e ∈ (pending s).take 10, names u e) {ops : List POp} (ht : ∀ op ∈ ops, op.Typed)
    (hn : s.market.seqNum + ordersPlaced ops < 9223372036854775808) {j : Nat} {new : List Event} (hj : pending (prun s ops) = (pending s ++ new).drop j) {s' : PSys}
    (hs : pstep (prun s ops) (crankOp avail) = .ok s') :
    ∃ k, k ≤ 8 ∧ k ≤ (pending (prun s ops)).length ∧ pending s' = (pending (prun s ops)).drop k ∧ min 8 (min 10 (pending s).length - j) ≤ k ∧
      (k < 8 → pending s' = [] ∨ ∃ e rest, pending s' = e :: rest ∧ ∃ u, names u e ∧ u ∉ avail) := by
  obtain ⟨sp, hI⟩ := h.inv
  obtain ⟨sp1, hI1⟩ := prun_inv ops hI ht hn
  have hs' : consumeLoop 8 (prun s ops) avail = .ok s' := hs
  obtain ⟨k, h1, h2, h3, h4⟩ := consumeLoop_spec 8 hI1.queue hs'
  refine ⟨k, h1, h2, h3, ?_, h4⟩
  by_contra hk
  have hlt : j + k < min 10 (pending s).length := by omega
  have hp : pending s' = (pending s ++ new).drop (j + k) := by rw [h3, hj, List.drop_drop]
  have hlen : j + k < (pending s ++ new).length := by rw [List.length_append]; omega
  have hcons : pending s' = (pending s)[j + k]'(by omega) :: (pending s ++ new).drop (j + k + 1) := by
    rw [hp, List.drop_eq_getElem_cons hlen, List.getElem_append_left (by omega)]
  rcases h4 (by omega) with h5 | ⟨e, rest, h5, u, hu, hnot⟩
  · rw [h5] at hcons; cases hcons
  · rw [h5] at hcons
    have he := (List.cons.inj hcons).1
    refine hnot ((hav u).2 ⟨e, ?_, hu⟩)
    rw [he]
    refine List.mem_iff_getElem.2 ⟨j + k, by rw [List.length_take]; omega, by rw [List.getElem_take]⟩

/-- C95: the keeper reads the queue, other instructions are executed, then its instruction. If it succeeds, it consumes at most eight events, and all of those that the keeper saw and that nobody else has consumed yet (`j` were), up to eight;
it stops earlier only at the end of the queue or at an event that names an account the keeper did not see -/
theorem C95_consumes {s : PSys} (h : Reachable s) {avail : List Nat} {n : Nat} (hf : findAccounts s.queue = .ok (some (avail, n))) {ops : List POp} (ht : ∀ op ∈ ops, op.Typed)
    (hn : s.market.seqNum + ordersPlaced ops < 9223372036854775808) {j : Nat} {new : List Event} (hj : pending (prun s ops) = (pending s ++ new).drop j) {s' : PSys}
    (hs : pstep (prun s ops) (crankOp avail) = .ok s') :
    ∃ k, k ≤ 8 ∧ k ≤ (pending (prun s ops)).length ∧ pending s' = (pending (prun s ops)).drop k ∧ min 8 (n - j) ≤ k ∧
      (k < 8 → pending s' = [] ∨ ∃ e rest, pending s' = e :: rest ∧ ∃ u, names u e ∧ u ∉ avail) := by
  have hne : pending s ≠ [] := by
    intro he
    rw [(C95_accounts h).1.2 he] at hf
    cases hf
  obtain ⟨av, hf', _, hav⟩ := (C95_accounts h).2 hne
  rw [hf'] at hf
  have e1 := Option.some.inj (Except.ok.inj hf)
  simp only [Prod.mk.injEq] at e1
  obtain ⟨rfl, rfl⟩ := e1
  exact consumes_seen h hav ht hn hj hs

/-! ## Collateral fees -/

/-- C95: an account is sent to be charged exactly if the program will do something at that time (or later) that it was not charged just now for: reset the time of the last charge because fees are off, start the first interval, or
charge. Left out are only an account for which the charge becomes due in this very second, and one for which no interval has started before the second `interval` after 1970 -/
theorem C95_selects {interval last now : Int} (hi : 0 ≤ interval) (hl : 0 ≤ last) {b : Bool} (h : selects interval last now = .ok b) :
    (b = true → ∀ now', now ≤ now' → ∀ l d, Collateral.due interval last now' = .ok (l, d) → l ≠ last ∧ (last ≠ 0 → interval ≠ 0 → d.isSome = true)) ∧
    (b = false → ∀ l d, Collateral.due interval last now = .ok (l, d) → (l = last ∧ d = none) ∨ (0 < interval ∧ now = last + interval) ∨ (0 < interval ∧ last = 0 ∧ now < interval)) := by
  unfold selects at h
  by_cases h0 : interval = 0 ∧ last > 0
  · rw [if_pos h0, ok_inj] at h
    subst h
    refine ⟨fun _ now' _ l d hd => ?_, (fun hb => by cases hb)⟩
    unfold Collateral.due at hd
    rw [if_pos h0.1, ok_inj, Prod.mk.injEq] at hd
    exact ⟨by rw [← hd.1]; exact h0.2.ne, fun _ h => absurd h0.1 h⟩
  · rw [if_neg h0] at h
    by_cases h1 : interval > 0
    · rw [if_pos h1] at h
      simp only [bind_ok, cku64_ok, ok_inj] at h
      obtain ⟨nx, ⟨rfl, _⟩, rfl⟩ := h
      constructor
      · intro hb now' hn' l d hd
        have hb : now > last + interval := by simpa using hb
        unfold Collateral.due at hd
        rw [if_neg (by omega)] at hd
        by_cases hz : last = 0
        · rw [if_pos hz, ok_inj, Prod.mk.injEq] at hd
          exact ⟨by omega, fun h => absurd hz h⟩
        · rw [if_neg hz] at hd
          simp only [bind_ok, cku64_ok] at hd
          obtain ⟨nx, ⟨rfl, _⟩, hd⟩ := hd
          rw [if_neg (by omega)] at hd
          simp only [bind_ok, cku64_ok, ok_inj, Prod.mk.injEq] at hd
          obtain ⟨d', _, m, _, rfl, rfl⟩ := hd
          exact ⟨by omega, fun _ _ => rfl⟩
      · intro hb l d hd
        have hb : ¬ now > last + interval := by simpa using hb
        unfold Collateral.due at hd
        rw [if_neg (by omega)] at hd
        by_cases hz : last = 0
        · rw [if_pos hz, ok_inj, Prod.mk.injEq] at hd
          by_cases he : now = last + interval
          · exact .inr (.inl ⟨h1, he⟩)
          · exact .inr (.inr ⟨h1, hz, by omega⟩)
        · rw [if_neg hz] at hd
          simp only [bind_ok, cku64_ok] at hd
          obtain ⟨nx, ⟨rfl, _⟩, hd⟩ := hd
          by_cases hc : now < last + interval
          · rw [if_pos hc, ok_inj, Prod.mk.injEq] at hd
            exact .inl ⟨hd.1.symm, hd.2.symm⟩
          · exact .inr (.inl ⟨h1, by omega⟩)
    · rw [if_neg h1, ok_inj] at h
      subst h
      refine ⟨(fun hb => by cases hb), fun _ l d hd => ?_⟩
      unfold Collateral.due at hd
      rw [if_pos (by omega), ok_inj, Prod.mk.injEq] at hd
      exact .inl ⟨by omega, hd.2.symm⟩

/-! ## Transactions -/

variable {α : Type}

theorem batches_flatten (fits : List α → Bool) (cu : α → Nat) (maxCu : Nat) : ∀ (xs cur : List α), (batches fits cu maxCu cur xs).flatten = cur ++ xs := by
  intro xs
  induction xs with
  | nil =>
    intro cur
    by_cases h : cur = []
    · simp [batches, h]
    · simp [batches, h]
  | cons x xs ih =>
    intro cur
    simp only [batches]
    split
    · rw [List.flatten_cons, ih]; simp
    · rw [ih]; simp

/-- C95: the transactions contain all instructions, each once, in order -/
theorem C95_batches (fits : List α → Bool) (cu : α → Nat) (maxCu : Nat) (xs : List α) : (batches fits cu maxCu [] xs).flatten = xs := by
  rw [batches_flatten]; rfl

theorem batches_ok (fits : List α → Bool) (cu : α → Nat) (maxCu : Nat) : ∀ (xs cur : List α), (cur.length ≤ 1 ∨ (fits cur = true ∧ (cur.map cu).sum ≤ maxCu)) →
    ∀ b ∈ batches fits cu maxCu cur xs, b.length ≤ 1 ∨ (fits b = true ∧ (b.map cu).sum ≤ maxCu) := by
  intro xs
  induction xs with
  | nil =>
    intro cur hc b hb
    simp only [batches] at hb
    split at hb
    · cases hb
    · simp only [List.mem_singleton] at hb; subst hb; exact hc
  | cons x xs ih =>
    intro cur hc b hb
    simp only [batches] at hb
    split at hb
    · rcases List.mem_cons.1 hb with rfl | hb
      · exact hc
      · exact ih [x] (.inl (by simp)) b hb
    · rename_i hn
      refine ih (cur ++ [x]) (.inr ?_) b hb
      constructor
      · by_contra h; exact hn (.inl (by simpa using h))
      · by_contra h; exact hn (.inr (by omega))

/-- C95: a transaction with more than one account's instructions is within the limits -/
theorem C95_within (fits : List α → Bool) (cu : α → Nat) (maxCu : Nat) (xs : List α) :
    ∀ b ∈ batches fits cu maxCu [] xs, b.length ≤ 1 ∨ (fits b = true ∧ (b.map cu).sum ≤ maxCu) :=
  batches_ok fits cu maxCu xs [] (.inl (by simp))

/-- neighbours: the first instruction of the next transaction would not have fitted into this one -/
def Full (fits : List α → Bool) (cu : α → Nat) (maxCu : Nat) : List (List α) → Prop
  | b :: c :: rest => (∃ x, c.head? = some x ∧ (fits (b ++ [x]) = false ∨ maxCu < ((b ++ [x]).map cu).sum)) ∧ Full fits cu maxCu (c :: rest)
  | _ => True

theorem batches_head (fits : List α → Bool) (cu : α → Nat) (maxCu : Nat) : ∀ (xs cur : List α), cur ≠ [] → ∃ b rest, batches fits cu maxCu cur xs = b :: rest ∧ b.head? = cur.head? := by
  intro xs
  induction xs with
  | nil => intro cur hc; exact ⟨cur, [], by simp [batches, hc], rfl⟩
  | cons x xs ih =>
    intro cur hc
    simp only [batches]
    split
    · exact ⟨cur, _, rfl, rfl⟩
    · obtain ⟨b, rest, h1, h2⟩ := ih (cur ++ [x]) (by simp)
      refine ⟨b, rest, h1, ?_⟩
      rw [h2]
      cases cur with
      | nil => exact absurd rfl hc
      | cons y ys => rfl

theorem batches_full (fits : List α → Bool) (cu : α → Nat) (maxCu : Nat) : ∀ (xs cur : List α), Full fits cu maxCu (batches fits cu maxCu cur xs) := by
  intro xs
  induction xs with
  | nil =>
    intro cur
    simp only [batches]
    split <;> exact True.intro
  | cons x xs ih =>
    intro cur
    simp only [batches]
    split
    · rename_i hx
      obtain ⟨b, rest, h1, h2⟩ := batches_head fits cu maxCu xs [x] (by simp)
      have h3 := ih [x]
      rw [h1] at h3 ⊢
      exact ⟨⟨x, h2, hx⟩, h3⟩
    · exact ih _

/-- C95: a new transaction is begun only when the next instructions do not fit into the last one -/
theorem C95_full (fits : List α → Bool) (cu : α → Nat) (maxCu : Nat) (xs : List α) : Full fits cu maxCu (batches fits cu maxCu [] xs) := batches_full fits cu maxCu xs []

/-- C95: if not even the first account's instructions fit, an empty transaction is sent before them -/
theorem C95_empty_transaction : batches (fun b : List Nat => decide (b.length ≤ 0)) id 100 [] [7] = [[], [7]] := by decide +kernel

/-! ## Tokens -/

theorem chunks_spec (n : Nat) (hn : 0 < n) : ∀ (fuel : Nat) (xs : List α), xs.length ≤ fuel → (chunks n fuel xs).flatten = xs ∧ ∀ c ∈ chunks n fuel xs, 0 < c.length ∧ c.length ≤ n := by
  intro fuel
  induction fuel with
  | zero => intro xs h; have : xs = [] := List.length_eq_zero_iff.1 (by omega); subst this; simp [chunks]
  | succ fuel ih =>
    intro xs h
    cases xs with
    | nil => simp [chunks]
    | cons x xs =>
      simp only [chunks]
      obtain ⟨h1, h2⟩ := ih ((x :: xs).drop n) (by rw [List.length_drop]; simp only [List.length_cons] at h ⊢; omega)
      refine ⟨by rw [List.flatten_cons, h1, List.take_append_drop], fun c hc => ?_⟩
      rcases List.mem_cons.1 hc with rfl | hc
      · rw [List.length_take]; simp only [List.length_cons]; omega
      · exact h2 c hc

/-- C95: every token that is not closed is updated by exactly one loop, and each loop updates at most eight -/
theorem C95_tokens (closed : α → Bool) (tokens : List α) : (tokenLoops closed tokens).flatten = tokens.filter (fun t => !closed t) ∧ ∀ c ∈ tokenLoops closed tokens, 0 < c.length ∧ c.length ≤ 8 :=
  chunks_spec 8 (by omega) _ _ (le_refl _)

/-! ## Concrete cases -/

/-- the market of C24's example has one pending event, a fill between accounts 0 and 1; then nobody else consumes it, and the keeper's instruction does. Without the
taker's account the event stays -/
example : Reachable (txRun txOps) ∧ (pending (txRun txOps)).length = 1 ∧ findAccounts (txRun txOps).queue = .ok (some ([0, 1], 1)) ∧
    (match pstep (txRun txOps) (crankOp [0, 1]) with | .ok s => decide (s.queue.toList = []) | .error _ => false) = true ∧
    (match pstep (txRun txOps) (crankOp [0]) with | .ok s => decide (s.queue.toList.length = 1) | .error _ => false) = true ∧
    findAccounts (txRun []).queue = .ok none := ⟨txReach1, by decide +kernel, by decide +kernel, by decide +kernel, by decide +kernel, by decide +kernel⟩

/-- a history that meets the hypotheses of `C95_consumes`, with an order placed between the keeper's look and its instruction; the new fill names only accounts the keeper saw, and is consumed too -/
example : ∃ s', pstep (prun (txRun txOps) [txPlace 0 (txIoc .ask 2 90)]) (crankOp [0, 1]) = .ok s' ∧ (pending (prun (txRun txOps) [txPlace 0 (txIoc .ask 2 90)])).length = 2 ∧ pending s' = [] := by
  have h : (match pstep (prun (txRun txOps) [txPlace 0 (txIoc .ask 2 90)]) (crankOp [0, 1]) with | .ok s => decide (s.queue.toList = []) | .error _ => false) = true := by decide +kernel
  cases hr : pstep (prun (txRun txOps) [txPlace 0 (txIoc .ask 2 90)]) (crankOp [0, 1]) with
  | error e => rw [hr] at h; cases h
  | ok s => rw [hr] at h; exact ⟨s, rfl, by decide +kernel, of_decide_eq_true h⟩

/-- collateral fees: due after the interval, not in its last second; fees off and a time recorded; no interval and no record -/
example : selects 86400 1000 87401 = .ok true ∧ selects 86400 1000 87400 = .ok false ∧ selects 0 1000 5000 = .ok true ∧ selects 0 0 5000 = .ok false ∧ selects 86400 0 1700000000 = .ok true ∧
    Collateral.due 86400 1000 87401 = .ok (87401, some 86401) := by decide +kernel

/-- at most three per transaction, at most 100 compute units -/
example : batches (fun b : List Nat => decide (b.length ≤ 3)) id 100 [] [30, 30, 30, 5, 60, 50, 101, 2] = [[30, 30, 30], [5, 60], [50], [101], [2]] := by decide +kernel

/-- twelve tokens, one of which is closed -/
example : tokenLoops (fun t : Nat => t == 3) (List.range 12) = [[0, 1, 2, 4, 5, 6, 7, 8], [9, 10, 11]] := by decide +kernel

end Keeper
end Mango
