import Verif.Account.Resize
import Mathlib.Data.List.GetD

/-!
# C33: resizing an account preserves its content

Specification. The content of an account is, for tokens, spot market orders, perp positions and conditional
swaps, the list of its active entries (in order, with all their bytes), and for perp open orders the active
entries together with their slot number (order leaves on the book refer to the slot number).
-/
namespace Mango.Raw

/-- The active content of the account `(m', h')` is that of `(m, h)`. -/
def SameActive (m : Mem) (h : Hdr) (m' : Mem) (h' : Hdr) : Prop :=
  (tokens m' h').filter tokenActive = (tokens m h).filter tokenActive ∧
  (serum3s m' h').filter serum3Active = (serum3s m h).filter serum3Active ∧
  (perps m' h').filter perpActive = (perps m h).filter perpActive ∧
  (tcss m' h').filter tcsActive = (tcss m h).filter tcsActive ∧
  ∀ i r, perpOoActive r = true →
    ((i < h'.perpOoCount ∧ m'.read (h'.perpOoOffset i) szPerpOo = r) ↔
      (i < h.perpOoCount ∧ m.read (h.perpOoOffset i) szPerpOo = r))

/-- The three historic layouts (mango_account.rs:71-86): without conditional swaps, with them, and with
reserved bytes behind them; `h` is the header that the program parses. -/
def Wellformed (m : Mem) (h : Hdr) : Prop :=
  fromBytes m = .ok h ∧
  ((h.tcsCount = 0 ∧ m.len + 4 = tcsVecOffset h.tokenCount h.serum3Count h.perpCount h.perpOoCount) ∨
   (m.len = reservedOffset h ∧
     readCount m (tcsVecOffset h.tokenCount h.serum3Count h.perpCount h.perpOoCount) = .ok h.tcsCount) ∨
   m.len = dynamicSize h)

theorem record_default_inactive :
    tokenActive (record szToken tokenDefault) = false ∧ serum3Active (record szSerum3 serum3Default) = false ∧
    perpActive (record szPerp perpDefault) = false ∧ perpOoActive (record szPerpOo perpOoDefault) = false ∧
    tcsActive (record szTcs tcsDefault) = false := by
  decide +kernel

theorem filter_compacted {l : List (List UInt8)} {act : List UInt8 → Bool} {d : List UInt8} {n : Nat}
    (hd : act d = false) : (compacted l act d n).filter act = l.filter act := by
  unfold compacted
  rw [List.filter_append, List.filter_filter]
  simp [List.filter_replicate, hd]

theorem Resized.same {m : Mem} {old : Hdr} {m' : Mem} {new : Hdr} (h : Resized m old m' new) :
    SameActive m old m' new := by
  obtain ⟨d1, d2, d3, d4, d5⟩ := record_default_inactive
  refine ⟨?_, ?_, ?_, ?_, ?_⟩
  · rw [h.tokens, filter_compacted d1]
  · rw [h.serum3s, filter_compacted d2]
  · rw [h.perps, filter_compacted d3]
  · rw [h.tcss, filter_compacted d5]
  · intro i r hr
    constructor
    · rintro ⟨h1, h2⟩
      rcases h.oo_new i h1 with ⟨h3, h4⟩ | h3
      · exact ⟨h3, by rw [← h4]; exact h2⟩
      · rw [h3] at h2; rw [← h2, d4] at hr; exact absurd hr (by decide)
    · rintro ⟨h1, h2⟩
      have := h.oo_kept i h1 (by rw [h2]; exact hr)
      exact ⟨this.1, by rw [this.2]; exact h2⟩

/-- **C33** The resize of the account content either gives an account with the same active content (active
entries compacted to the front, all other entries reset to their default), or is refused with an error, and
it is refused exactly if the size limits are exceeded or the active content has no room. In no case does one
of its block moves touch bytes outside of the account. -/
theorem C33_resize (m : Mem) (old new : Hdr) (hf : Fits m old) (hnew : dynamicSize new ≤ m.len)
    (hu : new.U8) :
    (resizeAllowed old new = true ∧ Room m old new ∧
      ∃ m', resize m old new = .ok m' ∧ m'.len = m.len ∧ Resized m old m' new ∧ SameActive m old m' new) ∨
    ((resizeAllowed old new = false ∨ ¬ Room m old new) ∧ resize m old new = .error .require) := by
  by_cases h : resizeAllowed old new = true ∧ Room m old new
  · left
    obtain ⟨m', h1, h2, h3⟩ := resize_ok m old new hf hnew hu h.1 h.2
    exact ⟨h.1, h.2, m', h1, h2, h3, h3.same⟩
  · right
    have h' : resizeAllowed old new = false ∨ ¬ Room m old new := by
      by_cases h0 : resizeAllowed old new = true
      · exact Or.inr fun hr => h ⟨h0, hr⟩
      · exact Or.inl (by simpa using h0)
    exact ⟨h', resize_fails m old new hf h'⟩

/-! ## The instructions -/

theorem readCount_ok {m : Mem} {a c : Nat} (h : readCount m a = .ok c) :
    a + 4 ≤ m.len ∧ c = (m.bytes a).toNat ∧ c < 256 := by
  unfold readCount at h
  split at h
  · simp at h
  split at h
  · rw [Except.ok.injEq] at h
    refine ⟨by omega, h.symm, ?_⟩
    rw [← h]; exact (m.bytes a).toNat_lt
  · simp at h

theorem fromBytes_ok {m : Mem} {h : Hdr} (e : fromBytes m = .ok h) :
    m.bytes 0 = 1 ∧ readCount m tokenVecOffset = .ok h.tokenCount ∧
    readCount m (serum3VecOffset h.tokenCount) = .ok h.serum3Count ∧
    readCount m (perpVecOffset h.tokenCount h.serum3Count) = .ok h.perpCount ∧
    readCount m (perpOoVecOffset h.tokenCount h.serum3Count h.perpCount) = .ok h.perpOoCount ∧
    (if tcsVecOffset h.tokenCount h.serum3Count h.perpCount h.perpOoCount + 4 < m.len then
      readCount m (tcsVecOffset h.tokenCount h.serum3Count h.perpCount h.perpOoCount)
      else .ok 0) = .ok h.tcsCount := by
  unfold fromBytes at e
  split at e
  · simp at e
  split at e
  · simp at e
  rename_i hv
  cases e1 : readCount m tokenVecOffset with
  | error x => rw [e1] at e; simp [bind, Except.bind] at e
  | ok tc =>
  rw [rbind_ok e1] at e
  cases e2 : readCount m (serum3VecOffset tc) with
  | error x => rw [e2] at e; simp [bind, Except.bind] at e
  | ok sc =>
  rw [rbind_ok e2] at e
  cases e3 : readCount m (perpVecOffset tc sc) with
  | error x => rw [e3] at e; simp [bind, Except.bind] at e
  | ok pc =>
  rw [rbind_ok e3] at e
  cases e4 : readCount m (perpOoVecOffset tc sc pc) with
  | error x => rw [e4] at e; simp [bind, Except.bind] at e
  | ok oc =>
  rw [rbind_ok e4] at e
  cases e5 : (if tcsVecOffset tc sc pc oc + 4 < m.len then readCount m (tcsVecOffset tc sc pc oc)
      else .ok 0 : R Nat) with
  | error x => rw [e5] at e; simp [bind, Except.bind] at e
  | ok cc =>
  rw [rbind_ok e5] at e
  have e' : (⟨tc, sc, pc, oc, cc⟩ : Hdr) = h := by
    simpa [pure, Except.pure] using e
  subst e'
  refine ⟨by simpa using hv, ?_, ?_, ?_, ?_, ?_⟩
  · first | exact e1 | rfl
  · exact e2
  · exact e3
  · exact e4
  · exact e5

theorem fromBytes_of {m : Mem} {h : Hdr} (h0 : m.bytes 0 = 1)
    (h1 : readCount m tokenVecOffset = .ok h.tokenCount)
    (h2 : readCount m (serum3VecOffset h.tokenCount) = .ok h.serum3Count)
    (h3 : readCount m (perpVecOffset h.tokenCount h.serum3Count) = .ok h.perpCount)
    (h4 : readCount m (perpOoVecOffset h.tokenCount h.serum3Count h.perpCount) = .ok h.perpOoCount)
    (h5 : (if tcsVecOffset h.tokenCount h.serum3Count h.perpCount h.perpOoCount + 4 < m.len then
      readCount m (tcsVecOffset h.tokenCount h.serum3Count h.perpCount h.perpOoCount)
      else .ok 0) = .ok h.tcsCount) : fromBytes m = .ok h := by
  have hl := (readCount_ok h1).1
  unfold fromBytes
  rw [if_neg (by omega), if_neg (by simpa using h0), rbind_ok h1, rbind_ok h2, rbind_ok h3, rbind_ok h4,
    rbind_ok h5]
  rfl

theorem readCount_congr {m m' : Mem} {a c : Nat} (h : readCount m a = .ok c) (hl : a + 4 ≤ m'.len)
    (hb : ∀ x, a ≤ x → x < a + 4 → m'.bytes x = m.bytes x) : readCount m' a = .ok c := by
  have hl0 := (readCount_ok h).1
  unfold readCount at h ⊢
  rw [if_neg (by omega)] at h ⊢
  rw [hb a (by omega) (by omega), hb (a + 1) (by omega) (by omega), hb (a + 2) (by omega) (by omega),
    hb (a + 3) (by omega) (by omega)]
  exact h

theorem tcsVec_eq (h : Hdr) : tcsVecOffset h.tokenCount h.serum3Count h.perpCount h.perpOoCount =
    44 + 184 * h.tokenCount + 120 * h.serum3Count + 304 * h.perpCount + 96 * h.perpOoCount := by
  simp [tcsVecOffset, perpOoVecOffset, perpVecOffset, serum3VecOffset, tokenVecOffset, szToken,
    szSerum3, szPerp, szPerpOo]; omega
theorem perpOoVec_eq (h : Hdr) : perpOoVecOffset h.tokenCount h.serum3Count h.perpCount =
    36 + 184 * h.tokenCount + 120 * h.serum3Count + 304 * h.perpCount := by
  simp [perpOoVecOffset, perpVecOffset, serum3VecOffset, tokenVecOffset, szToken,
    szSerum3, szPerp]; omega
theorem perpVec_eq (h : Hdr) : perpVecOffset h.tokenCount h.serum3Count =
    28 + 184 * h.tokenCount + 120 * h.serum3Count := by
  simp [perpVecOffset, serum3VecOffset, tokenVecOffset, szToken, szSerum3]; omega
theorem serum3Vec_eq (h : Hdr) : serum3VecOffset h.tokenCount = 20 + 184 * h.tokenCount := by
  simp [serum3VecOffset, tokenVecOffset, szToken]; omega

theorem Wellformed.fits {m : Mem} {h : Hdr} (w : Wellformed m h) : Fits m h := by
  obtain ⟨_, w⟩ := w
  unfold Fits
  unfold dynamicSize at w
  rw [tcsVec_eq] at w
  rw [reservedOffset_eq] at *
  rcases w with ⟨h1, h2⟩ | ⟨h1, _⟩ | h1 <;> omega

/-- Changing bytes beyond the vectors does not change what is read. -/
theorem content_congr {m m' : Mem} {h : Hdr} (hb : ∀ x, x < reservedOffset h → m'.bytes x = m.bytes x ∨
    (h.tcsCount = 0 ∧
      40 + 184 * h.tokenCount + 120 * h.serum3Count + 304 * h.perpCount + 96 * h.perpOoCount ≤ x)) :
    tokens m' h = tokens m h ∧ serum3s m' h = serum3s m h ∧ perps m' h = perps m h ∧ tcss m' h = tcss m h ∧
    ∀ i, i < h.perpOoCount → m'.read (h.perpOoOffset i) szPerpOo = m.read (h.perpOoOffset i) szPerpOo := by
  rw [reservedOffset_eq] at hb
  refine ⟨?_, ?_, ?_, ?_, ?_⟩
  · rw [tokens_eq, tokens_eq]
    apply slotsFrom_congr
    intro k hk
    simp only [tokenOffset0, szToken] at hk ⊢
    exact (hb _ (by omega)).resolve_right (by omega)
  · rw [serum3s_eq, serum3s_eq]
    apply slotsFrom_congr
    intro k hk
    simp only [serum3Offset0, szSerum3] at hk ⊢
    exact (hb _ (by omega)).resolve_right (by omega)
  · rw [perps_eq, perps_eq]
    apply slotsFrom_congr
    intro k hk
    simp only [perpOffset0, szPerp] at hk ⊢
    exact (hb _ (by omega)).resolve_right (by omega)
  · rw [tcss_eq, tcss_eq]
    apply slotsFrom_congr
    intro k hk
    simp only [tcsOffset0, szTcs] at hk ⊢
    exact (hb _ (by omega)).resolve_right (by omega)
  · intro i hi
    have e : h.perpOoOffset i = h.perpOoOffset 0 + i * 96 := by simp [Hdr.perpOoOffset, szPerpOo]
    rw [e]
    apply read_congr
    intro k hk
    simp only [perpOoOffset0, szPerpOo] at hk ⊢
    exact (hb _ (by omega)).resolve_right (by omega)

/-- Growing the data keeps the parsed header and the content. -/
theorem grow {m : Mem} {h : Hdr} (w : Wellformed m h) {n : Nat} (hn : m.len < n) :
    fromBytes (realloc m n) = .ok h ∧
    (∀ x, x < reservedOffset h → (realloc m n).bytes x = m.bytes x ∨
    (h.tcsCount = 0 ∧
      40 + 184 * h.tokenCount + 120 * h.serum3Count + 304 * h.perpCount + 96 * h.perpOoCount ≤ x)) := by
  have hfit := w.fits
  obtain ⟨he, w⟩ := w
  obtain ⟨h0, h1, h2, h3, h4, h5⟩ := fromBytes_ok he
  have hlow : ∀ x, x < m.len → (realloc m n).bytes x = m.bytes x := by
    intro x hx; simp only [realloc]; rw [if_pos hx]
  have hlen : (realloc m n).len = n := rfl
  have l1 := (readCount_ok h1).1
  have l2 := (readCount_ok h2).1
  have l3 := (readCount_ok h3).1
  have l4 := (readCount_ok h4).1
  refine ⟨?_, ?_⟩
  · apply fromBytes_of
    · rw [hlow 0 (by omega)]; exact h0
    · exact readCount_congr h1 (by omega) (fun x _ _ => hlow x (by omega))
    · exact readCount_congr h2 (by omega) (fun x _ _ => hlow x (by omega))
    · exact readCount_congr h3 (by omega) (fun x _ _ => hlow x (by omega))
    · exact readCount_congr h4 (by omega) (fun x _ _ => hlow x (by omega))
    · rw [hlen]
      rcases w with ⟨w1, w2⟩ | ⟨w1, w2⟩ | w1
      · -- without conditional swaps: the new bytes are zero
        by_cases hc : tcsVecOffset h.tokenCount h.serum3Count h.perpCount h.perpOoCount + 4 < n
        · rw [if_pos hc, w1]
          have hz : ∀ x, m.len ≤ x → (realloc m n).bytes x = 0 := by
            intro x hx; simp only [realloc]; rw [if_neg (by omega)]
          apply readCount_of
          · omega
          · rw [hz _ (by omega)]; rfl
          · exact hz _ (by omega)
          · exact hz _ (by omega)
          · exact hz _ (by omega)
        · rw [if_neg hc, w1]
      · have l5 := (readCount_ok w2).1
        by_cases hc : tcsVecOffset h.tokenCount h.serum3Count h.perpCount h.perpOoCount + 4 < n
        · rw [if_pos hc]
          exact readCount_congr w2 (by omega) (fun x _ _ => hlow x (by omega))
        · omega
      · unfold dynamicSize szReserved reservedOffset at w1
        rw [if_pos (by omega)] at h5
        rw [if_pos (by omega)]
        exact readCount_congr h5 (by omega) (fun x _ _ => hlow x (by omega))
  · intro x hx
    by_cases hxl : x < m.len
    · exact Or.inl (hlow x hxl)
    · right
      obtain ⟨f1, f2⟩ := hfit
      rcases Nat.eq_zero_or_pos h.tcsCount with hz | hz
      · exact ⟨hz, by omega⟩
      · have := f2 hz; omega

/-- Bytes that decide the result of a resize are kept by cutting off the tail. -/
theorem resized_congr {m : Mem} {old : Hdr} {m1 m' m'' : Mem} {new : Hdr}
    (h : Resized m1 old m' new)
    (hc : tokens m1 old = tokens m old ∧ serum3s m1 old = serum3s m old ∧ perps m1 old = perps m old ∧
      tcss m1 old = tcss m old ∧ ∀ i, i < old.perpOoCount →
        m1.read (old.perpOoOffset i) szPerpOo = m.read (old.perpOoOffset i) szPerpOo)
    (h0 : m1.bytes 0 = m.bytes 0) (hl : m''.len = dynamicSize new)
    (hb : ∀ x, x < dynamicSize new → m''.bytes x = m'.bytes x) :
    Resized m old m'' new := by
  obtain ⟨c1, c2, c3, c4, c5⟩ := hc
  have hd : dynamicSize new = reservedOffset new + 64 := rfl
  obtain ⟨n1, n2, n3, n4, n5⟩ := content_congr (m := m') (m' := m'') (h := new)
    (fun x hx => Or.inl (hb x (by omega)))
  have hr := reservedOffset_eq new
  constructor
  · rw [n1, h.tokens, c1]
  · rw [n2, h.serum3s, c2]
  · rw [n3, h.perps, c3]
  · rw [n4, h.tcss, c4]
  · intro i hi ha
    have := h.oo_kept i hi (by rw [c5 i hi]; exact ha)
    exact ⟨this.1, by rw [n5 i this.1, this.2, c5 i hi]⟩
  · intro i hi
    rw [n5 i hi]
    rcases h.oo_new i hi with ⟨h1, h2⟩ | h1
    · exact Or.inl ⟨h1, by rw [h2, c5 i h1]⟩
    · exact Or.inr h1
  · rw [hb 0 (by omega), h.version, h0]
  · obtain ⟨k1, k2, k3, k4, k5⟩ := h.counts
    have t1 := serum3Vec_eq new
    have t2 := perpVec_eq new
    have t3 := perpOoVec_eq new
    have t4 := tcsVec_eq new
    have t0 : tokenVecOffset = 12 := rfl
    exact ⟨readCount_congr k1 (by omega) (fun x _ _ => hb x (by omega)),
      readCount_congr k2 (by omega) (fun x _ _ => hb x (by omega)),
      readCount_congr k3 (by omega) (fun x _ _ => hb x (by omega)),
      readCount_congr k4 (by omega) (fun x _ _ => hb x (by omega)),
      readCount_congr k5 (by omega) (fun x _ _ => hb x (by omega))⟩
  · intro k hk
    rw [hb _ (by unfold szReserved at hk; omega)]
    exact h.reserved k hk

theorem Resized.parse {m : Mem} {old : Hdr} {m' : Mem} {new : Hdr} (h : Resized m old m' new)
    (hv : m.bytes 0 = 1) (hl : dynamicSize new ≤ m'.len) : fromBytes m' = .ok new := by
  obtain ⟨k1, k2, k3, k4, k5⟩ := h.counts
  refine fromBytes_of (by rw [h.version, hv]) k1 k2 k3 k4 ?_
  unfold dynamicSize szReserved reservedOffset at hl
  rw [if_pos (by omega)]
  exact k5

theorem fromBytes_u8 {m : Mem} {h : Hdr} (e : fromBytes m = .ok h) : h.U8 := by
  obtain ⟨_, h1, h2, h3, h4, h5⟩ := fromBytes_ok e
  refine ⟨(readCount_ok h1).2.2, (readCount_ok h2).2.2, (readCount_ok h3).2.2, (readCount_ok h4).2.2, ?_⟩
  split at h5
  · exact (readCount_ok h5).2.2
  · rw [Except.ok.injEq] at h5; omega

/-- Room only depends on the content. -/
theorem Room.congr {m m1 : Mem} {old new : Hdr}
    (hc : tokens m1 old = tokens m old ∧ serum3s m1 old = serum3s m old ∧ perps m1 old = perps m old ∧
      tcss m1 old = tcss m old ∧ ∀ i, i < old.perpOoCount →
        m1.read (old.perpOoOffset i) szPerpOo = m.read (old.perpOoOffset i) szPerpOo) :
    Room m1 old new ↔ Room m old new := by
  obtain ⟨c1, c2, c3, c4, c5⟩ := hc
  unfold Room
  rw [c1, c2, c3, c4]
  have : (∀ i, i < old.perpOoCount → perpOoActive (m1.read (old.perpOoOffset i) szPerpOo) = true →
      i < new.perpOoCount) ↔ (∀ i, i < old.perpOoCount →
      perpOoActive (m.read (old.perpOoOffset i) szPerpOo) = true → i < new.perpOoCount) := by
    constructor
    · intro h i hi ha; exact h i hi (by rw [c5 i hi]; exact ha)
    · intro h i hi ha; exact h i hi (by rw [← c5 i hi]; exact ha)
  rw [this]

/-- **C33** The instruction that changes the size of an account, for all three historic layouts: it
succeeds exactly if the size limits allow it and the active content has room, and then the account has exactly
the new size, parses with the new header, and has the same active content. Otherwise it is refused. -/
theorem C33_account_expand (m : Mem) (old new : Hdr) (w : Wellformed m old) (hu : new.U8) :
    (resizeAllowed old new = true ∧ Room m old new ∧
      ∃ m', accountExpand m new = .ok m' ∧ m'.len = dynamicSize new ∧ Wellformed m' new ∧
        Resized m old m' new ∧ SameActive m old m' new) ∨
    ((resizeAllowed old new = false ∨ ¬ Room m old new) ∧ accountExpand m new = .error .require) := by
  have hfit := w.fits
  have hv : m.bytes 0 = 1 := (fromBytes_ok w.1).1
  have l1 := (readCount_ok (fromBytes_ok w.1).2.1).1
  -- the data after the first realloc
  obtain ⟨m1, hm1, hlen1, hge, hpar, hbytes, hfit1⟩ : ∃ m1, (if m.len < dynamicSize new then realloc m (dynamicSize new) else m) = m1 ∧
      m1.len = max m.len (dynamicSize new) ∧ dynamicSize new ≤ m1.len ∧ fromBytes m1 = .ok old ∧
      (∀ x, x < reservedOffset old → m1.bytes x = m.bytes x ∨
        (old.tcsCount = 0 ∧ 40 + 184 * old.tokenCount + 120 * old.serum3Count + 304 * old.perpCount +
          96 * old.perpOoCount ≤ x)) ∧ Fits m1 old := by
    by_cases hc : m.len < dynamicSize new
    · rw [if_pos hc]
      obtain ⟨g1, g2⟩ := grow w hc
      refine ⟨_, rfl, ?_, ?_, g1, g2, ?_⟩
      · simp only [realloc]; omega
      · simp [realloc]
      · unfold Fits at hfit ⊢
        simp only [realloc]
        exact ⟨by omega, fun h => by have := hfit.2 h; omega⟩
    · rw [if_neg hc]
      exact ⟨m, rfl, by omega, by omega, w.1, fun _ _ => Or.inl rfl, hfit⟩
  have hcont := content_congr hbytes
  have hv1 : m1.bytes 0 = m.bytes 0 := by
    rw [hv]; exact (fromBytes_ok hpar).1
  have hexp : accountExpand m new = (resize m1 old new >>= fun m2 =>
      pure (if dynamicSize new < m.len then realloc m2 (dynamicSize new) else m2)) := by
    unfold accountExpand
    simp only [hm1]
    rw [rbind_ok hpar]
  rcases C33_resize m1 old new hfit1 hge hu with ⟨ha, hr, m2, h1, h2, h3, h4⟩ | ⟨h1, h2⟩
  · left
    refine ⟨ha, (Room.congr hcont).1 hr, ?_⟩
    obtain ⟨m3, hm3, hl3, hb3⟩ : ∃ m3,
        (if dynamicSize new < m.len then realloc m2 (dynamicSize new) else m2) = m3 ∧
        m3.len = dynamicSize new ∧ ∀ x, x < dynamicSize new → m3.bytes x = m2.bytes x := by
      by_cases hc : dynamicSize new < m.len
      · rw [if_pos hc]
        refine ⟨_, rfl, rfl, ?_⟩
        intro x hx
        simp only [realloc]; rw [if_pos (by omega)]
      · rw [if_neg hc]
        exact ⟨m2, rfl, by omega, fun _ _ => rfl⟩
    have hR : Resized m old m3 new := resized_congr h3 hcont hv1 hl3 hb3
    have hp := hR.parse hv (by omega)
    refine ⟨m3, ?_, hl3, ⟨hp, Or.inr (Or.inr hl3)⟩, hR, hR.same⟩
    rw [hexp, rbind_ok h1, hm3]
    rfl
  · right
    refine ⟨?_, ?_⟩
    · rcases h1 with h1 | h1
      · exact Or.inl h1
      · exact Or.inr (fun hr => h1 ((Room.congr hcont).2 hr))
    · rw [hexp, h2]; rfl

theorem countActive_eq (m : Mem) (start size n : Nat) (act : List UInt8 → Bool) :
    countActive m start size n act = ((slotsFrom m start size 0 n).filter act).length := by
  unfold countActive slotsFrom
  rw [List.filter_map, List.length_map]
  simp only [Function.comp_def, Nat.zero_add]

/-- **C33** The migration of account sizes always succeeds, whatever the account contains, and gives an account
in the current layout with the same active content. -/
theorem C33_size_migration (m : Mem) (h : Hdr) (w : Wellformed m h) :
    ∃ m' h', accountSizeMigration m = .ok m' ∧ Wellformed m' h' ∧ m'.len = dynamicSize h' ∧
      SameActive m h m' h' := by
  unfold accountSizeMigration
  rw [rbind_ok w.1]
  by_cases hc : m.len = dynamicSize h
  · rw [if_pos hc]
    exact ⟨m, h, rfl, w, hc, rfl, rfl, rfl, rfl, fun _ _ _ => Iff.rfl⟩
  · rw [if_neg hc]
    have hu := fromBytes_u8 w.1
    have hu' : (migrationHeader m h).U8 := by
      obtain ⟨u1, u2, u3, u4, u5⟩ := hu
      refine ⟨?_, ?_, ?_, u4, u5⟩ <;> simp only [migrationHeader] <;> omega
    have hallow : resizeAllowed h (migrationHeader m h) = true := by
      unfold resizeAllowed Hdr.expectedHealthAccounts migrationHeader
      simp only [Bool.and_eq_true, Bool.or_eq_true, Bool.not_eq_true', decide_eq_false_iff_not,
        decide_eq_true_eq]
      refine ⟨⟨Or.inl ?_, Or.inl ?_⟩, Or.inl ?_⟩ <;> omega
    have hroom : Room m h (migrationHeader m h) := by
      have f1 := List.length_filter_le tokenActive (tokens m h)
      have f2 := List.length_filter_le serum3Active (serum3s m h)
      have f3 := List.length_filter_le perpActive (perps m h)
      have f5 := List.length_filter_le tcsActive (tcss m h)
      have g1 : (tokens m h).length = h.tokenCount := by simp [tokens]
      have g2 : (serum3s m h).length = h.serum3Count := by simp [serum3s]
      have g3 : (perps m h).length = h.perpCount := by simp [perps]
      have g5 : (tcss m h).length = h.tcsCount := by simp [tcss]
      refine ⟨?_, ?_, ?_, ?_, ?_⟩
      · simp only [migrationHeader]
        rw [countActive_eq, ← tokens_eq]; omega
      · simp only [migrationHeader]
        rw [countActive_eq, ← serum3s_eq]; omega
      · simp only [migrationHeader]
        rw [countActive_eq, ← perps_eq]; omega
      · intro i hi _; exact hi
      · simp only [migrationHeader]; omega
    rcases C33_account_expand m h (migrationHeader m h) w hu' with ⟨_, _, m', h1, h2, h3, _, h5⟩ | ⟨h1, _⟩
    · exact ⟨m', _, h1, h3, h2, h5⟩
    · rcases h1 with h1 | h1
      · rw [h1] at hallow; exact absurd hallow (by decide)
      · exact absurd hroom h1

/-- **C33** A new account is created exactly if the requested slots respect the limits (28 accounts in the
health computation, 64 open orders, 64 conditional swaps), and all of its slots are free. -/
theorem C33_create (h : Hdr) (hu : h.U8) :
    (h.tokenCount * 2 + h.serum3Count + h.perpCount * 2 ≤ 28 ∧ h.perpOoCount ≤ 64 ∧ h.tcsCount ≤ 64 ∧
      ∃ m', accountCreate h = .ok m' ∧ Wellformed m' h ∧
        tokens m' h = List.replicate h.tokenCount (record szToken tokenDefault) ∧
        serum3s m' h = List.replicate h.serum3Count (record szSerum3 serum3Default) ∧
        perps m' h = List.replicate h.perpCount (record szPerp perpDefault) ∧
        tcss m' h = List.replicate h.tcsCount (record szTcs tcsDefault) ∧
        ∀ i, i < h.perpOoCount → m'.read (h.perpOoOffset i) szPerpOo = record szPerpOo perpOoDefault) ∨
    (¬ (h.tokenCount * 2 + h.serum3Count + h.perpCount * 2 ≤ 28 ∧ h.perpOoCount ≤ 64 ∧ h.tcsCount ≤ 64) ∧
      accountCreate h = .error .require) := by
  have hr := reservedOffset_eq h
  have hd : dynamicSize h = reservedOffset h + 64 := rfl
  have hpar : fromBytes ⟨fun k => if k = 0 then 1 else 0, dynamicSize h⟩ = .ok ⟨0, 0, 0, 0, 0⟩ := by
    have hz : ∀ x, x ≠ 0 → (fun k : Nat => if k = 0 then (1 : UInt8) else 0) x = 0 := by
      intro x hx; simp [hx]
    have hrc : ∀ a, a ≠ 0 → a + 4 ≤ dynamicSize h →
        readCount ⟨fun k => if k = 0 then 1 else 0, dynamicSize h⟩ a = .ok 0 := by
      intro a ha hl
      apply readCount_of hl
      · show ((if a = 0 then (1 : UInt8) else 0) : UInt8).toNat = 0
        rw [if_neg ha]; rfl
      · exact hz (a + 1) (by omega)
      · exact hz (a + 2) (by omega)
      · exact hz (a + 3) (by omega)
    apply fromBytes_of
    · rfl
    · exact hrc _ (by decide) (by unfold tokenVecOffset; omega)
    · exact hrc _ (by decide) (by show (20 : Nat) + 4 ≤ _; omega)
    · exact hrc _ (by decide) (by show (28 : Nat) + 4 ≤ _; omega)
    · exact hrc _ (by decide) (by show (36 : Nat) + 4 ≤ _; omega)
    · rw [if_pos (by show (44 : Nat) + 4 < dynamicSize h; omega)]
      exact hrc _ (by decide) (by show (44 : Nat) + 4 ≤ _; omega)
  have hallow : resizeAllowed ⟨0, 0, 0, 0, 0⟩ h = true ↔
      (h.tokenCount * 2 + h.serum3Count + h.perpCount * 2 ≤ 28 ∧ h.perpOoCount ≤ 64 ∧ h.tcsCount ≤ 64) := by
    unfold resizeAllowed Hdr.expectedHealthAccounts
    simp only [Bool.and_eq_true, Bool.or_eq_true, Bool.not_eq_true', decide_eq_false_iff_not,
      decide_eq_true_eq]
    omega
  unfold accountCreate
  simp only []
  rw [rbind_ok hpar]
  by_cases hlim : h.tokenCount * 2 + h.serum3Count + h.perpCount * 2 ≤ 28 ∧ h.perpOoCount ≤ 64 ∧
      h.tcsCount ≤ 64
  · left
    refine ⟨hlim.1, hlim.2.1, hlim.2.2, ?_⟩
    have ha := hallow.2 hlim
    rw [if_neg (by rw [ha]; decide)]
    obtain ⟨m', h1, h2, h3⟩ := resize_ok ⟨fun k => if k = 0 then 1 else 0, dynamicSize h⟩ ⟨0, 0, 0, 0, 0⟩ h
      ⟨by show (40 : Nat) + 184 * 0 + 120 * 0 + 304 * 0 + 96 * 0 ≤ dynamicSize h; omega,
        fun hc => absurd hc (by decide)⟩ (le_refl _) hu ha
      ⟨by simp [tokens], by simp [serum3s], by simp [perps], fun i hi => absurd hi (by simp),
        by simp [tcss]⟩
    have hl : m'.len = dynamicSize h := h2
    refine ⟨m', h1, ⟨h3.parse rfl (by omega), Or.inr (Or.inr hl)⟩, ?_, ?_, ?_, ?_, ?_⟩
    · rw [h3.tokens]; simp [compacted, tokens]
    · rw [h3.serum3s]; simp [compacted, serum3s]
    · rw [h3.perps]; simp [compacted, perps]
    · rw [h3.tcss]; simp [compacted, tcss]
    · intro i hi
      rcases h3.oo_new i hi with ⟨h4, _⟩ | h4
      · exact absurd h4 (by simp)
      · exact h4
  · right
    refine ⟨hlim, ?_⟩
    rw [if_pos]
    rw [← hallow] at hlim
    simpa using hlim

/-! ## Non-vacuity: an account with entries at both ends of its vectors, shrunk and grown -/

/-- Two token slots of which the second is active (token 7), one perp, two orders with the second active. -/
def exMem : Mem :=
  { bytes := fun x =>
      if x = 0 then 1 else if x = 12 then 2 else if x = 20 + 184 * 2 then 1 else
      if x = 28 + 184 * 2 + 120 then 1 else
      if x = 36 + 184 * 2 + 120 + 304 then 2 else
      if x = 16 + 16 ∨ x = 16 + 17 then 255 else
      if x = 16 + 184 + 16 then 7 else
      if x = 40 + 184 * 2 + 120 + 304 + 2 ∨ x = 40 + 184 * 2 + 120 + 304 + 3 then 255 else
      if x = 40 + 184 * 2 + 120 + 304 + 96 + 8 then 77 else 0
    len := 48 + 184 * 2 + 120 + 304 + 96 * 2 + 64 }

theorem ex_parse : fromBytes exMem = .ok ⟨2, 1, 1, 2, 0⟩ := by decide +kernel

theorem ex_wellformed : Wellformed exMem ⟨2, 1, 1, 2, 0⟩ := ⟨ex_parse, Or.inr (Or.inr rfl)⟩

/-- One token slot is enough, one more perp slot and six conditional swaps are added. -/
theorem ex_expand : ∃ m', accountExpand exMem ⟨1, 1, 2, 2, 6⟩ = .ok m' ∧
    SameActive exMem ⟨2, 1, 1, 2, 0⟩ m' ⟨1, 1, 2, 2, 6⟩ := by
  rcases C33_account_expand exMem ⟨2, 1, 1, 2, 0⟩ ⟨1, 1, 2, 2, 6⟩ ex_wellformed
    (by unfold Hdr.U8; decide) with ⟨_, _, m', h, _, _, _, h2⟩ | ⟨h, _⟩
  · exact ⟨m', h, h2⟩
  · exfalso
    rcases h with h | h
    · exact absurd h (by decide)
    · apply h
      refine ⟨by decide +kernel, by decide +kernel, by decide +kernel, ?_, by decide +kernel⟩
      intro i hi _; exact hi

/-- The account cannot shrink to a single order slot, because the order in the second slot is on the book. -/
theorem ex_expand_refused : accountExpand exMem ⟨2, 1, 1, 1, 0⟩ = .error .require := by
  rcases C33_account_expand exMem ⟨2, 1, 1, 2, 0⟩ ⟨2, 1, 1, 1, 0⟩ ex_wellformed
    (by unfold Hdr.U8; decide) with ⟨_, h, _⟩ | ⟨_, h⟩
  · exfalso
    have := h.2.2.2.1 1 (by decide) (by decide +kernel)
    exact absurd this (by decide)
  · exact h

end Mango.Raw
