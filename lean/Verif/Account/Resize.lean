import Verif.Account.BytesLemmas

namespace Mango.Raw

theorem tokenOffset0 (h : Hdr) : h.tokenOffset 0 = 16 := by
  simp [Hdr.tokenOffset, tokenVecOffset]
theorem serum3Offset0 (h : Hdr) : h.serum3Offset 0 = 24 + 184 * h.tokenCount := by
  simp [Hdr.serum3Offset, serum3VecOffset, tokenVecOffset, szToken]; omega
theorem perpOffset0 (h : Hdr) : h.perpOffset 0 = 32 + 184 * h.tokenCount + 120 * h.serum3Count := by
  simp [Hdr.perpOffset, perpVecOffset, serum3VecOffset, tokenVecOffset, szToken, szSerum3]; omega
theorem perpOoOffset0 (h : Hdr) :
    h.perpOoOffset 0 = 40 + 184 * h.tokenCount + 120 * h.serum3Count + 304 * h.perpCount := by
  simp [Hdr.perpOoOffset, perpOoVecOffset, perpVecOffset, serum3VecOffset, tokenVecOffset, szToken, szSerum3,
    szPerp]; omega
theorem tcsOffset0 (h : Hdr) :
    h.tcsOffset 0 = 48 + 184 * h.tokenCount + 120 * h.serum3Count + 304 * h.perpCount + 96 * h.perpOoCount := by
  simp [Hdr.tcsOffset, tcsVecOffset, perpOoVecOffset, perpVecOffset, serum3VecOffset, tokenVecOffset, szToken,
    szSerum3, szPerp, szPerpOo]; omega
theorem reservedOffset_eq (h : Hdr) :
    reservedOffset h = 48 + 184 * h.tokenCount + 120 * h.serum3Count + 304 * h.perpCount +
      96 * h.perpOoCount + 200 * h.tcsCount := by
  simp [reservedOffset, tcsVecOffset, perpOoVecOffset, perpVecOffset, serum3VecOffset, tokenVecOffset, szToken,
    szSerum3, szPerp, szPerpOo, szTcs]; omega

/-- The two move passes bring four blocks with old starts `o`, new starts `n` and byte lengths `l` to their new
places, without touching anything to the left of both first starts. -/
theorem passes (m : Mem) {o1 o2 o3 o4 n1 n2 n3 n4 s1 s2 s3 s4 c1 c2 c3 c4 : Nat}
    (hs1 : 0 < s1) (hs2 : 0 < s2) (hs3 : 0 < s3) (hs4 : 0 < s4)
    (ho1 : o1 + s1 * c1 ≤ o2) (ho2 : o2 + s2 * c2 ≤ o3) (ho3 : o3 + s3 * c3 ≤ o4)
    (ho3' : o3 + s3 * c3 ≤ m.len) (ho4 : 0 < c4 → o4 + s4 * c4 ≤ m.len)
    (hn1 : n1 + s1 * c1 ≤ n2) (hn2 : n2 + s2 * c2 ≤ n3) (hn3 : n3 + s3 * c3 ≤ n4)
    (hn4 : n4 + s4 * c4 ≤ m.len) :
    ∃ m1 m2 m3 m4 m5 m6 m7 m', moveLeft m n1 o1 s1 c1 = .ok m1 ∧ moveLeft m1 n2 o2 s2 c2 = .ok m2 ∧
      moveLeft m2 n3 o3 s3 c3 = .ok m3 ∧ moveLeft m3 n4 o4 s4 c4 = .ok m4 ∧
      moveRight m4 n4 o4 s4 c4 = .ok m5 ∧ moveRight m5 n3 o3 s3 c3 = .ok m6 ∧
      moveRight m6 n2 o2 s2 c2 = .ok m7 ∧ moveRight m7 n1 o1 s1 c1 = .ok m' ∧ m'.len = m.len ∧
      (∀ x, x < o1 → x < n1 → m'.bytes x = m.bytes x) ∧
      (∀ k, k < s1 * c1 → m'.bytes (n1 + k) = m.bytes (o1 + k)) ∧
      (∀ k, k < s2 * c2 → m'.bytes (n2 + k) = m.bytes (o2 + k)) ∧
      (∀ k, k < s3 * c3 → m'.bytes (n3 + k) = m.bytes (o3 + k)) ∧
      (∀ k, k < s4 * c4 → m'.bytes (n4 + k) = m.bytes (o4 + k)) := by
  obtain ⟨m1, e1, l1, b1, u1⟩ := moveLeft_spec (m := m) (new := n1) (old := o1) (cnt := c1) hs1 (fun _ => by omega)
  obtain ⟨m2, e2, l2, b2, u2⟩ := moveLeft_spec (m := m1) (new := n2) (old := o2) (cnt := c2) hs2 (fun _ => by omega)
  obtain ⟨m3, e3, l3, b3, u3⟩ := moveLeft_spec (m := m2) (new := n3) (old := o3) (cnt := c3) hs3 (fun _ => by omega)
  obtain ⟨m4, e4, l4, b4, u4⟩ := moveLeft_spec (m := m3) (new := n4) (old := o4) (cnt := c4) hs4 (fun _ => by omega)
  obtain ⟨m5, e5, l5, b5, u5⟩ := moveRight_spec (m := m4) (new := n4) (old := o4) (cnt := c4) hs4
    (fun _ => by omega) (by omega)
  obtain ⟨m6, e6, l6, b6, u6⟩ := moveRight_spec (m := m5) (new := n3) (old := o3) (cnt := c3) hs3
    (fun _ => by omega) (by omega)
  obtain ⟨m7, e7, l7, b7, u7⟩ := moveRight_spec (m := m6) (new := n2) (old := o2) (cnt := c2) hs2
    (fun _ => by omega) (by omega)
  obtain ⟨m8, e8, l8, b8, u8⟩ := moveRight_spec (m := m7) (new := n1) (old := o1) (cnt := c1) hs1
    (fun _ => by omega) (by omega)
  refine ⟨m1, m2, m3, m4, m5, m6, m7, m8, e1, e2, e3, e4, e5, e6, e7, e8, by omega, ?_, ?_, ?_, ?_, ?_⟩
  · intro x h1 h2
    rw [u8 x (by omega), u7 x (by omega), u6 x (by omega), u5 x (by omega), u4 x (by omega), u3 x (by omega),
      u2 x (by omega), u1 x (by omega)]
  · intro k hk
    rw [b8 k hk, u7 _ (by omega), u6 _ (by omega), u5 _ (by omega), u4 _ (by omega), u3 _ (by omega),
      u2 _ (by omega), b1 k hk]
  · intro k hk
    rw [u8 _ (by omega), b7 k hk, u6 _ (by omega), u5 _ (by omega), u4 _ (by omega), u3 _ (by omega),
      b2 k hk, u1 _ (by omega)]
  · intro k hk
    rw [u8 _ (by omega), u7 _ (by omega), b6 k hk, u5 _ (by omega), u4 _ (by omega),
      b3 k hk, u2 _ (by omega), u1 _ (by omega)]
  · intro k hk
    rw [u8 _ (by omega), u7 _ (by omega), u6 _ (by omega), b5 k hk,
      b4 k hk, u3 _ (by omega), u2 _ (by omega), u1 _ (by omega)]

/-- Slots of each kind, as returned by the `all_*` iterators (mango_account.rs:795-797, 825-827, 853-855, 869-871,
922-925). -/
def tokens (m : Mem) (h : Hdr) : List (List UInt8) :=
  (List.range h.tokenCount).map fun i => m.read (h.tokenOffset i) szToken
/-- `all_serum3_orders` (mango_account.rs:825-827). -/
def serum3s (m : Mem) (h : Hdr) : List (List UInt8) :=
  (List.range h.serum3Count).map fun i => m.read (h.serum3Offset i) szSerum3
/-- `all_perp_positions` (mango_account.rs:853-855). -/
def perps (m : Mem) (h : Hdr) : List (List UInt8) :=
  (List.range h.perpCount).map fun i => m.read (h.perpOffset i) szPerp
/-- `all_perp_orders` (mango_account.rs:869-871). -/
def perpOos (m : Mem) (h : Hdr) : List (List UInt8) :=
  (List.range h.perpOoCount).map fun i => m.read (h.perpOoOffset i) szPerpOo
/-- `all_token_conditional_swaps` (mango_account.rs:922-925). -/
def tcss (m : Mem) (h : Hdr) : List (List UInt8) :=
  (List.range h.tcsCount).map fun i => m.read (h.tcsOffset i) szTcs

theorem tokens_eq (m : Mem) (h : Hdr) : tokens m h = slotsFrom m (h.tokenOffset 0) szToken 0 h.tokenCount := by
  unfold tokens slotsFrom; apply List.map_congr_left; intro i _; simp [Hdr.tokenOffset]
theorem serum3s_eq (m : Mem) (h : Hdr) :
    serum3s m h = slotsFrom m (h.serum3Offset 0) szSerum3 0 h.serum3Count := by
  unfold serum3s slotsFrom; apply List.map_congr_left; intro i _; simp [Hdr.serum3Offset]
theorem perps_eq (m : Mem) (h : Hdr) : perps m h = slotsFrom m (h.perpOffset 0) szPerp 0 h.perpCount := by
  unfold perps slotsFrom; apply List.map_congr_left; intro i _; simp [Hdr.perpOffset]
theorem perpOos_eq (m : Mem) (h : Hdr) :
    perpOos m h = slotsFrom m (h.perpOoOffset 0) szPerpOo 0 h.perpOoCount := by
  unfold perpOos slotsFrom; apply List.map_congr_left; intro i _; simp [Hdr.perpOoOffset]
theorem tcss_eq (m : Mem) (h : Hdr) : tcss m h = slotsFrom m (h.tcsOffset 0) szTcs 0 h.tcsCount := by
  unfold tcss slotsFrom; apply List.map_congr_left; intro i _; simp [Hdr.tcsOffset]

/-- The active entries first and in their order, then default entries up to the new number. -/
def compacted (l : List (List UInt8)) (act : List UInt8 → Bool) (dflt : List UInt8) (n : Nat) :
    List (List UInt8) :=
  l.filter act ++ List.replicate (n - (l.filter act).length) dflt

/-- All vectors of the old layout lie inside of the data. -/
def Fits (m : Mem) (h : Hdr) : Prop :=
  40 + 184 * h.tokenCount + 120 * h.serum3Count + 304 * h.perpCount + 96 * h.perpOoCount ≤ m.len ∧
  (0 < h.tcsCount → reservedOffset h ≤ m.len)

/-- The active entries fit into the new layout. -/
def Room (m : Mem) (old new : Hdr) : Prop :=
  ((tokens m old).filter tokenActive).length ≤ new.tokenCount ∧
  ((serum3s m old).filter serum3Active).length ≤ new.serum3Count ∧
  ((perps m old).filter perpActive).length ≤ new.perpCount ∧
  (∀ i, i < old.perpOoCount → perpOoActive (m.read (old.perpOoOffset i) szPerpOo) = true →
    i < new.perpOoCount) ∧
  ((tcss m old).filter tcsActive).length ≤ new.tcsCount

/-- What a resize must achieve. -/
structure Resized (m : Mem) (old : Hdr) (m' : Mem) (new : Hdr) : Prop where
  tokens : tokens m' new =
    compacted (tokens m old) tokenActive (record szToken tokenDefault) new.tokenCount
  serum3s : serum3s m' new =
    compacted (serum3s m old) serum3Active (record szSerum3 serum3Default) new.serum3Count
  perps : perps m' new = compacted (perps m old) perpActive (record szPerp perpDefault) new.perpCount
  tcss : tcss m' new = compacted (tcss m old) tcsActive (record szTcs tcsDefault) new.tcsCount
  oo_kept : ∀ i, i < old.perpOoCount → perpOoActive (m.read (old.perpOoOffset i) szPerpOo) = true →
    i < new.perpOoCount ∧ m'.read (new.perpOoOffset i) szPerpOo = m.read (old.perpOoOffset i) szPerpOo
  oo_new : ∀ i, i < new.perpOoCount →
    (i < old.perpOoCount ∧ m'.read (new.perpOoOffset i) szPerpOo = m.read (old.perpOoOffset i) szPerpOo) ∨
      m'.read (new.perpOoOffset i) szPerpOo = record szPerpOo perpOoDefault
  version : m'.bytes 0 = m.bytes 0
  counts : readCount m' tokenVecOffset = .ok new.tokenCount ∧
    readCount m' (serum3VecOffset new.tokenCount) = .ok new.serum3Count ∧
    readCount m' (perpVecOffset new.tokenCount new.serum3Count) = .ok new.perpCount ∧
    readCount m' (perpOoVecOffset new.tokenCount new.serum3Count new.perpCount) = .ok new.perpOoCount ∧
    readCount m' (tcsVecOffset new.tokenCount new.serum3Count new.perpCount new.perpOoCount) =
      .ok new.tcsCount
  reserved : ∀ k, k < szReserved → m'.bytes (reservedOffset new + k) = 0

/-- A filled vector: the kept entries, then defaults. -/
theorem section_final {m0 m' : Mem} {o n size a c : Nat} {act : List UInt8 → Bool} {dflt : Nat → UInt8}
    {l : List (List UInt8)} (hac : a ≤ c)
    (hpre : slotsFrom m0 o size 0 a = l.filter act) (hlen : a = (l.filter act).length)
    (hb : ∀ k, k < size * a → m'.bytes (n + k) = m0.bytes (o + k))
    (hf : slotsFrom m' n size a (c - a) = List.replicate (c - a) (record size dflt)) :
    slotsFrom m' n size 0 c = compacted l act (record size dflt) c := by
  have e : c = a + (c - a) := by omega
  unfold compacted
  rw [← hlen]
  conv_lhs => rw [e]
  rw [slotsFrom_append, Nat.zero_add, hf]
  congr 1
  rw [← hpre]
  apply slotsFrom_congr
  intro k hk
  rw [Nat.zero_mul, Nat.add_zero, Nat.add_zero]
  exact hb k (by rw [Nat.mul_comm]; exact hk)


/-- The five vectors with their active entries at the front. -/
theorem defrag_all (m : Mem) (old : Hdr) (hf : Fits m old) :
    ∃ m1 m2 m3 m4 at_ as_ ap bo ac,
      defrag (old.tokenOffset 0) szToken tokenActive old.tokenCount 0 0 m = .ok (m1, at_) ∧
      defrag (old.serum3Offset 0) szSerum3 serum3Active old.serum3Count 0 0 m1 = .ok (m2, as_) ∧
      defrag (old.perpOffset 0) szPerp perpActive old.perpCount 0 0 m2 = .ok (m3, ap) ∧
      blockedOo (old.perpOoOffset 0) szPerpOo perpOoActive old.perpOoCount m3 = .ok bo ∧
      defrag (old.tcsOffset 0) szTcs tcsActive old.tcsCount 0 0 m3 = .ok (m4, ac) ∧
      m4.len = m.len ∧
      (at_ = ((tokens m old).filter tokenActive).length ∧ at_ ≤ old.tokenCount ∧
        slotsFrom m4 (old.tokenOffset 0) szToken 0 at_ = (tokens m old).filter tokenActive) ∧
      (as_ = ((serum3s m old).filter serum3Active).length ∧ as_ ≤ old.serum3Count ∧
        slotsFrom m4 (old.serum3Offset 0) szSerum3 0 as_ = (serum3s m old).filter serum3Active) ∧
      (ap = ((perps m old).filter perpActive).length ∧ ap ≤ old.perpCount ∧
        slotsFrom m4 (old.perpOffset 0) szPerp 0 ap = (perps m old).filter perpActive) ∧
      (ac = ((tcss m old).filter tcsActive).length ∧ ac ≤ old.tcsCount ∧
        slotsFrom m4 (old.tcsOffset 0) szTcs 0 ac = (tcss m old).filter tcsActive) ∧
      bo ≤ old.perpOoCount ∧
      (∀ i, bo ≤ i → i < old.perpOoCount → perpOoActive (m.read (old.perpOoOffset i) szPerpOo) = false) ∧
      (0 < bo → perpOoActive (m.read (old.perpOoOffset (bo - 1)) szPerpOo) = true) ∧
      (∀ k, k < 96 * old.perpOoCount →
        m4.bytes (old.perpOoOffset 0 + k) = m.bytes (old.perpOoOffset 0 + k)) ∧
      (∀ x, x < 16 → m4.bytes x = m.bytes x) := by
  obtain ⟨hf1, hf2⟩ := hf
  rw [reservedOffset_eq] at hf2
  have hoT := tokenOffset0 old
  have hoS := serum3Offset0 old
  have hoP := perpOffset0 old
  have hoO := perpOoOffset0 old
  have hoC := tcsOffset0 old
  obtain ⟨m1, a1, e1, l1, c1, b1, s1, u1⟩ := defrag_spec (old.tokenOffset 0) szToken (by decide) tokenActive
    old.tokenCount 0 0 m (by omega) (fun _ => by rw [hoT, szToken]; omega)
  obtain ⟨m2, a2, e2, l2, c2, b2, s2, u2⟩ := defrag_spec (old.serum3Offset 0) szSerum3 (by decide) serum3Active
    old.serum3Count 0 0 m1 (by omega) (fun _ => by rw [hoS, szSerum3]; omega)
  obtain ⟨m3, a3, e3, l3, c3, b3, s3, u3⟩ := defrag_spec (old.perpOffset 0) szPerp (by decide) perpActive
    old.perpCount 0 0 m2 (by omega) (fun _ => by rw [hoP, szPerp]; omega)
  obtain ⟨bo, eb, hb1, hb2, hb3⟩ := blockedOo_spec (old.perpOoOffset 0) szPerpOo perpOoActive m3
    old.perpOoCount (by rw [hoO, szPerpOo]; omega)
  obtain ⟨m4, a4, e4, l4, c4, b4, s4, u4⟩ := defrag_spec (old.tcsOffset 0) szTcs (by decide) tcsActive
    old.tcsCount 0 0 m3 (by omega) (fun h => by have := hf2 h; rw [hoC, szTcs]; omega)
  simp only [hoT, hoS, hoP, hoO, hoC, szToken, szSerum3, szPerp, szPerpOo, szTcs, Nat.zero_add] at u1 u2 u3 u4 b1 b2 b3 b4
  have read3 : ∀ i, i < old.perpOoCount →
      m3.read (old.perpOoOffset 0 + i * szPerpOo) szPerpOo = m.read (old.perpOoOffset i) szPerpOo := by
    intro i hi
    have : old.perpOoOffset i = old.perpOoOffset 0 + i * szPerpOo := by simp [Hdr.perpOoOffset]
    rw [this]
    apply read_congr
    intro k hk
    simp only [hoO, szPerpOo] at hk ⊢
    rw [u3 _ (by omega), u2 _ (by omega), u1 _ (by omega)]
  have q1 : slotsFrom m1 (old.serum3Offset 0) szSerum3 0 old.serum3Count = serum3s m old := by
    rw [serum3s_eq]
    apply slotsFrom_congr
    intro k hk
    simp only [hoS, szSerum3] at hk ⊢
    rw [u1 _ (by omega)]
  have q2 : slotsFrom m2 (old.perpOffset 0) szPerp 0 old.perpCount = perps m old := by
    rw [perps_eq]
    apply slotsFrom_congr
    intro k hk
    simp only [hoP, szPerp] at hk ⊢
    rw [u2 _ (by omega), u1 _ (by omega)]
  have q3 : slotsFrom m3 (old.tcsOffset 0) szTcs 0 old.tcsCount = tcss m old := by
    rw [tcss_eq]
    apply slotsFrom_congr
    intro k hk
    simp only [hoC, szTcs] at hk ⊢
    rw [u3 _ (by omega), u2 _ (by omega), u1 _ (by omega)]
  rw [← tokens_eq] at s1 c1
  rw [q1] at s2 c2
  rw [q2] at s3 c3
  rw [q3] at s4 c4
  simp only [slotsFrom_zero, List.nil_append, Nat.zero_add] at s1 s2 s3 s4 c1 c2 c3 c4
  refine ⟨m1, m2, m3, m4, a1, a2, a3, bo, a4, e1, e2, e3, eb, e4, by omega, ⟨c1, b1, ?_⟩, ⟨c2, b2, ?_⟩,
    ⟨c3, b3, ?_⟩, ⟨c4, b4, s4⟩, hb1, ?_, ?_, ?_, ?_⟩
  · rw [← s1]
    apply slotsFrom_congr
    intro k hk
    simp only [hoT, szToken] at hk ⊢
    rw [u4 _ (by omega), u3 _ (by omega), u2 _ (by omega)]
  · rw [← s2]
    apply slotsFrom_congr
    intro k hk
    simp only [hoS, szSerum3] at hk ⊢
    rw [u4 _ (by omega), u3 _ (by omega)]
  · rw [← s3]
    apply slotsFrom_congr
    intro k hk
    simp only [hoP, szPerp] at hk ⊢
    rw [u4 _ (by omega)]
  · intro i h1 h2
    rw [← read3 i h2]; exact hb2 i h1 h2
  · intro h
    rw [← read3 (bo - 1) (by omega)]; exact hb3 h
  · intro k hk
    rw [hoO, u4 _ (by omega), u3 _ (by omega), u2 _ (by omega), u1 _ (by omega)]
  · intro x hx
    rw [u4 _ (by omega), u3 _ (by omega), u2 _ (by omega), u1 _ (by omega)]


set_option maxHeartbeats 2000000 in
/-- A resize that is allowed and has room succeeds, without leaving the data, and does what it should. -/
theorem resize_ok (m : Mem) (old new : Hdr) (hf : Fits m old) (hnew : dynamicSize new ≤ m.len)
    (hu : new.U8) (hallow : resizeAllowed old new = true) (hroom : Room m old new) :
    ∃ m', resize m old new = .ok m' ∧ m'.len = m.len ∧ Resized m old m' new := by
  obtain ⟨m1, m2, m3, m4, at_, as_, ap, bo, ac, e1, e2, e3, eb, e4, l4, ⟨ct, bt, st⟩, ⟨cs, bs, ss⟩,
    ⟨cp, bp, sp⟩, ⟨cc, bc, sc⟩, hbo, hbo1, hbo2, hoo, hver⟩ := defrag_all m old hf
  obtain ⟨hf1, hf2⟩ := hf
  obtain ⟨r1, r2, r3, r4, r5⟩ := hroom
  obtain ⟨v1, v2, v3, v4, v5⟩ := hu
  rw [← ct] at r1; rw [← cs] at r2; rw [← cp] at r3; rw [← cc] at r5
  have r4' : bo ≤ new.perpOoCount := by
    rcases Nat.eq_zero_or_pos bo with h0 | h0
    · omega
    · have := r4 (bo - 1) (by omega) (hbo2 h0); omega
  unfold dynamicSize szReserved at hnew
  rw [reservedOffset_eq] at hf2 hnew
  have hoT := tokenOffset0 old
  have hoS := serum3Offset0 old
  have hoP := perpOffset0 old
  have hoO := perpOoOffset0 old
  have hoC := tcsOffset0 old
  have hnT := tokenOffset0 new
  have hnS := serum3Offset0 new
  have hnP := perpOffset0 new
  have hnO := perpOoOffset0 new
  have hnC := tcsOffset0 new
  have hnR := reservedOffset_eq new
  obtain ⟨p1, p2, p3, p4, p5, p6, p7, p8, g1, g2, g3, g4, g5, g6, g7, g8, gl, gT, gS, gP, gO, gC⟩ :=
    passes m4 (o1 := old.serum3Offset 0) (o2 := old.perpOffset 0) (o3 := old.perpOoOffset 0)
      (o4 := old.tcsOffset 0) (n1 := new.serum3Offset 0) (n2 := new.perpOffset 0)
      (n3 := new.perpOoOffset 0) (n4 := new.tcsOffset 0)
      (s1 := szSerum3) (s2 := szPerp) (s3 := szPerpOo) (s4 := szTcs) (c1 := as_) (c2 := ap) (c3 := bo)
      (c4 := ac) (by decide) (by decide) (by decide) (by decide)
      (by rw [hoS, hoP, szSerum3]; omega) (by rw [hoP, hoO, szPerp]; omega)
      (by rw [hoO, hoC, szPerpOo]; omega) (by rw [hoO, szPerpOo]; omega)
      (fun h => by have := hf2 (by omega); rw [hoC, szTcs]; omega)
      (by rw [hnS, hnP, szSerum3]; omega) (by rw [hnP, hnO, szPerp]; omega)
      (by rw [hnO, hnC, szPerpOo]; omega) (by rw [hnC, szTcs]; omega)
  obtain ⟨f1, d1, k1, w1, x1⟩ := fillDefault_spec (new.tokenOffset 0) szToken tokenDefault
    (new.tokenCount - at_) at_ p8 (by rw [hnT, szToken]; omega)
  obtain ⟨f2, d2, k2, w2, x2⟩ := fillDefault_spec (new.serum3Offset 0) szSerum3 serum3Default
    (new.serum3Count - as_) as_ f1 (by rw [hnS, szSerum3]; omega)
  obtain ⟨f3, d3, k3, w3, x3⟩ := fillDefault_spec (new.perpOffset 0) szPerp perpDefault
    (new.perpCount - ap) ap f2 (by rw [hnP, szPerp]; omega)
  obtain ⟨f4, d4, k4, w4, x4⟩ := fillDefault_spec (new.perpOoOffset 0) szPerpOo perpOoDefault
    (new.perpOoCount - bo) bo f3 (by rw [hnO, szPerpOo]; omega)
  obtain ⟨f5, d5, k5, w5, x5⟩ := fillDefault_spec (new.tcsOffset 0) szTcs tcsDefault
    (new.tcsCount - ac) ac f4 (by rw [hnC, szTcs]; omega)
  have d6 := setHelper_ok (m := f5) (a := reservedOffset new) (n := szReserved) (v := fun _ => 0)
    (by rw [hnR, szReserved]; omega)
  obtain ⟨q1, t1, z1, a10, a11, a12, a13, y1⟩ := writeLength_spec
    (m := f5.write (reservedOffset new) szReserved fun _ => 0) (offset := new.tokenOffset 0)
    (count := new.tokenCount) (by omega) (by rw [write_len]; omega) v1
  rw [write_len] at z1
  obtain ⟨q2, t2, z2, a20, a21, a22, a23, y2⟩ := writeLength_spec (m := q1) (offset := new.serum3Offset 0)
    (count := new.serum3Count) (by omega) (by omega) v2
  obtain ⟨q3, t3, z3, a30, a31, a32, a33, y3⟩ := writeLength_spec (m := q2) (offset := new.perpOffset 0)
    (count := new.perpCount) (by omega) (by omega) v3
  obtain ⟨q4, t4, z4, a40, a41, a42, a43, y4⟩ := writeLength_spec (m := q3) (offset := new.perpOoOffset 0)
    (count := new.perpOoCount) (by omega) (by omega) v4
  obtain ⟨q5, t5, z5, a50, a51, a52, a53, y5⟩ := writeLength_spec (m := q4) (offset := new.tcsOffset 0)
    (count := new.tcsCount) (by omega) (by omega) v5
  have hres : resize m old new = .ok q5 := by
    unfold resize
    rw [if_neg (by rw [hallow]; decide), rbind_ok e1]
    dsimp only
    rw [rbind_ok e2]
    dsimp only
    rw [rbind_ok e3]
    dsimp only
    rw [rbind_ok eb, rbind_ok e4]
    dsimp only
    rw [if_neg (by omega)]
    rw [rbind_ok g1, rbind_ok g2, rbind_ok g3, rbind_ok g4, rbind_ok g5, rbind_ok g6, rbind_ok g7,
      rbind_ok g8, rbind_ok d1, rbind_ok d2, rbind_ok d3, rbind_ok d4, rbind_ok d5, rbind_ok d6,
      rbind_ok t1, rbind_ok t2, rbind_ok t3, rbind_ok t4, t5]
  simp only [hoT, hoS, hoP, hoO, hoC, hnT, hnS, hnP, hnO, hnC, szToken, szSerum3, szPerp, szPerpOo, szTcs]
    at gT gS gP gO gC x1 x2 x3 x4 x5 y1 y2 y3 y4 y5 hoo
  -- a byte that no length write touches
  have ylen : ∀ x, (x < reservedOffset new) →
      (x < 8 ∨ 16 ≤ x) → (x < 16 + 184 * new.tokenCount ∨ 24 + 184 * new.tokenCount ≤ x) →
      (x < 24 + 184 * new.tokenCount + 120 * new.serum3Count ∨
        32 + 184 * new.tokenCount + 120 * new.serum3Count ≤ x) →
      (x < 32 + 184 * new.tokenCount + 120 * new.serum3Count + 304 * new.perpCount ∨
        40 + 184 * new.tokenCount + 120 * new.serum3Count + 304 * new.perpCount ≤ x) →
      (x < 40 + 184 * new.tokenCount + 120 * new.serum3Count + 304 * new.perpCount + 96 * new.perpOoCount ∨
        48 + 184 * new.tokenCount + 120 * new.serum3Count + 304 * new.perpCount + 96 * new.perpOoCount ≤ x) →
      q5.bytes x = f5.bytes x := by
    intro x h0 h1 h2 h3 h4 h5
    rw [y5 x (by omega), y4 x (by omega), y3 x (by omega), y2 x (by omega), y1 x (by omega),
      write_out (Or.inl h0)]
  refine ⟨q5, hres, by omega, ?_⟩
  constructor
  · rw [tokens_eq]
    refine section_final r1 st ct ?_ ?_
    · intro k hk
      rw [hnT, hoT] at *
      unfold szToken at hk
      rw [ylen _ (by omega) (by omega) (by omega) (by omega) (by omega) (by omega), x5 _ (by omega),
        x4 _ (by omega), x3 _ (by omega), x2 _ (by omega), x1 _ (by omega), gT _ (by omega) (by omega)]
    · rw [← w1]
      apply slotsFrom_congr
      intro k hk
      simp only [hnT, szToken] at hk ⊢
      rw [ylen _ (by omega) (by omega) (by omega) (by omega) (by omega) (by omega), x5 _ (by omega),
        x4 _ (by omega), x3 _ (by omega), x2 _ (by omega)]
  · rw [serum3s_eq]
    refine section_final r2 ss cs ?_ ?_
    · intro k hk
      simp only [hnS, hoS, szSerum3] at hk ⊢
      rw [ylen _ (by omega) (by omega) (by omega) (by omega) (by omega) (by omega), x5 _ (by omega),
        x4 _ (by omega), x3 _ (by omega), x2 _ (by omega), x1 _ (by omega), gS _ (by omega)]
    · rw [← w2]
      apply slotsFrom_congr
      intro k hk
      simp only [hnS, szSerum3] at hk ⊢
      rw [ylen _ (by omega) (by omega) (by omega) (by omega) (by omega) (by omega), x5 _ (by omega),
        x4 _ (by omega), x3 _ (by omega)]
  · rw [perps_eq]
    refine section_final r3 sp cp ?_ ?_
    · intro k hk
      simp only [hnP, hoP, szPerp] at hk ⊢
      rw [ylen _ (by omega) (by omega) (by omega) (by omega) (by omega) (by omega), x5 _ (by omega),
        x4 _ (by omega), x3 _ (by omega), x2 _ (by omega), x1 _ (by omega), gP _ (by omega)]
    · rw [← w3]
      apply slotsFrom_congr
      intro k hk
      simp only [hnP, szPerp] at hk ⊢
      rw [ylen _ (by omega) (by omega) (by omega) (by omega) (by omega) (by omega), x5 _ (by omega),
        x4 _ (by omega)]
  · rw [tcss_eq]
    refine section_final r5 sc cc ?_ ?_
    · intro k hk
      simp only [hnC, hoC, szTcs] at hk ⊢
      rw [ylen _ (by omega) (by omega) (by omega) (by omega) (by omega) (by omega), x5 _ (by omega),
        x4 _ (by omega), x3 _ (by omega), x2 _ (by omega), x1 _ (by omega), gC _ (by omega)]
    · rw [← w5]
      apply slotsFrom_congr
      intro k hk
      simp only [hnC, szTcs] at hk ⊢
      rw [ylen _ (by omega) (by omega) (by omega) (by omega) (by omega) (by omega)]
  · intro i hi hact
    have hib : i < bo := by
      by_contra hcon
      have := hbo1 i (by omega) hi
      rw [this] at hact; exact absurd hact (by decide)
    refine ⟨by omega, ?_⟩
    have en : new.perpOoOffset i = new.perpOoOffset 0 + i * 96 := by simp [Hdr.perpOoOffset, szPerpOo]
    have eo : old.perpOoOffset i = old.perpOoOffset 0 + i * 96 := by simp [Hdr.perpOoOffset, szPerpOo]
    rw [en, eo]
    apply read_congr
    intro k hk
    simp only [hnO, hoO, szPerpOo] at hk ⊢
    have h1 := gO (i * 96 + k) (by omega)
    have h2 := hoo (i * 96 + k) (by omega)
    rw [ylen _ (by omega) (by omega) (by omega) (by omega) (by omega) (by omega), x5 _ (by omega),
      x4 _ (by omega), x3 _ (by omega), x2 _ (by omega), x1 _ (by omega), Nat.add_assoc _ (i * 96) k, h1, h2, Nat.add_assoc _ (i * 96) k]
  · intro i hi
    have en : new.perpOoOffset i = new.perpOoOffset 0 + i * 96 := by simp [Hdr.perpOoOffset, szPerpOo]
    have eo : old.perpOoOffset i = old.perpOoOffset 0 + i * 96 := by simp [Hdr.perpOoOffset, szPerpOo]
    by_cases hib : i < bo
    · left
      refine ⟨by omega, ?_⟩
      rw [en, eo]
      apply read_congr
      intro k hk
      simp only [hnO, hoO, szPerpOo] at hk ⊢
      have h1 := gO (i * 96 + k) (by omega)
      have h2 := hoo (i * 96 + k) (by omega)
      rw [ylen _ (by omega) (by omega) (by omega) (by omega) (by omega) (by omega), x5 _ (by omega),
        x4 _ (by omega), x3 _ (by omega), x2 _ (by omega), x1 _ (by omega), Nat.add_assoc _ (i * 96) k, h1, h2,
        Nat.add_assoc _ (i * 96) k]
    · right
      have h1 : (slotsFrom f4 (new.perpOoOffset 0) szPerpOo bo (new.perpOoCount - bo))[i - bo]? =
          some (record szPerpOo perpOoDefault) := by
        rw [w4, List.getElem?_replicate, if_pos (by omega)]
      unfold slotsFrom at h1
      rw [List.getElem?_map, List.getElem?_range (by omega), Option.map_some, Option.some.injEq] at h1
      rw [← h1]
      have e9 : bo + (i - bo) = i := by omega
      rw [e9, en]
      apply read_congr
      intro k hk
      simp only [hnO, szPerpOo] at hk ⊢
      rw [ylen _ (by omega) (by omega) (by omega) (by omega) (by omega) (by omega), x5 _ (by omega)]
  · rw [ylen 0 (by omega) (by omega) (by omega) (by omega) (by omega) (by omega), x5 _ (by omega),
      x4 _ (by omega), x3 _ (by omega), x2 _ (by omega), x1 _ (by omega), gT _ (by omega) (by omega),
      hver 0 (by omega)]
  · have eT : tokenVecOffset = new.tokenOffset 0 - 4 := by rw [hnT]; rfl
    have eS : serum3VecOffset new.tokenCount = new.serum3Offset 0 - 4 := by simp [Hdr.serum3Offset]
    have eP : perpVecOffset new.tokenCount new.serum3Count = new.perpOffset 0 - 4 := by
      simp [Hdr.perpOffset]
    have eO : perpOoVecOffset new.tokenCount new.serum3Count new.perpCount = new.perpOoOffset 0 - 4 := by
      simp [Hdr.perpOoOffset]
    have eC : tcsVecOffset new.tokenCount new.serum3Count new.perpCount new.perpOoCount =
        new.tcsOffset 0 - 4 := by simp [Hdr.tcsOffset]
    rw [eT, eS, eP, eO, eC]
    rw [hnT] at a10 a11 a12 a13
    rw [hnS] at a20 a21 a22 a23
    rw [hnP] at a30 a31 a32 a33
    rw [hnO] at a40 a41 a42 a43
    rw [hnC] at a50 a51 a52 a53
    rw [hnT, hnS, hnP, hnO, hnC]
    refine ⟨readCount_of (by omega) ?_ ?_ ?_ ?_, readCount_of (by omega) ?_ ?_ ?_ ?_,
      readCount_of (by omega) ?_ ?_ ?_ ?_, readCount_of (by omega) ?_ ?_ ?_ ?_,
      readCount_of (by omega) a50 a51 a52 a53⟩
    · rw [y5 _ (by omega), y4 _ (by omega), y3 _ (by omega), y2 _ (by omega), a10]
    · rw [y5 _ (by omega), y4 _ (by omega), y3 _ (by omega), y2 _ (by omega), a11]
    · rw [y5 _ (by omega), y4 _ (by omega), y3 _ (by omega), y2 _ (by omega), a12]
    · rw [y5 _ (by omega), y4 _ (by omega), y3 _ (by omega), y2 _ (by omega), a13]
    · rw [y5 _ (by omega), y4 _ (by omega), y3 _ (by omega), a20]
    · rw [y5 _ (by omega), y4 _ (by omega), y3 _ (by omega), a21]
    · rw [y5 _ (by omega), y4 _ (by omega), y3 _ (by omega), a22]
    · rw [y5 _ (by omega), y4 _ (by omega), y3 _ (by omega), a23]
    · rw [y5 _ (by omega), y4 _ (by omega), a30]
    · rw [y5 _ (by omega), y4 _ (by omega), a31]
    · rw [y5 _ (by omega), y4 _ (by omega), a32]
    · rw [y5 _ (by omega), y4 _ (by omega), a33]
    · rw [y5 _ (by omega), a40]
    · rw [y5 _ (by omega), a41]
    · rw [y5 _ (by omega), a42]
    · rw [y5 _ (by omega), a43]
  · intro k hk
    rw [y5 _ (by omega), y4 _ (by omega), y3 _ (by omega), y2 _ (by omega), y1 _ (by omega),
      write_in (by omega) (by omega)]

/-- A resize that is not allowed, or for which the active entries lack room, fails with an error. -/
theorem resize_fails (m : Mem) (old new : Hdr) (hf : Fits m old)
    (h : resizeAllowed old new = false ∨ ¬ Room m old new) : resize m old new = .error .require := by
  by_cases hallow : resizeAllowed old new = false
  · unfold resize; rw [if_pos hallow]
  have hr : ¬ Room m old new := h.resolve_left hallow
  obtain ⟨m1, m2, m3, m4, at_, as_, ap, bo, ac, e1, e2, e3, eb, e4, l4, ⟨ct, bt, st⟩, ⟨cs, bs, ss⟩,
    ⟨cp, bp, sp⟩, ⟨cc, bc, sc⟩, hbo, hbo1, hbo2, hoo, hver⟩ := defrag_all m old hf
  unfold resize
  rw [if_neg hallow, rbind_ok e1]
  dsimp only
  rw [rbind_ok e2]
  dsimp only
  rw [rbind_ok e3]
  dsimp only
  rw [rbind_ok eb, rbind_ok e4]
  dsimp only
  rw [if_pos]
  intro hcon
  apply hr
  refine ⟨by omega, by omega, by omega, ?_, by omega⟩
  intro i hi hact
  by_contra hc
  have := hbo1 i (by omega) hi
  rw [this] at hact; exact absurd hact (by decide)

end Mango.Raw
