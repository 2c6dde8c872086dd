import Verif.Props.OrderOrigin
/-!
# C104: over its whole life an order never trades more than its size

A history of the perp market as in C103.  For every order that came to rest: what it took when it was placed, what it has traded
as a resting order in the whole history — consumed or not — and what still rests are together at most what was asked for.
-/
namespace Mango
namespace Perp
open Book Fx

/-! ## Specification -/

/-- the events an instruction puts at the end of the queue: only placing an order adds events -/
def added (s s' : PSys) (op : POp) : List Event := if op.isPlace = true then (pending s').drop (pending s).length else []

/-- all trades of a history from `s`, in order, whether or not they have been consumed -/
def tradesOf (s : PSys) : List POp → List FillEv
  | [] => []
  | op :: ops =>
    match pstep s op with
    | .ok s' => fillsOf (added s s' op) ++ tradesOf s' ops
    | .error _ => tradesOf s ops

/-- lots traded by order `k` while it rested -/
def madeLots (k : Nat) (fs : List FillEv) : Int := sumOf (fun f => if f.makerOrderId = k then f.quantity else 0) fs

/-- lots resting under the order id `k` -/
def lotsOf (s : PSys) (k : Nat) : Int := sumOf (fun l => if l.key = k then l.quantity else 0) (ordersOn s.book .bid ++ ordersOn s.book .ask)

/-! ## Proofs -/

def hasKey (k : Nat) (i : Ident) : Bool := i.key == k

theorem side_lots (k : Nat) (sd : Side) (b : OBook) {sp : Side → SpecSide} (h : BookIs b sp) :
    sumOf (fun l => if l.key = k then l.quantity else 0) (ordersOn b sd) = sideLots (hasKey k) sd (sp sd) := by
  unfold ordersOn sideLots sideSum
  rw [sumOf_append, booked_eq h, booked_eq h, sumOf_ord, sumOf_ord]
  have : ∀ (c : Comp) (l : Leaf), qtyW (fun _ l => hasKey k (identL sd l)) c l = if l.key = k then l.quantity else 0 := by
    intro c l
    unfold qtyW hasKey identL
    by_cases hk : l.key = k <;> simp [hk]
  rw [sumOf_congr (fun l _ => this .fixed l), sumOf_congr (fun l _ => this .pegged l)]
  rfl

theorem lotsOf_eq {s : PSys} {sp : Side → SpecSide} (h : BookIs s.book sp) (k : Nat) : lotsOf s k = restLots (hasKey k) sp := by
  unfold lotsOf restLots
  rw [sumOf_append, side_lots k .bid s.book h, side_lots k .ask s.book h]

theorem sumOf_sublist {α : Type} {f : α → Int} {xs ys : List α} (h : xs.Sublist ys) (h0 : ∀ y ∈ ys, 0 ≤ f y) : sumOf f xs ≤ sumOf f ys := by
  induction h with
  | slnil => exact le_refl _
  | cons a _ ih =>
    rw [sumOf_cons]
    have := h0 a (by simp)
    have := ih (fun y hy => h0 y (by simp [hy]))
    omega
  | cons_cons a _ ih =>
    rw [sumOf_cons, sumOf_cons]
    have := ih (fun y hy => h0 y (by simp [hy]))
    omega

theorem rest_less {s : PSys} {sp sp' : Side → SpecSide} (h : PInv s sp) (hs : ∀ sd c, ((sp' sd).get c).Sublist ((sp sd).get c)) (k : Nat) :
    restLots (hasKey k) sp' ≤ restLots (hasKey k) sp := by
  have key : ∀ sd c, sumOf (qtyW (fun _ l => hasKey k (identL sd l)) c) ((sp' sd).get c) ≤ sumOf (qtyW (fun _ l => hasKey k (identL sd l)) c) ((sp sd).get c) := by
    intro sd c
    apply sumOf_sublist (hs sd c)
    intro l hl
    unfold qtyW
    split
    · have := h.live.pos sd c l hl; omega
    · exact le_refl _
  have h1 := key .bid .fixed
  have h2 := key .bid .pegged
  have h3 := key .ask .fixed
  have h4 := key .ask .pegged
  unfold restLots sideLots sideSum
  simp only [SpecSide.get] at h1 h2 h3 h4
  omega

theorem madeLots_append (k : Nat) (a b : List FillEv) : madeLots k (a ++ b) = madeLots k a + madeLots k b := sumOf_append ..

theorem made_le_pend (k : Nat) : ∀ E : List Event, (∀ e ∈ E, 0 < e.qty) → madeLots k (fillsOf E) ≤ pendLots (hasKey k) E := by
  intro E
  induction E with
  | nil => intro _; exact le_refl _
  | cons e E ih =>
    intro h
    have hi := ih (fun e he => h e (by simp [he]))
    have h0 := h e (by simp)
    rw [pendLots_cons]
    cases e with
    | fill f =>
      have h1 : fillsOf (.fill f :: E) = f :: fillsOf E := rfl
      rw [h1]
      unfold madeLots at hi ⊢
      rw [sumOf_cons]
      by_cases hk : f.makerOrderId = k
      · rw [if_pos hk, if_pos (by simp [hasKey, Event.ident, hk])]
        simp only [Event.qty]; omega
      · rw [if_neg hk, if_neg (by simp [hasKey, Event.ident, hk])]
        omega
    | out g =>
      have h1 : fillsOf (.out g :: E) = fillsOf E := rfl
      rw [h1]
      split <;> omega

/-- what placing an order does to lots -/
structure PlaceLots (s s' : PSys) (o : Order) (sp sp' : Side → SpecSide) (evs : List Event) (id : Nat) : Prop where
  inv : PInv s' sp'
  queue : pending s' = pending s ++ evs
  seq : s'.market.seqNum = s.market.seqNum + 1
  idSeq : idSeq id = s.market.seqNum + 1
  old : ∀ k, k ≠ id → restLots (hasKey k) sp' + pendLots (hasKey k) evs = restLots (hasKey k) sp
  new : restLots (hasKey id) sp' + sumOf FillEv.quantity (fillsOf evs) ≤ o.maxBase
  makers : ∀ e ∈ evs, 0 < e.qty ∧ Perp.idSeq e.ident.key ≤ s.market.seqNum

theorem sumOf_zero_mem {α : Type} {f : α → Int} {xs : List α} (h : ∀ x ∈ xs, f x = 0) : sumOf f xs = 0 := by
  induction xs with
  | nil => rfl
  | cons a xs ih => rw [sumOf_cons, h a (by simp), ih (fun x hx => h x (by simp [hx]))]; rfl

theorem rest_zero {k : Nat} {sp : Side → SpecSide} (h : ∀ sd c, ∀ l ∈ (sp sd).get c, l.key ≠ k) : restLots (hasKey k) sp = 0 := by
  have key : ∀ sd, sideLots (hasKey k) sd (sp sd) = 0 := by
    intro sd
    unfold sideLots
    apply sideSum_zero
    intro c l hl
    unfold qtyW
    rw [if_neg]
    have := h sd c l hl
    simp [hasKey, identL, this]
  unfold restLots
  rw [key, key]; rfl

theorem place_lots {s s' : PSys} {sp : Side → SpecSide} (h : PInv s sp) {u : Nat} {o : Order} {oracle : I80F48} {now limit : Nat} {room : Bool}
    (ht : o.TypedArgs) (hseq : s.market.seqNum + 1 < 9223372036854775808) (hs : pstep s (.place u o oracle now limit room) = .ok s') :
    ∃ sp' evs id, PlaceLots s s' o sp sp' evs id := by
  obtain ⟨⟨spx, hIx⟩, _⟩ := pstep_inv h (op := .place u o oracle now limit room) ht hseq hs
  simp only [pstep, placeOp, bind_ok, require_ok] at hs
  obtain ⟨_, hb, _, hq, hs⟩ := hs
  split at hs
  · simp at hs
  next a ha =>
  simp only [bind_ok, getPos_ok, Prod.exists, ok_inj] at hs
  obtain ⟨a1, h1, p, hp, o', h2, r, n, h3, rfl⟩ := hs
  obtain ⟨hI, _, _, _⟩ := h.ensure ha h1
  obtain ⟨mb, e, hmb, hmb2, ho'⟩ := reduceOrder_ok h2 ht hb hq
  have hq' : 0 ≤ o'.maxQuote := by rw [e]; exact hq
  have hb' : 0 ≤ o'.maxBase := by rw [e]; exact hmb
  have hfull : o'.maxBase ≤ o.maxBase := by rw [e]; exact hmb2
  have hS : Setup o' { market := s.market, acct := a1, book := s.book, queue := s.queue } sp := ⟨ho', hb', hq', h.live, h.queue⟩
  have hnseq := newOrder_seq hI (u := u) ho' hb' hq' h3
  obtain ⟨P⟩ := Perp.place hS h3
  have hB' := (P.live hS.typed hS.live hS.base hS.quote).is
  have hspx : spx = P.post := hIx.live.is.unique hB'
  obtain ⟨_, p2, p3⟩ := price_facts ho' P.e_price
  obtain ⟨g1, g2, g3⟩ := genOrderId_ok P.e_gen
  simp only at g1 g2 g3
  have hid : idSeq P.id = s.market.seqNum + 1 := by
    rw [g2]; refine idSeq_new ?_ hseq
    cases hpa : o'.params with
    | pegged off ty lim =>
      simp only [hpa] at p3
      have := pegData_eq (P.price - P.oracle) p3.2.1 p3.2.2
      rw [p3.1]; unfold I64MIN I64MAX at p3; omega
    | market => simp only [hpa] at p3; unfold I64MAX at p2; omega
    | ioc p => simp only [hpa] at p3; unfold I64MAX at p2; omega
    | fixed p ty => simp only [hpa] at p3; unfold I64MAX at p2; omega
  have hfresh : ∀ sd c, ∀ l ∈ (sp sd).get c, l.key ≠ P.id := by
    intro sd c l hl e
    have := (h.lseq sd c l hl).2
    rw [e, hid] at this; omega
  obtain ⟨evs, post, hE, hqi, hM, hmk, hPT, hfe⟩ := P.moved hS hfresh
  have hmakers : ∀ e ∈ evs, 0 < e.qty ∧ idSeq e.ident.key ≤ s.market.seqNum ∧ e.ident.key ≠ P.id := by
    intro e he
    obtain ⟨q1, sd, c, l, hl, q2, _⟩ := hM.src e he
    rw [q2]
    exact ⟨q1, (h.lseq sd c l hl).2, hfresh sd c l hl⟩
  have hsum : sumOf FillEv.quantity (fillsOf evs) = sumOf Act.base P.acts := by
    rw [hfe]
    apply (fills_acts P.ctx P.acts s.queue.seqNum).1 FillEv.quantity Act.base
    · intro i b n f hf; unfold fillEvent at hf; injection hf with hf; subst hf; rfl
    · intro a ha; cases a <;> simp_all [Act.isFill, Act.base]
  refine ⟨P.post, evs, P.id, by rw [← hspx]; exact hIx, hE, hnseq, hid, ?_, ?_, fun e he => ⟨(hmakers e he).1, (hmakers e he).2.1⟩⟩
  · intro k hk
    have h0 := hM.sum (hasKey k)
    rcases hPT.post with ⟨hp0, _⟩ | ⟨t, l, hp0, hlk, _⟩
    · rw [hp0] at h0; simp only [postLots] at h0; omega
    · rw [hp0] at h0
      simp only [postLots] at h0
      rw [if_neg (by simp [hasKey, identL, hlk]; exact fun e => hk e.symm)] at h0
      omega
  · have h0 := hM.sum (hasKey P.id)
    have hz : restLots (hasKey P.id) sp = 0 := rest_zero hfresh
    have hpz : pendLots (hasKey P.id) evs = 0 := by
      unfold pendLots
      apply sumOf_zero_mem
      intro e he
      rw [if_neg]
      simp [hasKey, (hmakers e he).2.2]
    rw [hz, hpz] at h0
    have hb0 : sumOf Act.base P.acts ≤ o'.maxBase := by
      have := P.sum.base
      have := (P.acts_ok hS.live hS.base hS.quote).2.1
      dsimp only at *
      omega
    rw [hsum]
    rcases hPT.post with ⟨hp0, _⟩ | ⟨t, l, hp0, hlk, _⟩
    · rw [hp0] at h0; simp only [postLots] at h0; omega
    · rw [hp0] at h0
      simp only [postLots] at h0
      rw [if_pos (by simp [hasKey, identL, hlk])] at h0
      have hl := hM.new _ _ _ hp0
      rcases P.origin hS _ _ _ hl with ⟨l0, hl0, hr⟩ | ⟨_, _, hle⟩
      · exfalso
        apply hfresh _ _ l0 hl0
        rw [← hlk, hr.2]
      · omega

theorem added_place {s s' : PSys} {op : POp} {evs : List Event} (hp : op.isPlace = true) (h : pending s' = pending s ++ evs) : added s s' op = evs := by
  unfold added
  rw [if_pos hp, h, List.drop_left]

theorem added_other {s s' : PSys} {op : POp} (hp : op.isPlace = false) : added s s' op = [] := by
  unfold added; rw [if_neg (by rw [hp]; simp)]

/-- one instruction does not increase what an order has traded and still rests -/
theorem step_lots {s s' : PSys} {sp : Side → SpecSide} (h : PInv s sp) {op : POp} (ht : op.Typed)
    (hseq : s.market.seqNum + op.orders < 9223372036854775808) (hs : pstep s op = .ok s') {k : Nat} (hk : idSeq k ≤ s.market.seqNum) :
    ∃ sp', PInv s' sp' ∧ s.market.seqNum ≤ s'.market.seqNum ∧ restLots (hasKey k) sp' + madeLots k (fillsOf (added s s' op)) ≤ restLots (hasKey k) sp := by
  cases hp : op.isPlace with
  | true =>
    cases op with
    | place u o oracle now limit room =>
      obtain ⟨sp', evs, id, L⟩ := place_lots h ht hseq hs
      refine ⟨sp', L.inv, by rw [L.seq]; omega, ?_⟩
      rw [added_place hp L.queue]
      have hne : k ≠ id := by intro e; have := L.idSeq; rw [← e] at this; omega
      have := L.old k hne
      have := made_le_pend k evs (fun e he => (L.makers e he).1)
      omega
    | _ => simp [POp.isPlace] at hp
  | false =>
    obtain ⟨⟨sp1, hB, hsub⟩, _, hsq⟩ := pstep_quiet h hp hs
    obtain ⟨⟨sp', hI⟩, hle⟩ := pstep_inv h ht hseq hs
    have e : sp1 = sp' := hB.unique hI.live.is
    subst e
    refine ⟨sp1, hI, ?_, ?_⟩
    · rw [hsq]
    · rw [added_other hp]
      have := rest_less h hsub k
      have e0 : madeLots k (fillsOf []) = 0 := rfl
      rw [e0]; omega

theorem tail_lots {k : Nat} : ∀ (ops : List POp) {s : PSys} {sp : Side → SpecSide}, PInv s sp → (∀ op ∈ ops, op.Typed) →
    s.market.seqNum + ordersPlaced ops < 9223372036854775808 → idSeq k ≤ s.market.seqNum →
    lotsOf (prun s ops) k + madeLots k (tradesOf s ops) ≤ lotsOf s k := by
  intro ops
  induction ops with
  | nil =>
    intro s sp h _ _ _
    have e0 : madeLots k [] = 0 := rfl
    simp only [prun, tradesOf]
    rw [e0]; omega
  | cons op ops ih =>
    intro s sp h ht hn hk
    simp only [ordersPlaced, List.map_cons, List.sum_cons] at hn ih
    cases hs : pstep s op with
    | error e =>
      simp only [prun, tradesOf, hs]
      exact ih h (fun o ho => ht o (by simp [ho])) (by omega) hk
    | ok s' =>
      simp only [prun, tradesOf, hs]
      obtain ⟨sp', hI, hle, hsum⟩ := step_lots h (ht op (by simp)) (by omega) hs hk
      obtain ⟨_, hup⟩ := pstep_inv h (ht op (by simp)) (by omega) hs
      have := ih hI (fun o ho => ht o (by simp [ho])) (by omega) (by omega)
      rw [madeLots_append]
      rw [lotsOf_eq hI.live.is] at this
      rw [lotsOf_eq h.live.is]
      omega

/-- trades name orders with numbers already given out -/
theorem past_ids : ∀ (ops : List POp) {s : PSys} {sp : Side → SpecSide}, PInv s sp → (∀ op ∈ ops, op.Typed) →
    s.market.seqNum + ordersPlaced ops < 9223372036854775808 →
    s.market.seqNum ≤ (prun s ops).market.seqNum ∧ (prun s ops).market.seqNum ≤ s.market.seqNum + ordersPlaced ops ∧
    ∀ f ∈ tradesOf s ops, idSeq f.makerOrderId ≤ (prun s ops).market.seqNum := by
  intro ops
  induction ops with
  | nil => intro s sp h _ _; exact ⟨le_refl _, by simp [prun], by simp [tradesOf]⟩
  | cons op ops ih =>
    intro s sp h ht hn
    simp only [ordersPlaced, List.map_cons, List.sum_cons] at hn ih ⊢
    cases hs : pstep s op with
    | error e =>
      simp only [prun, tradesOf, hs]
      obtain ⟨i1, i2, i3⟩ := ih h (fun o ho => ht o (by simp [ho])) (by omega)
      exact ⟨i1, by omega, i3⟩
    | ok s' =>
      simp only [prun, tradesOf, hs]
      obtain ⟨sp', hI, hle, _⟩ := step_lots h (k := 0) (ht op (by simp)) (by omega) hs (by simp [idSeq])
      obtain ⟨_, hup⟩ := pstep_inv h (ht op (by simp)) (by omega) hs
      obtain ⟨i1, i2, i3⟩ := ih hI (fun o ho => ht o (by simp [ho])) (by omega)
      refine ⟨by omega, by omega, ?_⟩
      intro f hf
      rcases List.mem_append.mp hf with hf | hf
      · cases hp : op.isPlace with
        | true =>
          cases op with
          | place u o oracle now limit room =>
            obtain ⟨sp', evs, id, L⟩ := place_lots h (show o.TypedArgs from ht (.place u o oracle now limit room) (by simp)) (by simp only [POp.orders] at hn; omega) hs
            rw [added_place hp L.queue] at hf
            unfold fillsOf at hf
            rw [List.mem_filterMap] at hf
            obtain ⟨e, he, hf⟩ := hf
            cases e with
            | fill g =>
              simp only [Option.some.injEq] at hf
              subst hf
              have := (L.makers _ he).2
              simp only [Event.ident] at this
              omega
            | out g => simp at hf
          | _ => simp [POp.isPlace] at hp
        | false => rw [added_other hp] at hf; simp [fillsOf] at hf
      · exact i3 f hf

theorem tradesOf_append (a b : List POp) : ∀ s : PSys, tradesOf s (a ++ b) = tradesOf s a ++ tradesOf (prun s a) b := by
  induction a with
  | nil => intro s; rfl
  | cons op a ih =>
    intro s
    simp only [List.cons_append, tradesOf, prun]
    cases pstep s op with
    | ok s' => dsimp only; rw [ih, List.append_assoc]
    | error e => dsimp only; rw [ih]

theorem made_zero {k : Nat} {fs : List FillEv} (h : ∀ f ∈ fs, f.makerOrderId ≠ k) : madeLots k fs = 0 :=
  sumOf_zero_mem (fun f hf => if_neg (h f hf))

/-- **C104.** Take any history of well-typed instructions on a new market, and any instruction in it that placed an order
successfully.  If `k` is an order id on the book right after that instruction and not before, the lots the instruction traded at
once, the lots of all trades of the whole history that name `k` as their resting order, and the lots still resting under `k` at
the end are together at most the order's size. -/
theorem C104_lots (m : Market) (bookNodes queueLen : Nat) (fill : Event) (hm : m.idx ≠ FREE) (hn : bookNodes ≤ U32MAX) (hq : 0 < queueLen)
    (pre post : List POp) (u : Nat) (o : Order) (oracle : I80F48) (now limit : Nat) (room : Bool)
    (ht : ∀ op ∈ pre ++ POp.place u o oracle now limit room :: post, op.Typed)
    (hlen : ordersPlaced (pre ++ POp.place u o oracle now limit room :: post) < 9223372036854775808)
    {s s' : PSys} (hs : s = prun (PSys.init m bookNodes queueLen fill) pre) (hp : pstep s (.place u o oracle now limit room) = .ok s')
    {k : Nat} (hnew : ∃ sd, ∃ l ∈ ordersOn s'.book sd, l.key = k) (hold : ∀ sd, ∀ l ∈ ordersOn s.book sd, l.key ≠ k) :
    sumOf FillEv.quantity (fillsOf (added s s' (.place u o oracle now limit room))) +
      madeLots k (tradesOf (PSys.init m bookNodes queueLen fill) (pre ++ POp.place u o oracle now limit room :: post)) +
      lotsOf (prun (PSys.init m bookNodes queueLen fill) (pre ++ POp.place u o oracle now limit room :: post)) k ≤ o.maxBase := by
  rw [ordersPlaced_append] at hlen
  simp only [ordersPlaced, List.map_cons, List.sum_cons, POp.orders] at hlen
  have hi := init_inv m bookNodes queueLen fill hm hn hq
  have htp : ∀ op ∈ pre, op.Typed := fun op ho => ht op (by simp [ho])
  have hto : o.TypedArgs := ht (.place u o oracle now limit room) (by simp)
  have htq : ∀ op ∈ post, op.Typed := fun op ho => ht op (by simp [ho])
  have hz : (PSys.init m bookNodes queueLen fill).market.seqNum = 0 := rfl
  obtain ⟨sp, hI⟩ := reach_inv m bookNodes queueLen fill hm hn hq pre htp (by unfold ordersPlaced; omega)
  obtain ⟨_, b2, b3⟩ := past_ids pre hi htp (by rw [hz]; unfold ordersPlaced; omega)
  rw [hz] at b2
  rw [tradesOf_append, prun_append]
  simp only [tradesOf, prun]
  rw [← hs] at hI b2 b3 ⊢
  simp only [hp]
  have b2' : s.market.seqNum ≤ (pre.map POp.orders).sum := by unfold ordersPlaced at b2; omega
  have hpp : (POp.place u o oracle now limit room).isPlace = true := rfl
  obtain ⟨sp', evs, id, L⟩ := place_lots hI hto (by omega) hp
  rw [added_place hpp L.queue]
  -- the id is the one the order got
  have hk : k = id := by
    by_contra hne
    have h0 := L.old k hne
    have h1 : restLots (hasKey k) sp = 0 := by
      apply rest_zero
      intro sd c l hl
      apply hold sd l
      unfold ordersOn
      rw [List.mem_append, booked_eq hI.live.is, booked_eq hI.live.is, mem_ord, mem_ord]
      cases c
      · exact .inl hl
      · exact .inr hl
    have h2 := made_le_pend k evs (fun e he => (L.makers e he).1)
    have h3 : 0 ≤ pendLots (hasKey k) evs := by
      unfold pendLots
      apply sumOf_nonneg_mem
      intro e he
      have := (L.makers e he).1
      split <;> omega
    obtain ⟨sd, l, hl, hlk⟩ := hnew
    unfold ordersOn at hl
    rw [List.mem_append, booked_eq L.inv.live.is, booked_eq L.inv.live.is, mem_ord, mem_ord] at hl
    obtain ⟨c, hlc⟩ : ∃ c, l ∈ (sp' sd).get c := by
      rcases hl with hl | hl
      · exact ⟨.fixed, hl⟩
      · exact ⟨.pegged, hl⟩
    have := restLots_pos (P := hasKey k) L.inv.live.pos hlc (by simp [hasKey, identL, hlk])
    omega
  subst hk
  have hseqk := L.idSeq
  -- before, and in the instruction itself, nothing was traded under the id
  have z1 : madeLots k (tradesOf (PSys.init m bookNodes queueLen fill) pre) = 0 := by
    apply made_zero
    intro f hf e
    have := b3 f hf
    rw [e, hseqk] at this; omega
  have z2 : madeLots k (fillsOf evs) = 0 := by
    apply made_zero
    intro f hf e
    unfold fillsOf at hf
    rw [List.mem_filterMap] at hf
    obtain ⟨ev, he, hf⟩ := hf
    cases ev with
    | fill g =>
      simp only [Option.some.injEq] at hf
      subst hf
      have := (L.makers _ he).2
      simp only [Event.ident] at this
      rw [e, hseqk] at this; omega
    | out g => simp at hf
  have hL := L.seq
  have hT := tail_lots (k := k) post L.inv htq (by unfold ordersPlaced; omega) (by omega)
  rw [lotsOf_eq L.inv.live.is] at hT
  rw [madeLots_append, madeLots_append, z1, z2]
  have := L.new
  omega

theorem pending_tail : ∀ (ops : List POp) {s : PSys} {sp : Side → SpecSide}, PInv s sp → (∀ op ∈ ops, op.Typed) →
    s.market.seqNum + ordersPlaced ops < 9223372036854775808 →
    ∃ gone, fillsOf (pending s) ++ tradesOf s ops = gone ++ fillsOf (pending (prun s ops)) := by
  intro ops
  induction ops with
  | nil => intro s sp h _ _; exact ⟨[], by simp [tradesOf, prun]⟩
  | cons op ops ih =>
    intro s sp h ht hn
    simp only [ordersPlaced, List.map_cons, List.sum_cons] at hn ih
    cases hs : pstep s op with
    | error e =>
      simp only [prun, tradesOf, hs]
      exact ih h (fun o ho => ht o (by simp [ho])) (by omega)
    | ok s' =>
      simp only [prun, tradesOf, hs]
      obtain ⟨⟨sp', hI⟩, hup⟩ := pstep_inv h (ht op (by simp)) (by omega) hs
      obtain ⟨gone, hg⟩ := ih hI (fun o ho => ht o (by simp [ho])) (by omega)
      cases hp : op.isPlace with
      | true =>
        cases op with
        | place u o oracle now limit room =>
          obtain ⟨_, evs, id, L⟩ := place_lots h (show o.TypedArgs from ht (.place u o oracle now limit room) (by simp)) (by simp only [POp.orders] at hn; omega) hs
          rw [added_place hp L.queue]
          rw [L.queue, fillsOf_append] at hg
          exact ⟨gone, by rw [← List.append_assoc]; exact hg⟩
        | _ => simp [POp.isPlace] at hp
      | false =>
        rw [added_other hp]
        obtain ⟨_, ⟨first, hf⟩, _⟩ := pstep_quiet h hp hs
        refine ⟨fillsOf first ++ gone, ?_⟩
        have : fillsOf (pending s) = fillsOf first ++ fillsOf (pending s') := by unfold pending; rw [hf, fillsOf_append]
        rw [this]
        have e0 : fillsOf ([] : List Event) = [] := rfl
        rw [e0, List.nil_append, List.append_assoc, hg, List.append_assoc]

/-- **C104 (queue).** The trades waiting in the event queue are the last of the trades ever made, in order: what is consumed is
consumed from the front, and nothing is lost, repeated or changed. -/
theorem C104_queue (m : Market) (bookNodes queueLen : Nat) (fill : Event) (hm : m.idx ≠ FREE) (hn : bookNodes ≤ U32MAX) (hq : 0 < queueLen)
    (ops : List POp) (ht : ∀ op ∈ ops, op.Typed) (hlen : ordersPlaced ops < 9223372036854775808) :
    ∃ gone, tradesOf (PSys.init m bookNodes queueLen fill) ops = gone ++ fillsOf (pending (prun (PSys.init m bookNodes queueLen fill) ops)) := by
  have hi := init_inv m bookNodes queueLen fill hm hn hq
  obtain ⟨gone, hg⟩ := pending_tail ops hi ht (by simpa [PSys.init] using hlen)
  have hE : fillsOf (pending (PSys.init m bookNodes queueLen fill)) = [] := by
    simp [pending, PSys.init, EventQueue.init, EventQueue.toList, fillsOf]
  rw [hE, List.nil_append] at hg
  exact ⟨gone, hg⟩

/-- 0 bids 10 lots at 100, 1 sells 4 into it, the events are consumed, 1 sells 3 more: 7 lots traded, 3 still rest -/
def txLots : List POp :=
  [.create 4, .create 2, txPlace 0 (txLimit .bid 10 100 11), txPlace 1 (txLimit .ask 4 100 12), .consume 8 [0, 1], txPlace 1 (txIoc .ask 3 90)]

example : (tradesOf (PSys.init txMk 12 8 txFill) txLots).map FillEv.quantity = [4, 3] ∧ (fillsOf (pending (txRun txLots))).map FillEv.quantity = [3] ∧
    (booked (txRun txLots).book .bid .fixed).map (fun l => (madeLots l.key (tradesOf (PSys.init txMk 12 8 txFill) txLots), lotsOf (txRun txLots) l.key)) = [(7, 3)] := by
  decide +kernel

-- the bid's id is on the book right after the bid and not before, and still there at the end
example : (∀ sd, ordersOn (txRun (txLots.take 2)).book sd = []) ∧ (ordersOn (txRun (txLots.take 3)).book .bid).length = 1 ∧
    (ordersOn (txRun (txLots.take 3)).book .bid).map Leaf.key = (ordersOn (txRun txLots).book .bid).map Leaf.key := by
  refine ⟨?_, by decide +kernel, by decide +kernel⟩
  intro sd; cases sd <;> decide +kernel

end Perp
end Mango
