import Verif.Props.Trading
import Verif.Props.Match3
import Verif.Props.SettleLedger
import Verif.Props.TradingEx
import Mathlib.Data.List.Induction
/-!
# C103: what rests on the book, and what trades, is what its owner asked for

A history of the perp market (`PSys`, `POp`) starts with a new market and consists of any instructions of any accounts, failing
ones changing nothing.  Every order on the book after it is (what is left of) an order its owner successfully placed earlier in
the history, at a price its owner accepts; every trade waiting in the event queue is between two such orders, at a price both
owners accept, before the resting order's expiry.
-/
namespace Mango
namespace Perp
open Book Fx

/-! ## Specification -/

/-- in the history `ops` from `s0`, account `u` placed order `o` at time `now`, and the instruction succeeded -/
def PlacedIn (s0 : PSys) (ops : List POp) (u : Nat) (o : Order) (now : Nat) : Prop :=
  ∃ (oracle : I80F48) (limit : Nat) (room : Bool) (pre post : List POp) (s' : PSys),
    ops = pre ++ POp.place u o oracle now limit room :: post ∧ pstep (prun s0 pre) (.place u o oracle now limit room) = .ok s'

/-- the resting order `l` (side `sd`, tree `c`) is what `o` asks for: same side, kind, client id, lifetime and worst peg price,
not more lots, and whatever the oracle price, the price at which it trades is one `o` accepts -/
structure OnTerms (o : Order) (sd : Side) (c : Comp) (l : Leaf) : Prop where
  side : o.side = sd
  kind : restsIn o.params = some c
  client : l.clientOrderId = o.clientId
  life : l.timeInForce = o.tif
  worst : l.pegLimit = worstPeg o.params
  size : l.quantity ≤ o.maxBase
  price : ∀ x p, tradesAt x c l p → acceptable o x p

/-- every order on the book was placed by its owner at the time it carries, and is on its owner's terms -/
def BookFrom (s0 : PSys) (ops : List POp) : Prop :=
  ∀ (sd : Side) (c : Comp), ∀ l ∈ booked (prun s0 ops).book sd c, ∃ o : Order, PlacedIn s0 ops l.owner o l.timestamp ∧ OnTerms o sd c l

/-- the trade `f` is what the incoming order `o` asks for, when the oracle price is `x` lots -/
structure TakesOnTerms (o : Order) (x : Int) (f : FillEv) : Prop where
  side : o.side = f.takerSide
  client : f.takerClientOrderId = o.clientId
  takes : ¬ neverTakes o.params
  size : f.quantity ≤ o.maxBase
  price : acceptable o x f.price

/-- the trade `f` is what the resting order `o` asks for, when the oracle price is `x` lots -/
structure MakesOnTerms (o : Order) (x : Int) (f : FillEv) : Prop where
  side : o.side = f.takerSide.invert
  rests : restsIn o.params ≠ none
  client : f.makerClientOrderId = o.clientId
  size : f.quantity ≤ o.maxBase
  price : acceptable o x f.price
  worst : worstPeg o.params = -1 ∨ (match o.side with | .bid => f.price ≤ worstPeg o.params | .ask => worstPeg o.params ≤ f.price)
  alive : o.tif = 0 ∨ f.timestamp < f.makerTimestamp + o.tif

/-- the trade `f`: its taker placed an order that takes on these terms, and its maker had before that placed one that rests on
these terms, both at the times the trade names -/
def TradeFrom (s0 : PSys) (ops : List POp) (f : FillEv) : Prop :=
  ∃ (o om : Order) (oracle : I80F48) (x : Int) (limit : Nat) (room : Bool) (pre post : List POp) (s' : PSys),
    ops = pre ++ POp.place f.taker o oracle f.timestamp limit room :: post ∧
    pstep (prun s0 pre) (.place f.taker o oracle f.timestamp limit room) = .ok s' ∧
    (prun s0 pre).market.nativePriceToLot oracle = .ok x ∧ TakesOnTerms o x f ∧
    PlacedIn s0 pre f.maker om f.makerTimestamp ∧ MakesOnTerms om x f

/-! ## One order -/

/-- `l` is `l0`, or what is left of it -/
def Rest (l l0 : Leaf) : Prop := l.quantity ≤ l0.quantity ∧ l = { l0 with quantity := l.quantity }

theorem Rest.refl (l : Leaf) : Rest l l := ⟨le_refl _, rfl⟩

theorem OnTerms.rest {o : Order} {sd : Side} {c : Comp} {l l0 : Leaf} (h : OnTerms o sd c l0) (hr : Rest l l0) : OnTerms o sd c l := by
  obtain ⟨h1, h2⟩ := hr
  have e : ∀ x p, tradesAt x c l p ↔ tradesAt x c l0 p := by
    intro x p
    rw [h2]
    unfold tradesAt pegPrice Leaf.priceData
    cases c <;> exact Iff.rfl
  refine ⟨h.side, h.kind, ?_, ?_, ?_, Int.le_trans h1 h.size, fun x p hp => h.price x p ((e x p).mp hp)⟩
  · rw [h2]; exact h.client
  · rw [h2]; exact h.life
  · rw [h2]; exact h.worst

variable {o : Order} {oracleNative : I80F48} {taker now limit : Nat} {s s' : NOState} {sp : Side → SpecSide} {r : Option Nat}

theorem slid_le {ss : SpecSide} {sd : Side} {nw : Nat} {x : Int} {ty : PostType} {q p : Int} (h : SlidTo ss sd nw x ty q p) :
    (sd = .bid → p ≤ q) ∧ (sd = .ask → q ≤ p) := by
  unfold SlidTo at h
  split at h
  · rcases h with ⟨_, rfl⟩ | ⟨b, _, rfl⟩
    · exact ⟨fun _ => le_refl _, fun _ => le_refl _⟩
    · refine ⟨?_, ?_⟩
      · rintro rfl; exact min_le_left _ _
      · rintro rfl; exact le_max_left _ _
  · subst h; exact ⟨fun _ => le_refl _, fun _ => le_refl _⟩

/-- a leaf with the order's id trades at prices the order accepts, whatever the oracle price -/
theorem Placed.accept (P : Placed o oracleNative taker now limit s sp r s') (hS : Setup o s sp) {t : Comp} (hpt : o.postTarget = some t)
    {l : Leaf} (hk : l.key = P.id) : ∀ x p, tradesAt x t l p → acceptable o x p := by
  intro x p hp
  have h1 := P.leaf_price hS hpt hk
  have h2 := price_is hS.live.is P.e_price
  unfold PriceIs at h2
  unfold Order.postTarget at hpt
  unfold acceptable limitOf
  cases hpa : o.params with
  | market => rw [hpa] at hpt; simp at hpt
  | ioc q => rw [hpa] at hpt; simp at hpt
  | fixed q ty =>
    rw [hpa] at hpt h2
    simp only [Option.some.injEq] at hpt
    subst hpt
    simp only [tradesAt] at h1 hp
    have := slid_le h2
    dsimp only
    rw [hp, ← h1]
    cases hsd : o.side
    · exact this.1 hsd
    · exact this.2 hsd
  | pegged off ty lim =>
    rw [hpa] at hpt h2
    simp only [Option.some.injEq] at hpt
    subst hpt
    simp only [tradesAt, pegPrice] at h1 hp
    have := slid_le h2
    dsimp only
    cases hsd : o.side
    · have := this.1 hsd; dsimp only; omega
    · have := this.2 hsd; dsimp only; omega

/-- what rests after an order: what rested before, perhaps smaller, and what is left of the order -/
theorem Placed.origin (P : Placed o oracleNative taker now limit s sp r s') (hS : Setup o s sp) :
    ∀ sd c, ∀ l ∈ (P.post sd).get c, (∃ l0 ∈ (sp sd).get c, Rest l l0) ∨
    ((l.owner = taker ∧ l.timestamp = now ∧ OnTerms o sd c l) ∧ l.key = P.id ∧ l.quantity + sumOf Act.base P.acts ≤ o.maxBase) := by
  intro sd c l hl
  obtain ⟨hacts, hb, hq⟩ := P.acts_ok hS.live hS.base hS.quote
  rcases side_or sd o.side with rfl | rfl
  · rw [P.post_own] at hl
    rcases P.fin with ⟨_, _, ho⟩ | ⟨_, t, hpt, _, hq0, _, ⟨W⟩⟩
    · rw [ho] at hl; exact .inl ⟨l, hl, .refl l⟩
    · rw [W.own_eq] at hl
      have hold : ∀ c, ∀ l ∈ W.mid.get c, l ∈ (sp o.side).get c := fun c l hl => (W.outs.mem.mp hl).1
      by_cases hc : c = t
      · subst hc
        rw [get_set_same] at hl
        rcases (C13_spec_insert _ _ _).mp hl with rfl | h
        · right
          have hkey : W.leaf.key = P.id := by rw [W.leaf_eq]
          have hqty : W.leaf.quantity = min P.st.remBase (P.st.remQuote.tdiv P.price) := by rw [W.leaf_eq]
          have hbase := P.sum.base
          have h0 : 0 ≤ sumOf Act.base P.acts := by
            apply sumOf_nonneg_mem
            intro a ha
            have := hacts a ha
            cases a with
            | fill i b => simp only [actOK] at this; simp only [Act.base]; omega
            | drop i => exact le_refl _
            | cancel i => exact le_refl _
            | ignore i => exact le_refl _
          dsimp only at hbase
          refine ⟨⟨by rw [W.leaf_eq], by rw [W.leaf_eq], rfl, by rw [restsIn_eq]; exact hpt, by rw [W.leaf_eq], by rw [W.leaf_eq], ?_, ?_,
            P.accept hS hpt hkey⟩, hkey, ?_⟩
          · rw [worstPeg_eq, W.leaf_eq]
          · omega
          · omega
        · exact .inl ⟨l, hold _ _ h.1, .refl l⟩
      · have : c = t.other := by cases c <;> cases t <;> simp_all [Comp.other]
        subst this
        rw [get_set_other] at hl
        exact .inl ⟨l, hold _ _ hl, .refl l⟩
  · rw [P.post_other, P.other_mem hS.live.is] at hl
    obtain ⟨l0, hl0, ⟨rfl, _⟩ | ⟨i, b, hf, _, e2, hne, rfl⟩⟩ := hl
    · exact .inl ⟨l, hl0, .refl l⟩
    · left
      refine ⟨l0, hl0, ?_, rfl⟩
      have := hacts _ hf
      simp only [actOK] at this
      dsimp only; omega

/-- what trades when an order is placed -/
theorem Placed.trades (P : Placed o oracleNative taker now limit s sp r s') (hS : Setup o s sp) {evs : List Event}
    (hevs : s'.queue.toList = s.queue.toList ++ evs) : ∀ f ∈ fillsOf evs,
    f.taker = taker ∧ f.timestamp = now ∧ TakesOnTerms o P.oracle f ∧
    ∃ c l, l ∈ (sp o.side.invert).get c ∧ f.maker = l.owner ∧ f.makerTimestamp = l.timestamp ∧ f.makerClientOrderId = l.clientOrderId ∧
      f.quantity ≤ l.quantity ∧ offerAt (sp o.side.invert) o.side.invert now P.oracle c l f.price := by
  intro f hf
  obtain ⟨evs', e1, e2, _⟩ := P.events
  have ee : evs' = evs := List.append_cancel_left (e1.symm.trans hevs)
  subst ee
  have hf0 := hf
  rw [e2] at hf
  obtain ⟨i, b, n, h1, h2⟩ := (fills_acts P.ctx P.acts s.queue.seqNum).2.2.1 f hf
  obtain ⟨hacts, hb, hq⟩ := P.acts_ok hS.live hS.base hS.quote
  have ha := hacts _ h1
  simp only [actOK] at ha
  obtain ⟨a1, a2, a3, a4, a5, a6⟩ := ha
  have hi := P.item_mem h1
  unfold fillEvent at h2
  injection h2 with h2
  subst h2
  dsimp only [Placed.ctx] at a2 a5 a6 ⊢
  refine ⟨rfl, rfl, ⟨rfl, rfl, ?_, ?_, ?_⟩, i.comp, i.leaf, P.offers.mem hi, rfl, rfl, rfl, a4, item_offer P.offers hi a1⟩
  · rw [neverTakes_iff, a6]; simp
  · have hbase := P.sum.base
    have h0 : Act.base (.fill i b) ≤ sumOf Act.base P.acts := by
      apply sumOf_pos_mem _ h1
      intro a ha
      have := hacts a ha
      cases a with
      | fill i b => simp only [actOK] at this; simp only [Act.base]; omega
      | drop i => exact le_refl _
      | cancel i => exact le_refl _
      | ignore i => exact le_refl _
    dsimp only at hbase
    simp only [Act.base] at h0
    dsimp only
    omega
  · unfold acceptable
    rcases price_limit P.e_price a6 with hl | ⟨hl, _⟩
    · rw [hl]
      dsimp only
      cases hsd : o.side <;> rw [hsd] at a2 <;> simpa [Side.isPriceWithinLimit] using a2
    · rw [hl]; trivial

/-! ## One instruction -/

/-- where what is on the book and in the queue after an instruction comes from -/
structure Came (s : PSys) (op : POp) (s' : PSys) : Prop where
  book : ∀ sd c, ∀ l ∈ booked s'.book sd c, (∃ l0 ∈ booked s.book sd c, Rest l l0) ∨
    ∃ (o : Order) (oracle : I80F48) (limit : Nat) (room : Bool), op = .place l.owner o oracle l.timestamp limit room ∧ OnTerms o sd c l
  fills : ∀ f ∈ fillsOf (pending s'), f ∈ fillsOf (pending s) ∨
    ∃ (o : Order) (oracle : I80F48) (x : Int) (limit : Nat) (room : Bool), op = .place f.taker o oracle f.timestamp limit room ∧
      s.market.nativePriceToLot oracle = .ok x ∧ TakesOnTerms o x f ∧
      ∃ (c : Comp) (l : Leaf), l ∈ booked s.book f.takerSide.invert c ∧ f.maker = l.owner ∧ f.makerTimestamp = l.timestamp ∧
        f.makerClientOrderId = l.clientOrderId ∧ f.quantity ≤ l.quantity ∧ ¬ timedOut l f.timestamp ∧ tradesAt x c l f.price ∧
        (c = .pegged → l.pegLimit = -1 ∨ (match f.takerSide.invert with | .bid => f.price ≤ l.pegLimit | .ask => l.pegLimit ≤ f.price))

/-- an instruction that only takes orders off the book and events off the front of the queue -/
def Quiet (s s' : PSys) (sp : Side → SpecSide) : Prop :=
  (∃ sp', BookIs s'.book sp' ∧ ∀ sd c, ((sp' sd).get c).Sublist ((sp sd).get c)) ∧
    (∃ gone, s.queue.toList = gone ++ s'.queue.toList) ∧ s'.market.seqNum = s.market.seqNum

theorem Quiet.same {s s' : PSys} {sp : Side → SpecSide} (h : PInv s sp) (hb : s'.book = s.book) (hq : s'.queue = s.queue)
    (hm : s'.market.seqNum = s.market.seqNum) : Quiet s s' sp :=
  ⟨⟨sp, by rw [hb]; exact h.live.is, fun _ _ => .refl _⟩, ⟨[], by rw [hq]; rfl⟩, hm⟩

theorem Quiet.came {s s' : PSys} {op : POp} {sp : Side → SpecSide} (h : PInv s sp) (hc : Quiet s s' sp) : Came s op s' := by
  obtain ⟨⟨sp', hB', hs⟩, ⟨gone, hg⟩, _⟩ := hc
  refine ⟨?_, ?_⟩
  · intro sd c l hl
    rw [booked_eq hB', mem_ord] at hl
    refine .inl ⟨l, ?_, .refl l⟩
    rw [booked_eq h.live.is, mem_ord]
    exact (hs sd c).subset hl
  · intro f hf
    left
    unfold pending at hf ⊢
    rw [hg, fillsOf_append, List.mem_append]
    exact .inr hf

theorem cancelBySlot_less {m u slot : Nat} {a a' : PAcct} {b b' : OBook} {sp : Side → SpecSide} (hB : BookIs b sp)
    (hc : cancelBySlot m u slot a b = .ok (a', b')) :
    ∃ sp', BookIs b' sp' ∧ ∀ sd c, ((sp' sd).get c).Sublist ((sp sd).get c) := by
  unfold cancelBySlot at hc
  simp only [bind_ok, getOO_ok, require_ok, ok_inj, Prod.exists, Prod.mk.injEq] at hc
  obtain ⟨oo, hoo, _, hact, x, bs, hrem, qty, hqty, a1, hrm, rfl, rfl⟩ := hc
  obtain ⟨b1, hb1, hsim, hlen, hbids⟩ := remove_sim (hB.sim oo.side) oo.tree oo.id
  rw [hb1, ok_inj, Prod.mk.injEq] at hrem
  obtain ⟨hx, hbs⟩ := hrem
  subst hbs
  let sp' : Side → SpecSide := fun sd => if sd = oo.side then (sp oo.side).set oo.tree (sRemove oo.id ((sp oo.side).get oo.tree)) else sp sd
  have hsp1 : sp' oo.side = (sp oo.side).set oo.tree (sRemove oo.id ((sp oo.side).get oo.tree)) := by simp [sp']
  have hsp2 : ∀ sd, sd ≠ oo.side → sp' sd = sp sd := by intro sd hsd; simp [sp', hsd]
  have hmem : ∀ sd c, ((sp' sd).get c).Sublist ((sp sd).get c) := by
    intro sd c
    by_cases hsd : sd = oo.side
    · subst hsd
      rw [hsp1]
      by_cases hc : c = oo.tree
      · subst hc
        rw [get_set_same]; exact List.filter_sublist
      · have : c = oo.tree.other := by cases c <;> cases ht : oo.tree <;> simp_all [Comp.other]
        rw [this, get_set_other]
    · rw [hsp2 sd hsd]
  have hinv : oo.side.invert ≠ oo.side := by cases oo.side <;> simp [Side.invert]
  refine ⟨sp', ⟨?_, ?_, ?_⟩, hmem⟩
  · intro sd
    rcases side_or sd oo.side with rfl | rfl
    · rw [(side_get_set _ _ _).1, hsp1]; exact hsim
    · rw [(side_get_set _ _ _).2, hsp2 _ hinv]; exact hB.sim _
  · intro sd
    rcases side_or sd oo.side with rfl | rfl
    · rw [(side_get_set _ _ _).1, hbids]; exact hB.bids _
    · rw [(side_get_set _ _ _).2]; exact hB.bids _
  · intro sd
    apply good_of_keys (hB.good sd)
    intro c y hy
    exact ⟨y, (hmem _ _).subset hy, rfl⟩

theorem cancelAll_less {m u : Nat} {sideOpt : Option Side} : ∀ (n : Nat) {i limit : Nat} {a a' : PAcct} {b b' : OBook} {sp : Side → SpecSide}, BookIs b sp →
    cancelAllFrom m u sideOpt n i limit a b = .ok (a', b') → ∃ sp', BookIs b' sp' ∧ ∀ sd c, ((sp' sd).get c).Sublist ((sp sd).get c) := by
  intro n
  induction n with
  | zero =>
    intro i limit a a' b b' sp hB hc
    simp only [cancelAllFrom, ok_inj, Prod.mk.injEq] at hc
    obtain ⟨rfl, rfl⟩ := hc
    exact ⟨sp, hB, fun _ _ => .refl _⟩
  | succ n ih =>
    intro i limit a a' b b' sp hB hc
    simp only [cancelAllFrom, bind_ok, getOO_ok] at hc
    obtain ⟨oo, hoo, hc⟩ := hc
    split at hc
    · exact ih hB hc
    · split at hc
      · exact ih hB hc
      · simp only [bind_ok, Prod.exists] at hc
        obtain ⟨a1, b1, h1, hc⟩ := hc
        have hstep : ∃ sp1, BookIs b1 sp1 ∧ ∀ sd c, ((sp1 sd).get c).Sublist ((sp sd).get c) := by
          split at h1
          · rw [ok_inj, Prod.mk.injEq] at h1
            obtain ⟨rfl, rfl⟩ := h1
            exact ⟨sp, hB, fun _ _ => .refl _⟩
          · exact cancelBySlot_less hB h1
        obtain ⟨sp1, hB1, hs1⟩ := hstep
        split at hc
        · simp at hc
        · split at hc
          · rw [ok_inj, Prod.mk.injEq] at hc
            obtain ⟨rfl, rfl⟩ := hc
            exact ⟨sp1, hB1, hs1⟩
          · obtain ⟨sp2, hB2, hs2⟩ := ih hB1 hc
            exact ⟨sp2, hB2, fun sd c => (hs2 sd c).trans (hs1 sd c)⟩

theorem cancelOp_quiet {s s' : PSys} {sp : Side → SpecSide} {u : Nat} {f : PAcct → OBook → Res (PAcct × OBook)}
    (hf : ∀ a a' b', f a s.book = .ok (a', b') → ∃ sp', BookIs b' sp' ∧ ∀ sd c, ((sp' sd).get c).Sublist ((sp sd).get c))
    (hc : cancelOp s u f = .ok s') : Quiet s s' sp := by
  unfold cancelOp at hc
  split at hc
  · simp at hc
  · next a ha =>
    simp only [bind_ok, Prod.exists, ok_inj] at hc
    obtain ⟨a', b', h1, rfl⟩ := hc
    exact ⟨hf a a' b' h1, ⟨[], rfl⟩, rfl⟩

theorem consumeOne_came {s s' : PSys} {avail : List Nat} (hq : EventQueue.Inv s.queue) (hc : consumeOne s avail = .ok (some s')) :
    s'.book = s.book ∧ EventQueue.Inv s'.queue ∧ ∃ e, s.queue.toList = e :: s'.queue.toList := by
  have key : ∀ e q, s.queue.popFront = .ok (e, q) → EventQueue.Inv q ∧ ∃ e, s.queue.toList = e :: q.toList := by
    intro e q hp
    obtain ⟨h1, h2, _, _⟩ := popFront_ok hq hp
    exact ⟨h1, _, h2⟩
  unfold Perp.consumeOne at hc
  split at hc
  · simp at hc
  · next f hpk =>
    split at hc
    · split at hc
      · split at hc
        · simp at hc
        · simp only [bind_ok, Prod.exists, ok_inj, Option.some.injEq] at hc
          obtain ⟨a1, m1, h1, a2, m2, h2, e, q, hp, rfl⟩ := hc
          exact ⟨rfl, key e q hp⟩
      · simp at hc
    · split at hc
      · split at hc
        · split at hc
          · simp only [bind_ok, Prod.exists, ok_inj, Option.some.injEq] at hc
            obtain ⟨a1, m1, h1, a2, m2, h2, e, q, hp, rfl⟩ := hc
            exact ⟨rfl, key e q hp⟩
          · simp at hc
        · simp at hc
      · simp at hc
  · next e hpk =>
    split at hc
    · split at hc
      · simp at hc
      · simp only [bind_ok, Prod.exists, ok_inj, Option.some.injEq] at hc
        obtain ⟨a1, h1, e', q, hp, rfl⟩ := hc
        exact ⟨rfl, key e' q hp⟩
    · simp at hc

theorem consumeLoop_came {avail : List Nat} : ∀ (n : Nat) {s s' : PSys}, EventQueue.Inv s.queue → consumeLoop n s avail = .ok s' →
    s'.book = s.book ∧ ∃ gone, s.queue.toList = gone ++ s'.queue.toList := by
  intro n
  induction n with
  | zero => intro s s' _ hc; simp only [Perp.consumeLoop, ok_inj] at hc; subst hc; exact ⟨rfl, [], rfl⟩
  | succ n ih =>
    intro s s' hq hc
    simp only [Perp.consumeLoop, bind_ok] at hc
    obtain ⟨r, h1, hc⟩ := hc
    cases r with
    | none => simp only [ok_inj] at hc; subst hc; exact ⟨rfl, [], rfl⟩
    | some s1 =>
      obtain ⟨e1, e2, e, e3⟩ := consumeOne_came hq h1
      obtain ⟨e4, gone, e5⟩ := ih e2 hc
      exact ⟨e4.trans e1, e :: gone, by rw [e3, e5]; rfl⟩

def POp.isPlace : POp → Bool
  | .place .. => true
  | _ => false

theorem pstep_quiet {s s' : PSys} {sp : Side → SpecSide} (h : PInv s sp) {op : POp} (hp : op.isPlace = false) (hs : pstep s op = .ok s') : Quiet s s' sp := by
  cases op with
  | place u o oracle now limit room => simp [POp.isPlace] at hp
  | cancelId u id =>
    apply cancelOp_quiet _ hs
    intro a a' b' hc
    unfold cancelById at hc
    split at hc
    · simp at hc
    · exact cancelBySlot_less h.live.is hc
  | cancelClient u cid =>
    apply cancelOp_quiet _ hs
    intro a a' b' hc
    unfold cancelByClientId at hc
    split at hc
    · simp at hc
    · exact cancelBySlot_less h.live.is hc
  | cancelAll u limit sideOpt =>
    apply cancelOp_quiet _ hs
    intro a a' b' hc
    exact cancelAll_less _ h.live.is hc
  | consume limit avail =>
    obtain ⟨h1, h2⟩ := consumeLoop_came _ h.queue hs
    exact ⟨⟨sp, by rw [h1]; exact h.live.is, fun _ _ => .refl _⟩, h2, (h.consumeLoop _ hs).2⟩
  | deactivate u =>
    simp only [pstep, deactivateOp] at hs
    split at hs
    · simp at hs
    · simp only [bind_ok, getPos_ok, require_ok, ok_inj] at hs
      obtain ⟨p, hp, p1, h1, _, z1, _, z2, _, z3, _, z4, rfl⟩ := hs
      exact Quiet.same h rfl rfl rfl
  | forceClose i j price =>
    simp only [pstep, forceCloseOp, bind_ok, require_ok] at hs
    obtain ⟨_, hij, _, _, hs⟩ := hs
    split at hs
    · simp only [bind_ok, getPos_ok, require_ok, Prod.exists, ok_inj] at hs
      obtain ⟨p, hp, q, hq, _, _, _, _, qa, _, nat, _, quote, _, nt, _, nq, _, p', m1, h1, q', m2, h2, rfl⟩ := hs
      exact Quiet.same h rfl rfl (by dsimp only; rw [(recordTrade_ok h2).seqNum, (recordTrade_ok h1).seqNum])
    · simp at hs
  | liqBase i j base ql qr =>
    simp only [pstep, liqBaseOp, bind_ok, require_ok] at hs
    obtain ⟨_, hij, hs⟩ := hs
    split at hs
    · simp only [bind_ok, getPos_ok, require_ok, Prod.exists, ok_inj] at hs
      obtain ⟨p, hp, b1, hb1, q, hq, p1, hp1, q1, hq1, _, _, p', m1, h1, nb, _, q', m2, h2, rfl⟩ := hs
      exact Quiet.same h rfl rfl (by dsimp only; rw [(recordTrade_ok h2).seqNum, (recordTrade_ok h1).seqNum])
    · simp at hs
  | resize u n =>
    simp only [pstep] at hs
    split at hs
    · simp at hs
    · simp only [bind_ok, ok_inj] at hs
      obtain ⟨oos, _, rfl⟩ := hs
      exact Quiet.same h rfl rfl rfl
  | create n =>
    simp only [pstep, ok_inj] at hs
    subst hs
    exact Quiet.same h rfl rfl rfl
  | close u =>
    simp only [pstep] at hs
    split at hs
    · simp at hs
    · simp only [bind_ok, require_ok, ok_inj] at hs
      obtain ⟨_, hp, rfl⟩ := hs
      exact Quiet.same h rfl rfl rfl
  | ensure u =>
    simp only [pstep] at hs
    split at hs
    · simp at hs
    · simp only [bind_ok, ok_inj] at hs
      obtain ⟨a', h1, rfl⟩ := hs
      exact Quiet.same h rfl rfl rfl
  | quotes u quote ls ss os rc w st =>
    simp only [pstep] at hs
    split at hs
    · simp at hs
    · simp only [bind_ok, getPos_ok, ok_inj] at hs
      obtain ⟨p, hp, rfl⟩ := hs
      exact Quiet.same h rfl rfl rfl
  | market m =>
    simp only [pstep, ok_inj] at hs
    subst hs
    exact Quiet.same h rfl rfl rfl
  | otherSlot u i oo =>
    simp only [pstep] at hs
    split at hs
    · simp at hs
    · simp only [bind_ok, getOO_ok, require_ok, ok_inj] at hs
      obtain ⟨old, hold, _, _, rfl⟩ := hs
      exact Quiet.same h rfl rfl rfl

theorem pstep_came {s s' : PSys} {sp : Side → SpecSide} (h : PInv s sp) {op : POp} (ht : op.Typed) (hs : pstep s op = .ok s') : Came s op s' := by
  cases op with
  | place u o oracle now limit room =>
    simp only [pstep, placeOp, bind_ok, require_ok] at hs
    obtain ⟨_, hb, _, hq, hs⟩ := hs
    split at hs
    · simp at hs
    · next a ha =>
      simp only [bind_ok, getPos_ok, Prod.exists, ok_inj] at hs
      obtain ⟨a1, h1, p, hp, o', h2, r, n, h3, rfl⟩ := hs
      obtain ⟨mb, e, hmb, hmb2, ho'⟩ := reduceOrder_ok h2 ht hb hq
      have hq' : 0 ≤ o'.maxQuote := by rw [e]; exact hq
      have hb' : 0 ≤ o'.maxBase := by rw [e]; exact hmb
      have hS : Setup o' { market := s.market, acct := a1, book := s.book, queue := s.queue } sp := ⟨ho', hb', hq', h.live, h.queue⟩
      have hacc : ∀ x p, acceptable o' x p → acceptable o x p := by rw [e]; exact fun _ _ h => h
      obtain ⟨P⟩ := Perp.place hS h3
      have hB' := (P.live hS.typed hS.live hS.base hS.quote).is
      have hor := P.e_oracle
      have hfull : o'.maxBase ≤ o.maxBase := by rw [e]; exact hmb2
      refine ⟨?_, ?_⟩
      · intro sd c l hl
        rw [booked_eq hB', mem_ord] at hl
        rcases P.origin hS sd c l hl with ⟨l0, h0, hr⟩ | ⟨⟨e1, e2, e3⟩, _⟩
        · left
          refine ⟨l0, ?_, hr⟩
          rw [booked_eq h.live.is, mem_ord]; exact h0
        · right
          refine ⟨o, oracle, limit, room, by rw [e1, e2], ?_⟩
          obtain ⟨t1, t2, t3, t4, t5, t6, t7⟩ := e3
          refine ⟨?_, ?_, ?_, ?_, ?_, Int.le_trans t6 hfull, ?_⟩
          · rw [← t1, e]
          · rw [← t2, e]
          · rw [t3, e]
          · rw [t4, e]
          · rw [t5, e]
          · intro x p hx
            have := t7 x p hx
            rw [e] at this
            exact this
      · intro f hf
        obtain ⟨evs, e1, _⟩ := P.events
        unfold pending at hf ⊢
        dsimp only at hf e1 ⊢
        rw [e1, fillsOf_append, List.mem_append] at hf
        rcases hf with hf | hf
        · exact .inl hf
        · right
          obtain ⟨g1, g2, g3, c, l, m1, m2, m3, m4, m5, m6⟩ := P.trades hS e1 f hf
          obtain ⟨t1, t2, t3, t4, t5⟩ := g3
          have hsd : o'.side.invert = f.takerSide.invert := by rw [t1]
          refine ⟨o, oracle, P.oracle, limit, room, by rw [g1, g2], hor, ⟨?_, ?_, ?_, Int.le_trans t4 hfull, ?_⟩, c, l, ?_, m2, m3, m4, m5, ?_, ?_, ?_⟩
          · rw [← t1, e]
          · rw [t2, e]
          · intro hc; apply t3; rw [e]; exact hc
          · exact hacc _ _ t5
          · rw [booked_eq h.live.is, mem_ord, ← hsd]; exact m1
          · rw [g2]; exact m6.2.1
          · have := m6.2.2
            unfold tradesAt
            cases c with
            | fixed => exact this
            | pegged => exact this.2.1
          · rintro rfl
            have := m6.2.2
            dsimp only at this
            have hb := this.2.2
            rw [hsd] at hb
            by_cases hpl : l.pegLimit = -1
            · exact .inl hpl
            · right
              have hnb : ¬ f.takerSide.invert.isPriceBetter f.price l.pegLimit = true := fun hx => hb ⟨hpl, hx⟩
              revert hnb
              cases f.takerSide.invert <;> simp only [Side.isPriceBetter, decide_eq_true_eq, not_lt] <;> exact id
  | _ => exact (pstep_quiet h rfl hs).came h

/-! ## Every history -/

theorem PlacedIn.more {s0 : PSys} {ops : List POp} {u : Nat} {o : Order} {now : Nat} (h : PlacedIn s0 ops u o now) (more : List POp) :
    PlacedIn s0 (ops ++ more) u o now := by
  obtain ⟨oracle, limit, room, pre, post, s', e, hs⟩ := h
  exact ⟨oracle, limit, room, pre, post ++ more, s', by rw [e]; simp, hs⟩

theorem TradeFrom.more {s0 : PSys} {ops : List POp} {f : FillEv} (h : TradeFrom s0 ops f) (more : List POp) : TradeFrom s0 (ops ++ more) f := by
  obtain ⟨o, om, oracle, x, limit, room, pre, post, s', e, hs⟩ := h
  exact ⟨o, om, oracle, x, limit, room, pre, post ++ more, s', by rw [e]; simp, hs⟩

theorem ordersPlaced_append (a b : List POp) : ordersPlaced (a ++ b) = ordersPlaced a + ordersPlaced b := by
  simp [ordersPlaced]

theorem origin_all (m : Market) (bookNodes queueLen : Nat) (fill : Event) (hm : m.idx ≠ FREE) (hn : bookNodes ≤ U32MAX) (hq : 0 < queueLen) :
    ∀ ops : List POp, (∀ op ∈ ops, op.Typed) → ordersPlaced ops < 9223372036854775808 →
      BookFrom (PSys.init m bookNodes queueLen fill) ops ∧
      ∀ f ∈ fillsOf (pending (prun (PSys.init m bookNodes queueLen fill) ops)), TradeFrom (PSys.init m bookNodes queueLen fill) ops f := by
  intro ops
  generalize hs0 : PSys.init m bookNodes queueLen fill = s0
  induction ops using List.reverseRecOn with
  | nil =>
    intro _ _
    have hi := init_inv m bookNodes queueLen fill hm hn hq
    rw [hs0] at hi
    refine ⟨?_, ?_⟩
    · intro sd c l hl
      simp only [prun] at hl
      rw [booked_eq hi.live.is, mem_ord] at hl
      cases c <;> simp [SpecSide.get] at hl
    · intro f hf
      simp only [prun, pending] at hf
      rw [← hs0] at hf
      have hE : (EventQueue.init fill queueLen).toList = [] := by simp [EventQueue.init, EventQueue.toList]
      simp only [PSys.init, hE] at hf
      simp [fillsOf] at hf
  | append_singleton ops op ih =>
    intro ht hlen
    rw [ordersPlaced_append] at hlen
    have ht1 : ∀ op ∈ ops, op.Typed := fun o ho => ht o (by simp [ho])
    obtain ⟨i1, i2⟩ := ih ht1 (by omega)
    obtain ⟨sp, hI⟩ := reach_inv m bookNodes queueLen fill hm hn hq ops ht1 (by omega)
    rw [hs0] at hI
    have hrun : prun s0 (ops ++ [op]) = match pstep (prun s0 ops) op with | .ok s' => s' | .error _ => prun s0 ops := by
      rw [prun_append]
      simp only [prun]
      cases pstep (prun s0 ops) op <;> rfl
    cases hp : pstep (prun s0 ops) op with
    | error e =>
      rw [hp] at hrun
      refine ⟨?_, ?_⟩
      · intro sd c l hl
        rw [hrun] at hl
        obtain ⟨o, h1, h2⟩ := i1 sd c l hl
        exact ⟨o, h1.more _, h2⟩
      · intro f hf
        rw [hrun] at hf
        exact (i2 f hf).more _
    | ok s' =>
      rw [hp] at hrun
      dsimp only at hrun
      have hC := pstep_came hI (ht op (by simp)) hp
      refine ⟨?_, ?_⟩
      · intro sd c l hl
        rw [hrun] at hl
        rcases hC.book sd c l hl with ⟨l0, h0, hr⟩ | ⟨o, oracle, limit, room, rfl, h2⟩
        · obtain ⟨o, h1, h2⟩ := i1 sd c l0 h0
          have e1 : l.owner = l0.owner := by rw [hr.2]
          have e2 : l.timestamp = l0.timestamp := by rw [hr.2]
          exact ⟨o, by rw [e1, e2]; exact h1.more _, h2.rest hr⟩
        · exact ⟨o, ⟨oracle, limit, room, ops, [], s', rfl, hp⟩, h2⟩
      · intro f hf
        rw [hrun] at hf
        rcases hC.fills f hf with h0 | ⟨o, oracle, x, limit, room, rfl, g1, g2, c, l, k1, k2, k3, k4, k5, k6, k7, k8⟩
        · exact (i2 f h0).more _
        · obtain ⟨om, h1, h2⟩ := i1 _ c l k1
          refine ⟨o, om, oracle, x, limit, room, ops, [], s', rfl, hp, g1, g2, by rw [k2, k3]; exact h1, h2.side, ?_, ?_, Int.le_trans k5 h2.size, h2.price x _ k7, ?_, ?_⟩
          · rw [h2.kind]; simp
          · rw [k4]; exact h2.client
          · rw [h2.side, ← h2.worst]
            cases c with
            | pegged => exact k8 rfl
            | fixed =>
              left
              have := h2.kind
              rw [h2.worst]
              unfold restsIn at this
              unfold worstPeg
              cases hpa : om.params <;> rw [hpa] at this <;> simp_all
          · rw [k3, ← h2.life]
            unfold timedOut at k6
            by_cases h0 : l.timeInForce = 0
            · exact .inl h0
            · right; omega

/-- **C103.** After every history of well-typed instructions on a new market: every order on the book was successfully placed by
its owner at the time it carries — same side, kind, client id, lifetime and worst peg price, no more lots — and, whatever the
oracle price, the price at which it would trade is one its owner accepted. -/
theorem C103_orders (m : Market) (bookNodes queueLen : Nat) (fill : Event) (hm : m.idx ≠ FREE) (hn : bookNodes ≤ U32MAX) (hq : 0 < queueLen)
    (ops : List POp) (ht : ∀ op ∈ ops, op.Typed) (hlen : ordersPlaced ops < 9223372036854775808) :
    BookFrom (PSys.init m bookNodes queueLen fill) ops :=
  (origin_all m bookNodes queueLen fill hm hn hq ops ht hlen).1

/-- **C103 (trades).** After every such history every trade in the event queue comes from an order its taker successfully placed
at the trade's time, which takes, and an order its maker had successfully placed before at the time the trade names, on the
other side, which rests and had not expired; the trade is not larger than either order, its price is acceptable to both at the
oracle price of the taker's instruction, and within the worst price of a pegged maker. -/
theorem C103_trades (m : Market) (bookNodes queueLen : Nat) (fill : Event) (hm : m.idx ≠ FREE) (hn : bookNodes ≤ U32MAX) (hq : 0 < queueLen)
    (ops : List POp) (ht : ∀ op ∈ ops, op.Typed) (hlen : ordersPlaced ops < 9223372036854775808) :
    ∀ f ∈ fillsOf (pending (prun (PSys.init m bookNodes queueLen fill) ops)), TradeFrom (PSys.init m bookNodes queueLen fill) ops f :=
  (origin_all m bookNodes queueLen fill hm hn hq ops ht hlen).2

-- the history of TradingEx: afterwards account 1 bids 3 lots at 90, and account 1's sale of 4 lots to account 0 at 100 is pending
example : (booked (txRun txOps).book .bid .fixed).map (fun l => (l.owner, l.quantity, l.priceData, l.clientOrderId, l.timestamp)) = [(1, 3, 90, 13, 7)] ∧
    (fillsOf (pending (txRun txOps))).map (fun f => (f.maker, f.taker, f.quantity, f.price, f.makerClientOrderId, f.takerClientOrderId)) = [(0, 1, 4, 100, 11, 12)] ∧
    ordersPlaced txOps = 3 := by decide +kernel

end Perp
end Mango
