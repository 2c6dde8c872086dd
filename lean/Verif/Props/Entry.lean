import Verif.Perp.Entry
import Verif.Props.OrderLots
/-!
# C105: expiry and limits of orders, from the instruction's arguments to the trades

The four instructions that place orders on a perp market take an expiry timestamp, an order type and a price.  Histories consist
of these instructions, by any accounts at any times, and all other instructions of the market.
-/
namespace Mango
namespace Perp
open Book Fx

/-! ## Specification -/

def Entry.args : Entry → PlaceArgs
  | .v1 a => a
  | .v2 a _ => a
  | .pegged a _ _ => a
  | .peggedV2 a _ _ _ => a

/-- whether the price is relative to the oracle -/
def Entry.isPegged : Entry → Bool
  | .v1 _ => false
  | .v2 _ _ => false
  | _ => true

/-- the worst price at which a pegged order rests, -1 is none -/
def Entry.worst : Entry → Int
  | .pegged _ l _ => l
  | .peggedV2 _ l _ _ => l
  | _ => -1

/-- the price `p` is not beyond the instruction's peg limit -/
def Entry.withinPeg (e : Entry) (p : Int) : Prop :=
  e.worst = -1 ∨ match e.args.side with | .bid => p ≤ e.worst | .ask => e.worst ≤ p

/-- an order with this expiry, placed at `now`, may trade at `t`: 0 is no expiry, others are cut to 65535 seconds -/
def mayTradeAt (expiry now t : Nat) : Prop := expiry = 0 ∨ t < min expiry (now + 65535)

/-- the price `p` is acceptable for the instruction when the oracle price is `x` lots: any for market orders, otherwise the given
price — for pegged orders the oracle price plus the given offset — or better -/
def Entry.accepts (e : Entry) (x p : Int) : Prop :=
  e.args.type = .market ∨
    match e.args.side with
    | .bid => p ≤ (if e.isPegged then x + e.args.price else e.args.price)
    | .ask => (if e.isPegged then x + e.args.price else e.args.price) ≤ p

/-- the arguments fit their types (i64) -/
def Entry.Typed (e : Entry) : Prop :=
  e.args.maxBase ≤ I64MAX ∧ e.args.maxQuote ≤ I64MAX ∧ (I64MIN ≤ e.args.price ∧ e.args.price ≤ I64MAX) ∧
    match e with
    | .pegged _ l _ => I64MIN ≤ l ∧ l ≤ I64MAX
    | .peggedV2 _ l _ _ => I64MIN ≤ l ∧ l ≤ I64MAX
    | _ => True

def EOp.Typed : EOp → Prop
  | .enter _ e _ _ _ _ => e.Typed
  | .other op => op.Typed

/-- the arguments the instructions refuse before looking at anything else -/
def Entry.refused : Entry → Prop
  | .v1 a => a.price < 0
  | .v2 a _ => a.price < 0
  | .pegged _ l n => l < -1 ∨ n ≠ -1
  | .peggedV2 _ l n _ => l < -1 ∨ n ≠ -1

/-! ## Proofs -/

theorem tif_none {expiry now : Nat} : tifFromExpiry expiry now = none ↔ 0 < expiry ∧ expiry ≤ now := by
  unfold tifFromExpiry
  by_cases h : expiry = 0
  · simp [h]
  · rw [if_pos h]
    by_cases h2 : min (expiry - now) 65535 = 0
    · rw [if_pos h2]; simp; omega
    · rw [if_neg h2]; simp; omega

theorem tif_some {expiry now tif : Nat} (h : tifFromExpiry expiry now = some tif) {t : Nat} :
    (tif = 0 ∨ t < now + tif) ↔ mayTradeAt expiry now t := by
  unfold tifFromExpiry at h
  unfold mayTradeAt
  by_cases he : expiry = 0
  · rw [if_neg (by simpa using he)] at h
    simp only [Option.some.injEq] at h
    simp [← h, he]
  · rw [if_pos he] at h
    by_cases h2 : min (expiry - now) 65535 = 0
    · rw [if_pos h2] at h; simp at h
    · rw [if_neg h2, Option.some.injEq] at h
      subst h
      omega

theorem tif_alive {expiry now tif : Nat} (h : tifFromExpiry expiry now = some tif) : mayTradeAt expiry now now := by
  rw [← tif_some h]
  by_cases h0 : tif = 0
  · exact .inl h0
  · right; omega

/-- what the order of an instruction is -/
structure OrderOf (e : Entry) (now : Nat) (o : Order) : Prop where
  side : o.side = e.args.side
  base : o.maxBase = e.args.maxBase
  quote : o.maxQuote = e.args.maxQuote
  client : o.clientId = e.args.clientId
  reduce : o.reduceOnly = e.args.reduceOnly
  tif : tifFromExpiry e.args.expiry now = some o.tif
  pegged : e.isPegged = true → ∃ t, e.args.type.toPost = .ok t ∧ o.params = .pegged e.args.price t e.worst
  fixed : e.isPegged = false → (e.args.type = .market ∧ o.params = .market) ∨ (e.args.type = .immediateOrCancel ∧ o.params = .ioc e.args.price) ∨
    ∃ t, e.args.type.toPost = .ok t ∧ o.params = .fixed e.args.price t

theorem fixedOrder_ok {a : PlaceArgs} {st : SelfTrade} {now : Nat} {r : Option Order} (h : fixedOrder a st now = .ok r) :
    0 ≤ a.price ∧ ((r = none ∧ tifFromExpiry a.expiry now = none) ∨ ∃ tif params, tifFromExpiry a.expiry now = some tif ∧
      r = some { side := a.side, maxBase := a.maxBase, maxQuote := a.maxQuote, clientId := a.clientId, reduceOnly := a.reduceOnly, tif, selfTrade := st, params } ∧
      ((a.type = .market ∧ params = .market) ∨ (a.type = .immediateOrCancel ∧ params = .ioc a.price) ∨ ∃ t, a.type.toPost = .ok t ∧ params = .fixed a.price t)) := by
  unfold fixedOrder at h
  simp only [bind_ok, require_ok] at h
  obtain ⟨_, h0, h⟩ := h
  refine ⟨h0, ?_⟩
  cases ht : tifFromExpiry a.expiry now with
  | none => rw [ht] at h; simp only [ok_inj] at h; exact .inl ⟨h.symm, rfl⟩
  | some tif =>
    rw [ht] at h
    simp only [bind_ok, ok_inj] at h
    obtain ⟨params, hp, rfl⟩ := h
    refine .inr ⟨tif, params, rfl, rfl, ?_⟩
    cases hty : a.type <;> rw [hty] at hp <;> simp only [bind_ok, ok_inj] at hp
    · obtain ⟨t, h1, rfl⟩ := hp; exact .inr (.inr ⟨t, h1, rfl⟩)
    · exact .inr (.inl ⟨rfl, hp.symm⟩)
    · obtain ⟨t, h1, rfl⟩ := hp; exact .inr (.inr ⟨t, h1, rfl⟩)
    · exact .inl ⟨rfl, hp.symm⟩
    · obtain ⟨t, h1, rfl⟩ := hp; exact .inr (.inr ⟨t, h1, rfl⟩)

theorem peggedOrder_ok {a : PlaceArgs} {l n : Int} {st : SelfTrade} {now : Nat} {r : Option Order} (h : peggedOrder a l n st now = .ok r) :
    (-1 ≤ l ∧ n = -1) ∧ ((r = none ∧ tifFromExpiry a.expiry now = none) ∨ ∃ tif t, tifFromExpiry a.expiry now = some tif ∧ a.type.toPost = .ok t ∧
      r = some { side := a.side, maxBase := a.maxBase, maxQuote := a.maxQuote, clientId := a.clientId, reduceOnly := a.reduceOnly, tif, selfTrade := st,
                 params := .pegged a.price t l }) := by
  unfold peggedOrder at h
  simp only [bind_ok, require_ok] at h
  obtain ⟨_, h0, _, h1, h⟩ := h
  refine ⟨⟨h0, h1⟩, ?_⟩
  cases ht : tifFromExpiry a.expiry now with
  | none => rw [ht] at h; simp only [ok_inj] at h; exact .inl ⟨h.symm, rfl⟩
  | some tif =>
    rw [ht] at h
    simp only [bind_ok, ok_inj] at h
    obtain ⟨t, hp, rfl⟩ := h
    exact .inr ⟨tif, t, rfl, hp, rfl⟩

theorem order_of {e : Entry} {now : Nat} {o : Order} (h : e.order now = .ok (some o)) : OrderOf e now o := by
  cases e with
  | v1 a =>
    obtain ⟨_, ⟨h1, _⟩ | ⟨tif, params, h1, h2, h3⟩⟩ := fixedOrder_ok h
    · simp at h1
    · simp only [Option.some.injEq] at h2
      subst h2
      exact ⟨rfl, rfl, rfl, rfl, rfl, h1, fun h => by simp [Entry.isPegged] at h, fun _ => h3⟩
  | v2 a st =>
    obtain ⟨_, ⟨h1, _⟩ | ⟨tif, params, h1, h2, h3⟩⟩ := fixedOrder_ok h
    · simp at h1
    · simp only [Option.some.injEq] at h2
      subst h2
      exact ⟨rfl, rfl, rfl, rfl, rfl, h1, fun h => by simp [Entry.isPegged] at h, fun _ => h3⟩
  | pegged a l n =>
    obtain ⟨_, ⟨h1, _⟩ | ⟨tif, t, h1, h2, h3⟩⟩ := peggedOrder_ok h
    · simp at h1
    · simp only [Option.some.injEq] at h3
      subst h3
      exact ⟨rfl, rfl, rfl, rfl, rfl, h1, fun _ => ⟨t, h2, rfl⟩, fun h => by simp [Entry.isPegged] at h⟩
  | peggedV2 a l n st =>
    obtain ⟨_, ⟨h1, _⟩ | ⟨tif, t, h1, h2, h3⟩⟩ := peggedOrder_ok h
    · simp at h1
    · simp only [Option.some.injEq] at h3
      subst h3
      exact ⟨rfl, rfl, rfl, rfl, rfl, h1, fun _ => ⟨t, h2, rfl⟩, fun h => by simp [Entry.isPegged] at h⟩

theorem toPost_ok {ty : PlaceType} {t : PostType} (h : ty.toPost = .ok t) : ty ≠ .market ∧ ty ≠ .immediateOrCancel ∧
    (t = .limit ↔ ty = .limit) := by
  cases ty <;> simp [PlaceType.toPost] at h <;> subst h <;> simp

/-- an order accepts exactly what the instruction accepts -/
theorem accepts_of {e : Entry} {now : Nat} {o : Order} (h : OrderOf e now o) {x p : Int} (ha : acceptable o x p) : e.accepts x p := by
  unfold acceptable limitOf at ha
  unfold Entry.accepts
  cases hp : e.isPegged with
  | true =>
    obtain ⟨t, h1, h2⟩ := h.pegged hp
    rw [h2] at ha
    dsimp only at ha
    rw [h.side] at ha
    right
    exact ha
  | false =>
    rcases h.fixed hp with ⟨h1, h2⟩ | ⟨h1, h2⟩ | ⟨t, h1, h2⟩
    · exact .inl h1
    · rw [h2] at ha
      dsimp only at ha
      rw [h.side] at ha
      exact .inr ha
    · rw [h2] at ha
      dsimp only at ha
      rw [h.side] at ha
      exact .inr ha

theorem worst_of {e : Entry} {now : Nat} {o : Order} (h : OrderOf e now o) : worstPeg o.params = e.worst := by
  cases hp : e.isPegged with
  | true => obtain ⟨t, _, h2⟩ := h.pegged hp; rw [h2]; rfl
  | false =>
    have h3 : e.worst = -1 := by cases e <;> first | rfl | simp [Entry.isPegged] at hp
    rw [h3]
    rcases h.fixed hp with ⟨_, h2⟩ | ⟨_, h2⟩ | ⟨t, _, h2⟩ <;> rw [h2] <;> rfl

theorem withinPeg_of {e : Entry} {now : Nat} {o : Order} (h : OrderOf e now o) {p : Int}
    (ha : worstPeg o.params = -1 ∨ (match o.side with | .bid => p ≤ worstPeg o.params | .ask => worstPeg o.params ≤ p)) : e.withinPeg p := by
  unfold Entry.withinPeg
  rw [worst_of h, h.side] at ha
  exact ha

theorem rests_type {e : Entry} {now : Nat} {o : Order} (h : OrderOf e now o) {c : Comp} (hr : restsIn o.params = some c) :
    e.args.type ≠ .market ∧ e.args.type ≠ .immediateOrCancel ∧ (c = .pegged ↔ e.isPegged = true) := by
  cases hp : e.isPegged with
  | true =>
    obtain ⟨t, h1, h2⟩ := h.pegged hp
    obtain ⟨t1, t2, _⟩ := toPost_ok h1
    rw [h2] at hr
    simp only [restsIn, Option.some.injEq] at hr
    exact ⟨t1, t2, by simp [← hr]⟩
  | false =>
    rcases h.fixed hp with ⟨h1, h2⟩ | ⟨h1, h2⟩ | ⟨t, h1, h2⟩
    · rw [h2] at hr; simp [restsIn] at hr
    · rw [h2] at hr; simp [restsIn] at hr
    · obtain ⟨t1, t2, _⟩ := toPost_ok h1
      rw [h2] at hr
      simp only [restsIn, Option.some.injEq] at hr
      exact ⟨t1, t2, by simp [← hr]⟩

theorem takes_type {e : Entry} {now : Nat} {o : Order} (h : OrderOf e now o) (ht : ¬ neverTakes o.params) :
    e.args.type ≠ .postOnly ∧ e.args.type ≠ .postOnlySlide := by
  have key : ∀ t, e.args.type.toPost = .ok t → ¬ (t ≠ .limit) → e.args.type ≠ .postOnly ∧ e.args.type ≠ .postOnlySlide := by
    intro t h1 h2
    have := (toPost_ok h1).2.2.mp (not_not.mp h2)
    rw [this]; simp
  cases hp : e.isPegged with
  | true =>
    obtain ⟨t, h1, h2⟩ := h.pegged hp
    rw [h2] at ht
    exact key t h1 ht
  | false =>
    rcases h.fixed hp with ⟨h1, h2⟩ | ⟨h1, h2⟩ | ⟨t, h1, h2⟩
    · rw [h1]; simp
    · rw [h1]; simp
    · rw [h2] at ht; exact key t h1 ht

/-- what an instruction does as operations of the market -/
def EOp.ops : EOp → List POp
  | .enter u e oracle now limit room =>
    match e.order now with
    | .ok (some o) => [.place u o oracle now limit room]
    | _ => []
  | .other op => if op.isPlace = true then [] else [op]

theorem erun_eq : ∀ (ops : List EOp) (s : PSys), erun s ops = prun s (ops.flatMap EOp.ops) := by
  intro ops
  induction ops with
  | nil => intro s; rfl
  | cons op ops ih =>
    intro s
    rw [List.flatMap_cons, prun_append]
    have h1 : prun s op.ops = match estep s op with | .ok s' => s' | .error _ => s := by
      cases op with
      | enter u e oracle now limit room =>
        simp only [EOp.ops, estep, enter]
        cases he : e.order now with
        | error x => rfl
        | ok r =>
          cases r with
          | none => rfl
          | some o =>
            show prun s [.place u o oracle now limit room] =
              match pstep s (.place u o oracle now limit room) with | .ok s' => s' | .error _ => s
            simp only [prun]
            cases pstep s (.place u o oracle now limit room) <;> rfl
      | other op =>
        cases op <;> simp only [EOp.ops, estep, POp.isPlace, if_true, if_false, prun, Bool.false_eq_true] <;>
          first
            | rfl
            | (generalize pstep s _ = r; cases r <;> rfl)
    simp only [erun]
    rw [h1]
    cases estep s op with
    | ok s' => exact ih s'
    | error e => exact ih s

theorem ops_typed {ops : List EOp} (h : ∀ op ∈ ops, op.Typed) : ∀ op ∈ ops.flatMap EOp.ops, op.Typed := by
  intro p hp
  obtain ⟨op, hop, hp⟩ := List.mem_flatMap.mp hp
  have ht := h op hop
  cases op with
  | enter u e oracle now limit room =>
    simp only [EOp.ops] at hp
    cases he : e.order now with
    | error x => rw [he] at hp; simp at hp
    | ok r =>
      rw [he] at hp
      cases r with
      | none => simp at hp
      | some o =>
        simp only [List.mem_singleton] at hp
        subst hp
        have hO := order_of he
        obtain ⟨t1, t2, t3, t4⟩ := ht
        refine ⟨by rw [hO.base]; exact t1, by rw [hO.quote]; exact t2, ?_⟩
        cases e with
        | v1 a => rcases hO.fixed rfl with ⟨_, h2⟩ | ⟨_, h2⟩ | ⟨t, _, h2⟩ <;> rw [h2] <;> first | trivial | exact t3
        | v2 a st => rcases hO.fixed rfl with ⟨_, h2⟩ | ⟨_, h2⟩ | ⟨t, _, h2⟩ <;> rw [h2] <;> first | trivial | exact t3
        | pegged a l n =>
          obtain ⟨_, ⟨h1, _⟩ | ⟨tif, t, h1, h2, h3⟩⟩ := peggedOrder_ok he
          · simp at h1
          · simp only [Option.some.injEq] at h3
            subst h3
            exact ⟨t3, t4⟩
        | peggedV2 a l n st =>
          obtain ⟨_, ⟨h1, _⟩ | ⟨tif, t, h1, h2, h3⟩⟩ := peggedOrder_ok he
          · simp at h1
          · simp only [Option.some.injEq] at h3
            subst h3
            exact ⟨t3, t4⟩
  | other op =>
    simp only [EOp.ops] at hp
    split at hp
    · simp at hp
    · rw [List.mem_singleton] at hp; subst hp; exact ht

theorem ops_placed (ops : List EOp) : ordersPlaced (ops.flatMap EOp.ops) ≤ ops.length := by
  induction ops with
  | nil => simp [ordersPlaced]
  | cons op ops ih =>
    rw [List.flatMap_cons, ordersPlaced_append, List.length_cons]
    have : ordersPlaced op.ops ≤ 1 := by
      cases op with
      | enter u e oracle now limit room =>
        simp only [EOp.ops]
        split <;> simp [ordersPlaced, POp.orders]
      | other op =>
        simp only [EOp.ops]
        split
        · simp [ordersPlaced]
        · cases op <;> simp [ordersPlaced, POp.orders]
    omega

/-- every order of the market's history comes from an instruction -/
theorem place_from {ops : List EOp} {u : Nat} {o : Order} {oracle : I80F48} {now limit : Nat} {room : Bool}
    (h : POp.place u o oracle now limit room ∈ ops.flatMap EOp.ops) : ∃ e, EOp.enter u e oracle now limit room ∈ ops ∧ OrderOf e now o := by
  obtain ⟨op, hop, hp⟩ := List.mem_flatMap.mp h
  cases op with
  | enter u' e oracle' now' limit' room' =>
    simp only [EOp.ops] at hp
    cases he : e.order now' with
    | error x => rw [he] at hp; simp at hp
    | ok r =>
      rw [he] at hp
      cases r with
      | none => simp at hp
      | some o' =>
        simp only [List.mem_singleton, POp.place.injEq] at hp
        obtain ⟨rfl, rfl, rfl, rfl, rfl, rfl⟩ := hp
        exact ⟨e, hop, order_of he⟩
  | other op =>
    simp only [EOp.ops] at hp
    split at hp
    · simp at hp
    · next hnp => rw [List.mem_singleton] at hp; subst hp; simp [POp.isPlace] at hnp

/-- **C105 (skipped).** An instruction with an expiry that is not in the future succeeds and changes nothing, whatever its other
arguments, unless they are refused; with refused arguments it fails, whatever the expiry. -/
theorem C105_skipped (s : PSys) (u : Nat) (e : Entry) (oracle : I80F48) (now limit : Nat) (room : Bool) :
    (¬ e.refused → 0 < e.args.expiry → e.args.expiry ≤ now → enter s u e oracle now limit room = .ok s) ∧
    (e.refused → ∃ err, enter s u e oracle now limit room = .error err) := by
  constructor
  · intro h1 h2 h3
    have ht := tif_none.mpr ⟨h2, h3⟩
    have key : e.order now = .ok none := by
      cases e <;> simp only [Entry.refused, Entry.args, not_lt, not_or, ne_eq, not_not] at h1 ht <;>
        simp [Entry.order, fixedOrder, peggedOrder, ht, require, h1] <;> rfl
    unfold enter
    rw [key]
    rfl
  · intro h
    have key : ∃ err, e.order now = .error err := by
      cases hr : e.order now with
      | error x => exact ⟨x, rfl⟩
      | ok r =>
        exfalso
        cases e with
        | v1 a => have := (fixedOrder_ok hr).1; simp only [Entry.refused] at h; omega
        | v2 a st => have := (fixedOrder_ok hr).1; simp only [Entry.refused] at h; omega
        | pegged a l n => have := (peggedOrder_ok hr).1; simp only [Entry.refused] at h; omega
        | peggedV2 a l n st => have := (peggedOrder_ok hr).1; simp only [Entry.refused] at h; omega
    obtain ⟨err, he⟩ := key
    refine ⟨err, ?_⟩
    unfold enter
    rw [he]
    rfl

/-- **C105 (trades).** After every history on a new market, for every trade in the event queue: the maker had made an instruction
placing an order at the time the trade names, not a market or immediate-or-cancel order, on the other side, which accepts the
price also by its peg limit and whose expiry the trade is before; the taker made one at the time of the trade, not post-only, which accepts the price and
had not expired. -/
theorem C105_trades (m : Market) (bookNodes queueLen : Nat) (fill : Event) (hm : m.idx ≠ FREE) (hn : bookNodes ≤ U32MAX) (hq : 0 < queueLen)
    (ops : List EOp) (ht : ∀ op ∈ ops, op.Typed) (hlen : ops.length < 9223372036854775808) :
    ∀ f ∈ fillsOf (pending (erun (PSys.init m bookNodes queueLen fill) ops)),
      ∃ (x : Int) (e em : Entry) (oracle oraclem : I80F48) (limit limitm : Nat) (room roomm : Bool),
        EOp.enter f.maker em oraclem f.makerTimestamp limitm roomm ∈ ops ∧ em.args.side = f.takerSide.invert ∧
        em.args.type ≠ .market ∧ em.args.type ≠ .immediateOrCancel ∧ em.accepts x f.price ∧ em.withinPeg f.price ∧
        mayTradeAt em.args.expiry f.makerTimestamp f.timestamp ∧ f.makerClientOrderId = em.args.clientId ∧ f.quantity ≤ em.args.maxBase ∧
        EOp.enter f.taker e oracle f.timestamp limit room ∈ ops ∧ e.args.side = f.takerSide ∧
        e.args.type ≠ .postOnly ∧ e.args.type ≠ .postOnlySlide ∧ e.accepts x f.price ∧
        mayTradeAt e.args.expiry f.timestamp f.timestamp ∧ f.takerClientOrderId = e.args.clientId ∧ f.quantity ≤ e.args.maxBase := by
  intro f hf
  rw [erun_eq] at hf
  have hb := ops_placed ops
  obtain ⟨o, om, oracle, x, limit, room, pre, post, s', h1, h2, h3, h4, h5, h6⟩ :=
    C103_trades m bookNodes queueLen fill hm hn hq _ (ops_typed ht) (by omega) f hf
  obtain ⟨e, he, hO⟩ := place_from (ops := ops) (u := f.taker) (o := o) (oracle := oracle) (now := f.timestamp) (limit := limit) (room := room)
    (by rw [h1]; simp)
  obtain ⟨oraclem, limitm, roomm, pre2, post2, s2, g1, g2⟩ := h5
  obtain ⟨em, hem, hOm⟩ := place_from (ops := ops) (u := f.maker) (o := om) (oracle := oraclem) (now := f.makerTimestamp) (limit := limitm) (room := roomm)
    (by rw [h1, g1]; simp)
  obtain ⟨c, hc⟩ : ∃ c, restsIn om.params = some c := Option.ne_none_iff_exists'.mp h6.rests
  obtain ⟨r1, r2, _⟩ := rests_type hOm hc
  obtain ⟨k1, k2⟩ := takes_type hO h4.takes
  exact ⟨x, e, em, oracle, oraclem, limit, limitm, room, roomm, hem, by rw [← hOm.side]; exact h6.side, r1, r2, accepts_of hOm h6.price, withinPeg_of hOm h6.worst,
    (tif_some hOm.tif).mp h6.alive, by rw [← hOm.client]; exact h6.client, by rw [← hOm.base]; exact h6.size,
    he, by rw [← hO.side]; exact h4.side, k1, k2, accepts_of hO h4.price, tif_alive hO.tif, by rw [← hO.client]; exact h4.client,
    by rw [← hO.base]; exact h4.size⟩

/-- **C105 (resting).** After every history on a new market, every order on the book comes from an instruction of its owner at the
time it carries, not a market or immediate-or-cancel order; it rests on that side, pegged exactly if the instruction was; at every
oracle price it trades only at a price the instruction accepts; and it counts as expired at a time exactly if that is not before the
instruction's expiry; it has the instruction's peg limit and client id. -/
theorem C105_resting (m : Market) (bookNodes queueLen : Nat) (fill : Event) (hm : m.idx ≠ FREE) (hn : bookNodes ≤ U32MAX) (hq : 0 < queueLen)
    (ops : List EOp) (ht : ∀ op ∈ ops, op.Typed) (hlen : ops.length < 9223372036854775808) :
    ∀ (sd : Side) (c : Comp), ∀ l ∈ booked (erun (PSys.init m bookNodes queueLen fill) ops).book sd c,
      ∃ (e : Entry) (oracle : I80F48) (limit : Nat) (room : Bool), EOp.enter l.owner e oracle l.timestamp limit room ∈ ops ∧ e.args.side = sd ∧
        e.args.type ≠ .market ∧ e.args.type ≠ .immediateOrCancel ∧ (c = .pegged ↔ e.isPegged = true) ∧ l.quantity ≤ e.args.maxBase ∧
        l.clientOrderId = e.args.clientId ∧ l.pegLimit = e.worst ∧ (∀ x p, tradesAt x c l p → e.accepts x p) ∧ ∀ t, ¬ timedOut l t ↔ mayTradeAt e.args.expiry l.timestamp t := by
  intro sd c l hl
  rw [erun_eq] at hl
  have hb := ops_placed ops
  obtain ⟨o, h1, h2⟩ := C103_orders m bookNodes queueLen fill hm hn hq _ (ops_typed ht) (by omega) sd c l hl
  obtain ⟨oracle, limit, room, pre, post, s', g1, g2⟩ := h1
  obtain ⟨e, he, hO⟩ := place_from (ops := ops) (u := l.owner) (o := o) (oracle := oracle) (now := l.timestamp) (limit := limit) (room := room)
    (by rw [g1]; simp)
  obtain ⟨r1, r2, r3⟩ := rests_type hO h2.kind
  refine ⟨e, oracle, limit, room, he, by rw [← hO.side]; exact h2.side, r1, r2, r3, by rw [← hO.base]; exact h2.size,
    by rw [← hO.client]; exact h2.client, h2.worst.trans (worst_of hO), fun x p hx => accepts_of hO (h2.price x p hx), ?_⟩
  intro t
  rw [← tif_some hO.tif, ← h2.life]
  unfold timedOut
  omega

/-! ## Example -/

def enBid (expiry : Nat) : PlaceArgs := { side := .bid, price := 100, maxBase := 10, maxQuote := 100000, clientId := 5, type := .limit, reduceOnly := false, expiry }
def enAsk : PlaceArgs := { side := .ask, price := 90, maxBase := 4, maxQuote := 100000, clientId := 6, type := .immediateOrCancel, reduceOnly := false, expiry := 0 }
/-- account 0 bids at time 1000 with an expiry far in the future, then with one in the past; account 1 sells at time 1000+`d` -/
def enOps (d : Nat) : List EOp :=
  [.other (.create 4), .other (.create 2), .enter 0 (.v1 (enBid 1000000)) (100 * S) 1000 10 true, .enter 0 (.v1 (enBid 1000)) (100 * S) 1000 10 true,
    .enter 1 (.v2 enAsk .decrementTake) (100 * S) (1000 + d) 10 true]

-- one second before 65535 seconds have passed the order trades, then it does not
example : (fillsOf (pending (erun (PSys.init txMk 12 8 txFill) (enOps 65534)))).map (fun f => (f.quantity, f.price, f.makerTimestamp)) = [(4, 100, 1000)] ∧
    fillsOf (pending (erun (PSys.init txMk 12 8 txFill) (enOps 65535))) = [] := by decide +kernel

-- a pegged order cannot be a market order, but one that has expired is skipped before that is noticed
example : enter (PSys.init txMk 12 8 txFill) 0 (.pegged { enBid 5 with type := .market } (-1) (-1)) (100 * S) 5 10 true = .ok (PSys.init txMk 12 8 txFill) ∧
    enter (PSys.init txMk 12 8 txFill) 0 (.pegged { enBid 5 with type := .market } (-1) (-1)) (100 * S) 4 10 true = .error .someError := by decide +kernel

/-- a bid pegged 10 lots above the oracle price of 100 lots, with peg limit 105, against an ask at 108 -/
def enPeg : List EOp :=
  [.other (.create 4), .other (.create 2), .enter 1 (.v1 { enAsk with price := 108, type := .limit }) (100 * S) 1000 10 true,
    .enter 0 (.pegged { enBid 0 with price := 10 } 105 (-1)) (100 * S) 1000 10 true]

-- the peg limit of the taker does not stop it from trading at 108
example : (fillsOf (pending (erun (PSys.init txMk 12 8 txFill) enPeg))).map (fun f => (f.quantity, f.price, f.taker)) = [(4, 108, 0)] := by decide +kernel

end Perp
end Mango
