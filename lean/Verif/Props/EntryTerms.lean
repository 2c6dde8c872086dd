import Verif.Props.Entry
import Verif.Props.PerpOrder
import Verif.Props.Match3
/-!
# C105: size, quote limit, reduce-only and self-trade behaviour, from the instruction's arguments to its trades
-/
namespace Mango
namespace Perp
open Book Fx PerpOrder

/-- what the instruction does about own orders; the first versions leave no choice -/
def Entry.selfTrade : Entry → SelfTrade
  | .v1 _ => .decrementTake
  | .v2 _ st => st
  | .pegged _ _ _ => .decrementTake
  | .peggedV2 _ _ _ st => st

theorem order_selfTrade {e : Entry} {now : Nat} {o : Order} (h : e.order now = .ok (some o)) : o.selfTrade = e.selfTrade := by
  cases e with
  | v1 a =>
    obtain ⟨_, ⟨h1, _⟩ | ⟨tif, params, h1, h2, h3⟩⟩ := fixedOrder_ok h
    · simp at h1
    · simp only [Option.some.injEq] at h2; subst h2; rfl
  | v2 a st =>
    obtain ⟨_, ⟨h1, _⟩ | ⟨tif, params, h1, h2, h3⟩⟩ := fixedOrder_ok h
    · simp at h1
    · simp only [Option.some.injEq] at h2; subst h2; rfl
  | pegged a l n =>
    obtain ⟨_, ⟨h1, _⟩ | ⟨tif, t, h1, h2, h3⟩⟩ := peggedOrder_ok h
    · simp at h1
    · simp only [Option.some.injEq] at h3; subst h3; rfl
  | peggedV2 a l n st =>
    obtain ⟨_, ⟨h1, _⟩ | ⟨tif, t, h1, h2, h3⟩⟩ := peggedOrder_ok h
    · simp at h1
    · simp only [Option.some.injEq] at h3; subst h3; rfl

/-- the trades of an order being placed -/
theorem place_trades {s s' : PSys} {sp : Side → SpecSide} (h : PInv s sp) {u : Nat} {o : Order} {oracle : I80F48} {now limit : Nat} {room : Bool}
    (ht : o.TypedArgs) (hs : pstep s (.place u o oracle now limit room) = .ok s') :
    ∃ evs, pending s' = pending s ++ evs ∧ (∀ f ∈ fillsOf evs, f.taker = u ∧ f.takerSide = o.side ∧ 0 < f.quantity ∧ 0 < f.price) ∧
      sumOf FillEv.quantity (fillsOf evs) ≤ o.maxBase ∧ sumOf (fun f : FillEv => f.quantity * f.price) (fillsOf evs) ≤ o.maxQuote ∧
      (fillsOf evs).length ≤ limit ∧
      (o.selfTrade ≠ .decrementTake → ∀ f ∈ fillsOf evs, f.maker ≠ u) := by
  simp only [pstep, placeOp, bind_ok, require_ok] at hs
  obtain ⟨_, hb, _, hq, hs⟩ := hs
  split at hs
  · simp at hs
  next a ha =>
  simp only [bind_ok, getPos_ok, Prod.exists, ok_inj] at hs
  obtain ⟨a1, h1, p, hp, o', h2, r, n, h3, rfl⟩ := hs
  obtain ⟨hI, _, _, _⟩ := h.ensure ha h1
  obtain ⟨mb, e, hmb, hmb2, ho'⟩ := reduceOrder_ok h2 ht hb hq
  have hq' : 0 ≤ o'.maxQuote := by rw [e]; exact hq
  have hb' : 0 ≤ o'.maxBase := by rw [e]; exact hmb
  have hfull : o'.maxBase ≤ o.maxBase := by rw [e]; exact hmb2
  have hS : Setup o' { market := s.market, acct := a1, book := s.book, queue := s.queue } sp := ⟨ho', hb', hq', h.live, h.queue⟩
  obtain ⟨orc, evs, e1, e2, f1, f2, f3, f4⟩ := C18_limits hS h3
  obtain ⟨P⟩ := Perp.place hS h3
  have hB' := (P.live hS.typed hS.live hS.base hS.quote).is
  have hside : o'.side = o.side := by rw [e]
  have hst : o'.selfTrade = o.selfTrade := by rw [e]
  have hqq : o'.maxQuote = o.maxQuote := by rw [e]
  refine ⟨evs, e2, fun f hf => ?_, Int.le_trans f2 hfull, by rw [← hqq]; exact f3, f4, ?_⟩
  · obtain ⟨g1, g2, g3, g4, _⟩ := f1 f hf
    exact ⟨g1, g2.trans hside, g3, g4⟩
  · intro hd
    obtain ⟨evs', k1, k2, _⟩ := C22_no_self_fill hS h3 (by rw [hst]; exact hd) e1 hB'
    have : evs' = evs := by rw [e2] at k1; exact (List.append_cancel_left k1).symm
    rw [← this]; exact k2

/-- **C105 (limits).** In every reachable state, if an instruction that has not expired succeeds: it adds trades with the account as
the taker on its side, together of at most the base and the quote lots asked for and not more trades than allowed; none is with the account itself unless own
orders may be traded with; and if it is reduce-only the position, with fills not yet consumed, is brought closer to zero. -/
theorem C105_limits {s s' : PSys} (hR : Reachable s) {u : Nat} {e : Entry} (ht : e.Typed) {oracle : I80F48} {now limit : Nat} {room : Bool}
    (hn : e.args.expiry = 0 ∨ now < e.args.expiry) (h : enter s u e oracle now limit room = .ok s') :
    (∃ evs, pending s' = pending s ++ evs ∧ (∀ f ∈ fillsOf evs, f.taker = u ∧ f.takerSide = e.args.side ∧ 0 < f.quantity ∧ 0 < f.price) ∧
      sumOf FillEv.quantity (fillsOf evs) ≤ e.args.maxBase ∧ sumOf (fun f : FillEv => f.quantity * f.price) (fillsOf evs) ≤ e.args.maxQuote ∧
      (fillsOf evs).length ≤ limit ∧ (e.selfTrade ≠ .decrementTake → ∀ f ∈ fillsOf evs, f.maker ≠ u)) ∧
    (e.args.reduceOnly = true → |effective (pget s'.accts u)| ≤ |effective (pget s.accts u)| ∧
      0 ≤ effective (pget s.accts u) * effective (pget s'.accts u)) := by
  unfold enter at h
  rw [bind_ok] at h
  obtain ⟨r, hr, h⟩ := h
  cases r with
  | none =>
    exfalso
    have hno : tifFromExpiry e.args.expiry now = none := by
      cases e with
      | v1 a => obtain ⟨_, ⟨_, h1⟩ | ⟨_, _, _, h2, _⟩⟩ := fixedOrder_ok hr; exact h1; simp at h2
      | v2 a st => obtain ⟨_, ⟨_, h1⟩ | ⟨_, _, _, h2, _⟩⟩ := fixedOrder_ok hr; exact h1; simp at h2
      | pegged a l n => obtain ⟨_, ⟨_, h1⟩ | ⟨_, _, _, _, h2⟩⟩ := peggedOrder_ok hr; exact h1; simp at h2
      | peggedV2 a l n st => obtain ⟨_, ⟨_, h1⟩ | ⟨_, _, _, _, h2⟩⟩ := peggedOrder_ok hr; exact h1; simp at h2
    have := tif_none.mp hno
    omega
  | some o =>
    dsimp only at h
    have hO := order_of hr
    obtain ⟨sp, hI⟩ := hR.inv
    have hto : o.TypedArgs := by
      have := ops_typed (ops := [.enter u e oracle now limit room]) (by simpa [EOp.Typed] using ht)
      exact this (.place u o oracle now limit room) (by simp [EOp.ops, hr])
    constructor
    · obtain ⟨evs, k1, k2, k3, k4, k6, k5⟩ := place_trades hI hto h
      exact ⟨evs, k1, fun f hf => by rw [← hO.side]; exact k2 f hf, by rw [← hO.base]; exact k3, by rw [← hO.quote]; exact k4, k6,
        by rw [← order_selfTrade hr]; exact k5⟩
    · intro hro
      obtain ⟨size, filled, posted, g1, g2, g3, _, g5, _, _, g8, _⟩ := placed_position hI hto h
      have g8 := g8 (.inl (by rw [hO.reduce]; exact hro))
      generalize effective (pget s'.accts u) = y at *
      generalize effective (pget s.accts u) = x at *
      cases hs : o.side <;> simp only [hs, Side.sgn] at g5 g8
      · by_cases hx : 0 ≤ x
        · have hy : y = x := by omega
          subst hy; exact ⟨le_refl _, mul_self_nonneg _⟩
        · have hy : y ≤ 0 := by omega
          refine ⟨?_, mul_nonneg_of_nonpos_of_nonpos (by omega) hy⟩
          rw [abs_of_nonpos hy, abs_of_neg (by omega)]; omega
      · by_cases hx : x ≤ 0
        · have hy : y = x := by omega
          subst hy; exact ⟨le_refl _, mul_self_nonneg _⟩
        · have hy : 0 ≤ y := by omega
          refine ⟨?_, mul_nonneg (by omega) hy⟩
          rw [abs_of_nonneg hy, abs_of_pos (by omega)]; omega

/-! ## Example -/

/-- account 0 has a resting bid and sells: with the first version it trades with itself, with the second it may cancel the bid -/
def selfOps (e : PlaceArgs → Entry) : List EOp :=
  [.other (.create 4), .enter 0 (.v1 (enBid 0)) (100 * S) 1000 10 true, .enter 0 (e enAsk) (100 * S) 1001 10 true]

example : (fillsOf (pending (erun (PSys.init txMk 12 8 txFill) (selfOps .v1)))).map (fun f => (f.quantity, f.price, f.maker, f.taker)) = [(4, 100, 0, 0)] ∧
    (pending (erun (PSys.init txMk 12 8 txFill) (selfOps (.v2 · .cancelProvide)))).length = 1 ∧
    fillsOf (pending (erun (PSys.init txMk 12 8 txFill) (selfOps (.v2 · .cancelProvide)))) = [] := by decide +kernel

end Perp
end Mango
