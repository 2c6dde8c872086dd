import Verif.Props.Match3
/-!
# C19, C21: a new order trades as much as it may and rests with the remainder

The other theorems about `newOrder` bound what it does.  Here: it leaves an acceptable offer standing only when its base limit, its
quote limit or its number of matches is used up, and leaves its remainder unposted only for the reasons listed.
-/
namespace Mango
namespace Perp
open Book Fx

variable {o : Order} {oracleNative : I80F48} {taker now limit : Nat} {s s' : NOState} {sp sp' : Side → SpecSide} {r : Option Nat}

/-- lots traded -/
def tradedBase (evs : List Event) : Int := sumOf FillEv.quantity (fillsOf evs)
/-- quote lots traded -/
def tradedQuote (evs : List Event) : Int := sumOf (fun f : FillEv => f.quantity * f.price) (fillsOf evs)

theorem Placed.traded (P : Placed o oracleNative taker now limit s sp r s') :
    ∃ evs, s'.queue.toList = s.queue.toList ++ evs ∧ o.maxBase - tradedBase evs = P.st.remBase ∧ o.maxQuote - tradedQuote evs = P.st.remQuote ∧
      (fillsOf evs).length + P.st.limit = limit := by
  obtain ⟨evs, e1, e2, _⟩ := P.events
  obtain ⟨s1, s2, _⟩ := fills_acts P.ctx P.acts s.queue.seqNum
  have hb := P.sum.base
  have hq := P.sum.quote
  have hl := P.sum.lim
  simp only at hb hq hl
  refine ⟨evs, e1, ?_, ?_, ?_⟩
  · unfold tradedBase
    rw [e2, s1 FillEv.quantity Act.base, hb]
    · intro i b n f hf; unfold fillEvent at hf; injection hf with hf; subst hf; rfl
    · intro a ha; cases a <;> simp_all [Act.isFill, Act.base]
  · unfold tradedQuote
    rw [e2, s1 (fun f : FillEv => f.quantity * f.price) Act.quote, hq]
    · intro i b n f hf; unfold fillEvent at hf; injection hf with hf; subst hf; rfl
    · intro a ha; cases a <;> simp_all [Act.isFill, Act.quote]
  · rw [e2, s2]; omega

/-- an acceptable price is within the limit the matching uses -/
theorem acceptable_within {P : Placed o oracleNative taker now limit s sp r s'} (hpo : o.isPostOnly = false) {p : Int}
    (hacc : acceptable o P.oracle p) (h1 : 1 ≤ p) (h2 : p ≤ I64MAX) : o.side.isPriceWithinLimit p P.price = true := by
  unfold acceptable at hacc
  rcases price_limit P.e_price hpo with hl | ⟨hl, hm⟩
  · rw [hl] at hacc
    cases hsd : o.side <;> rw [hsd] at hacc <;> simpa [Side.isPriceWithinLimit] using hacc
  · rw [hm]
    revert h1 h2
    cases o.side with
    | bid => intro h1 h2; simp only [Side.isPriceWithinLimit, marketLimit]; exact decide_eq_true h2
    | ask => intro h1 h2; simp only [Side.isPriceWithinLimit, marketLimit]; exact decide_eq_true h1

/-- **C19 (complete).** A new order that may trade leaves an acceptable offer standing only when all its base lots are traded, or its
match limit is reached, or what is left of its quote limit does not pay one lot of an acceptable offer that does not come after
the one left standing. -/
theorem C19_complete (hS : Setup o s sp) (h : newOrder o oracleNative taker now limit s = .ok (r, s')) (hpo : o.isPostOnly = false)
    {oracle : Int} (hor : s.market.nativePriceToLot oracleNative = .ok oracle) (hB' : BookIs s'.book sp')
    {c : Comp} {x y : Leaf} {p : Int} (hx : offerAt (sp o.side.invert) o.side.invert now oracle c x p) (hacc : acceptable o oracle p) (hp : p ≤ I64MAX)
    (hy : y ∈ (sp' o.side.invert).get c) (hk : y.key = x.key) :
    ∃ evs, s'.queue.toList = s.queue.toList ++ evs ∧
      (tradedBase evs = o.maxBase ∨ (fillsOf evs).length = limit ∨
       ∃ c' z q, offerAt (sp o.side.invert) o.side.invert now oracle c' z q ∧ acceptable o oracle q ∧ ¬ before o.side.invert p q x z ∧
         o.maxQuote - tradedQuote evs < q) := by
  obtain ⟨P⟩ := place hS h
  have ho := P.e_oracle
  rw [hor, ok_inj] at ho
  subst ho
  have hsp : sp' = P.post := hB'.unique (P.live hS.typed hS.live hS.base hS.quote).is
  rw [hsp, P.post_other] at hy
  obtain ⟨evs, e1, e2, e3, e4⟩ := P.traded
  refine ⟨evs, e1, ?_⟩
  have hpos := offers_pos P.offers (hS.live.pos _) (hS.live.one _)
  obtain ⟨⟨rest, hr1, hr2⟩, hfull⟩ := trace_stop P.trace hS.base hS.quote hpos
  obtain ⟨ix, hix, rfl, rfl, rfl, hvx⟩ := offer_item P.offers hx
  have hself : ¬ before o.side.invert ix.price ix.price ix.leaf ix.leaf := by
    unfold before; cases o.side <;> simp [Side.invert, Side.isPriceBetter]
  have h1x := (hpos ix hix).2
  rw [hr1] at hix
  rcases List.mem_append.mp hix with hi | hi
  · obtain ⟨a, ha, e⟩ := List.mem_map.mp hi
    rcases P.visited hS ha (by rw [e]; exact hvx) with ⟨i, rfl, _⟩ | ⟨i, b, rfl, _⟩
    · exact absurd hk (by have := P.gone hS ha (by simp [Act.delete, Act.item]) y (by rw [e]; exact hy); rwa [e] at this)
    · simp only [Act.item] at e
      subst e
      rcases hfull i b ha with h0 | h0 | h0
      · exact absurd hk (P.gone hS ha (by simp [Act.delete, Act.item, h0]) y hy)
      · left; omega
      · right; right
        exact ⟨_, _, _, hx, hacc, hself, by omega⟩
  · rcases hr2 with h0 | h0 | ⟨j, r', hj, hjv, hj2⟩
    · rw [h0] at hi; simp at hi
    · unfold MState.open at h0
      push Not at h0
      by_cases hb0 : P.st.remBase = 0
      · left; omega
      · right; right
        have : P.st.remQuote = 0 := by omega
        exact ⟨_, _, _, hx, hacc, hself, by omega⟩
    · have hjm : j ∈ P.items := by rw [hr1, hj]; simp
      have hoj := item_offer P.offers hjm hjv
      have hw := acceptable_within (P := P) hpo hacc h1x hp
      have hpr : j = ix ∨ priorTo o.side.invert j ix := by
        rw [hj] at hi
        rcases List.mem_cons.mp hi with e | hi
        · exact .inl e.symm
        · right
          have hsort := P.offers.sorted
          rw [hr1, hj] at hsort
          have hs2 := (List.pairwise_append.mp hsort).2.1
          rw [List.pairwise_cons] at hs2
          exact hs2.1 ix hi
      have hnb : ¬ before o.side.invert ix.price j.price ix.leaf j.leaf := by
        rcases hpr with rfl | hpr
        · exact hself
        · intro hc; exact before_not_prior hc hpr
      have hjacc : acceptable o P.oracle j.price := by
        rcases hpr with rfl | hpr
        · exact hacc
        · unfold acceptable at hacc ⊢
          unfold priorTo at hpr
          cases hl : limitOf o P.oracle with
          | none => trivial
          | some l =>
            rw [hl] at hacc
            cases hsd : o.side <;> rw [hsd] at hacc hpr <;> simp only [Side.invert, Side.isPriceBetter, decide_eq_true_eq] at hacc hpr ⊢ <;> omega
      rcases hj2 with h2 | ⟨_, h2 | h2⟩ | h2
      · exfalso
        have hjp : j.price ≤ I64MAX ∨ o.side = .ask := by
          rcases hpr with rfl | hpr
          · exact .inl hp
          · unfold priorTo at hpr
            cases hsd : o.side with
            | ask => exact .inr rfl
            | bid =>
              left; rw [hsd] at hpr; simp only [Side.invert, Side.isPriceBetter, decide_eq_true_eq] at hpr; omega
        have hj1 := (hpos j hjm).2
        rcases hjp with hjp | hask
        · rw [acceptable_within (P := P) hpo hjacc hj1 hjp] at h2; simp at h2
        · unfold acceptable at hjacc
          rcases price_limit P.e_price hpo with hl | ⟨hl, hm⟩
          · rw [hl, hask] at hjacc
            rw [hask] at h2
            simp [Side.isPriceWithinLimit] at h2; simp only at hjacc; omega
          · rw [hm, hask] at h2
            simp [Side.isPriceWithinLimit, marketLimit] at h2; omega
      · change o.isPostOnly = true at h2
        rw [hpo] at h2; simp at h2
      · right; left; omega
      · right; right
        exact ⟨_, _, _, hoj, hjacc, hnb, by omega⟩

/-- the price limit for resting orders: buys at most, sells at least, the maintenance weighted oracle price -/
def withinBand (m : Market) (side : Side) (nativePrice oracle : I80F48) : Prop :=
  match side with
  | .bid => nativePrice ≤ m.maintBaseLiabWeight * oracle / S
  | .ask => m.maintBaseAssetWeight * oracle / S ≤ nativePrice

theorem inside_iff {m : Market} {side : Side} {np oracle : I80F48} {b : Bool} (h : m.insidePriceLimit side np oracle = .ok b) :
    b = true ↔ withinBand m side np oracle := by
  unfold Market.insidePriceLimit at h
  unfold withinBand
  cases side <;> simp only [bind_ok, ok_inj, mul_ok] at h <;> obtain ⟨l, ⟨rfl, _⟩, rfl⟩ := h <;> simp

/-- new orders change neither lot sizes nor weights of the market -/
theorem Placed.band (P : Placed o oracleNative taker now limit s sp r s') :
    P.m2.lotToNativePrice = s.market.lotToNativePrice ∧ (∀ sd np, withinBand P.m2 sd np oracleNative ↔ withinBand s.market sd np oracleNative) := by
  obtain ⟨_, _, g3⟩ := genOrderId_ok P.e_gen
  have h1 : ∃ f n, P.m1 = { s.market with feesAccrued := f, seqNum := n } := by
    rcases penaltyStep_ok P.e_pen with ⟨_, f1, _⟩ | ⟨_, e, _⟩
    · rw [f1, g3]; exact ⟨_, _, rfl⟩
    · rw [e, g3]; exact ⟨s.market.feesAccrued, _, rfl⟩
  have h2 : ∃ f n, P.m2 = { s.market with feesAccrued := f, seqNum := n } := by
    obtain ⟨f, n, e⟩ := h1
    rcases (takerStep_ok P.e_taker).2.2 with ⟨_, _, e2, _⟩ | ⟨_, e2, _⟩
    · rw [e2, e]; exact ⟨_, _, rfl⟩
    · rw [e2, e]; exact ⟨_, _, rfl⟩
  obtain ⟨f, n, e⟩ := h2
  rw [e]
  exact ⟨rfl, fun sd np => by cases sd <;> rfl⟩

/-- the loop gives up posting only at an offer it must not or may not trade with -/
theorem trace_blocked {c : MCtx} {s s' : MState} {items : List Item} {acts : List Act} (h : Trace c s items acts s') (hn : s'.post = none)
    (h0 : s.post ≠ none) : ∃ rest i r, items = acts.map Act.item ++ rest ∧ rest = i :: r ∧ i.isValid = true ∧
      c.order.side.isPriceWithinLimit i.price c.price = true ∧ (c.order.isPostOnly = true ∨ s'.limit = 0) := by
  induction h with
  | nil s => exact absurd hn h0
  | full s i rest _ => exact absurd hn h0
  | outside s i rest _ _ _ => exact absurd hn h0
  | noQuote s i rest _ _ _ _ _ _ _ => exact absurd hn h0
  | block s i rest _ hv hw hb => exact ⟨i :: rest, i, rest, by simp, rfl, hv, hw, hb⟩
  | ignore s i rest acts s' _ _ _ _ ih =>
    obtain ⟨r1, j, r, e, h1⟩ := ih hn h0
    exact ⟨r1, j, r, by simp [Act.item, e], h1⟩
  | drop s i rest acts s' q _ _ _ _ _ ih =>
    obtain ⟨r1, j, r, e, h1⟩ := ih hn h0
    exact ⟨r1, j, r, by simp [Act.item, e], h1⟩
  | cancel s i rest acts s' q _ _ _ _ _ _ ih =>
    obtain ⟨r1, j, r, e, h1⟩ := ih hn h0
    exact ⟨r1, j, r, by simp [Act.item, e], h1⟩
  | fill s i rest acts s' q base _ _ _ _ _ _ _ ih =>
    obtain ⟨r1, j, r, e, h1⟩ := ih hn h0
    exact ⟨r1, j, r, by simp [Act.item, e], h1⟩

/-- **C21 (posted, exactly).** The order left resting has exactly the size that the order's limits leave after the trades: the untraded
base lots, or as many lots as the unspent quote pays at its price; it carries the order's expiry, peg limit and client id, and is
stamped with the current time. -/
theorem C21_posted_exact {id : Nat} (hS : Setup o s sp) (h : newOrder o oracleNative taker now limit s = .ok (some id, s'))
    {oracle : Int} (hor : s.market.nativePriceToLot oracleNative = .ok oracle) (hB' : BookIs s'.book sp') :
    ∃ evs t l p, s'.queue.toList = s.queue.toList ++ evs ∧ restsIn o.params = some t ∧ l ∈ (sp' o.side).get t ∧ l.key = id ∧ tradesAt oracle t l p ∧
      1 ≤ p ∧ PriceIs o (sp o.side.invert) now oracle p ∧
      l.quantity = min (o.maxBase - tradedBase evs) ((o.maxQuote - tradedQuote evs) / p) ∧
      l.owner = taker ∧ l.timestamp = now ∧ l.timeInForce = o.tif ∧ l.pegLimit = worstPeg o.params ∧ l.clientOrderId = o.clientId ∧
      ∃ np, s.market.lotToNativePrice p = .ok np ∧ withinBand s.market o.side np oracleNative := by
  obtain ⟨P⟩ := place hS h
  have ho := P.e_oracle
  rw [hor, ok_inj] at ho
  subst ho
  have hsp : sp' = P.post := hB'.unique (P.live hS.typed hS.live hS.base hS.quote).is
  obtain ⟨evs, e1, e2, e3, _⟩ := P.traded
  rcases P.fin with ⟨hr, _⟩ | ⟨hr, t, hpt, hpost, hq0, hdec, ⟨W⟩⟩
  · simp at hr
  simp only [Option.some.injEq] at hr
  have hkey : W.leaf.key = P.id := by rw [W.leaf_eq]
  have hp1 := (price_facts hS.typed P.e_price).1
  obtain ⟨_, _, hrq⟩ := P.acts_ok hS.live hS.base hS.quote
  refine ⟨evs, t, W.leaf, P.price, e1, (restsIn_eq o).trans hpt, ?_, hkey.trans hr.symm, P.leaf_price hS hpt hkey, hp1, price_is hS.live.is P.e_price, ?_, ?_, ?_, ?_, ?_, ?_, ?_⟩
  · rw [hsp, P.post_own]; exact W.mem
  · rw [W.leaf_eq, e2, e3]
    simp only
    rw [Int.tdiv_eq_ediv_of_nonneg hrq]
  · rw [W.leaf_eq]
  · rw [W.leaf_eq]
  · rw [W.leaf_eq]
  · rw [W.leaf_eq, worstPeg_eq]
  · rw [W.leaf_eq]
  · have hm : P.m2.lotToNativePrice = s.market.lotToNativePrice ∧ (∀ sd np, withinBand P.m2 sd np oracleNative ↔ withinBand s.market sd np oracleNative) := P.band
    rw [hpost] at hdec
    unfold postDecision at hdec
    rw [if_neg (by omega)] at hdec
    simp only [bind_ok, ok_inj] at hdec
    obtain ⟨np, h1, ins, h2, h3⟩ := hdec
    have hins : ins = true := by cases ins <;> simp at h3 ⊢
    subst hins
    refine ⟨np, by rw [← hm.1]; exact h1, (hm.2 _ _).mp ?_⟩
    exact (inside_iff h2).mp rfl

/-- **C21 (when the rest is not posted).** An order leaves nothing resting only if it is an immediate-or-cancel or market order, its base
lots are all traded, the unspent quote does not pay one lot at its price, its price is outside the band around the oracle price, or
an offer that could trade with it stands in the way of a post-only order or of an order whose match limit is reached. -/
theorem C21_not_posted (hS : Setup o s sp) (h : newOrder o oracleNative taker now limit s = .ok (none, s'))
    {oracle : Int} (hor : s.market.nativePriceToLot oracleNative = .ok oracle) (hB' : BookIs s'.book sp') :
    ∃ evs p, s'.queue.toList = s.queue.toList ++ evs ∧ PriceIs o (sp o.side.invert) now oracle p ∧
      (restsIn o.params = none ∨ tradedBase evs = o.maxBase ∨ o.maxQuote - tradedQuote evs < p ∨
       (∃ np, s.market.lotToNativePrice p = .ok np ∧ ¬ withinBand s.market o.side np oracleNative) ∨
       ((neverTakes o.params ∨ (fillsOf evs).length = limit) ∧
        ∃ c x q, offerAt (sp o.side.invert) o.side.invert now oracle c x q ∧ x ∈ (sp' o.side.invert).get c ∧
          (match o.side with | .bid => q ≤ p | .ask => p ≤ q))) := by
  rw [restsIn_eq, neverTakes_iff]
  obtain ⟨P⟩ := place hS h
  have ho := P.e_oracle
  rw [hor, ok_inj] at ho
  subst ho
  have hsp : sp' = P.post := hB'.unique (P.live hS.typed hS.live hS.base hS.quote).is
  obtain ⟨evs, e1, e2, e3, e4⟩ := P.traded
  have hp1 := (price_facts hS.typed P.e_price).1
  obtain ⟨_, hrb, hrq⟩ := P.acts_ok hS.live hS.base hS.quote
  refine ⟨evs, P.price, e1, price_is hS.live.is P.e_price, ?_⟩
  have hn := P.e_none rfl
  unfold postDecision at hn
  by_cases hq : min P.st.remBase (P.st.remQuote.tdiv P.price) ≤ 0
  · by_cases hb : P.st.remBase = 0
    · right; left; omega
    · right; right; left
      have : P.st.remQuote.tdiv P.price ≤ 0 := by omega
      rw [Int.tdiv_eq_ediv_of_nonneg hrq] at this
      have h0 : 0 ≤ P.st.remQuote / P.price := Int.ediv_nonneg hrq (by omega)
      have hz : P.st.remQuote / P.price = 0 := by omega
      rw [e3]
      by_contra hc
      have := (Int.le_ediv_iff_mul_le (c := P.price) (a := 1) (b := P.st.remQuote) (by omega)).mpr (by omega)
      omega
  rw [if_neg hq] at hn
  cases hps : P.st.post with
  | some t =>
    rw [hps] at hn
    simp only [bind_ok, ok_inj] at hn
    obtain ⟨np, h1, ins, h2, h3⟩ := hn
    have hins : ins = false := by cases ins <;> simp at h3 ⊢
    subst hins
    right; right; right; left
    refine ⟨np, by rw [← P.band.1]; exact h1, fun hc => ?_⟩
    have := (inside_iff h2).mpr ((P.band.2 _ _).mpr hc)
    simp at this
  | none =>
    cases hpt : o.postTarget with
    | none => left; rfl
    | some t =>
      right; right; right; right
      obtain ⟨rest, j, r', hr1, hj, hjv, hjw, hjb⟩ := trace_blocked P.trace hps (by simp [hpt])
      have hjm : j ∈ P.items := by rw [hr1, hj]; simp
      refine ⟨?_, j.comp, j.leaf, j.price, item_offer P.offers hjm hjv, ?_, by unfold Side.isPriceWithinLimit at hjw; cases hsd : o.side <;> rw [hsd] at hjw <;> simpa using hjw⟩
      · rcases hjb with hb | hb
        · exact .inl hb
        · right; omega
      · rw [hsp, P.post_other]
        by_contra hc
        obtain ⟨a, ha, e⟩ := P.touched hS hjm hjv hc
        have hnd := P.offers.nodup (hS.live.is.keys _)
        rw [hr1, hj, List.map_append, List.map_cons] at hnd
        have := (List.nodup_append.mp hnd).2.2 (ck j) (List.mem_map.mpr ⟨j, List.mem_map.mpr ⟨a, ha, e⟩, rfl⟩) (ck j) (by simp)
        exact this rfl

end Perp
end Mango
