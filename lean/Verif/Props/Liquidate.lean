import Verif.Bots.Liquidate
import Verif.Props.HealthState
import Verif.Props.TokenLiqGain
import Verif.Props.Bankruptcy
/-!
# C89: the liquidator always finds something the program accepts
-/
namespace Mango
namespace Liquidator
open Fx Health Liquidation

/-! ## Specification -/

/-- what the data of an account guarantees: an open orders account without funds has none of any kind, prices are positive and asset weights are not negative -/
structure Sane (now : Int) (l : Liqee) : Prop where
  zero : ∀ o ∈ l.orders, o.hasZeroFunds = true → o.baseFree = 0 ∧ o.quoteFree = 0 ∧ o.baseReserved = 0 ∧ o.quoteReserved = 0
  price : ∀ p ∈ l.tokens, 0 < (l.banks p.tokenIndex).oracle
  init : ∀ p ∈ l.tokens, 0 ≤ (l.banks p.tokenIndex).bank.initAssetWeight
  maint : ∀ p ∈ l.tokens, ∀ a b, (l.banks p.tokenIndex).bank.maintWeights now = .ok (a, b) → 0 ≤ a

/-- the health cache `c` is that of the account -/
structure Describes (rnd : ℚ → ℚ) (now : Int) (l : Liqee) (c : Cache) : Prop where
  distinct : (l.tokens.map (·.tokenIndex)).Nodup
  cache : accountCache rnd now l.banks l.tokens l.orders l.perps = .ok c

/-- no open orders, no funds in open orders accounts -/
structure NoOrders (l : Liqee) : Prop where
  perp : ∀ x ∈ l.perps, x.2.1.asks = 0 ∧ x.2.1.bids = 0
  spot : ∀ o ∈ l.orders, o.hasZeroFunds = true

/-- the account owns (owes) token `t`: as a position, and with perp pnl -/
def Owns (c : Cache) (t : Nat) : Prop := ∃ x ∈ c.tokens, x.tokenIndex = t ∧ S ≤ x.balanceSpot ∧ S ≤ Formula.balance c .liqEnd x ∧ x.allowAssetLiquidation = true
def Owes (c : Cache) (t : Nat) : Prop := ∃ x ∈ c.tokens, x.tokenIndex = t ∧ x.balanceSpot < 0 ∧ Formula.balance c .liqEnd x < 0

/-- nothing of the first two phases is left: neither orders nor base positions, fills and positive pnl in perp markets, and not both a token to take and a token to repay -/
structure OnlyLosses (l : Liqee) (c : Cache) : Prop where
  noOrders : NoOrders l
  perp : ∀ x ∈ l.perps, x.2.1.base = 0 ∧ x.2.1.takerBase = 0 ∧ x.2.1.takerQuote = 0 ∧ x.2.1.quote ≤ 0
  spot : ¬ ((∃ t, Owns c t) ∧ ∃ t, Owes c t)

/-- what the account must be like for the program to accept the instruction -/
def Possible (l : Liqee) (c : Cache) : Act → Prop
  | .cancelPerp m => ∃ x ∈ l.perps, x.1.idx = m ∧ (x.2.1.asks ≠ 0 ∨ x.2.1.bids ≠ 0)
  | .cancelSpot ms => ms ≠ [] ∧ ∀ m ∈ ms, ∃ o ∈ l.orders, o.marketIndex = m ∧ o.hasZeroFunds = false
  | .perpBase m => NoOrders l ∧ ∃ x ∈ l.perps, x.1.idx = m ∧ (x.2.1.base ≠ 0 ∨ x.2.1.quote > 0) ∧ x.2.1.takerBase = 0 ∧ x.2.1.takerQuote = 0
  | .tokenLiq a b => NoOrders l ∧ a ≠ b ∧ Owns c a ∧ Owes c b
  | .perpNegative m => OnlyLosses l c ∧ ∃ x ∈ l.perps, x.1.idx = m ∧ x.2.1.quote < 0
  | .tokenBankruptcy t => OnlyLosses l c ∧ Owes c t

/-- random choices stay within the list -/
structure Rng.Fair (r : Rng) : Prop where
  choose : ∀ l : List Nat, l ≠ [] → r.choose l ∈ l
  shuffle : ∀ l : List Nat, (r.shuffle l).Perm l

/-! ## Lists -/

theorem mapSome_mem {α β : Type} {f : α → Res (Option β)} : ∀ {l : List α} {r : List β}, mapSome f l = .ok r → ∀ b, b ∈ r ↔ ∃ a ∈ l, f a = .ok (some b) := by
  intro l
  induction l with
  | nil => intro r h; simp [mapSome] at h; subst h; simp
  | cons a l ih =>
    intro r h b
    simp only [mapSome, bind_ok, ok_inj] at h
    obtain ⟨o, h1, bs, h2, rfl⟩ := h
    rw [List.mem_append, ih h2]
    simp only [List.mem_cons, exists_eq_or_imp]
    apply or_congr _ Iff.rfl
    rw [h1]
    cases o <;> simp [eq_comm]

theorem mapSome_all {α β : Type} {f : α → Res (Option β)} : ∀ {l : List α} {r : List β}, mapSome f l = .ok r → ∀ a ∈ l, ∃ o, f a = .ok o := by
  intro l
  induction l with
  | nil => intro r h; simp
  | cons a l ih =>
    intro r h
    simp only [mapSome, bind_ok, ok_inj] at h
    obtain ⟨o, h1, bs, h2, rfl⟩ := h
    intro x hx
    rcases List.mem_cons.mp hx with hx' | hx'
    · subst hx'; exact ⟨o, h1⟩
    · exact ih h2 x hx'

theorem mapRes_mem {α β : Type} {f : α → Res β} {l : List α} {r : List β} (h : mapRes f l = .ok r) :
    (∀ b ∈ r, ∃ a ∈ l, f a = .ok b) ∧ ∀ a ∈ l, ∃ b ∈ r, f a = .ok b := by
  have := mapRes_ok h
  clear h
  induction this with
  | nil => simp
  | cons h _ ih =>
    simp only [List.mem_cons]
    refine ⟨?_, ?_⟩
    · rintro b (rfl | hb)
      · exact ⟨_, Or.inl rfl, h⟩
      · obtain ⟨a, ha, e⟩ := ih.1 b hb; exact ⟨a, Or.inr ha, e⟩
    · rintro a (rfl | ha)
      · exact ⟨_, Or.inl rfl, h⟩
      · obtain ⟨b, hb, e⟩ := ih.2 a ha; exact ⟨b, Or.inr hb, e⟩

theorem forall₂_mem {α β : Type} {R : α → β → Prop} {l : List α} {m : List β} (h : List.Forall₂ R l m) :
    (∀ a ∈ l, ∃ b ∈ m, R a b) ∧ ∀ b ∈ m, ∃ a ∈ l, R a b := by
  induction h with
  | nil => simp
  | cons h _ ih =>
    simp only [List.mem_cons]
    refine ⟨?_, ?_⟩
    · rintro a (rfl | ha)
      · exact ⟨_, Or.inl rfl, h⟩
      · obtain ⟨b, hb, e⟩ := ih.1 a ha; exact ⟨b, Or.inr hb, e⟩
    · rintro b (rfl | hb)
      · exact ⟨_, Or.inl rfl, h⟩
      · obtain ⟨a, ha, e⟩ := ih.2 b hb; exact ⟨a, Or.inr ha, e⟩

instance candTotal : Std.Total candBefore := ⟨by
  intro a b
  unfold candBefore
  cases a.preferred <;> cases b.preferred <;> simp <;> omega⟩
instance candTrans : IsTrans Cand candBefore := ⟨by
  intro a b c
  unfold candBefore
  cases a.preferred <;> cases b.preferred <;> cases c.preferred <;> simp <;> omega⟩

theorem head_first {α : Type} {r : α → α → Prop} {l : List α} (h : l.Pairwise r) {a : α} (ha : l.head? = some a) : ∀ b ∈ l, b = a ∨ r a b := by
  cases l with
  | nil => simp at ha
  | cons x l =>
    simp at ha; subst ha
    intro b hb
    rcases List.mem_cons.mp hb with hb' | hb'
    · exact Or.inl hb'
    · exact Or.inr ((List.pairwise_cons.mp h).1 b hb')

theorem getLast_last {α : Type} {r : α → α → Prop} {l : List α} (h : l.Pairwise r) {a : α} (ha : l.getLast? = some a) : ∀ b ∈ l, b = a ∨ r b a := by
  obtain ⟨m, rfl⟩ := List.getLast?_eq_some_iff.mp ha
  intro b hb
  rcases List.mem_append.mp hb with hb' | hb'
  · exact Or.inr ((List.pairwise_append.mp h).2.2 b hb' a (by simp))
  · simp at hb'; exact Or.inl hb'

theorem find_first {α : Type} {r : α → α → Prop} {P : α → Bool} {l : List α} (h : l.Pairwise r) {a : α} (ha : l.find? P = some a) : ∀ b ∈ l, P b = true → b = a ∨ r a b := by
  induction l with
  | nil => simp at ha
  | cons x l ih =>
    rw [List.find?_cons] at ha
    intro b hb hP
    obtain ⟨h1, h2⟩ := List.pairwise_cons.mp h
    cases hx : P x with
    | true =>
      rw [hx] at ha; simp at ha; subst ha
      rcases List.mem_cons.mp hb with hb' | hb'
      · exact Or.inl hb'
      · exact Or.inr (h1 b hb')
    | false =>
      rw [hx] at ha
      rcases List.mem_cons.mp hb with hb' | hb'
      · subst hb'; rw [hx] at hP; simp at hP
      · exact ih h2 ha b hb' hP

/-! ## The cache and the account -/

theorem Describes.facts {rnd : ℚ → ℚ} {now : Int} {l : Liqee} {c : Cache} (d : Describes rnd now l c) :
    List.Forall₂ (fun p t => TokenFor rnd now (l.banks p.tokenIndex) l.orders p t) l.tokens c.tokens ∧
      List.Forall₂ (MarketFor c.tokens) l.orders c.serums ∧ List.Forall₂ PerpFor l.perps c.perps ∧ (c.tokens.map (·.tokenIndex)).Nodup :=
  accountCache_for d.distinct d.cache

theorem noOrders_iff {rnd : ℚ → ℚ} {now : Int} {l : Liqee} {c : Cache} (d : Describes rnd now l c) :
    NoOrders l ↔ (∀ s ∈ c.serums, s.hasZeroFunds = true) ∧ ∀ p ∈ c.perps, p.hasOpenOrders = false := by
  obtain ⟨_, hm, hp, _⟩ := d.facts
  obtain ⟨m1, m2⟩ := forall₂_mem hm
  obtain ⟨p1, p2⟩ := forall₂_mem hp
  constructor
  · rintro ⟨a, b⟩
    refine ⟨?_, ?_⟩
    · intro s hs
      obtain ⟨o, ho, h⟩ := m2 s hs
      rw [h.zero]; exact b o ho
    · intro p hp
      obtain ⟨x, hx, h⟩ := p2 p hp
      rw [h.openOrders]
      simp [a x hx]
  · rintro ⟨a, b⟩
    refine ⟨?_, ?_⟩
    · intro x hx
      obtain ⟨p, hp, h⟩ := p1 x hx
      have := b p hp
      rw [h.openOrders] at this
      simp at this
      exact ⟨this.1, this.2⟩
    · intro o ho
      obtain ⟨s, hs, h⟩ := m1 o ho
      rw [← h.zero]; exact a s hs

theorem phase1_iff {rnd : ℚ → ℚ} {now : Int} {l : Liqee} {c : Cache} (d : Describes rnd now l c) : phase1 c = false ↔ NoOrders l := by
  rw [noOrders_iff d]
  unfold phase1
  simp only [Bool.or_eq_false_iff, decide_eq_false_iff_not, not_exists, not_and]
  simp

theorem zip_bal {c : Cache} (hd : (c.tokens.map (·.tokenIndex)).Nodup) {bs : List Int} (hb : c.balances .liqEnd = .ok bs) (x : TokenInfo × I80F48) :
    x ∈ c.tokens.zip bs ↔ x.1 ∈ c.tokens ∧ x.2 = Formula.balance c .liqEnd x.1 := by
  obtain ⟨hl, he⟩ := Formula.balances_of hd hb
  rw [mem_zip_iff]
  constructor
  · rintro ⟨i, h1, h2⟩
    refine ⟨List.mem_of_getElem? h1, ?_⟩
    rw [he i _ h1] at h2
    simp at h2; exact h2.symm
  · rintro ⟨h1, h2⟩
    obtain ⟨i, hi⟩ := List.mem_iff_getElem?.mp h1
    exact ⟨i, hi, by rw [h2]; exact he i _ hi⟩

theorem spot_iff {c : Cache} (hd : (c.tokens.map (·.tokenIndex)).Nodup) {b : Bool} (h : c.hasPossibleSpotLiquidations = .ok b) :
    b = true ↔ (∃ t, Owns c t) ∧ ∃ t, Owes c t := by
  simp only [Cache.hasPossibleSpotLiquidations, bind_ok, ok_inj] at h
  obtain ⟨bs, hb, rfl⟩ := h
  simp only [decide_eq_true_eq]
  rw [and_comm]
  apply and_congr
  · constructor
    · rintro ⟨x, hx, h1, h2, h3⟩
      obtain ⟨a, e⟩ := (zip_bal hd hb x).mp hx
      exact ⟨x.1.tokenIndex, x.1, a, rfl, h1, by rw [← e]; exact h2, h3⟩
    · rintro ⟨t, x, hx, _, h1, h2, h3⟩
      exact ⟨(x, _), (zip_bal hd hb _).mpr ⟨hx, rfl⟩, h1, h2, h3⟩
  · constructor
    · rintro ⟨x, hx, h1, h2⟩
      obtain ⟨a, e⟩ := (zip_bal hd hb x).mp hx
      exact ⟨x.1.tokenIndex, x.1, a, rfl, h1, by rw [← e]; exact h2⟩
    · rintro ⟨t, x, hx, _, h1, h2⟩
      exact ⟨(x, _), (zip_bal hd hb _).mpr ⟨hx, rfl⟩, h1, h2⟩

theorem borrows_iff {c : Cache} (hd : (c.tokens.map (·.tokenIndex)).Nodup) {b : Bool} (h : spotBorrows c = .ok b) : b = true ↔ ∃ t, Owes c t := by
  simp only [spotBorrows, bind_ok, ok_inj] at h
  obtain ⟨bs, hb, rfl⟩ := h
  simp only [decide_eq_true_eq]
  constructor
  · rintro ⟨x, hx, h1, h2⟩
    obtain ⟨a, e⟩ := (zip_bal hd hb x).mp hx
    exact ⟨x.1.tokenIndex, x.1, a, rfl, h1, by rw [← e]; exact h2⟩
  · rintro ⟨t, x, hx, _, h1, h2⟩
    exact ⟨(x, _), (zip_bal hd hb _).mpr ⟨hx, rfl⟩, h1, h2⟩

/-- the second phase is over exactly if only losses are left -/
theorem phase2_iff {rnd : ℚ → ℚ} {now : Int} {l : Liqee} {c : Cache} (d : Describes rnd now l c) (ho : NoOrders l) {b : Bool} (h : phase2 c = .ok b) :
    b = false ↔ OnlyLosses l c := by
  obtain ⟨_, _, hp, hd⟩ := d.facts
  obtain ⟨p1, p2⟩ := forall₂_mem hp
  simp only [phase2, bind_ok, ok_inj] at h
  obtain ⟨sl, hs, rfl⟩ := h
  have hs := spot_iff hd hs
  simp only [Bool.or_eq_false_iff, decide_eq_false_iff_not, not_exists, not_and]
  constructor
  · rintro ⟨⟨⟨h1, h2⟩, h3⟩, h4⟩
    refine ⟨ho, ?_, ?_⟩
    · intro x hx
      obtain ⟨p, hp, h⟩ := p1 x hx
      have h2 := h2 p hp
      have h3 := h3 p hp
      have h4 := h4 p hp
      rw [h.openFills] at h3
      simp at h3
      obtain ⟨t1, t2⟩ := h3
      have hl := h.lots
      have hq := h.quote
      have hb : x.2.1.base = 0 := by omega
      rw [t2, hb] at hq
      simp at hq
      refine ⟨hb, t1, t2, ?_⟩
      by_contra hc
      exact h4 (by omega) (by rw [hq]; omega)
    · intro hc
      rw [hs.mpr hc] at h1; simp at h1
  · rintro ⟨_, h2, h3⟩
    refine ⟨⟨⟨?_, ?_⟩, ?_⟩, ?_⟩
    · cases sl with
      | false => rfl
      | true => exact absurd (hs.mp rfl) h3
    · intro p hp hc
      obtain ⟨x, hx, h⟩ := p2 p hp
      obtain ⟨a, b, _⟩ := h2 x hx
      have := h.lots
      omega
    · intro p hp
      obtain ⟨x, hx, h⟩ := p2 p hp
      obtain ⟨a, b, e, _⟩ := h2 x hx
      rw [h.openFills]
      simp [b, e]
    · intro p hp _
      obtain ⟨x, hx, h⟩ := p2 p hp
      obtain ⟨a, b, e, f⟩ := h2 x hx
      have hq := h.quote
      rw [a, e] at hq
      simp at hq
      rw [hq]; omega

/-- pnl of a position of which only a loss is left -/
theorem loss_value {x : Perp.Market × Perp.Pos × I80F48} {p : PerpInfo} (h : PerpFor x p) (h0 : x.2.1.asks = 0 ∧ x.2.1.bids = 0)
    (h1 : x.2.1.base = 0 ∧ x.2.1.takerBase = 0 ∧ x.2.1.takerQuote = 0 ∧ x.2.1.quote ≤ 0) (ht : HT) : Formula.perpValue p ht = x.2.1.quote ∧ p.quote = x.2.1.quote ∧ p.baseLots = 0 := by
  have hl := h.lots
  have hq := h.quote
  have hb := h.bids
  have ha := h.asks
  obtain ⟨a, b, e, f⟩ := h1
  rw [a, e] at hq
  rw [a, b] at hl
  rw [h0.2] at hb
  rw [h0.1] at ha
  simp at hq hl
  refine ⟨?_, hq, hl⟩
  unfold Formula.perpValue Formula.ifExecuted
  simp only [hl, hq, ha, hb]
  simp
  omega

theorem sum_nonpos {α : Type} {f : α → Int} : ∀ {l : List α}, (∀ x ∈ l, f x ≤ 0) → sumOf f l ≤ 0 := by
  intro l
  induction l with
  | nil => intro _; simp
  | cons a l ih =>
    intro h
    rw [sumOf_cons]
    have := h a (by simp)
    have := ih (fun x hx => h x (List.mem_cons_of_mem _ hx))
    omega

theorem balance_le {rnd : ℚ → ℚ} {now : Int} {l : Liqee} {c : Cache} (d : Describes rnd now l c) (o : OnlyLosses l c) (ht : HT) (t : TokenInfo) :
    Formula.balance c ht t ≤ t.balanceSpot := by
  obtain ⟨_, _, hp, _⟩ := d.facts
  obtain ⟨p1, p2⟩ := forall₂_mem hp
  unfold Formula.balance
  have : sumOf (fun p : PerpInfo => if p.settleTokenIndex = t.tokenIndex then Formula.perpValue p ht else 0) c.perps ≤ 0 := by
    apply sum_nonpos
    intro p hp
    obtain ⟨x, hx, h⟩ := p2 p hp
    have e := (loss_value h (o.noOrders.perp x hx) (o.perp x hx) ht).1
    have := (o.perp x hx).2.2.2
    split <;> omega
  omega

/-- spot balances without funds in open orders accounts are those of the positions -/
theorem spot_native {rnd : ℚ → ℚ} {now : Int} {l : Liqee} {p : Health.Pos} {t : TokenInfo} (hs : Sane now l) (ho : NoOrders l)
    (h : TokenFor rnd now (l.banks p.tokenIndex) l.orders p t) {n : I80F48} (hn : nativeOf l p = .ok n) : t.balanceSpot = n := by
  rw [h.balance]
  have : sumOf (fun o : OpenOrd => (if o.base = p.tokenIndex then o.baseFree * S else 0) + (if o.quote = p.tokenIndex then o.quoteFree * S else 0)) l.orders = 0 := by
    apply sumOf_zero
    intro o hm
    obtain ⟨e1, e2, _⟩ := hs.zero o hm (ho.spot o hm)
    simp [e1, e2]
  rw [this]
  simp only [nativeOf, mul_ok] at hn
  omega

/-! ## The program's phases are complete -/

/-- **C89, the phases are complete** If an account has negative health (maintenance or liquidation-end) and nothing of the first two liquidation phases is left in it, then it owes a token or has a perp
position with a loss: one of the two bankruptcy instructions applies. -/
theorem C89_phases {rnd : ℚ → ℚ} {fd : FDiv} (hfd0 : ∀ p x, fd 0 p = .ok x → x = 0) {now : Int} {l : Liqee} {c : Cache} (d : Describes rnd now l c) (hs : Sane now l)
    {h : HT} (hh : h ≠ .init) {v : Int} (hv : c.health fd h = .ok v) (neg : v < 0) (o : OnlyLosses l c) :
    (∃ t, Owes c t) ∨ ∃ x ∈ l.perps, x.2.1.quote < 0 := by
  by_contra hc
  push Not at hc
  obtain ⟨h1, h2⟩ := hc
  obtain ⟨ht, hm, hp, hd⟩ := d.facts
  obtain ⟨t1, t2⟩ := forall₂_mem ht
  obtain ⟨p1, p2⟩ := forall₂_mem hp
  obtain ⟨m1, m2⟩ := forall₂_mem hm
  have hz : ∀ x ∈ c.serums, x.reservedBase = 0 ∧ x.reservedQuote = 0 ∧ 0 ≤ x.reservedQuoteAsBaseHighestBid := by
    intro x hx
    obtain ⟨y, hy, e⟩ := m2 x hx
    obtain ⟨_, _, e1, e2⟩ := hs.zero y hy (o.noOrders.spot y hy)
    rw [e.reservedBase, e.reservedQuote, e.highestBid, e1, e2]
    simp
  have hsum := health_tokens hfd0 hd hz hv
  have hbal : ∀ ht t, Formula.balance c ht t = t.balanceSpot := by
    intro ht t
    unfold Formula.balance
    have : sumOf (fun p : PerpInfo => if p.settleTokenIndex = t.tokenIndex then Formula.perpValue p ht else 0) c.perps = 0 := by
      apply sumOf_zero
      intro p hp
      obtain ⟨x, hx, e⟩ := p2 p hp
      have e := (loss_value e (o.noOrders.perp x hx) (o.perp x hx) ht).1
      have := (o.perp x hx).2.2.2
      have := h2 x hx
      split <;> omega
    omega
  have : 0 ≤ v := by
    rw [hsum]
    apply sumOf_nonneg_mem
    intro t htm
    rw [hbal]
    have hpos : 0 ≤ t.balanceSpot := by
      by_contra hc
      exact h1 t.tokenIndex ⟨t, htm, rfl, by omega, by rw [hbal]; omega⟩
    obtain ⟨p, hpm, e⟩ := t2 t htm
    have o1 := hs.price p hpm
    have w1 := hs.init p hpm
    have w2 := hs.maint p hpm _ _ e.maint
    rw [← e.oracle] at o1
    rw [← e.initAsset] at w1
    unfold Formula.tokenValue
    rw [if_pos hpos]
    apply floor_nonneg
    apply Int.mul_nonneg hpos
    apply floor_nonneg
    cases h with
    | init => exact absurd rfl hh
    | liqEnd => exact Int.mul_nonneg w1 o1.le
    | maint => exact Int.mul_nonneg w2 o1.le
  omega

/-! ## Choosing tokens -/

/-- value of what can be taken of token `x` (repaid of it) -/
def takeValue (c : Cache) (x : TokenInfo) : Int := min x.balanceSpot (Formula.balance c .liqEnd x) * x.prices.oracle / S
def repayValue (c : Cache) (x : TokenInfo) : Int := min (-x.balanceSpot) (-Formula.balance c .liqEnd x) * x.prices.oracle / S
/-- tokens with an asset weight and more than a dollar to take (a dollar is 10^6 native units of the quote token) -/
def Worthwhile (c : Cache) (x : TokenInfo) : Prop := 0 < x.maintAssetWeight ∧ 1000000 * S < takeValue c x

theorem assetCand_ok {x : TokenInfo × I80F48} {o : Option Cand} (h : assetCand x = .ok o) :
    o = if S ≤ x.1.balanceSpot ∧ S ≤ x.2 ∧ x.1.allowAssetLiquidation = true
      then some ⟨x.1.tokenIndex, decide (0 < x.1.maintAssetWeight ∧ 1000000 * S < min x.1.balanceSpot x.2 * x.1.prices.oracle / S), min x.1.balanceSpot x.2 * x.1.prices.oracle / S⟩
      else none := by
  simp only [assetCand, bind_ok, mul_ok, ok_inj] at h
  obtain ⟨v, ⟨rfl, _⟩, rfl⟩ := h
  have e : (min x.1.balanceSpot x.2 ≥ ONE ∧ x.1.allowAssetLiquidation = true) ↔ (S ≤ x.1.balanceSpot ∧ S ≤ x.2 ∧ x.1.allowAssetLiquidation = true) := by
    have : ONE = S := rfl
    rw [this, ge_iff_le, le_min_iff, and_assoc]
  simp only [e]
  rfl

theorem liabCand_ok {x : TokenInfo × I80F48} {o : Option Cand} (h : liabCand x = .ok o) :
    o = if x.1.balanceSpot < 0 ∧ x.2 < 0 then some ⟨x.1.tokenIndex, false, min (-x.1.balanceSpot) (-x.2) * x.1.prices.oracle / S⟩ else none := by
  simp only [liabCand, bind_ok, neg_ok, mul_ok, ok_inj] at h
  obtain ⟨a, ⟨rfl, _⟩, b, ⟨rfl, _⟩, v, ⟨rfl, _⟩, rfl⟩ := h
  have e : (min (-x.1.balanceSpot) (-x.2) > 0) ↔ (x.1.balanceSpot < 0 ∧ x.2 < 0) := by
    rw [gt_iff_lt, lt_min_iff]
    omega
  simp only [e]

theorem findBest_fst {cfg : Cfg} {l : List Cand} {a : Nat} (h : (findBest cfg l).1 = some a) : ∃ k ∈ l, k.index = a ∧ a ∉ cfg.forbiddenTokens := by
  unfold findBest at h
  have := List.mem_of_head? h
  simp only [List.mem_map, List.mem_filter, decide_eq_true_eq] at this
  obtain ⟨k, ⟨hk, hf⟩, rfl⟩ := this
  exact ⟨k, hk, rfl, hf⟩

theorem findBest_snd {cfg : Cfg} {l : List Cand} {a : Nat} (h : (findBest cfg l).2 = some a) :
    ∃ k ∈ l, k.index = a ∧ a ∉ cfg.forbiddenTokens ∧ (cfg.onlyTokens = [] ∨ a ∈ cfg.onlyTokens) := by
  unfold findBest at h
  dsimp only at h
  have h1 := List.mem_of_find?_eq_some h
  have h2 := List.find?_some h
  simp only [List.mem_map, List.mem_filter, decide_eq_true_eq] at h1 h2
  obtain ⟨k, ⟨hk, hf⟩, rfl⟩ := h1
  exact ⟨k, hk, rfl, hf, h2⟩

theorem findBest_none {cfg : Cfg} {l : List Cand} : ((findBest cfg l).1 = none ↔ ∀ k ∈ l, k.index ∈ cfg.forbiddenTokens) ∧
    ((findBest cfg l).2 = none ↔ ∀ k ∈ l, k.index ∈ cfg.forbiddenTokens ∨ ¬ (cfg.onlyTokens = [] ∨ k.index ∈ cfg.onlyTokens)) := by
  unfold findBest
  dsimp only
  constructor
  · rw [List.head?_eq_none_iff, List.map_eq_nil_iff, List.filter_eq_nil_iff]
    simp
  · rw [List.find?_eq_none]
    simp only [List.mem_map, List.mem_filter, decide_eq_true_eq]
    constructor
    · intro h k hk
      by_cases hf : k.index ∈ cfg.forbiddenTokens
      · exact Or.inl hf
      · exact Or.inr (h _ ⟨k, ⟨hk, hf⟩, rfl⟩)
    · rintro h i ⟨k, ⟨hk, hf⟩, rfl⟩
      rcases h k hk with h' | h'
      · exact absurd h' hf
      · exact h'

theorem bestPair_some {a l : Option Nat × Option Nat} {x y : Nat} (h : bestPair a l = some (x, y)) :
    (a.2 = some x ∧ l.1 = some y) ∨ (a.1 = some x ∧ l.2 = some y) := by
  obtain ⟨a1, a2⟩ := a
  obtain ⟨l1, l2⟩ := l
  unfold bestPair at h
  cases a2 <;> cases l1 <;> cases a1 <;> cases l2 <;> simp at h ⊢ <;> (try exact h) <;> (try exact Or.inl h) <;> exact Or.inr h

theorem bestPair_none {a l : Option Nat × Option Nat} (h : bestPair a l = none) : (a.2 = none ∨ l.1 = none) ∧ (a.1 = none ∨ l.2 = none) := by
  obtain ⟨a1, a2⟩ := a
  obtain ⟨l1, l2⟩ := l
  unfold bestPair at h
  cases a2 <;> cases l1 <;> cases a1 <;> cases l2 <;> simp at h ⊢

/-- none of the account's tokens is forbidden -/
def NoneForbidden (cfg : Cfg) (l : Liqee) : Prop := ∀ p ∈ l.tokens, p.tokenIndex ∉ cfg.forbiddenTokens

theorem liqTokens_all {rnd : ℚ → ℚ} {now : Int} {l : Liqee} {c : Cache} (d : Describes rnd now l c) {cfg : Cfg} (hn : NoneForbidden cfg l) (bs : List I80F48) :
    (∀ t ∈ c.tokens, t.tokenIndex ∉ cfg.forbiddenTokens) ∧ liqTokens cfg c bs = c.tokens.zip bs := by
  have h : ∀ t ∈ c.tokens, t.tokenIndex ∉ cfg.forbiddenTokens := by
    intro t ht
    obtain ⟨p, hp, e⟩ := (forall₂_mem d.facts.1).2 t ht
    rw [e.index]; exact hn p hp
  refine ⟨h, ?_⟩
  unfold liqTokens
  rw [List.filter_eq_self.mpr]
  intro t ht
  simpa using h t ht

/-- the candidates, if no token is forbidden -/
theorem cands {rnd : ℚ → ℚ} {now : Int} {l : Liqee} {c : Cache} (d : Describes rnd now l c) {cfg : Cfg} (hn : NoneForbidden cfg l) {bs : List I80F48}
    (hb : c.balances .liqEnd = .ok bs) {as ls : List Cand} (ha : mapSome assetCand (liqTokens cfg c bs) = .ok as) (hl : mapSome liabCand (liqTokens cfg c bs) = .ok ls) :
    (∀ k, k ∈ as ↔ ∃ x ∈ c.tokens, (S ≤ x.balanceSpot ∧ S ≤ Formula.balance c .liqEnd x ∧ x.allowAssetLiquidation = true) ∧
      k.index = x.tokenIndex ∧ (k.preferred = true ↔ Worthwhile c x) ∧ k.value = takeValue c x) ∧
    (∀ k, k ∈ ls ↔ ∃ x ∈ c.tokens, (x.balanceSpot < 0 ∧ Formula.balance c .liqEnd x < 0) ∧ k = ⟨x.tokenIndex, false, repayValue c x⟩) := by
  obtain ⟨_, _, _, hd⟩ := d.facts
  rw [(liqTokens_all d hn bs).2] at ha hl
  constructor
  · intro k
    rw [mapSome_mem ha]
    constructor
    · rintro ⟨x, hx, e⟩
      obtain ⟨h1, h2⟩ := (zip_bal hd hb x).mp hx
      have e := assetCand_ok e
      split at e
      · rename_i hc
        simp at e
        rw [e, h2] at *
        refine ⟨x.1, h1, hc, rfl, ?_, rfl⟩
        simp [Worthwhile, takeValue]
      · simp at e
    · rintro ⟨x, hx, hc, h1, h2, h3⟩
      have hz := (zip_bal hd hb (x, Formula.balance c .liqEnd x)).mpr ⟨hx, rfl⟩
      refine ⟨_, hz, ?_⟩
      obtain ⟨o, ho⟩ := mapSome_all ha _ hz
      have e := assetCand_ok ho
      rw [if_pos hc] at e
      rw [ho, e]
      congr 2
      obtain ⟨i, pr, v⟩ := k
      simp only [Cand.mk.injEq]
      refine ⟨h1.symm, ?_, h3.symm⟩
      rw [Bool.eq_iff_iff, decide_eq_true_eq]
      exact h2.symm
  · intro k
    rw [mapSome_mem hl]
    constructor
    · rintro ⟨x, hx, e⟩
      obtain ⟨h1, h2⟩ := (zip_bal hd hb x).mp hx
      have e := liabCand_ok e
      split at e
      · rename_i hc
        simp only [Option.some.injEq] at e
        rw [h2] at *
        exact ⟨x.1, h1, hc, e⟩
      · simp at e
    · rintro ⟨x, hx, hc, rfl⟩
      have hz := (zip_bal hd hb (x, Formula.balance c .liqEnd x)).mpr ⟨hx, rfl⟩
      refine ⟨_, hz, ?_⟩
      obtain ⟨o, ho⟩ := mapSome_all hl _ hz
      have e := liabCand_ok ho
      rw [if_pos hc] at e
      rw [ho, e]
      rfl

/-- what `token_liq` does -/
theorem tokenLiqPair_ok {cfg : Cfg} {c : Cache} {o : Option Out} (h : tokenLiqPair cfg c = .ok o) :
    ∃ sl, c.hasPossibleSpotLiquidations = .ok sl ∧ ((sl = false ∧ o = none) ∨
      (sl = true ∧ ∃ bs as ls, c.balances .liqEnd = .ok bs ∧ mapSome assetCand (liqTokens cfg c bs) = .ok as ∧ mapSome liabCand (liqTokens cfg c bs) = .ok ls ∧
        ((∃ a l, bestPair (findBest cfg (as.insertionSort candBefore)) (findBest cfg (ls.insertionSort candBefore)) = some (a, l) ∧ o = some (.act (.tokenLiq a l))) ∨
         (bestPair (findBest cfg (as.insertionSort candBefore)) (findBest cfg (ls.insertionSort candBefore)) = none ∧ o = some .bail)))) := by
  simp only [tokenLiqPair, bind_ok] at h
  obtain ⟨sl, hs, h⟩ := h
  refine ⟨sl, hs, ?_⟩
  cases sl with
  | false => simp at h; exact Or.inl ⟨rfl, h.symm⟩
  | true =>
    right
    simp only [Bool.true_eq_false, if_false, bind_ok] at h
    obtain ⟨bs, hb, as, ha, ls, hl, h⟩ := h
    refine ⟨rfl, bs, as, ls, hb, ha, hl, ?_⟩
    split at h
    · rename_i a l e
      simp at h
      exact Or.inl ⟨a, l, e, h.symm⟩
    · rename_i e
      simp at h
      exact Or.inr ⟨e, h.symm⟩

/-! ## The order of things -/

theorem noOrders_lists (l : Liqee) : (perpOrderMarkets l = [] ∧ spotOrderMarkets l = []) ↔ NoOrders l := by
  unfold perpOrderMarkets spotOrderMarkets
  rw [List.map_eq_nil_iff, List.filter_eq_nil_iff, List.map_eq_nil_iff, List.filter_eq_nil_iff]
  constructor
  · rintro ⟨h1, h2⟩
    refine ⟨?_, ?_⟩
    · intro x hx
      have := h1 x hx
      simp at this
      exact this
    · intro o ho
      have := h2 o ho
      simpa using this
  · rintro ⟨h1, h2⟩
    refine ⟨?_, ?_⟩
    · intro x hx
      simp [h1 x hx]
    · intro o ho
      simp [h2 o ho]

/-- the last phase -/
def Final (cfg : Cfg) (l : Liqee) (c : Cache) (out : Out) : Prop :=
  ∃ p3 sb, inPhase3 c = .ok p3 ∧ spotBorrows c = .ok sb ∧
    ((∃ m, p3 = true ∧ perpNegativeMarket l = some m ∧ out = .act (.perpNegative m)) ∨
     ((p3 = false ∨ perpNegativeMarket l = none) ∧
      ((p3 = true ∧ sb = true ∧ ∃ t, bankruptToken cfg l = .ok t ∧ out = (match t with | some t => .act (.tokenBankruptcy t) | none => .bail)) ∨
       (¬ (p3 = true ∧ sb = true) ∧ out = .bail))))

theorem sendLiqTx_ok {cfg : Cfg} {rng : Rng} {rnd : ℚ → ℚ} {now : Int} {l : Liqee} {c : Cache} (d : Describes rnd now l c) {out : Out} (h : sendLiqTx cfg rng l c = .ok out) :
    (perpOrderMarkets l ≠ [] ∧ out = .act (.cancelPerp (rng.choose (perpOrderMarkets l)))) ∨
    (perpOrderMarkets l = [] ∧ spotOrderMarkets l ≠ [] ∧ out = .act (.cancelSpot (cancelled cfg rng (spotOrderMarkets l)))) ∨
    (NoOrders l ∧ ((∃ m, perpBaseMarket cfg l = .ok (some m) ∧ out = .act (.perpBase m)) ∨
      (perpBaseMarket cfg l = .ok none ∧ (tokenLiqPair cfg c = .ok (some out) ∨
        (tokenLiqPair cfg c = .ok none ∧ (((∃ p ∈ c.perps, p.hasOpenFills = true) ∧ out = .wait) ∨
          ((¬ ∃ p ∈ c.perps, p.hasOpenFills = true) ∧ ∃ p2, phase2 c = .ok p2 ∧ ((p2 = true ∧ out = .bail) ∨ (p2 = false ∧ Final cfg l c out))))))))) := by
  unfold sendLiqTx at h
  by_cases h1 : perpOrderMarkets l ≠ []
  · rw [if_pos h1, ok_inj] at h
    exact Or.inl ⟨h1, h.symm⟩
  rw [if_neg h1] at h
  push Not at h1
  by_cases h2 : spotOrderMarkets l ≠ []
  · rw [if_pos h2, ok_inj] at h
    exact Or.inr (Or.inl ⟨h1, h2, h.symm⟩)
  rw [if_neg h2] at h
  push Not at h2
  have ho := (noOrders_lists l).mp ⟨h1, h2⟩
  have h3 := (phase1_iff d).mpr ho
  rw [if_neg (by rw [h3]; simp)] at h
  refine Or.inr (Or.inr ⟨ho, ?_⟩)
  simp only [bind_ok] at h
  obtain ⟨pb, hpb, h⟩ := h
  cases pb with
  | some m =>
    dsimp only at h
    rw [ok_inj] at h
    exact Or.inl ⟨m, hpb, h.symm⟩
  | none =>
    refine Or.inr ⟨hpb, ?_⟩
    simp only [bind_ok] at h
    obtain ⟨tl, htl, h⟩ := h
    cases tl with
    | some o =>
      dsimp only at h
      rw [ok_inj] at h
      subst h
      exact Or.inl htl
    | none =>
      refine Or.inr ⟨htl, ?_⟩
      dsimp only at h
      by_cases h4 : ∃ p ∈ c.perps, p.hasOpenFills = true
      · rw [if_pos h4, ok_inj] at h
        exact Or.inl ⟨h4, h.symm⟩
      · rw [if_neg h4] at h
        refine Or.inr ⟨h4, ?_⟩
        simp only [bind_ok] at h
        obtain ⟨p2, hp2, h⟩ := h
        refine ⟨p2, hp2, ?_⟩
        cases p2 with
        | true => simp at h; exact Or.inl ⟨rfl, h.symm⟩
        | false =>
          right
          refine ⟨rfl, ?_⟩
          simp only [Bool.false_eq_true, if_false, bind_ok] at h
          obtain ⟨p3, hp3, sb, hsb, h⟩ := h
          refine ⟨p3, sb, hp3, hsb, ?_⟩
          cases hm : (if p3 = true then perpNegativeMarket l else none) with
          | some m =>
            rw [hm] at h
            dsimp only at h
            rw [ok_inj] at h
            cases p3 with
            | false => simp at hm
            | true => simp at hm; exact Or.inl ⟨m, rfl, hm, h.symm⟩
          | none =>
            rw [hm] at h
            right
            refine ⟨?_, ?_⟩
            · cases p3 with
              | false => simp
              | true => simp at hm; exact Or.inr hm
            · dsimp only at h
              by_cases h5 : p3 = true ∧ sb = true
              · rw [if_pos h5] at h
                simp only [bind_ok] at h
                obtain ⟨t, ht, h⟩ := h
                refine Or.inl ⟨h5.1, h5.2, t, ht, ?_⟩
                cases t <;> simp at h <;> exact h.symm
              · rw [if_neg h5, ok_inj] at h
                exact Or.inr ⟨h5, h.symm⟩

theorem perpBase_ok {cfg : Cfg} {l : Liqee} {o : Option Nat} (h : perpBaseMarket cfg l = .ok o) :
    (o = none → ∀ x ∈ l.perps, perpAllowed cfg x.1.idx → ¬ perpTakeable x.2.1) ∧
    ∀ m, o = some m → ∃ x ∈ l.perps, x.1.idx = m ∧ perpAllowed cfg m ∧ perpTakeable x.2.1 ∧
      ∀ y ∈ l.perps, perpAllowed cfg y.1.idx → perpTakeable y.2.1 → Int.natAbs y.2.1.base * y.2.2 ≤ Int.natAbs x.2.1.base * x.2.2 := by
  simp only [perpBaseMarket, bind_ok, ok_inj] at h
  obtain ⟨cs, hc, rfl⟩ := h
  obtain ⟨m1, m2⟩ := mapRes_mem hc
  have val : ∀ {x : Perp.Market × Perp.Pos × I80F48} {b : Nat × I80F48}, (do
      let v ← Fx.mul (Fx.ofInt (Int.natAbs x.2.1.base)) x.2.2
      (.ok (x.1.idx, v) : Res (Nat × I80F48))) = .ok b → b = (x.1.idx, Int.natAbs x.2.1.base * x.2.2) := by
    intro x b h
    simp only [bind_ok, mul_ok, ok_inj] at h
    obtain ⟨v, ⟨hv, _⟩, rfl⟩ := h
    rw [hv]
    unfold ofInt
    rw [Int.mul_right_comm, Int.mul_ediv_cancel _ (by have := S_pos; omega)]
  have mf : ∀ x, x ∈ l.perps.filter (fun x => perpAllowed cfg x.1.idx ∧ perpTakeable x.2.1) ↔ x ∈ l.perps ∧ perpAllowed cfg x.1.idx ∧ perpTakeable x.2.1 := by
    intro x; rw [List.mem_filter, decide_eq_true_eq]
  constructor
  · intro hn x hx ha ht
    simp only [Option.map_eq_none_iff, List.getLast?_eq_none_iff] at hn
    have : cs = [] := by
      have := List.length_insertionSort (fun a b : Nat × I80F48 => a.2 ≤ b.2) cs
      rw [hn] at this
      exact List.eq_nil_of_length_eq_zero this.symm
    obtain ⟨b, hb, _⟩ := m2 x ((mf x).mpr ⟨hx, ha, ht⟩)
    rw [this] at hb
    simp at hb
  · intro m hm
    simp only [Option.map_eq_some_iff] at hm
    obtain ⟨b, hb, rfl⟩ := hm
    have hmem := (List.mem_insertionSort _).mp (List.mem_of_getLast? hb)
    obtain ⟨x, hx, e⟩ := m1 b hmem
    obtain ⟨x1, x2, x3⟩ := (mf x).mp hx
    have e := val e
    rw [e]
    refine ⟨x, x1, rfl, x2, x3, ?_⟩
    intro y hy ha ht
    obtain ⟨b', hb', e'⟩ := m2 y ((mf y).mpr ⟨hy, ha, ht⟩)
    have e' := val e'
    have : Std.Total (fun a b : Nat × I80F48 => a.2 ≤ b.2) := ⟨fun a b => Int.le_total _ _⟩
    have : IsTrans (Nat × I80F48) (fun a b : Nat × I80F48 => a.2 ≤ b.2) := ⟨fun a b c h1 h2 => Int.le_trans h1 h2⟩
    rcases getLast_last (List.pairwise_insertionSort (fun a b : Nat × I80F48 => a.2 ≤ b.2) cs) hb b' ((List.mem_insertionSort _).mpr hb') with hl | hl
    · rw [hl, e] at e'
      have := congrArg Prod.snd e'
      dsimp only at this
      omega
    · rw [e, e'] at hl
      exact hl

theorem perpNegative_ok (l : Liqee) :
    (perpNegativeMarket l = none → ∀ x ∈ l.perps, 0 ≤ x.2.1.quote) ∧
    ∀ m, perpNegativeMarket l = some m → ∃ x ∈ l.perps, x.1.idx = m ∧ x.2.1.quote < 0 ∧ ∀ y ∈ l.perps, x.2.1.quote ≤ y.2.1.quote := by
  unfold perpNegativeMarket
  generalize hcs : ((l.perps.map (fun x => (x.1.idx, x.2.1.quote))).filter (fun x => x.2 < 0)) = cs
  have mem : ∀ b, b ∈ cs ↔ b.2 < 0 ∧ ∃ x ∈ l.perps, (x.1.idx, x.2.1.quote) = b := by
    intro b
    rw [← hcs, List.mem_filter, List.mem_map, decide_eq_true_eq, and_comm]
  constructor
  · intro hn x hx
    simp only [Option.map_eq_none_iff, List.head?_eq_none_iff] at hn
    have : cs = [] := by
      have := List.length_insertionSort (fun a b : Nat × I80F48 => a.2 ≤ b.2) cs
      rw [hn] at this
      exact List.eq_nil_of_length_eq_zero this.symm
    by_contra hc
    have := (mem (x.1.idx, x.2.1.quote)).mpr ⟨by dsimp only; omega, x, hx, rfl⟩
    simp_all
  · intro m hm
    simp only [Option.map_eq_some_iff] at hm
    obtain ⟨b, hb, rfl⟩ := hm
    have hmem := (List.mem_insertionSort _).mp (List.mem_of_head? hb)
    obtain ⟨hneg, x, hx, rfl⟩ := (mem b).mp hmem
    refine ⟨x, hx, rfl, hneg, ?_⟩
    intro y hy
    have : Std.Total (fun a b : Nat × I80F48 => a.2 ≤ b.2) := ⟨fun a b => Int.le_total _ _⟩
    have : IsTrans (Nat × I80F48) (fun a b : Nat × I80F48 => a.2 ≤ b.2) := ⟨fun a b c h1 h2 => Int.le_trans h1 h2⟩
    by_cases hc : y.2.1.quote < 0
    · rcases head_first (List.pairwise_insertionSort (fun a b : Nat × I80F48 => a.2 ≤ b.2) cs) hb _ ((List.mem_insertionSort _).mpr ((mem (y.1.idx, y.2.1.quote)).mpr ⟨hc, y, hy, rfl⟩)) with hl | hl
      · simp at hl; omega
      · exact hl
    · dsimp only at hneg; omega

theorem bankrupt_ok {cfg : Cfg} {l : Liqee} {o : Option Nat} (h : bankruptToken cfg l = .ok o) :
    (∀ p ∈ l.tokens, ∃ n, nativeOf l p = .ok n ∧ (o = none → n * (l.banks p.tokenIndex).oracle / S < 0 → p.tokenIndex ∈ cfg.forbiddenTokens)) ∧
    ∀ t, o = some t → t ∉ cfg.forbiddenTokens ∧ ∃ p ∈ l.tokens, ∃ n, p.tokenIndex = t ∧ nativeOf l p = .ok n ∧ n * (l.banks t).oracle / S < 0 ∧
      ∀ q ∈ l.tokens, ∀ m, nativeOf l q = .ok m → q.tokenIndex ∉ cfg.forbiddenTokens → n * (l.banks t).oracle / S ≤ m * (l.banks q.tokenIndex).oracle / S := by
  simp only [bankruptToken, tokensByValue, bind_ok, ok_inj] at h
  obtain ⟨ts, ⟨us, hu, rfl⟩, rfl⟩ := h
  obtain ⟨m1, m2⟩ := mapRes_mem hu
  have val : ∀ {p : Health.Pos} {b : Nat × I80F48}, (do
      let n ← nativeOf l p
      let v ← Fx.mul n (l.banks p.tokenIndex).oracle
      (.ok (p.tokenIndex, v) : Res (Nat × I80F48))) = .ok b → ∃ n, nativeOf l p = .ok n ∧ b = (p.tokenIndex, n * (l.banks p.tokenIndex).oracle / S) := by
    intro p b h
    simp only [bind_ok, mul_ok, ok_inj] at h
    obtain ⟨n, hn, v, ⟨hv, _⟩, rfl⟩ := h
    exact ⟨n, hn, by rw [hv]⟩
  constructor
  · intro p hp
    obtain ⟨b, hb, e⟩ := m2 p hp
    obtain ⟨n, hn, rfl⟩ := val e
    refine ⟨n, hn, ?_⟩
    intro ho hneg
    simp only [Option.map_eq_none_iff, List.find?_eq_none, decide_eq_true_eq, not_and, not_not] at ho
    exact ho _ ((List.mem_insertionSort _).mpr hb) hneg
  · intro t ht
    simp only [Option.map_eq_some_iff] at ht
    obtain ⟨b, hb, rfl⟩ := ht
    have h1 := List.mem_of_find?_eq_some hb
    have h2 := List.find?_some hb
    simp only [decide_eq_true_eq] at h2
    obtain ⟨p, hp, e⟩ := m1 b ((List.mem_insertionSort _).mp h1)
    obtain ⟨n, hn, rfl⟩ := val e
    refine ⟨h2.2, p, hp, n, rfl, hn, h2.1, ?_⟩
    intro q hq m hm hf
    obtain ⟨b', hb', e'⟩ := m2 q hq
    obtain ⟨m', hm', rfl⟩ := val e'
    rw [hm, ok_inj] at hm'
    subst hm'
    have : Std.Total (fun a b : Nat × I80F48 => a.2 ≤ b.2) := ⟨fun a b => Int.le_total _ _⟩
    have : IsTrans (Nat × I80F48) (fun a b : Nat × I80F48 => a.2 ≤ b.2) := ⟨fun a b c h1 h2 => Int.le_trans h1 h2⟩
    by_cases hneg : m * (l.banks q.tokenIndex).oracle / S < 0
    · rcases find_first (List.pairwise_insertionSort (fun a b : Nat × I80F48 => a.2 ≤ b.2) us) hb _ ((List.mem_insertionSort _).mpr hb') (by simp [hneg, hf]) with hl | hl
      · have := congrArg Prod.snd hl
        dsimp only at this ⊢
        omega
      · exact hl
    · have := h2.1
      dsimp only at this ⊢
      omega

/-! ## Theorems -/

/-- **C89, what is sent is possible** If no token of the account is on the liquidator's forbidden list and at least one cancellation fits into a transaction, then the instruction it sends is one whose
conditions the account meets: the program's own order of phases is kept. -/
theorem C89_possible {cfg : Cfg} {rng : Rng} (hr : rng.Fair) (hfit : ∀ ms : List Nat, ms ≠ [] → 1 ≤ cfg.fits ms) {rnd : ℚ → ℚ} {now : Int} {l : Liqee} {c : Cache}
    (d : Describes rnd now l c) (hs : Sane now l) (hn : NoneForbidden cfg l) {a : Act} (h : sendLiqTx cfg rng l c = .ok (.act a)) : Possible l c a := by
  obtain ⟨htok, _, _, hd⟩ := d.facts
  rcases sendLiqTx_ok d h with ⟨h1, h2⟩ | ⟨_, h1, h2⟩ | ⟨ho, h⟩
  · injection h2 with h2
    subst h2
    have := hr.choose _ h1
    unfold perpOrderMarkets at this
    simp only [List.mem_map, List.mem_filter, decide_eq_true_eq] at this
    obtain ⟨x, ⟨hx, hx2⟩, e⟩ := this
    exact ⟨x, hx, e, hx2⟩
  · injection h2 with h2
    subst h2
    have hp := hr.shuffle (spotOrderMarkets l)
    have hne : rng.shuffle (spotOrderMarkets l) ≠ [] := by
      intro hc
      rw [hc] at hp
      exact h1 hp.symm.eq_nil
    refine ⟨?_, ?_⟩
    · unfold cancelled
      intro hc
      rw [List.take_eq_nil_iff] at hc
      have := hfit _ hne
      rcases hc with hc | hc
      · omega
      · exact hne hc
    · intro m hm
      unfold cancelled at hm
      have := hp.mem_iff.mp (List.mem_of_mem_take hm)
      unfold spotOrderMarkets at this
      simp only [List.mem_map, List.mem_filter, decide_eq_true_eq] at this
      obtain ⟨o, ⟨ho, ho2⟩, e⟩ := this
      exact ⟨o, ho, e, ho2⟩
  · rcases h with ⟨m, hb, h2⟩ | ⟨hb, h⟩
    · injection h2 with h2
      subst h2
      obtain ⟨x, hx, e, _, ht, _⟩ := (perpBase_ok hb).2 m rfl
      refine ⟨ho, x, hx, e, ?_⟩
      unfold perpTakeable at ht
      omega
    · rcases h with h | ⟨_, h⟩
      · obtain ⟨sl, hsl, h⟩ := tokenLiqPair_ok h
        rcases h with ⟨_, h⟩ | ⟨hsl', bs, as, ls, hbs, has, hls, h⟩
        · simp at h
        rcases h with ⟨x, y, hxy, h⟩ | ⟨_, h⟩
        · simp only [Option.some.injEq, Out.act.injEq] at h
          subst h
          obtain ⟨ca, cl⟩ := cands d hn hbs has hls
          have key : (∃ k ∈ as, k.index = x) ∧ ∃ k ∈ ls, k.index = y := by
            rcases bestPair_some hxy with ⟨e1, e2⟩ | ⟨e1, e2⟩
            · obtain ⟨k, hk, e, _⟩ := findBest_snd e1
              obtain ⟨k', hk', e', _⟩ := findBest_fst e2
              exact ⟨⟨k, (List.mem_insertionSort _).mp hk, e⟩, ⟨k', (List.mem_insertionSort _).mp hk', e'⟩⟩
            · obtain ⟨k, hk, e, _⟩ := findBest_fst e1
              obtain ⟨k', hk', e', _⟩ := findBest_snd e2
              exact ⟨⟨k, (List.mem_insertionSort _).mp hk, e⟩, ⟨k', (List.mem_insertionSort _).mp hk', e'⟩⟩
          obtain ⟨⟨k, hk, e⟩, k', hk', e'⟩ := key
          obtain ⟨u, hu, u1, u2, _⟩ := (ca k).mp hk
          obtain ⟨w, hw, w1, w2⟩ := (cl k').mp hk'
          refine ⟨ho, ?_, ⟨u, hu, by omega, u1⟩, ⟨w, hw, by rw [← e', w2], w1⟩⟩
          intro hc
          have : u.tokenIndex = w.tokenIndex := by
            rw [← u2, e, hc, ← e', w2]
          have := List.inj_on_of_nodup_map hd hu hw this
          rw [this] at u1
          have := S_pos
          omega
        · simp at h
      · rcases h with ⟨_, h⟩ | ⟨_, p2, hp2, h⟩
        · simp at h
        rcases h with ⟨_, h⟩ | ⟨h2, p3, sb, hp3, hsb, h⟩
        · simp at h
        have ol := (phase2_iff d ho hp2).mp h2
        rcases h with ⟨m, _, hm, h⟩ | ⟨_, h⟩
        · injection h with h
          subst h
          obtain ⟨x, hx, e, hq, _⟩ := (perpNegative_ok l).2 m hm
          exact ⟨ol, x, hx, e, hq⟩
        · rcases h with ⟨_, _, t, ht, h⟩ | ⟨_, h⟩
          · cases t with
            | none => simp at h
            | some t =>
              injection h with h
              subst h
              obtain ⟨_, p, hp, n, e, hnat, hneg, _⟩ := (bankrupt_ok ht).2 t rfl
              obtain ⟨ti, hti, tf⟩ := (forall₂_mem htok).1 p hp
              have hspot := spot_native hs ho tf hnat
              have hpr := hs.price p hp
              have nneg : n < 0 := by
                by_contra hc
                rw [← e] at hneg
                have := floor_nonneg (Int.mul_nonneg (by omega : 0 ≤ n) hpr.le)
                omega
              have hle := balance_le d ol .liqEnd ti
              exact ⟨ol, ti, hti, by rw [tf.index, e], by omega, by omega⟩
          · simp at h

/-- **C89, when** The liquidator does something exactly if the account's maintenance health is negative or, for an account already being liquidated, its health at liquidation end prices -/
theorem C89_when {cfg : Cfg} {rng : Rng} {rnd : ℚ → ℚ} {fd : FDiv} {now : Int} {l : Liqee} {being : Bool} {r : Option Out} (h : maybeLiquidate cfg rng rnd fd now l being = .ok r) :
    ∃ c v, accountCache rnd now l.banks l.tokens l.orders l.perps = .ok c ∧ c.health fd (if being = true then .liqEnd else .maint) = .ok v ∧ (r ≠ none ↔ v < 0) := by
  simp only [maybeLiquidate, isLiquidatable, bind_ok, ok_inj] at h
  obtain ⟨c, hc, q, ⟨v, hv, rfl⟩, h⟩ := h
  refine ⟨c, v, hc, hv, ?_⟩
  by_cases hn : v < 0
  · simp only [hn, decide_true, Bool.true_eq_false, if_false, bind_ok, ok_inj] at h
    obtain ⟨o, _, rfl⟩ := h
    simp [hn]
  · simp only [hn, decide_false, if_true, ok_inj] at h
    subst h
    simp [hn]

/-- the liquidator's configuration restricts nothing that the account holds -/
structure Unrestricted (cfg : Cfg) (l : Liqee) : Prop where
  forbidden : NoneForbidden cfg l
  only : cfg.onlyTokens = []
  perps : ∀ x ∈ l.perps, perpAllowed cfg x.1.idx

/-- **C89, it never gives up** A liquidator whose configuration restricts nothing that the account holds, looking at an account that can be liquidated: if nothing overflows, it sends a transaction, or it
waits for perp fills to be processed. It never reports that it does not know what to do. -/
theorem C89_never_gives_up {cfg : Cfg} {rng : Rng} {rnd : ℚ → ℚ} {fd : FDiv} (hfd0 : ∀ p x, fd 0 p = .ok x → x = 0) {now : Int} {l : Liqee} {being : Bool}
    (distinct : (l.tokens.map (·.tokenIndex)).Nodup) (hs : Sane now l) (hu : Unrestricted cfg l) {o : Out} (h : maybeLiquidate cfg rng rnd fd now l being = .ok (some o)) : o ≠ .bail := by
  simp only [maybeLiquidate, isLiquidatable, bind_ok, ok_inj] at h
  obtain ⟨c, hc, q, ⟨v, hv, rfl⟩, h⟩ := h
  have neg : v < 0 := by
    by_contra hv0
    simp [hv0] at h
  simp only [neg, decide_true, Bool.true_eq_false, if_false, bind_ok, ok_inj, Option.some.injEq] at h
  obtain ⟨o', h, rfl⟩ := h
  have d : Describes rnd now l c := ⟨distinct, hc⟩
  obtain ⟨htok, _, hperp, hd⟩ := d.facts
  obtain ⟨p1, q1⟩ := forall₂_mem hperp
  rintro rfl
  rcases sendLiqTx_ok d h with ⟨_, h2⟩ | ⟨_, _, h2⟩ | ⟨ho, h⟩
  · simp at h2
  · simp at h2
  · rcases h with ⟨m, _, h2⟩ | ⟨hb, h⟩
    · simp at h2
    have notake := (perpBase_ok hb).1 rfl
    rcases h with h | ⟨hnone, h⟩
    · obtain ⟨sl, hsl, h⟩ := tokenLiqPair_ok h
      rcases h with ⟨_, h⟩ | ⟨hsl', bs, as, ls, hbs, has, hls, h⟩
      · simp at h
      rcases h with ⟨x, y, _, h⟩ | ⟨hp, _⟩
      · simp at h
      · subst hsl'
        obtain ⟨⟨t1, x1, m1, e1, b1⟩, t2, x2, m2, e2, b2⟩ := (spot_iff hd hsl).mp rfl
        obtain ⟨ca, cl⟩ := cands d hu.forbidden hbs has hls
        have nf := (liqTokens_all d hu.forbidden bs).1
        obtain ⟨n1, _⟩ := bestPair_none hp
        rcases n1 with n1 | n1
        · have := (ca ⟨x1.tokenIndex, @decide (Worthwhile c x1) (Classical.dec _), takeValue c x1⟩).mpr ⟨x1, m1, b1, rfl, by simp, rfl⟩
          have := findBest_none.2.mp n1 _ ((List.mem_insertionSort _).mpr this)
          rcases this with h' | h'
          · exact nf x1 m1 h'
          · exact h' (Or.inl hu.only)
        · have := (cl _).mpr ⟨x2, m2, b2, rfl⟩
          exact nf x2 m2 (findBest_none.1.mp n1 _ ((List.mem_insertionSort _).mpr this))
    · rcases h with ⟨_, h⟩ | ⟨nofill, p2, hp2, h⟩
      · simp at h
      have nospot : ¬ ((∃ t, Owns c t) ∧ ∃ t, Owes c t) := by
        obtain ⟨sl, hsl, h'⟩ := tokenLiqPair_ok hnone
        rcases h' with ⟨h', _⟩ | ⟨_, bs, as, ls, _, _, _, h'⟩
        · intro hc
          rw [(spot_iff hd hsl).mpr hc] at h'
          simp at h'
        · rcases h' with ⟨_, _, _, h'⟩ | ⟨_, h'⟩ <;> simp at h'
      have ol : OnlyLosses l c := by
        refine ⟨ho, ?_, nospot⟩
        intro x hx
        have h1 := notake x hx (hu.perps x hx)
        have h2 : ¬ (x.2.1.takerBase ≠ 0 ∨ x.2.1.takerQuote ≠ 0) := by
          intro hc
          obtain ⟨p, hp, e⟩ := p1 x hx
          exact nofill ⟨p, hp, by rw [e.openFills]; simpa using hc⟩
        unfold perpTakeable at h1
        omega
      rcases h with ⟨h2, _⟩ | ⟨h2, p3, sb, hp3, hsb, h⟩
      · rw [(phase2_iff d ho hp2).mpr ol] at h2
        simp at h2
      have hph := C89_phases hfd0 d hs (by cases being <;> simp) hv neg ol
      have h3 : p3 = true := by
        simp only [inPhase3, bind_ok, ok_inj] at hp3
        obtain ⟨p2', hp2', sb', hsb', rfl⟩ := hp3
        rw [hp2, ok_inj] at hp2'
        subst hp2'
        rw [(phase1_iff d).mpr ho, h2]
        simp only [Bool.not_false, Bool.true_and, Bool.or_eq_true, decide_eq_true_eq]
        rcases hph with hph | ⟨x, hx, hq⟩
        · exact Or.inl ((borrows_iff hd hsb').mpr hph)
        · right
          obtain ⟨p, hp, e⟩ := p1 x hx
          obtain ⟨_, e1, e2⟩ := loss_value e (ho.perp x hx) (ol.perp x hx) .maint
          exact ⟨p, hp, e2, by rw [e1]; exact hq⟩
      rcases h with ⟨m, _, _, h⟩ | ⟨h4, h⟩
      · simp at h
      rcases h4 with h4 | h4
      · rw [h3] at h4; simp at h4
      have noneg := (perpNegative_ok l).1 h4
      have howes : ∃ t, Owes c t := by
        rcases hph with hph | ⟨x, hx, hq⟩
        · exact hph
        · have := noneg x hx; omega
      have hsb' := (borrows_iff hd hsb).mpr howes
      rcases h with ⟨_, _, t, ht, h⟩ | ⟨h5, _⟩
      · cases t with
        | some t => simp at h
        | none =>
          obtain ⟨t, ti, hti, e, hsp, _⟩ := howes
          obtain ⟨p, hp, tf⟩ := (forall₂_mem htok).2 ti hti
          obtain ⟨n, hn, hf⟩ := (bankrupt_ok ht).1 p hp
          have := spot_native hs ho tf hn
          refine hu.forbidden p hp (hf rfl ?_)
          have hS := S_pos
          apply Int.ediv_neg_of_neg_of_pos _ (by omega)
          exact Int.mul_neg_of_neg_of_pos (by omega) (hs.price p hp)
      · exact h5 ⟨h3, hsb'⟩

/-- **C89, waiting** It waits only if a perp position has fills that are not processed, and then nothing else can be done: no orders to cancel, no base position or positive pnl it may take in a market without
such fills, no pair of tokens to liquidate. -/
theorem C89_wait {cfg : Cfg} {rng : Rng} {rnd : ℚ → ℚ} {now : Int} {l : Liqee} {c : Cache} (d : Describes rnd now l c) (h : sendLiqTx cfg rng l c = .ok .wait) :
    NoOrders l ∧ (∃ x ∈ l.perps, x.2.1.takerBase ≠ 0 ∨ x.2.1.takerQuote ≠ 0) ∧ ¬ ((∃ t, Owns c t) ∧ ∃ t, Owes c t) ∧
    ∀ x ∈ l.perps, x.1.idx ∉ cfg.forbiddenPerps → (cfg.onlyPerps = [] ∨ x.1.idx ∈ cfg.onlyPerps) → x.2.1.takerBase = 0 → x.2.1.takerQuote = 0 → x.2.1.base = 0 ∧ x.2.1.quote ≤ 0 := by
  obtain ⟨_, _, hperp, hd⟩ := d.facts
  rcases sendLiqTx_ok d h with ⟨_, h2⟩ | ⟨_, _, h2⟩ | ⟨ho, h⟩
  · simp at h2
  · simp at h2
  rcases h with ⟨m, _, h2⟩ | ⟨hb, h⟩
  · simp at h2
  rcases h with h | ⟨hnone, h⟩
  · obtain ⟨sl, hsl, h⟩ := tokenLiqPair_ok h
    rcases h with ⟨_, h⟩ | ⟨hsl', bs, as, ls, hbs, has, hls, h⟩
    · simp at h
    rcases h with ⟨x, y, _, h⟩ | ⟨hp, h⟩ <;> simp at h
  · rcases h with ⟨⟨p, hp, hf⟩, _⟩ | ⟨nofill, p2, hp2, h⟩
    · refine ⟨ho, ?_, ?_, ?_⟩
      · obtain ⟨x, hx, e⟩ := (forall₂_mem hperp).2 p hp
        rw [e.openFills, decide_eq_true_eq] at hf
        exact ⟨x, hx, hf⟩
      · obtain ⟨sl, hsl, h'⟩ := tokenLiqPair_ok hnone
        rcases h' with ⟨h', _⟩ | ⟨_, bs, as, ls, _, _, _, h'⟩
        · intro hc
          rw [(spot_iff hd hsl).mpr hc] at h'
          simp at h'
        · rcases h' with ⟨_, _, _, h'⟩ | ⟨_, h'⟩ <;> simp at h'
      · intro x hx a1 a2 a3 a4
        have := (perpBase_ok hb).1 rfl x hx ⟨a1, a2⟩
        unfold perpTakeable at this
        omega
    · rcases h with ⟨_, h⟩ | ⟨h2, p3, sb, hp3, hsb, h⟩
      · simp at h
      rcases h with ⟨m, _, _, h⟩ | ⟨h4, h⟩
      · simp at h
      rcases h with ⟨_, _, t, ht, h⟩ | ⟨h5, h⟩
      · cases t <;> simp at h
      · simp at h

/-- **C89, restrictions** Whatever the configuration: token liquidation never touches a forbidden token, and at least one token of the pair is on the list of allowed ones (if there is one); base positions and
positive pnl are only taken in allowed perp markets; no forbidden token's debt is bankrupted. -/
theorem C89_restrictions {cfg : Cfg} {rng : Rng} {rnd : ℚ → ℚ} {now : Int} {l : Liqee} {c : Cache} (d : Describes rnd now l c) {a : Act} (h : sendLiqTx cfg rng l c = .ok (.act a)) :
    (∀ x y, a = .tokenLiq x y → x ∉ cfg.forbiddenTokens ∧ y ∉ cfg.forbiddenTokens ∧ (cfg.onlyTokens = [] ∨ x ∈ cfg.onlyTokens ∨ y ∈ cfg.onlyTokens)) ∧
    (∀ m, a = .perpBase m → m ∉ cfg.forbiddenPerps ∧ (cfg.onlyPerps = [] ∨ m ∈ cfg.onlyPerps)) ∧
    (∀ t, a = .tokenBankruptcy t → t ∉ cfg.forbiddenTokens) := by
  rcases sendLiqTx_ok d h with ⟨_, h2⟩ | ⟨_, _, h2⟩ | ⟨ho, h⟩
  · injection h2 with h2; subst h2; simp
  · injection h2 with h2; subst h2; simp
  rcases h with ⟨m, hb, h2⟩ | ⟨hb, h⟩
  · injection h2 with h2; subst h2
    obtain ⟨x, hx, e, ha, _⟩ := (perpBase_ok hb).2 m rfl
    refine ⟨by simp, ?_, by simp⟩
    intro m' hm
    injection hm with hm
    subst hm
    exact ha
  rcases h with h | ⟨hnone, h⟩
  · obtain ⟨sl, hsl, h⟩ := tokenLiqPair_ok h
    rcases h with ⟨_, h⟩ | ⟨hsl', bs, as, ls, hbs, has, hls, h⟩
    · simp at h
    rcases h with ⟨x, y, hxy, h⟩ | ⟨hp, h⟩
    · simp only [Option.some.injEq, Out.act.injEq] at h
      subst h
      refine ⟨?_, by simp, by simp⟩
      intro x' y' e
      injection e with e1 e2
      subst e1; subst e2
      rcases bestPair_some hxy with ⟨e1, e2⟩ | ⟨e1, e2⟩
      · obtain ⟨k, hk, e, f1, f2⟩ := findBest_snd e1
        obtain ⟨k', hk', e', f3⟩ := findBest_fst e2
        exact ⟨f1, f3, f2.imp_right Or.inl⟩
      · obtain ⟨k, hk, e, f1⟩ := findBest_fst e1
        obtain ⟨k', hk', e', f3, f2⟩ := findBest_snd e2
        exact ⟨f1, f3, f2.imp_right Or.inr⟩
    · simp at h
  · rcases h with ⟨_, h⟩ | ⟨nofill, p2, hp2, h⟩
    · simp at h
    rcases h with ⟨_, h⟩ | ⟨h2, p3, sb, hp3, hsb, h⟩
    · simp at h
    rcases h with ⟨m, _, _, h⟩ | ⟨h4, h⟩
    · injection h with h; subst h; simp
    rcases h with ⟨_, _, t, ht, h⟩ | ⟨h5, h⟩
    · cases t with
      | none => simp at h
      | some t =>
        injection h with h; subst h
        refine ⟨by simp, by simp, ?_⟩
        intro t' e
        injection e with e
        subst e
        exact ((bankrupt_ok ht).2 t rfl).1
    · simp at h

/-- **C89, the largest first** Without restrictions: of the tokens that could be taken, it takes one that is worthwhile if there is one, and among these (or else among all) the one with most to take; it
repays the token with the largest debt; in perp bankruptcy it starts with the largest loss, in token bankruptcy with the largest debt. -/
theorem C89_largest {cfg : Cfg} {rng : Rng} {rnd : ℚ → ℚ} {now : Int} {l : Liqee} {c : Cache} (d : Describes rnd now l c) (hs : Sane now l) (hu : Unrestricted cfg l) {a : Act}
    (h : sendLiqTx cfg rng l c = .ok (.act a)) :
    (∀ x y, a = .tokenLiq x y →
      (∃ u ∈ c.tokens, u.tokenIndex = x ∧ ∀ w ∈ c.tokens, S ≤ w.balanceSpot → S ≤ Formula.balance c .liqEnd w → w.allowAssetLiquidation = true →
        (Worthwhile c w → Worthwhile c u) ∧ ((Worthwhile c u → Worthwhile c w) → takeValue c w ≤ takeValue c u)) ∧
      ∃ u ∈ c.tokens, u.tokenIndex = y ∧ ∀ w ∈ c.tokens, w.balanceSpot < 0 → Formula.balance c .liqEnd w < 0 → repayValue c w ≤ repayValue c u) ∧
    (∀ m, a = .perpNegative m → ∃ x ∈ l.perps, x.1.idx = m ∧ ∀ y ∈ l.perps, x.2.1.quote ≤ y.2.1.quote) ∧
    (∀ t, a = .tokenBankruptcy t → ∃ u ∈ c.tokens, u.tokenIndex = t ∧ ∀ w ∈ c.tokens, u.balanceSpot * u.prices.oracle / S ≤ w.balanceSpot * w.prices.oracle / S) := by
  obtain ⟨htok, _, _, hd⟩ := d.facts
  rcases sendLiqTx_ok d h with ⟨_, h2⟩ | ⟨_, _, h2⟩ | ⟨ho, h⟩
  · injection h2 with h2; subst h2; simp
  · injection h2 with h2; subst h2; simp
  rcases h with ⟨m, hb, h2⟩ | ⟨hb, h⟩
  · injection h2 with h2; subst h2; simp
  rcases h with h | ⟨hnone, h⟩
  · obtain ⟨sl, hsl, h⟩ := tokenLiqPair_ok h
    rcases h with ⟨_, h⟩ | ⟨hsl', bs, as, ls, hbs, has, hls, h⟩
    · simp at h
    rcases h with ⟨x, y, hxy, h⟩ | ⟨hp, h⟩
    · simp only [Option.some.injEq, Out.act.injEq] at h
      subst h
      refine ⟨?_, by simp, by simp⟩
      intro x' y' e
      injection e with e1 e2
      subst e1; subst e2
      obtain ⟨ca, cl⟩ := cands d hu.forbidden hbs has hls
      have nf := (liqTokens_all d hu.forbidden bs).1
      -- without restrictions both components are the head
      have hd1 : ∀ L : List Cand, (∀ k ∈ L, k.index ∉ cfg.forbiddenTokens) → ∀ t, ((findBest cfg L).1 = some t ∨ (findBest cfg L).2 = some t) → ∃ k, L.head? = some k ∧ k.index = t := by
        intro L hL t ht
        unfold findBest at ht
        have e : L.filter (fun x => x.index ∉ cfg.forbiddenTokens) = L := by
          rw [List.filter_eq_self]
          intro k hk
          simpa using hL k hk
        simp only [e, hu.only, true_or, decide_true] at ht
        cases L with
        | nil => simp at ht
        | cons k L => simp at ht; exact ⟨k, rfl, ht⟩
      have fa : ∀ k ∈ as.insertionSort candBefore, k.index ∉ cfg.forbiddenTokens := by
        intro k hk
        obtain ⟨u, hu', _, e, _⟩ := (ca k).mp ((List.mem_insertionSort _).mp hk)
        rw [e]; exact nf u hu'
      have fl : ∀ k ∈ ls.insertionSort candBefore, k.index ∉ cfg.forbiddenTokens := by
        intro k hk
        obtain ⟨u, hu', _, e⟩ := (cl k).mp ((List.mem_insertionSort _).mp hk)
        rw [e]; exact nf u hu'
      have hx : ∃ k, (as.insertionSort candBefore).head? = some k ∧ k.index = x := by
        rcases bestPair_some hxy with ⟨e1, e2⟩ | ⟨e1, e2⟩
        · exact hd1 _ fa x (Or.inr e1)
        · exact hd1 _ fa x (Or.inl e1)
      have hy : ∃ k, (ls.insertionSort candBefore).head? = some k ∧ k.index = y := by
        rcases bestPair_some hxy with ⟨e1, e2⟩ | ⟨e1, e2⟩
        · exact hd1 _ fl y (Or.inl e2)
        · exact hd1 _ fl y (Or.inr e2)
      obtain ⟨k, hk, ek⟩ := hx
      obtain ⟨k', hk', ek'⟩ := hy
      constructor
      · obtain ⟨u, hum, _, u2, u3, u4⟩ := (ca k).mp ((List.mem_insertionSort _).mp (List.mem_of_head? hk))
        refine ⟨u, hum, by omega, ?_⟩
        intro w hw w1 w2 w3
        have hcw := (ca ⟨w.tokenIndex, @decide (Worthwhile c w) (Classical.dec _), takeValue c w⟩).mpr ⟨w, hw, ⟨w1, w2, w3⟩, rfl, by simp, rfl⟩
        rcases head_first (List.pairwise_insertionSort candBefore as) hk _ ((List.mem_insertionSort _).mpr hcw) with hl | hl
        · have e1 : (Worthwhile c w ↔ Worthwhile c u) := by
            rw [← u3, ← hl]; simp
          have e2 : takeValue c w = k.value := by rw [← hl]
          exact ⟨e1.mp, fun _ => by omega⟩
        · unfold candBefore at hl
          dsimp only at hl
          rcases hl with ⟨l1, l2⟩ | ⟨l1, l2⟩
          · have hwn : ¬ Worthwhile c w := by simpa using l2
            exact ⟨fun hc => absurd hc hwn, fun hc => absurd (hc (u3.mp l1)) hwn⟩
          · have e1 : (Worthwhile c w ↔ Worthwhile c u) := by
              rw [← u3, l1]; simp
            exact ⟨e1.mp, fun _ => by omega⟩
      · obtain ⟨u, hum, _, u2⟩ := (cl k').mp ((List.mem_insertionSort _).mp (List.mem_of_head? hk'))
        refine ⟨u, hum, by rw [← ek', u2], ?_⟩
        intro w hw w1 w2
        have hcw := (cl _).mpr ⟨w, hw, ⟨w1, w2⟩, rfl⟩
        rcases head_first (List.pairwise_insertionSort candBefore ls) hk' _ ((List.mem_insertionSort _).mpr hcw) with hl | hl
        · rw [u2] at hl
          injection hl with _ _ hl
          omega
        · unfold candBefore at hl
          rw [u2] at hl
          simp at hl
          exact hl
    · simp at h
  · rcases h with ⟨_, h⟩ | ⟨nofill, p2, hp2, h⟩
    · simp at h
    rcases h with ⟨_, h⟩ | ⟨h2, p3, sb, hp3, hsb, h⟩
    · simp at h
    rcases h with ⟨m, _, hm, h⟩ | ⟨h4, h⟩
    · injection h with h; subst h
      refine ⟨by simp, ?_, by simp⟩
      intro m' e
      injection e with e
      subst e
      obtain ⟨x, hx, e, _, hall⟩ := (perpNegative_ok l).2 m hm
      exact ⟨x, hx, e, hall⟩
    rcases h with ⟨_, _, t, ht, h⟩ | ⟨h5, h⟩
    · cases t with
      | none => simp at h
      | some t =>
        injection h with h; subst h
        refine ⟨by simp, by simp, ?_⟩
        intro t' e
        injection e with e
        subst e
        obtain ⟨_, p, hp, n, e, hn, hneg, hall⟩ := (bankrupt_ok ht).2 t rfl
        obtain ⟨ti, hti, tf⟩ := (forall₂_mem htok).1 p hp
        refine ⟨ti, hti, by rw [tf.index, e], ?_⟩
        intro w hw
        obtain ⟨q, hq, tq⟩ := (forall₂_mem htok).2 w hw
        obtain ⟨m, hm, _⟩ := (bankrupt_ok ht).1 q hq
        have := hall q hq m hm (hu.forbidden q hq)
        rw [spot_native hs ho tf hn, spot_native hs ho tq hm, tf.oracle, tq.oracle, e]
        exact this
    · simp at h

/-! ## Concrete accounts -/

/-- prices 1, 5, 2 of tokens 0, 1 and 2, weights 0.75 and 1.25 (init) -/
def exB (ti : Nat) : BankIn :=
  { bank := { depositIndex := S, borrowIndex := S, indexedDeposits := 500 * S, indexedBorrows := 100 * S, stablePrice := S,
              maintAssetWeight := S / 8 * 7, initAssetWeight := S / 4 * 3, maintLiabWeight := S / 8 * 9, initLiabWeight := S / 4 * 5 },
    oracle := if ti = 0 then S else if ti = 1 then 5 * S else 2 * S }

def exPerp (idx : Nat) (p : Perp.Pos) : Perp.Market × Perp.Pos × I80F48 :=
  ({ idx := idx, baseLotSize := 10, maintBaseAssetWeight := S / 8 * 7, initBaseAssetWeight := S / 4 * 3, maintBaseLiabWeight := S / 8 * 9, initBaseLiabWeight := S / 4 * 5, stablePrice := 20 * S }, p, 20 * S)

/-- tokens in the order 2, 1, 0 -/
def exL (n0 n1 n2 : Int) (os : List OpenOrd) (perps : List (Perp.Market × Perp.Pos × I80F48)) : Liqee :=
  { banks := exB, tokens := [⟨2, n2 * S⟩, ⟨1, n1 * S⟩, ⟨0, n0 * S⟩], orders := os, perps := perps }

def exRng : Rng := ⟨fun l => l.headD 0, fun l => l.reverse⟩

def exRun (cfg : Cfg) (l : Liqee) : Res (Option Out) := maybeLiquidate cfg exRng (fun x => x) Fx.div 0 l false

theorem exSane (n0 n1 n2 : Int) (os : List OpenOrd) (perps : List (Perp.Market × Perp.Pos × I80F48))
    (h : ∀ o ∈ os, o.hasZeroFunds = true → o.baseFree = 0 ∧ o.quoteFree = 0 ∧ o.baseReserved = 0 ∧ o.quoteReserved = 0) : Sane 0 (exL n0 n1 n2 os perps) := by
  refine ⟨h, ?_, ?_, ?_⟩
  · intro p hp
    simp only [exL, exB]
    split
    · decide
    · split <;> decide
  · intro p hp; simp only [exL, exB]; decide
  · intro p hp a b h
    have : (.ok (S / 8 * 7, S / 8 * 9) : Res (I80F48 × I80F48)) = .ok (a, b) := by
      rw [← h]; simp only [exL, exB]; decide
    simp only [ok_inj, Prod.mk.injEq] at this
    rw [← this.1]; decide

theorem exFair : exRng.Fair := by
  refine ⟨?_, ?_⟩
  · intro l hl
    cases l with
    | nil => exact absurd rfl hl
    | cons a l => simp [exRng]
  · intro l; exact List.reverse_perm l

theorem exUnrestricted (n0 n1 n2 : Int) (os : List OpenOrd) (perps : List (Perp.Market × Perp.Pos × I80F48)) : Unrestricted {} (exL n0 n1 n2 os perps) :=
  ⟨by intro p _; simp, rfl, by intro x _; exact ⟨by simp, Or.inl rfl⟩⟩

/-- accounts that owe token 0 and own tokens 1 and 2: with perp orders, with spot orders, with base positions and positive pnl, without -/
example : exRun {} (exL (-200) 10 20 [{ base := 1, quote := 0, baseFree := 1, quoteFree := 0, baseReserved := 0, quoteReserved := 0, lowestAsk := 0, highestBidInv := 0, marketIndex := 7 }]
    [exPerp 3 { bids := 2 }, exPerp 4 { base := 1 }]) = .ok (some (.act (.cancelPerp 3))) := by decide +kernel
example : exRun {} (exL (-900) 10 20 [{ base := 1, quote := 0, baseFree := 1, quoteFree := 0, baseReserved := 0, quoteReserved := 0, lowestAsk := 0, highestBidInv := 0, marketIndex := 7 },
    { base := 2, quote := 0, baseFree := 0, quoteFree := 0, baseReserved := 0, quoteReserved := 9, lowestAsk := 0, highestBidInv := 0, marketIndex := 8 }]
    [exPerp 4 { base := 1 }]) = .ok (some (.act (.cancelSpot [8, 7]))) := by decide +kernel
example : exRun {} (exL (-200) 10 20 [] [exPerp 4 { base := 1, quote := -230 * S }, exPerp 5 { base := -2, quote := 300 * S }, exPerp 6 { quote := 5 * S }]) = .ok (some (.act (.perpBase 5))) := by
  decide +kernel
example : exRun {} (exL (-200) 10 20 [] [exPerp 4 { quote := -30 * S }]) = .ok (some (.act (.tokenLiq 1 0))) := by decide +kernel
example : exRun {} (exL (-200) 0 0 [] [exPerp 4 { base := 1, takerBase := -1, quote := -30 * S }]) = .ok (some .wait) := by decide +kernel
example : exRun {} (exL (-20) 0 0 [] [exPerp 4 { quote := -30 * S }, exPerp 5 { quote := -40 * S }]) = .ok (some (.act (.perpNegative 5))) := by decide +kernel
example : exRun {} (exL (-20) (-10) 0 [] []) = .ok (some (.act (.tokenBankruptcy 1))) := by decide +kernel
example : exRun {} (exL (-20) 10 0 [] []) = .ok none := by decide +kernel

/-- **finding** A forbidden token the account holds shifts the balances of the tokens after it: the account owns 10 of token 1 and owes token 0, both of which may be liquidated (the pair is possible), but
because it also holds the forbidden token 2 the liquidator gives up. -/
theorem C89_forbidden_shift : exRun { forbiddenTokens := [2] } (exL (-200) 10 20 [] []) = .ok (some .bail) ∧
    ∀ c, Describes (fun x => x) 0 (exL (-200) 10 20 [] []) c → Possible (exL (-200) 10 20 [] []) c (.tokenLiq 1 0) := by
  constructor
  · decide +kernel
  · intro c d
    have hc := d.cache
    have h2 : (accountCache (fun x => x) 0 (exL (-200) 10 20 [] []).banks (exL (-200) 10 20 [] []).tokens (exL (-200) 10 20 [] []).orders (exL (-200) 10 20 [] []).perps).toOption.all
        (fun c => decide ((∃ x ∈ c.tokens, x.tokenIndex = 1 ∧ S ≤ x.balanceSpot ∧ S ≤ Formula.balance c .liqEnd x ∧ x.allowAssetLiquidation = true) ∧
          ∃ x ∈ c.tokens, x.tokenIndex = 0 ∧ x.balanceSpot < 0 ∧ Formula.balance c .liqEnd x < 0)) = true := by decide +kernel
    rw [hc] at h2
    simp only [Except.toOption, Option.all_some, decide_eq_true_eq] at h2
    exact ⟨⟨by simp [exL], by simp [exL]⟩, by decide, h2.1, h2.2⟩

/-- **finding** Perp pnl bankruptcies ignore the list of forbidden perp markets -/
theorem C89_forbidden_perp : exRun { forbiddenPerps := [5] } (exL (-20) 0 0 [] [exPerp 5 { quote := -40 * S }]) = .ok (some (.act (.perpNegative 5))) := by decide +kernel

/-- **finding** The "highest-value" base position is the one with the largest number of lots times price: lot sizes are ignored. Here the position in market 4 is worth 500 times that in market 5. -/
theorem C89_lot_sizes : ∃ a b : Perp.Market × Perp.Pos × I80F48, (Int.natAbs a.2.1.base * a.1.baseLotSize * a.2.2 : Int) = 500 * (Int.natAbs b.2.1.base * b.1.baseLotSize * b.2.2) ∧
    exRun {} (exL (-900) 0 0 [] [a, b]) = .ok (some (.act (.perpBase b.1.idx))) ∧ a.1.idx ≠ b.1.idx :=
  ⟨({ idx := 4, baseLotSize := 1000 }, { base := 1, quote := -20000 * S }, 20 * S), ({ idx := 5, baseLotSize := 1 }, { base := 2, quote := 0 }, 20 * S), by decide +kernel⟩

end Liquidator
end Mango
