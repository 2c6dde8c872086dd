import Verif.Health.Update
import Verif.Props.HealthState
import Verif.Props.TokenLiqGain
/-!
# C57: health after in-place updates is the health of the new state
-/
namespace Mango
namespace Health
open Fx Swap

/-- quote value of all deposits at a price, as the code computes it -/
def depositsQuoteAt (rnd : ℚ → ℚ) (b : BankIn) (price : Int) : ℚ :=
  rnd (rnd (rnd ((b.bank.depositIndex * b.bank.indexedDeposits / S : Int) / S) + rnd b.bank.potentialSerumTokens) * rnd ((price : Int) / S))

/-- scaled init asset weight with the deposits valued at a price -/
def scaledAt (rnd : ℚ → ℚ) (b : BankIn) (price : Int) : Int :=
  if b.depositScaleStart = F64MAX ∨ depositsQuoteAt rnd b price ≤ b.depositScaleStart then b.bank.initAssetWeight
  else b.bank.initAssetWeight * roundEven (rnd (b.depositScaleStart / depositsQuoteAt rnd b price) * S) / S

/-- the higher and the lower of oracle and stable price -/
def BankIn.high (b : BankIn) : Int := max b.oracle b.bank.stablePrice
def BankIn.low (b : BankIn) : Int := min b.oracle b.bank.stablePrice

/-- `t` describes position `p` in bank `b`; only the scaled init asset weight may have been computed at the lower of the two prices instead of the higher one -/
structure Tracks (rnd : ℚ → ℚ) (now : Int) (b : BankIn) (os : List OpenOrd) (p : Pos) (t : TokenInfo) : Prop where
  like : TokenFor rnd now b os p { t with initScaledAssetWeight := scaledAt rnd b b.high }
  scaled : t.initScaledAssetWeight = scaledAt rnd b b.high ∨ t.initScaledAssetWeight = scaledAt rnd b b.low

/-- the cache describes the state -/
structure Shows (rnd : ℚ → ℚ) (now : Int) (st : AcctState) (c : Cache) : Prop where
  tokens : List.Forall₂ (fun p t => Tracks rnd now (st.banks p.tokenIndex) st.os p t) st.ps c.tokens
  markets : List.Forall₂ (MarketFor c.tokens) st.os c.serums
  perps : List.Forall₂ PerpFor st.perps c.perps
  distinct : (st.ps.map (·.tokenIndex)).Nodup
  distinctMarkets : (st.os.map (·.marketIndex)).Nodup
  distinctPerps : (st.perps.map (·.1.idx)).Nodup

/-- an instruction changes a bank's totals, but not its configuration, oracle price or indexes -/
structure SameConfig (now : Int) (b b' : BankIn) : Prop where
  bad : b'.bad = b.bad
  oracle : b'.oracle = b.oracle
  stable : b'.bank.stablePrice = b.bank.stablePrice
  initAsset : b'.bank.initAssetWeight = b.bank.initAssetWeight
  initLiab : b'.bank.initLiabWeight = b.bank.initLiabWeight
  maint : b'.bank.maintWeights now = b.bank.maintWeights now
  depositIndex : b'.bank.depositIndex = b.bank.depositIndex
  borrowIndex : b'.bank.borrowIndex = b.bank.borrowIndex
  allow : b'.allowAssetLiquidation = b.allowAssetLiquidation

/-- what an instruction may change -/
def Upd.Ok (now : Int) (st : AcctState) : Upd → Prop
  | .token k b' _ => ∀ p, st.ps[k]? = some p → SameConfig now (st.banks p.tokenIndex) b'
  | .serum k o' => ∀ o, st.os[k]? = some o → o'.base = o.base ∧ o'.quote = o.quote ∧ o'.marketIndex = o.marketIndex
  | .perp k m' _ => ∃ x, st.perps[k]? = some x ∧ m'.idx = x.1.idx ∧ m'.stablePrice = x.1.stablePrice

/-- each update may change the state it is applied to -/
def AllOk (now : Int) : AcctState → List Upd → Prop
  | _, [] => True
  | st, u :: us => u.Ok now st ∧ AllOk now (u.state st) us

theorem tokenFor_index {rnd : ℚ → ℚ} {now : Int} {st : AcctState} {c : Cache}
    (h : List.Forall₂ (fun p t => Tracks rnd now (st.banks p.tokenIndex) st.os p t) st.ps c.tokens) :
    c.tokens.map (·.tokenIndex) = st.ps.map (·.tokenIndex) := by
  generalize st.ps = ps at h
  generalize c.tokens = ts at h
  induction h with
  | nil => rfl
  | cons hr _ ih => simp only [List.map_cons]; rw [ih, show _ = _ from hr.like.index]

theorem scaledAsset_at {rnd : ℚ → ℚ} {b : BankIn} {price w : I80F48} (h : b.scaledAsset rnd price = .ok w) : w = scaledAt rnd b price := by
  unfold BankIn.scaledAsset at h
  unfold scaledAt
  by_cases h0 : b.depositScaleStart = F64MAX
  · rw [if_pos h0] at h
    rw [if_pos (Or.inl h0)]; simp at h; exact h.symm
  · rw [if_neg h0] at h
    simp only [bind_ok, Bank.nativeDeposits, mul_ok] at h
    obtain ⟨nd, ⟨rfl, _⟩, h⟩ := h
    unfold Swap.toF at h
    change (if depositsQuoteAt rnd b price ≤ _ then _ else _) = _ at h
    by_cases h1 : depositsQuoteAt rnd b price ≤ b.depositScaleStart
    · rw [if_pos h1] at h
      rw [if_pos (Or.inr h1)]; simp at h; exact h.symm
    · rw [if_neg h1] at h
      rw [if_neg (by rintro (h | h); exacts [h0 h, h1 h])]
      simp only [bind_ok, toFx_ok, mul_ok] at h
      obtain ⟨sc, ⟨rfl, _⟩, h2, _⟩ := h
      exact h2

theorem TokenFor.tracks {rnd : ℚ → ℚ} {now : Int} {b : BankIn} {os : List OpenOrd} {p : Pos} {t : TokenInfo} (h : TokenFor rnd now b os p t) : Tracks rnd now b os p t := by
  have e : t.initScaledAssetWeight = scaledAt rnd b b.high := h.scaledAsset
  refine ⟨?_, Or.inl e⟩
  rw [← e]
  exact h

theorem forall₂_set {α β : Type} {R R' : α → β → Prop} {l : List α} {m : List β} {k : Nat} {x : α} {y : β} (h : List.Forall₂ R l m) (hk : R' x y)
    (ho : ∀ (i : Nat) a b, i ≠ k → l[i]? = some a → m[i]? = some b → R a b → R' a b) : List.Forall₂ R' (l.set k x) (m.set k y) := by
  rw [forall₂_getElem] at h ⊢
  refine ⟨by simpa using h.1, ?_⟩
  intro i a b ha hb
  rw [List.getElem?_set] at ha hb
  by_cases hi : k = i
  · rw [if_pos hi] at ha hb
    split at ha
    · split at hb
      · simp at ha hb; subst ha; subst hb; exact hk
      · simp at hb
    · simp at ha
  · rw [if_neg hi] at ha hb
    exact ho i a b (Ne.symm hi) ha hb (h.2 i a b ha hb)

/-- list position by key is unique -/
theorem nodup_at {α : Type} {f : α → Nat} {l : List α} (h : (l.map f).Nodup) {i j : Nat} {a b : α} (ha : l[i]? = some a) (hb : l[j]? = some b) (he : f a = f b) : i = j := by
  have hi : i < l.length := getElem?_lt ha
  have hj : j < l.length := getElem?_lt hb
  have e1 : (l.map f)[i]? = some (f a) := by rw [List.getElem?_map, ha]; rfl
  have e2 : (l.map f)[j]? = some (f a) := by rw [List.getElem?_map, hb, he]; rfl
  rw [List.getElem?_eq_getElem (by simpa using hi), Option.some.injEq] at e1
  rw [List.getElem?_eq_getElem (by simpa using hj), Option.some.injEq] at e2
  exact (List.Nodup.getElem_inj_iff h).mp (e1.trans e2.symm)

theorem findIdx_key {α : Type} {f : α → Nat} {l : List α} (h : (l.map f).Nodup) {n k : Nat} (hf : l.findIdx? (fun a => f a == n) = some k) {j : Nat} {a : α} (ha : l[j]? = some a) (he : f a = n) : k = j := by
  rw [List.findIdx?_eq_some_iff_getElem] at hf
  obtain ⟨hk, h1, _⟩ := hf
  exact nodup_at h (List.getElem?_eq_getElem hk) ha (by simpa [he] using h1)

theorem MarketFor.congr {ts ts' : List TokenInfo} {o : OpenOrd} {s : Serum3Info} (h : MarketFor ts o s) (e : ts'.map (·.tokenIndex) = ts.map (·.tokenIndex)) : MarketFor ts' o s := by
  have key : ∀ (i : Nat) n, (∃ t, ts[i]? = some t ∧ t.tokenIndex = n) → ∃ t, ts'[i]? = some t ∧ t.tokenIndex = n := by
    rintro i n ⟨t, h1, h2⟩
    have e1 : (ts'.map (·.tokenIndex))[i]? = some n := by rw [e, List.getElem?_map, h1, ← h2]; rfl
    rw [List.getElem?_map] at e1
    cases h3 : ts'[i]? with
    | none => rw [h3] at e1; simp at e1
    | some t' => rw [h3] at e1; exact ⟨t', rfl, by simpa using e1⟩
  exact ⟨key _ _ h.base, key _ _ h.quote, h.reservedBase, h.reservedQuote, h.lowestAsk, h.highestBid, h.market, h.zero⟩

theorem forall₂_some {α β : Type} {R : α → β → Prop} {l : List α} {m : List β} (h : List.Forall₂ R l m) {i : Nat} {a : α} (ha : l[i]? = some a) : ∃ b, m[i]? = some b ∧ R a b := by
  rw [forall₂_getElem] at h
  have := getElem?_lt ha
  have e := List.getElem?_eq_getElem (l := m) (i := i) (by omega)
  exact ⟨_, e, h.2 i a _ ha e⟩

/-- deposits and withdrawals -/
theorem token_update {rnd : ℚ → ℚ} {now : Int} {st : AcctState} {c c' : Cache} {k : Nat} {b' : BankIn} {ind' : I80F48} (hs : Shows rnd now st c)
    (ho : (Upd.token k b' ind').Ok now st) (h : (Upd.token k b' ind').cache rnd st c = .ok c') : Shows rnd now ((Upd.token k b' ind').state st) c' := by
  have hS := S_pos
  dsimp only [Upd.cache, Upd.state, Upd.Ok] at *
  cases hk : st.ps[k]? with
  | none => rw [hk] at h; simp at h
  | some p =>
    rw [hk] at h
    dsimp only at h ⊢
    have sc := ho p hk
    simp only [bind_ok, nativeIn, mul_ok, sub_ok] at h
    obtain ⟨n, ⟨hn, _⟩, n', ⟨hn', _⟩, d, ⟨rfl, _⟩, h⟩ := h
    obtain ⟨t, ht, tr⟩ := forall₂_some hs.tokens hk
    have mi := tokenFor_index hs.tokens
    have hd : (c.tokens.map (·.tokenIndex)).Nodup := by rw [mi]; exact hs.distinct
    have hti : t.tokenIndex = p.tokenIndex := tr.like.index
    have hidx : c.tokenIdx p.tokenIndex = some k := (findToken_iff hd ht _).mpr hti.symm
    unfold Cache.adjustBank at h
    rw [hidx] at h
    simp only [bind_ok] at h
    obtain ⟨t0, h0, wa, hwa, wl, hwl, h⟩ := h
    have h0 := Liquidation.at_ok h0
    rw [ht, Option.some.injEq] at h0
    subst h0
    obtain ⟨i, t1, t', e1, e2, e3, e4, e5, e6⟩ := Liquidation.adjust_ok h
    rw [hidx, Option.some.injEq] at e1
    subst e1
    rw [ht, Option.some.injEq] at e2
    subst e2
    have hmap := Liquidation.tokenIdx_set ht e3 (by rw [e6])
    have po := tr.like.oracle
    have pst := tr.like.stable
    dsimp only at po pst
    refine ⟨?_, ?_, ?_, ?_, hs.distinctMarkets, hs.distinctPerps⟩
    · dsimp only
      rw [e3]
      refine forall₂_set hs.tokens ?_ ?_
      · rw [if_pos rfl]
        have w1 := scaledAsset_at hwa
        have hlow : t.prices.asset .init = b'.low := by unfold BankIn.low; rw [sc.oracle, sc.stable, ← po, ← pst]; rfl
        have hhigh : t.prices.liab .init = max b'.oracle b'.bank.stablePrice := by rw [sc.oracle, sc.stable, ← po, ← pst]; rfl
        rw [hlow] at w1
        rw [hhigh] at hwl
        refine ⟨?_, Or.inr (by rw [e6]; exact w1)⟩
        rw [e6]
        refine ⟨?_, hti, ?_, ?_, ?_, ?_, ?_, rfl, scaledLiab_ok hwl, ?_, ?_⟩
        · rw [sc.bad]; exact tr.like.usable
        · rw [sc.oracle]; exact po
        · rw [sc.stable]; exact pst
        · rw [sc.initAsset]; exact tr.like.initAsset
        · rw [sc.initLiab]; exact tr.like.initLiab
        · rw [sc.maint]; exact tr.like.maint
        · have := tr.like.balance
          dsimp only at this ⊢
          rw [this, hn, hn', sc.depositIndex, sc.borrowIndex]
          omega
        · rw [sc.allow]; exact tr.like.allow
      · intro j a b hj ha hb hr
        have : a.tokenIndex ≠ p.tokenIndex := fun he => hj (nodup_at hs.distinct ha hk he)
        rw [if_neg this]
        exact hr
    · dsimp only
      rw [e5]
      refine List.Forall₂.imp ?_ hs.markets
      intro o s hm
      exact hm.congr hmap
    · dsimp only
      rw [e4]; exact hs.perps
    · dsimp only
      have : (st.ps.set k { p with indexed := ind' }).map (·.tokenIndex) = st.ps.map (·.tokenIndex) := by
        rw [List.map_set]
        apply List.ext_getElem?
        intro j
        rw [List.getElem?_set]
        split
        · rename_i hj
          subst hj
          rw [List.getElem?_map, hk]
          simp [getElem?_lt hk]
        · rfl
      rw [this]
      exact hs.distinct

theorem addBalance_ok {ts ts' : List TokenInfo} {i : Nat} {x : I80F48} (h : Cache.addBalance ts i x = .ok ts') :
    ts'.length = ts.length ∧ ∀ (j : Nat) t, ts[j]? = some t → ts'[j]? = some { t with balanceSpot := t.balanceSpot + if j = i then x else 0 } := by
  simp only [Cache.addBalance, bind_ok, add_ok, ok_inj] at h
  obtain ⟨t, h1, _, ⟨rfl, _⟩, rfl⟩ := h
  have h1 := Liquidation.at_ok h1
  refine ⟨by simp, ?_⟩
  intro j u hu
  rw [List.getElem?_set]
  by_cases hj : i = j
  · subst hj
    rw [h1, Option.some.injEq] at hu
    subst hu
    rw [if_pos rfl, if_pos rfl, if_pos (getElem?_lt h1)]
  · rw [if_neg hj, if_neg (Ne.symm hj), hu]
    simp

theorem ofInt_mul_div (a b : Int) : ofInt a * b / S = a * b := by
  have hS := S_pos
  unfold ofInt
  rw [Int.mul_right_comm]; exact Int.mul_ediv_cancel _ (by omega)

/-- orders placed, matched, cancelled or settled in a spot market -/
theorem serum_update {rnd : ℚ → ℚ} {now : Int} {st : AcctState} {c c' : Cache} {k : Nat} {o' : OpenOrd} (hs : Shows rnd now st c)
    (ho : (Upd.serum k o').Ok now st) (h : (Upd.serum k o').cache rnd st c = .ok c') : Shows rnd now ((Upd.serum k o').state st) c' := by
  dsimp only [Upd.cache, Upd.state, Upd.Ok] at *
  cases hk : st.os[k]? with
  | none => rw [hk] at h; simp at h
  | some o =>
    rw [hk] at h
    dsimp only at h ⊢
    obtain ⟨s1, s2, s3⟩ := ho o hk
    simp only [bind_ok, sub_ok] at h
    obtain ⟨_, ⟨rfl, _⟩, _, ⟨rfl, _⟩, h⟩ := h
    obtain ⟨s, hsk, hm⟩ := forall₂_some hs.markets hk
    have mm : c.serums.map (·.marketIndex) = st.os.map (·.marketIndex) := by
      have := hs.markets
      generalize st.os = l at this
      generalize c.serums = m at this
      induction this with
      | nil => rfl
      | cons hr _ ih => simp only [List.map_cons]; rw [ih, hr.market]
    unfold Cache.recomputeSerum3 at h
    split at h
    · simp at h
    · rename_i i hi
      have hik : i = k := findIdx_key (by rw [mm]; exact hs.distinctMarkets) hi hsk (by rw [hm.market, s3])
      subst hik
      simp only [bind_ok, ok_inj] at h
      obtain ⟨s0, h0, ts1, h1, ts2, h2, s', h3, rfl⟩ := h
      have h0 := Liquidation.at_ok h0
      rw [hsk, Option.some.injEq] at h0
      subst h0
      obtain ⟨l1, a1⟩ := addBalance_ok h1
      obtain ⟨l2, a2⟩ := addBalance_ok h2
      have mi := tokenFor_index hs.tokens
      have hd : (c.tokens.map (·.tokenIndex)).Nodup := by rw [mi]; exact hs.distinct
      have hmap : ts2.map (·.tokenIndex) = c.tokens.map (·.tokenIndex) := by
        apply List.ext_getElem?
        intro j
        rw [List.getElem?_map, List.getElem?_map]
        cases hj : c.tokens[j]? with
        | some t => rw [a2 j _ (a1 j t hj)]; rfl
        | none =>
          have : c.tokens.length ≤ j := by simpa using hj
          rw [List.getElem?_eq_none (by omega)]
      refine ⟨?_, ?_, hs.perps, hs.distinct, ?_, hs.distinctPerps⟩
      · dsimp only
        have T := hs.tokens
        rw [forall₂_getElem] at T ⊢
        refine ⟨by omega, ?_⟩
        intro j p t hp ht
        have hj : j < c.tokens.length := by have := getElem?_lt hp; omega
        have e0 := List.getElem?_eq_getElem hj
        have tr := T.2 j p _ hp e0
        generalize c.tokens[j] = u at e0 tr
        have e2 := a2 j _ (a1 j u e0)
        rw [ht, Option.some.injEq] at e2
        have hu : u.tokenIndex = p.tokenIndex := tr.like.index
        obtain ⟨tb, hb1, hb2⟩ := hm.base
        obtain ⟨tq, hq1, hq2⟩ := hm.quote
        have hb : (j = s.baseIdx) ↔ o.base = p.tokenIndex := by
          constructor
          · intro he; subst he; rw [e0, Option.some.injEq] at hb1; subst hb1; rw [← hb2, hu]
          · intro he; exact nodup_at hd e0 hb1 (by rw [hu, hb2, he])
        have hq : (j = s.quoteIdx) ↔ o.quote = p.tokenIndex := by
          constructor
          · intro he; subst he; rw [e0, Option.some.injEq] at hq1; subst hq1; rw [← hq2, hu]
          · intro he; exact nodup_at hd e0 hq1 (by rw [hu, hq2, he])
        refine ⟨?_, ?_⟩
        · rw [e2]
          have L := tr.like
          refine ⟨L.usable, L.index, L.oracle, L.stable, L.initAsset, L.initLiab, L.maint, rfl, L.scaledLiab, ?_, L.allow⟩
          have := L.balance
          dsimp only at this ⊢
          rw [this, sumOf_set _ hk, s1, s2]
          simp only [hb, hq]
          unfold ofInt
          split <;> split <;> omega
        · rw [e2]; exact tr.scaled
      · dsimp only
        refine forall₂_set hs.markets ?_ ?_
        · simp only [OpenOrd.info, bind_ok, mul_ok, ok_inj] at h3
          obtain ⟨_, ⟨rfl, _⟩, _, ⟨rfl, _⟩, rfl⟩ := h3
          rw [ofInt_mul_div, ofInt_mul_div]
          have := hm.congr hmap
          exact ⟨by rw [s1]; exact this.base, by rw [s2]; exact this.quote, rfl, rfl, rfl, rfl, rfl, rfl⟩
        · intro j a b hj ha hb hr
          exact hr.congr hmap
      · dsimp only
        have : (st.os.set i o').map (·.marketIndex) = st.os.map (·.marketIndex) := by
          rw [List.map_set, s3]
          apply List.ext_getElem?
          intro j
          rw [List.getElem?_set]
          split
          · rename_i hj
            subst hj
            rw [List.getElem?_map, hk]
            simp [getElem?_lt hk]
          · rfl
        rw [this]
        exact hs.distinctMarkets

/-- perp orders placed and matched, positions liquidated or settled -/
theorem perp_update {rnd : ℚ → ℚ} {now : Int} {st : AcctState} {c c' : Cache} {k : Nat} {m' : Perp.Market} {p' : Perp.Pos} (hs : Shows rnd now st c)
    (ho : (Upd.perp k m' p').Ok now st) (h : (Upd.perp k m' p').cache rnd st c = .ok c') : Shows rnd now ((Upd.perp k m' p').state st) c' := by
  dsimp only [Upd.cache, Upd.state, Upd.Ok] at *
  obtain ⟨x, hk, s1, s2⟩ := ho
  rw [hk]
  dsimp only
  obtain ⟨i, hik, hp⟩ := forall₂_some hs.perps hk
  have mm : c.perps.map (·.perpMarketIndex) = st.perps.map (·.1.idx) := by
    have := hs.perps
    generalize st.perps = l at this
    generalize c.perps = m at this
    induction this with
    | nil => rfl
    | cons hr _ ih => simp only [List.map_cons]; rw [ih, hr.market]
  unfold Cache.recomputePerp at h
  split at h
  · simp at h
  · rename_i j hj
    have hjk : j = k := findIdx_key (by rw [mm]; exact hs.distinctPerps) hj hik (by rw [hp.market, s1])
    subst hjk
    simp only [bind_ok, ok_inj] at h
    obtain ⟨i0, h0, i', h1, rfl⟩ := h
    have h0 := Liquidation.at_ok h0
    rw [hik, Option.some.injEq] at h0
    subst h0
    have F := perpInfoOf_ok (x := (m', p', i.basePrices.oracle)) h1
    have e1 := hp.oracle
    have e2 := hp.stable
    refine ⟨hs.tokens, hs.markets, ?_, hs.distinct, hs.distinctMarkets, ?_⟩
    · dsimp only
      refine forall₂_set hs.perps ?_ (fun _ _ _ _ _ _ hr => hr)
      exact ⟨F.settle, F.weights, e1, by dsimp only; rw [e2, s2], F.lotSize, F.lots, F.bids, F.asks, F.quote, F.market, F.openOrders, F.openFills⟩
    · dsimp only
      have : (st.perps.set j (m', p', x.2.2)).map (·.1.idx) = st.perps.map (·.1.idx) := by
        rw [List.map_set]
        dsimp only
        rw [s1]
        apply List.ext_getElem?
        intro n
        rw [List.getElem?_set]
        split
        · rename_i hj
          subst hj
          rw [List.getElem?_map, hk]
          simp [getElem?_lt hk]
        · rfl
      rw [this]
      exact hs.distinctPerps

/-- **C57, tracking** However many times banks, positions, open orders accounts and perp positions are changed and the cache is adjusted in place: it describes the new state exactly, except that the scaled
init asset weights of the adjusted tokens may be the ones at the lower of oracle and stable price. -/
theorem C57_tracking {rnd : ℚ → ℚ} {now : Int} : ∀ {us : List Upd} {st st' : AcctState} {c c' : Cache}, Shows rnd now st c → AllOk now st us → updates rnd st c us = .ok (st', c') →
    Shows rnd now st' c' := by
  intro us
  induction us with
  | nil =>
    intro st st' c c' hs _ h
    simp only [updates, ok_inj, Prod.mk.injEq] at h
    obtain ⟨rfl, rfl⟩ := h
    exact hs
  | cons u us ih =>
    intro st st' c c' hs ho h
    obtain ⟨o1, o2⟩ := ho
    simp only [updates, bind_ok] at h
    obtain ⟨c1, h1, h⟩ := h
    refine ih ?_ o2 h
    cases u with
    | token k b' i' => exact token_update hs o1 h1
    | serum k o' => exact serum_update hs o1 h1
    | perp k m' p' => exact perp_update hs o1 h1

/-- a cache just built describes the state -/
theorem Shows.fresh {rnd : ℚ → ℚ} {now : Int} {st : AcctState} {c : Cache} (h : accountCache rnd now st.banks st.ps st.os st.perps = .ok c)
    (d1 : (st.ps.map (·.tokenIndex)).Nodup) (d2 : (st.os.map (·.marketIndex)).Nodup) (d3 : (st.perps.map (·.1.idx)).Nodup) : Shows rnd now st c := by
  obtain ⟨a1, a2, a3, _⟩ := accountCache_for d1 h
  exact ⟨a1.imp (fun _ _ ht => ht.tracks), a2, a3, d1, d2, d3⟩

theorem forall₂_unique {α β : Type} {R R' : α → β → Prop} {Q : β → β → Prop} (hq : ∀ a b b', R a b → R' a b' → Q b b') : ∀ {l : List α} {m m' : List β},
    List.Forall₂ R l m → List.Forall₂ R' l m' → List.Forall₂ Q m m' := by
  intro l
  induction l with
  | nil => intro m m' h h'; cases h; cases h'; exact .nil
  | cons a l ih =>
    intro m m' h h'
    cases h with
    | cons r h => cases h' with
      | cons r' h' => exact .cons (hq _ _ _ r r') (ih h h')

theorem forall₂_eq {β : Type} : ∀ {m m' : List β}, List.Forall₂ (· = ·) m m' → m = m' := by
  intro m m' h
  induction h with
  | nil => rfl
  | cons e _ ih => rw [e, ih]

/-- a token info without the scaled init asset weight -/
def strip (t : TokenInfo) : TokenInfo := { t with initScaledAssetWeight := 0 }

theorem tracks_strip {rnd : ℚ → ℚ} {now : Int} {b : BankIn} {os : List OpenOrd} {p : Pos} {t t' : TokenInfo} (h : Tracks rnd now b os p t) (h' : Tracks rnd now b os p t') :
    strip t = strip t' := by
  have a := h.like
  have a' := h'.like
  have m := a.maint
  rw [a'.maint] at m
  simp only [ok_inj, Prod.mk.injEq] at m
  have e1 := a.index.trans a'.index.symm
  have e2 := a.oracle.trans a'.oracle.symm
  have e3 := a.stable.trans a'.stable.symm
  have e4 := a.initAsset.trans a'.initAsset.symm
  have e5 := a.initLiab.trans a'.initLiab.symm
  have e6 := a.scaledLiab.trans a'.scaledLiab.symm
  have e7 := a.balance.trans a'.balance.symm
  have e8 := a.allow.trans a'.allow.symm
  dsimp only at m e1 e2 e3 e4 e5 e6 e7 e8
  obtain ⟨m1, m2⟩ := m
  obtain ⟨i, ma, ia, isa, ml, il, isl, ⟨po, pst⟩, bal, al⟩ := t
  obtain ⟨i', ma', ia', isa', ml', il', isl', ⟨po', pst'⟩, bal', al'⟩ := t'
  dsimp only at m1 m2 e1 e2 e3 e4 e5 e6 e7 e8
  subst e1 e2 e3 e4 e5 e6 e7 e8 m1 m2
  rfl

theorem market_unique {ts ts' : List TokenInfo} (e : ts'.map (·.tokenIndex) = ts.map (·.tokenIndex)) (hd : (ts.map (·.tokenIndex)).Nodup) {o : OpenOrd} {s s' : Serum3Info}
    (h : MarketFor ts o s) (h' : MarketFor ts' o s') : s = s' := by
  have h' := h'.congr e.symm
  obtain ⟨t1, b1, b2⟩ := h.base
  obtain ⟨t2, c1, c2⟩ := h.quote
  obtain ⟨t3, b3, b4⟩ := h'.base
  obtain ⟨t4, c3, c4⟩ := h'.quote
  have eb := nodup_at hd b1 b3 (b2.trans b4.symm)
  have eq := nodup_at hd c1 c3 (c2.trans c4.symm)
  have e1 := h.reservedBase.trans h'.reservedBase.symm
  have e2 := h.reservedQuote.trans h'.reservedQuote.symm
  have e3 := h.lowestAsk.trans h'.lowestAsk.symm
  have e4 := h.highestBid.trans h'.highestBid.symm
  have e5 := h.market.trans h'.market.symm
  have e6 := h.zero.trans h'.zero.symm
  cases s; cases s'
  dsimp only at *
  subst e1 e2 e3 e4 e5 e6 eb eq
  rfl

theorem perp_unique {x : Perp.Market × Perp.Pos × I80F48} {i i' : PerpInfo} (h : PerpFor x i) (h' : PerpFor x i') : i = i' := by
  have e1 := h.settle.trans h'.settle.symm
  obtain ⟨w1, w2, w3, w4, w5, w6⟩ := h.weights
  obtain ⟨v1, v2, v3, v4, v5, v6⟩ := h'.weights
  have e2 := h.oracle.trans h'.oracle.symm
  have e3 := h.stable.trans h'.stable.symm
  have e4 := h.lotSize.trans h'.lotSize.symm
  have e5 := h.lots.trans h'.lots.symm
  have e6 := h.bids.trans h'.bids.symm
  have e7 := h.asks.trans h'.asks.symm
  have e8 := h.quote.trans h'.quote.symm
  have e9 := h.market.trans h'.market.symm
  have e10 := h.openOrders.trans h'.openOrders.symm
  have e11 := h.openFills.trans h'.openFills.symm
  have w1 := w1.trans v1.symm
  have w2 := w2.trans v2.symm
  have w3 := w3.trans v3.symm
  have w4 := w4.trans v4.symm
  have w5 := w5.trans v5.symm
  have w6 := w6.trans v6.symm
  clear h h' v1 v2 v3 v4 v5 v6
  rcases i with ⟨_, _, _, _, _, _, _, _, _, _, _, _, _, ⟨_, _⟩, _, _⟩
  rcases i' with ⟨_, _, _, _, _, _, _, _, _, _, _, _, _, ⟨_, _⟩, _, _⟩
  dsimp only at *
  subst e1 e2 e3 e4 e5 e6 e7 e8 e9 e10 e11 w1 w2 w3 w4 w5 w6
  rfl

/-- only init health looks at the scaled init asset weight -/
theorem health_strip {fd : Int → Int → Int} {c : Cache} {h : HT} (hh : h ≠ .init) :
    Formula.health fd { c with tokens := c.tokens.map strip } h = Formula.health fd c h := by
  have haw : ∀ t, Formula.assetWeight (strip t) h = Formula.assetWeight t h := by intro t; cases h <;> first | exact absurd rfl hh | rfl
  have hlw : ∀ t, Formula.liabWeight (strip t) h = Formula.liabWeight t h := by intro t; cases h <;> rfl
  have hp : ∀ t, (strip t).prices = t.prices := fun _ => rfl
  have hb : ∀ t, Formula.balance { c with tokens := c.tokens.map strip } h (strip t) = Formula.balance c h t := fun _ => rfl
  have ht : ∀ s, Formula.tokensOf { c with tokens := c.tokens.map strip } s = (Formula.tokensOf c s).map (fun x => (strip x.1, strip x.2)) := by
    intro s
    unfold Formula.tokensOf
    simp only [List.getElem?_map]
    cases c.tokens[s.baseIdx]? <;> cases c.tokens[s.quoteIdx]? <;> rfl
  have hr : ∀ k, Formula.maxReserved fd { c with tokens := c.tokens.map strip } h k = Formula.maxReserved fd c h k := by
    intro k
    unfold Formula.maxReserved
    apply sumOf_congr
    intro s _
    rw [ht]
    cases Formula.tokensOf c s with
    | none => rfl
    | some x => rfl
  unfold Formula.health
  congr 1
  · dsimp only
    rw [sumOf_map]
    apply sumOf_congr
    intro t _
    rw [hb]
    unfold Formula.tokenValue
    rw [haw, hlw, hp]
  · apply sumOf_congr
    intro s _
    unfold Formula.marketValue
    rw [ht, hr, hr]
    cases Formula.tokensOf c s with
    | none => rfl
    | some x =>
      obtain ⟨b, q⟩ := x
      simp only [Option.map_some, hb]
      unfold Formula.arriving
      rw [haw, haw, hlw, hlw]
      rfl

/-- two caches that describe the same state differ at most in scaled init asset weights -/
theorem Shows.unique {rnd : ℚ → ℚ} {now : Int} {st : AcctState} {c c' : Cache} (h : Shows rnd now st c) (h' : Shows rnd now st c') :
    c.tokens.map strip = c'.tokens.map strip ∧ c.serums = c'.serums ∧ c.perps = c'.perps := by
  have m := tokenFor_index h.tokens
  have m' := tokenFor_index h'.tokens
  refine ⟨?_, forall₂_eq (forall₂_unique (R := MarketFor c.tokens) (R' := MarketFor c'.tokens) (Q := (· = ·)) (fun _ _ _ => market_unique (m'.trans m.symm) (by rw [m]; exact h.distinct)) h.markets h'.markets),
    forall₂_eq (forall₂_unique (R := PerpFor) (R' := PerpFor) (Q := (· = ·)) (fun _ _ _ => perp_unique) h.perps h'.perps)⟩
  have := forall₂_unique (R := fun p t => Tracks rnd now (st.banks p.tokenIndex) st.os p t) (R' := fun p t => Tracks rnd now (st.banks p.tokenIndex) st.os p t)
    (Q := fun t t' => strip t = strip t') (fun _ _ _ => tracks_strip) h.tokens h'.tokens
  generalize c.tokens = l at this
  generalize c'.tokens = l' at this
  induction this with
  | nil => rfl
  | cons e _ ih => simp only [List.map_cons]; rw [e, ih]

/-- **C57** Take any history of in-place updates of a health cache that was right to begin with. The maintenance and the liquidation-end health it gives afterwards are exactly what
computing health from scratch gives; so is the init health, if for every token scaling gives the same asset weight at the lower and at the higher of oracle and stable price. -/
theorem C57_health {rnd : ℚ → ℚ} {fd : FDiv} {now : Int} {st0 st : AcctState} {c0 c : Cache} {us : List Upd} {h : HT} {v v' : Int}
    (d1 : (st0.ps.map (·.tokenIndex)).Nodup) (d2 : (st0.os.map (·.marketIndex)).Nodup) (d3 : (st0.perps.map (·.1.idx)).Nodup)
    (h0 : accountCache rnd now st0.banks st0.ps st0.os st0.perps = .ok c0) (ok : AllOk now st0 us) (hu : updates rnd st0 c0 us = .ok (st, c))
    (hv : c.health fd h = .ok v) (hv' : accountHealth rnd fd now st.banks st.ps st.os st.perps h = .ok v')
    (hh : h = .init → ∀ p ∈ st.ps, scaledAt rnd (st.banks p.tokenIndex) (st.banks p.tokenIndex).high = scaledAt rnd (st.banks p.tokenIndex) (st.banks p.tokenIndex).low) : v = v' := by
  have s := C57_tracking (Shows.fresh h0 d1 d2 d3) ok hu
  simp only [accountHealth, bind_ok] at hv'
  obtain ⟨c', h1, h2⟩ := hv'
  have s' := Shows.fresh h1 s.distinct s.distinctMarkets s.distinctPerps
  obtain ⟨u1, u2, u3⟩ := s.unique s'
  have n : (c.tokens.map (·.tokenIndex)).Nodup := by rw [tokenFor_index s.tokens]; exact s.distinct
  have n' : (c'.tokens.map (·.tokenIndex)).Nodup := by rw [tokenFor_index s'.tokens]; exact s.distinct
  rw [C55_health_formula n hv, C55_health_formula n' h2]
  by_cases hi : h = .init
  · have hw := hh hi
    have : c.tokens = c'.tokens := by
      apply forall₂_eq
      have a := s.tokens
      have a' := s'.tokens
      rw [forall₂_getElem] at a a' ⊢
      refine ⟨by omega, ?_⟩
      intro i t t' ht ht'
      have hi : i < st.ps.length := by have := getElem?_lt ht; omega
      have ep := List.getElem?_eq_getElem hi
      have b := a.2 i _ t ep ht
      have b' := a'.2 i _ t' ep ht'
      have hm := hw _ (List.getElem_mem hi)
      have e1 := tracks_strip b b'
      have sa : t.initScaledAssetWeight = t'.initScaledAssetWeight := by
        have x := b.scaled
        have x' := b'.scaled
        rw [← hm] at x x'
        rcases x with x | x <;> rcases x' with x' | x' <;> rw [x, x']
      have f : ∀ u : TokenInfo, u = { strip u with initScaledAssetWeight := u.initScaledAssetWeight } := fun u => rfl
      rw [f t, f t', e1, sa]
    obtain ⟨_, _, _⟩ := c
    obtain ⟨_, _, _⟩ := c'
    dsimp only at u2 u3 this
    subst u2 u3 this
    rfl
  · rw [← health_strip (c := c) hi, ← health_strip (c := c') hi]
    obtain ⟨_, _, _⟩ := c
    obtain ⟨_, _, _⟩ := c'
    dsimp only at u1 u2 u3 ⊢
    rw [u1, u2, u3]

/-! ## What the difference can do -/

theorem depositsQuoteAt_mono {rnd : ℚ → ℚ} (hr : IsFloat rnd) {b : BankIn} {x y : Int} (hxy : x ≤ y)
    (hd : 0 ≤ rnd (rnd ((b.bank.depositIndex * b.bank.indexedDeposits / S : Int) / S) + rnd b.bank.potentialSerumTokens)) : depositsQuoteAt rnd b x ≤ depositsQuoteAt rnd b y := by
  unfold depositsQuoteAt
  apply hr.mono
  apply mul_le_mul_of_nonneg_left _ hd
  apply hr.mono
  have : (0 : ℚ) < (S : ℚ) := by norm_num [S]
  exact div_le_div_of_nonneg_right (by exact_mod_cast hxy) this.le

/-- deposits are worth more at a higher price, so the weight is scaled down further -/
theorem scaledAt_anti {rnd : ℚ → ℚ} (hr : IsFloat rnd) {b : BankIn} {x y : Int} (hxy : x ≤ y) (hs : 0 < b.depositScaleStart) (hw : 0 ≤ b.bank.initAssetWeight)
    (hd : 0 ≤ b.bank.depositIndex) (hi : 0 ≤ b.bank.indexedDeposits) (hp : 0 ≤ b.bank.potentialSerumTokens) : scaledAt rnd b y ≤ scaledAt rnd b x := by
  have hS := S_pos
  have hSq : (0 : ℚ) < (S : ℚ) := by norm_num [S]
  have r0 : ∀ z, 0 ≤ z → 0 ≤ rnd z := by
    intro z hz
    have := hr.mono 0 z hz
    rwa [hr.zero] at this
  have hq := depositsQuoteAt_mono hr (b := b) hxy (by
    apply r0
    apply add_nonneg
    · apply r0
      apply div_nonneg _ hSq.le
      have := floor_nonneg (Int.mul_nonneg hd hi)
      exact_mod_cast this
    · apply r0
      exact_mod_cast hp)
  unfold scaledAt
  by_cases hx : b.depositScaleStart = F64MAX ∨ depositsQuoteAt rnd b x ≤ b.depositScaleStart
  · rw [if_pos hx]
    split
    · exact le_refl _
    · rename_i hc
      push Not at hc
      have h1 : rnd (b.depositScaleStart / depositsQuoteAt rnd b y) ≤ 1 := by
        have := hr.mono (b.depositScaleStart / depositsQuoteAt rnd b y) 1 (div_le_one_of_le₀ hc.2.le (by linarith [hs, hc.2]))
        rwa [hr.one] at this
      have h3 := Int.mul_le_mul_of_nonneg_left (roundEven_le_S h1) hw
      have := floor_mono h3
      rwa [Int.mul_ediv_cancel _ (by omega)] at this
  · rw [if_neg hx]
    push Not at hx
    have hy : ¬(b.depositScaleStart = F64MAX ∨ depositsQuoteAt rnd b y ≤ b.depositScaleStart) := by
      push Not
      exact ⟨hx.1, lt_of_lt_of_le hx.2 hq⟩
    rw [if_neg hy]
    apply floor_mono
    apply Int.mul_le_mul_of_nonneg_left _ hw
    apply roundEven_mono
    apply mul_le_mul_of_nonneg_right _ hSq.le
    apply hr.mono
    exact div_le_div_of_nonneg_left hs.le (by linarith [hx.2]) hq

theorem arriving_mono {t t' : TokenInfo} (e : strip t = strip t') (hw : t.initScaledAssetWeight ≤ t'.initScaledAssetWeight) (hp : 0 ≤ Formula.assetPrice t.prices .init) {bal m r : Int} (hr : 0 ≤ r) :
    Formula.arriving t .init bal m r ≤ Formula.arriving t' .init bal m r := by
  have e1 : t.prices = t'.prices := by simpa [strip] using congrArg (·.prices) e
  have e2 : t.initScaledLiabWeight = t'.initScaledLiabWeight := by simpa [strip] using congrArg (·.initScaledLiabWeight) e
  unfold Formula.arriving
  rw [e1] at hp ⊢
  have e3 : Formula.liabWeight t .init = Formula.liabWeight t' .init := e2
  rw [e3]
  dsimp only
  generalize ha : (if bal + m ≥ r then r else if bal + m < 0 then 0 else bal + m) = a
  have h0 : 0 ≤ a := by rw [← ha]; split; exact hr; split; exact le_refl _; omega
  apply Int.add_le_add_right
  apply floor_mono
  apply Int.mul_le_mul_of_nonneg_right _ hp
  apply floor_mono
  exact Int.mul_le_mul_of_nonneg_left hw h0

/-- a higher scaled asset weight never lowers init health -/
theorem health_weight_mono {fd : Int → Int → Int} (hfd : ∀ x y, 0 ≤ x → 0 ≤ y → 0 ≤ fd x y) {c c' : Cache} (hs : c.serums = c'.serums) (hp : c.perps = c'.perps)
    (ht : List.Forall₂ (fun t t' => strip t = strip t' ∧ t.initScaledAssetWeight ≤ t'.initScaledAssetWeight) c.tokens c'.tokens)
    (pr : ∀ t ∈ c.tokens, 0 ≤ t.prices.oracle ∧ 0 ≤ t.prices.stable)
    (nn : ∀ s ∈ c.serums, 0 ≤ s.reservedBase ∧ 0 ≤ s.reservedQuote ∧ 0 ≤ s.reservedBaseAsQuoteLowestAsk ∧ 0 ≤ s.reservedQuoteAsBaseHighestBid) :
    Formula.health fd c .init ≤ Formula.health fd c' .init := by
  have ap : ∀ t ∈ c.tokens, 0 ≤ Formula.assetPrice t.prices .init := by
    intro t h; have := pr t h; unfold Formula.assetPrice; dsimp only; split <;> omega
  have lp : ∀ t ∈ c.tokens, 0 ≤ Formula.liabPrice t.prices .init := by
    intro t h; have := pr t h; unfold Formula.liabPrice; dsimp only; split <;> omega
  have hpr : ∀ t t', strip t = strip t' → t.prices = t'.prices := by intro t t' e; simpa [strip] using congrArg (·.prices) e
  have hix : ∀ t t', strip t = strip t' → t.tokenIndex = t'.tokenIndex := by intro t t' e; simpa [strip] using congrArg (·.tokenIndex) e
  have hsp : ∀ t t', strip t = strip t' → t.balanceSpot = t'.balanceSpot := by intro t t' e; simpa [strip] using congrArg (·.balanceSpot) e
  have hlw : ∀ t t', strip t = strip t' → t.initScaledLiabWeight = t'.initScaledLiabWeight := by intro t t' e; simpa [strip] using congrArg (·.initScaledLiabWeight) e
  have hb : ∀ t t', strip t = strip t' → Formula.balance c .init t = Formula.balance c' .init t' := by
    intro t t' e
    unfold Formula.balance
    rw [hsp _ _ e, hix _ _ e, hp]
  have hab : ∀ s b b' q q', strip b = strip b' → strip q = strip q' → Formula.asBase fd s .init b q = Formula.asBase fd s .init b' q' ∧ Formula.asQuote fd s .init b q = Formula.asQuote fd s .init b' q' := by
    intro s b b' q q' e1 e2
    unfold Formula.asBase Formula.asQuote
    rw [hpr _ _ e1, hpr _ _ e2]
    exact ⟨rfl, rfl⟩
  have htk : ∀ s, (Formula.tokensOf c s = none ∧ Formula.tokensOf c' s = none) ∨ ∃ b q b' q', Formula.tokensOf c s = some (b, q) ∧ Formula.tokensOf c' s = some (b', q') ∧
      b ∈ c.tokens ∧ q ∈ c.tokens ∧ (strip b = strip b' ∧ b.initScaledAssetWeight ≤ b'.initScaledAssetWeight) ∧ (strip q = strip q' ∧ q.initScaledAssetWeight ≤ q'.initScaledAssetWeight) := by
    intro s
    have T := ht
    rw [forall₂_getElem] at T
    unfold Formula.tokensOf
    by_cases h1 : s.baseIdx < c.tokens.length
    · by_cases h2 : s.quoteIdx < c.tokens.length
      · right
        have h1' : s.baseIdx < c'.tokens.length := by omega
        have h2' : s.quoteIdx < c'.tokens.length := by omega
        have a1 := List.getElem?_eq_getElem h1
        have a2 := List.getElem?_eq_getElem h2
        have a3 := List.getElem?_eq_getElem h1'
        have a4 := List.getElem?_eq_getElem h2'
        refine ⟨_, _, _, _, ?_, ?_, List.getElem_mem h1, List.getElem_mem h2, T.2 _ _ _ a1 a3, T.2 _ _ _ a2 a4⟩
        · rw [a1, a2]
        · rw [a3, a4]
      · left
        rw [List.getElem?_eq_none (l := c.tokens) (i := s.quoteIdx) (by omega), List.getElem?_eq_none (l := c'.tokens) (i := s.quoteIdx) (by omega)]
        constructor <;> split <;> simp_all
    · left
      rw [List.getElem?_eq_none (l := c.tokens) (i := s.baseIdx) (by omega), List.getElem?_eq_none (l := c'.tokens) (i := s.baseIdx) (by omega)]
      exact ⟨rfl, rfl⟩
  have hmr : ∀ k, Formula.maxReserved fd c .init k = Formula.maxReserved fd c' .init k := by
    intro k
    unfold Formula.maxReserved
    rw [hs]
    apply sumOf_congr
    intro s _
    rcases htk s with ⟨e1, e2⟩ | ⟨b, q, b', q', e1, e2, _, _, ⟨e3, _⟩, ⟨e4, _⟩⟩
    · rw [e1, e2]
    · rw [e1, e2]
      dsimp only
      rw [(hab s b b' q q' e3 e4).1, (hab s b b' q q' e3 e4).2]
  unfold Formula.health
  apply Int.add_le_add
  · have key : ∀ {l m : List TokenInfo}, (∀ t ∈ l, t ∈ c.tokens) → List.Forall₂ (fun t t' => strip t = strip t' ∧ t.initScaledAssetWeight ≤ t'.initScaledAssetWeight) l m →
        sumOf (fun t => Formula.tokenValue t .init (Formula.balance c .init t)) l ≤ sumOf (fun t => Formula.tokenValue t .init (Formula.balance c' .init t)) m := by
      intro l m hm h
      induction h with
      | nil => simp
      | @cons a b l m hr _ ih =>
        simp only [sumOf_cons]
        have i1 := ih (fun t ht => hm t (by simp [ht]))
        have hap := ap a (hm a (by simp))
        have : Formula.tokenValue a .init (Formula.balance c .init a) ≤ Formula.tokenValue b .init (Formula.balance c' .init b) := by
          rw [← hb _ _ hr.1]
          unfold Formula.tokenValue
          split
          · rename_i hbal
            apply floor_mono
            apply Int.mul_le_mul_of_nonneg_left _ hbal
            apply floor_mono
            rw [← hpr _ _ hr.1]
            exact Int.mul_le_mul_of_nonneg_right hr.2 hap
          · have : Formula.liabWeight a .init = Formula.liabWeight b .init := hlw _ _ hr.1
            rw [this, hpr _ _ hr.1]
        omega
    exact key (fun _ h => h) ht
  · rw [hs]
    apply sumOf_le
    intro s hsm
    rw [← hs] at hsm
    unfold Formula.marketValue
    rcases htk s with ⟨e1, e2⟩ | ⟨b, q, b', q', e1, e2, mb, mq, e3, e4⟩
    · rw [e1, e2]
    · rw [e1, e2]
      dsimp only
      rw [← (hab s b b' q q' e3.1 e4.1).1, ← (hab s b b' q q' e3.1 e4.1).2, ← hmr, ← hmr, ← hb _ _ e3.1, ← hb _ _ e4.1]
      split
      · exact le_refl _
      · obtain ⟨n1, n2, n3, n4⟩ := nn s hsm
        have hS := S_pos
        have g1 : 0 ≤ Formula.asBase fd s .init b q := by
          have := hfd _ _ (floor_nonneg (Int.mul_nonneg n2 (ap q mq))) (lp b mb)
          unfold Formula.asBase
          dsimp only
          split <;> omega
        have g2 : 0 ≤ Formula.asQuote fd s .init b q := by
          have := hfd _ _ (floor_nonneg (Int.mul_nonneg n1 (ap b mb))) (lp q mq)
          unfold Formula.asQuote
          dsimp only
          split <;> omega
        have m1 := arriving_mono e3.1 e3.2 (ap b mb) (bal := Formula.balance c .init b) (m := Formula.maxReserved fd c .init s.baseIdx) g1
        have m2 := arriving_mono e4.1 e4.2 (ap q mq) (bal := Formula.balance c .init q) (m := Formula.maxReserved fd c .init s.quoteIdx) g2
        omega

/-- **C57, direction** In all cases the init health from the adjusted cache is at least the one computed from scratch. -/
theorem C57_init_at_least {rnd : ℚ → ℚ} (hr : IsFloat rnd) {fd : FDiv} (hfd : ∀ x y z, 0 ≤ x → 0 ≤ y → fd x y = .ok z → 0 ≤ z) {now : Int} {st0 st : AcctState} {c0 c : Cache}
    {us : List Upd} {v v' : Int}
    (d1 : (st0.ps.map (·.tokenIndex)).Nodup) (d2 : (st0.os.map (·.marketIndex)).Nodup) (d3 : (st0.perps.map (·.1.idx)).Nodup)
    (h0 : accountCache rnd now st0.banks st0.ps st0.os st0.perps = .ok c0) (ok : AllOk now st0 us) (hu : updates rnd st0 c0 us = .ok (st, c))
    (hv : c.health fd .init = .ok v) (hv' : accountHealth rnd fd now st.banks st.ps st.os st.perps .init = .ok v')
    (hb : ∀ p ∈ st.ps, let b := st.banks p.tokenIndex; 0 ≤ b.oracle ∧ 0 ≤ b.bank.stablePrice ∧ 0 ≤ b.bank.initAssetWeight ∧ 0 < b.depositScaleStart ∧ 0 ≤ b.bank.depositIndex ∧
      0 ≤ b.bank.indexedDeposits ∧ 0 ≤ b.bank.potentialSerumTokens)
    (ho : ∀ o ∈ st.os, 0 ≤ o.baseReserved ∧ 0 ≤ o.quoteReserved ∧ 0 ≤ o.lowestAsk ∧ 0 ≤ o.highestBidInv) : v' ≤ v := by
  have s := C57_tracking (Shows.fresh h0 d1 d2 d3) ok hu
  simp only [accountHealth, bind_ok] at hv'
  obtain ⟨c', h1, h2⟩ := hv'
  obtain ⟨f1, f2, f3, n'⟩ := accountCache_for s.distinct h1
  have s' := Shows.fresh h1 s.distinct s.distinctMarkets s.distinctPerps
  obtain ⟨_, u2, u3⟩ := s'.unique s
  have n : (c.tokens.map (·.tokenIndex)).Nodup := by rw [tokenFor_index s.tokens]; exact s.distinct
  rw [C55_health_formula n hv, C55_health_formula n' h2]
  have hS := S_pos
  refine health_weight_mono ?_ u2 u3 ?_ ?_ ?_
  · intro x y hx hy
    cases he : fd x y with
    | ok z => rw [val_ok rfl]; exact hfd _ _ _ hx hy he
    | error e => exact le_refl _
  · have T := s.tokens
    rw [forall₂_getElem] at T f1 ⊢
    refine ⟨by omega, ?_⟩
    intro i t t' ht ht'
    have hi : i < st.ps.length := by have := getElem?_lt ht; omega
    have ep := List.getElem?_eq_getElem hi
    have b := f1.2 i _ t ep ht
    have b' := T.2 i _ t' ep ht'
    obtain ⟨k1, k2, k3, k4, k5, k6, k7⟩ := hb _ (List.getElem_mem hi)
    refine ⟨tracks_strip b.tracks b', ?_⟩
    have e : t.initScaledAssetWeight = scaledAt rnd _ _ := b.scaledAsset
    rcases b'.scaled with x | x
    · rw [x, e]; exact le_refl _
    · rw [x, e]
      exact scaledAt_anti hr (x := BankIn.low _) (y := BankIn.high _) (by unfold BankIn.low BankIn.high; omega) k4 k3 k5 k6 k7
  · intro t ht
    obtain ⟨i, hi, rfl⟩ := List.mem_iff_getElem.mp ht
    have hi' : i < st.ps.length := by rw [f1.length_eq]; exact hi
    rw [forall₂_getElem] at f1
    have b := f1.2 i _ _ (List.getElem?_eq_getElem hi') (List.getElem?_eq_getElem hi)
    obtain ⟨k1, k2, _⟩ := hb _ (List.getElem_mem hi')
    rw [b.oracle, b.stable]
    exact ⟨k1, k2⟩
  · intro x hx
    obtain ⟨i, hi, rfl⟩ := List.mem_iff_getElem.mp hx
    have hi' : i < st.os.length := by rw [f2.length_eq]; exact hi
    rw [forall₂_getElem] at f2
    have b := f2.2 i _ _ (List.getElem?_eq_getElem hi') (List.getElem?_eq_getElem hi)
    obtain ⟨k1, k2, k3, k4⟩ := ho _ (List.getElem_mem hi')
    rw [b.reservedBase, b.reservedQuote, b.lowestAsk, b.highestBid]
    exact ⟨by positivity, by positivity, Int.mul_nonneg k1 k3, Int.mul_nonneg k2 k4⟩

end Health
end Mango
