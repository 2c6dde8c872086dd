import Verif.Props.ClientPositions
/-!
# C80: the accounts the client library passes, main theorems
-/
namespace Mango
namespace ClientAccounts
open Fx Oracle

theorem settle_active {mk : Slots.Markets} {b : Slots.Acc} (hb : Slots.Reach mk b) {m : Nat} (hm : m ∈ activePerps b) (hs : mk.settle m ≠ Slots.FREE) : mk.settle m ∈ activeTokens b := by
  obtain ⟨p, hp, hf, rfl⟩ := mem_activePerps.mp hm
  obtain ⟨q, hq, he⟩ := (Slots.C53_counts hb).2 (mk.settle p.market) hs (by
    unfold Slots.uses
    have : 0 < (b.perps.filter (fun s => s.market ≠ Slots.FREE ∧ mk.settle s.market = mk.settle p.market)).length := by
      apply List.length_pos_of_mem (a := p)
      simp [hp, hf]
    omega)
  exact mem_activeTokens.mpr ⟨q, hq, by rw [he]; exact hs, he⟩

theorem oos_eq {a b : Slots.Acc} (h : b.serums = a.serums) : activeOos b = activeOos a := by unfold activeOos; rw [h]

/-- **C80, fixed order** The list derived for an account, an instruction that affects some tokens (some of them writable) and perp markets: the copy `b` of the account has its positions and those made
for the instruction, with the settle tokens of its perp positions. Whatever account `p` the program sees with the same active positions, it accepts the list, and for every position finds the bank,
market or open orders account of the position; the price it gets for a token is the one everything on chain gives, if `FixedEnough`. -/
theorem C80_fixed (inv : Nat → Res I80F48) {K : Keys} {chain : Nat → Content} {group : Nat} {c : Ctx} {mk : Slots.Markets} (hmk : ∀ m x, c.perp m = some x → mk.settle m = x.settle)
    {fc : Nat → Option (Nat × Nat)} {a : Slots.Acc} (ha : Slots.Reach mk a) (hw : Seen K chain group c fc (activeOos a)) {affected writable perps : List Nat}
    (hf : ∀ t ∈ affected ++ writable, t ≠ Slots.FREE) {l : List Meta} (h : derive K c fc a affected writable perps = .ok l) (now : Int × Int) :
    ∃ b, Ensured mk a b (affected ++ writable) perps ∧ (∀ m ∈ activePerps b, mk.settle m ∈ activeTokens b) ∧
    ∀ p : Slots.Acc, activeTokens p = activeTokens b → activePerps p = activePerps b → activeOos p = activeOos b →
    ∃ f, fixedNew (supply chain l) (activeTokens p).length (activeOos p).length (activePerps p).length now = .ok f ∧
    (∀ (pos t : Nat), (activeTokens p)[pos]? = some t → ∃ x bk, c.token t = some x ∧ chain x.bank = .bank bk ∧ bk.tokenIndex = t ∧ ⟨x.bank, decide (t ∈ writable)⟩ ∈ l ∧
      (FixedEnough inv chain K c fc (activeTokens p) x bk.o (some now) →
        f.bankAndOracle inv K group pos t = (bankPrice inv bk.o (full chain K bk.o) (some now)).map (fun q => (bk, q)))) ∧
    (∀ (pos m : Nat), (activePerps p)[pos]? = some m → ∃ x pm, c.perp m = some x ∧ chain x.address = .perp pm ∧ pm.marketIndex = m ∧
      f.perpAndOracle inv group pos m =
        (perpState inv pm.oracle pm.decimals pm.cfg { oracle := (at_ chain pm.oracle).asOracle, fallback := none, usdc := none, sol := none } (some now)).map (fun st => (pm, st.price))) ∧
    (∀ (pos k id : Nat), (activeOos p)[pos]? = some k → chain k = .openOrders id → f.serumOo pos k = .ok id) := by
  obtain ⟨b, hb, hm, _⟩ := derive_ok hw.ctx hmk ha hf h
  obtain ⟨ts, ps, _, h2, _⟩ := metasOf_ok hm
  refine ⟨b, hb, ?_, ?_⟩
  · intro m hmem
    obtain ⟨i, hi⟩ := List.mem_iff_getElem?.mp hmem
    obtain ⟨x, _, hx⟩ := (getAll_ok h2).2.1 i m hi
    refine settle_active hb.reach hmem ?_
    rw [hmk m x hx]; exact (hw.ctx.perps m x hx).2.1
  · intro p e1 e2 e3
    rw [e1, e2, e3, oos_eq hb.oos]
    rw [oos_eq hb.oos] at hm
    obtain ⟨f, g1, g2, g3, g4⟩ := fixed_metas inv hw (reach_nodup hb.reach).1 hm now
    refine ⟨f, g1, ?_, ?_, g4⟩
    · intro pos t ht
      obtain ⟨x, bk, q1, q2, q3, q4⟩ := g2 pos t ht
      obtain ⟨_, _, _, bk', r1, _, r2, _⟩ := hw.ctx.tokens t x q1
      rw [q2] at r1; injection r1 with r1; subst r1
      exact ⟨x, bk, q1, q2, r2, q3, q4⟩
    · intro pos m hm'
      obtain ⟨x, pm, q1, q2, q3⟩ := g3 pos m hm'
      obtain ⟨_, _, _, pm', r1, _, r2, _⟩ := hw.ctx.perps m x q1
      rw [q2] at r1; injection r1 with r1; subst r1
      exact ⟨x, pm, q1, q2, r2, q3⟩

/-- what scanning finds -/
def ScanFinds (inv : Nat → Res I80F48) (K : Keys) (chain : Nat → Content) (group : Nat) (c : Ctx) (fc : Nat → Option (Nat × Nat)) (now : Option (Int × Int)) (l : List Meta)
    (tokens writable perps oos : List Nat) : Prop :=
  ∃ s, scanNew (supply chain l) group now = .ok s ∧
    (∀ t ∈ tokens, ∃ x b, c.token t = some x ∧ chain x.bank = .bank b ∧ b.tokenIndex = t ∧ ⟨x.bank, decide (t ∈ writable)⟩ ∈ l ∧
      (ScanEnough inv chain K c fc tokens x b.o now → s.bankAndOracle inv K t = (bankPrice inv b.o (full chain K b.o) now).map (fun p => (b, p)))) ∧
    (∀ m ∈ perps, ∃ x p, c.perp m = some x ∧ chain x.address = .perp p ∧ p.marketIndex = m ∧
      s.perpAndOracle inv m = (perpState inv p.oracle p.decimals p.cfg { oracle := (at_ chain p.oracle).asOracle, fallback := none, usdc := none, sol := none } now).map (fun st => (p, st.price))) ∧
    (∀ k ∈ oos, ∀ id, chain k = .openOrders id → s.serumOo k = .ok id)

theorem scanFinds_of (inv : Nat → Res I80F48) {K : Keys} {chain : Nat → Content} {group : Nat} {c : Ctx} {fc : Nat → Option (Nat × Nat)} {tokens writable perps oos : List Nat} {l : List Meta}
    (hw : Seen K chain group c fc oos) (n1 : tokens.Nodup) (n2 : perps.Nodup) (n3 : oos.Nodup) (h : metasOf K c fc tokens writable perps oos = .ok l) (now : Option (Int × Int)) :
    ScanFinds inv K chain group c fc now l tokens writable perps oos := by
  obtain ⟨s, g1, g2, g3, g4⟩ := scan_metas inv hw n1 n2 n3 h now
  refine ⟨s, g1, ?_, ?_, g4⟩
  · intro t ht
    obtain ⟨x, bk, q1, q2, q3, q4⟩ := g2 t ht
    obtain ⟨_, _, _, bk', r1, _, r2, _⟩ := hw.ctx.tokens t x q1
    rw [q2] at r1; injection r1 with r1; subst r1
    exact ⟨x, bk, q1, q2, r2, q3, q4⟩
  · intro m hm'
    obtain ⟨x, pm, q1, q2, q3⟩ := g3 m hm'
    obtain ⟨_, _, _, pm', r1, _, r2, _⟩ := hw.ctx.perps m x q1
    rw [q2] at r1; injection r1 with r1; subst r1
    exact ⟨x, pm, q1, q2, r2, q3⟩

/-- **C80, scanned** The same for instructions that scan the list. -/
theorem C80_scan (inv : Nat → Res I80F48) {K : Keys} {chain : Nat → Content} {group : Nat} {c : Ctx} {mk : Slots.Markets} (hmk : ∀ m x, c.perp m = some x → mk.settle m = x.settle)
    {fc : Nat → Option (Nat × Nat)} {a : Slots.Acc} (ha : Slots.Reach mk a) (hw : Seen K chain group c fc (activeOos a)) (ho : (activeOos a).Nodup) {affected writable perps : List Nat}
    (hf : ∀ t ∈ affected ++ writable, t ≠ Slots.FREE) {l : List Meta} (h : derive K c fc a affected writable perps = .ok l) (now : Option (Int × Int)) :
    ∃ b, Ensured mk a b (affected ++ writable) perps ∧ ScanFinds inv K chain group c fc now l (activeTokens b) writable (activePerps b) (activeOos a) := by
  obtain ⟨b, hb, hm, _⟩ := derive_ok hw.ctx hmk ha hf h
  rw [oos_eq hb.oos] at hm
  exact ⟨b, hb, scanFinds_of inv hw (reach_nodup hb.reach).1 (reach_nodup hb.reach).2 ho hm now⟩

/-- **C80, two accounts** A liquidation's list has everything for the positions of both accounts and the affected tokens. -/
theorem C80_two (inv : Nat → Res I80F48) {K : Keys} {chain : Nat → Content} {group : Nat} {c : Ctx} {fc : Nat → Option (Nat × Nat)} {a1 a2 : Slots.Acc}
    (hw : Seen K chain group c fc (activeOos a2 ++ activeOos a1)) (ho : (activeOos a2 ++ activeOos a1).Nodup) {affected writable : List Nat} {l : List Meta}
    (h : deriveTwo K c fc a1 a2 affected writable = .ok l) (now : Option (Int × Int)) :
    ∃ tokens perps, (∀ t, t ∈ tokens ↔ t ∈ activeTokens a1 ∨ t ∈ activeTokens a2 ∨ t ∈ affected) ∧ (∀ m, m ∈ perps ↔ m ∈ activePerps a1 ∨ m ∈ activePerps a2) ∧
      ScanFinds inv K chain group c fc now l tokens writable perps (activeOos a2 ++ activeOos a1) := by
  refine ⟨_, _, ?_, ?_, scanFinds_of inv hw (nodup_unique _ _ (Nat.le_refl _)) (nodup_unique _ _ (Nat.le_refl _)) ho h now⟩
  · intro t; simp only [unique, List.mem_eraseDups, List.mem_append]; tauto
  · intro t; simp only [unique, List.mem_eraseDups, List.mem_append]; tauto

/-! ## Which fallbacks the library knows -/

theorem lookup_mem {l : List (Nat × Nat × Nat)} {k : Nat} {v : Nat × Nat} (h : l.lookup k = some v) : (k, v) ∈ l := by
  induction l with
  | nil => simp at h
  | cons x l ih =>
    obtain ⟨k', v'⟩ := x
    rw [List.lookup_cons] at h
    by_cases he : k = k'
    · subst he; simp at h; subst h; simp
    · have : (k == k') = false := by simp [he]
      rw [this] at h; exact List.mem_cons_of_mem _ (ih h)

theorem lookup_isSome {l : List (Nat × Nat × Nat)} {k : Nat} {v : Nat × Nat} (h : (k, v) ∈ l) : (l.lookup k).isSome = true := by
  induction l with
  | nil => simp at h
  | cons x l ih =>
    obtain ⟨k', v'⟩ := x
    rw [List.lookup_cons]
    by_cases he : k = k'
    · subst he; simp
    · have : (k == k') = false := by simp [he]
      rw [this]
      rcases List.mem_cons.mp h with h | h
      · simp at h; exact absurd h.1 he
      · exact ih h

theorem pick_of {l : List TokenCtx} {x : TokenCtx} (hx : x ∈ l) (hs : ∀ y ∈ l, y.oracle = x.oracle → (y.fallback, y.quote) = (x.fallback, x.quote)) :
    mapGet (l.map (fun t => (t.oracle, t.fallback, t.quote))) x.oracle = some (x.fallback, x.quote) := by
  unfold mapGet
  have h1 : (x.oracle, x.fallback, x.quote) ∈ (l.map (fun t => (t.oracle, t.fallback, t.quote))).reverse := by
    rw [List.mem_reverse, List.mem_map]; exact ⟨x, hx, rfl⟩
  obtain ⟨v, hv⟩ := Option.isSome_iff_exists.mp (lookup_isSome h1)
  rw [hv]
  have h2 := lookup_mem hv
  rw [List.mem_reverse, List.mem_map] at h2
  obtain ⟨y, hy, he⟩ := h2
  simp only [Prod.mk.injEq] at he
  obtain ⟨e1, e2⟩ := he
  rw [← e2, hs y hy e1]

/-- **C80, known fallbacks** A token's fallback is known with the settings `All`, `Fixed` with the fallback listed, and `Dynamic` when its oracle was found invalid, if all tokens with the same oracle
have the same fallback. With `Never`, none is known. -/
theorem C80_known {K : Keys} {c : Ctx} {x : TokenCtx} (hx : x ∈ c.tokens.map Prod.snd) (hd : x.fallback ≠ K.default)
    (hs : ∀ y ∈ c.tokens.map Prod.snd, y.oracle = x.oracle → (y.fallback, y.quote) = (x.fallback, x.quote)) :
    fallbackKeys K c .all x.oracle = some (x.fallback, x.quote) ∧
    (∀ keys, x.fallback ∈ keys → fallbackKeys K c (.fixed keys) x.oracle = some (x.fallback, x.quote)) ∧
    (∀ invalid, x.oracle ∈ invalid → fallbackKeys K c (.dynamic invalid) x.oracle = some (x.fallback, x.quote)) ∧
    fallbackKeys K c .never x.oracle = none := by
  refine ⟨?_, ?_, ?_, rfl⟩
  · exact pick_of (List.mem_filter.mpr ⟨hx, by simp [hd]⟩) (fun y hy => hs y (List.mem_filter.mp hy).1)
  · intro keys hk
    exact pick_of (List.mem_filter.mpr ⟨hx, by simp [hd, hk]⟩) (fun y hy => hs y (List.mem_filter.mp hy).1)
  · intro invalid hi
    unfold fallbackKeys
    simp only [hi, if_true]
    have h1 : ((c.tokens.map Prod.snd).reverse.find? (fun t => decide (t.oracle = x.oracle))).isSome = true := by
      rw [List.find?_isSome]; exact ⟨x, by simpa using hx, by simp⟩
    obtain ⟨y, hy⟩ := Option.isSome_iff_exists.mp h1
    rw [hy]
    have hm := List.mem_of_find?_eq_some hy
    have he := List.find?_some hy
    have := hs y (by simpa using hm) (by simpa using he)
    simp only [Prod.mk.injEq] at this
    simp only [this.1, this.2]
    rw [if_pos hd]

theorem pick_mem {l : List TokenCtx} {k : Nat} {v : Nat × Nat} (h : mapGet (l.map (fun t => (t.oracle, t.fallback, t.quote))) k = some v) : ∃ x ∈ l, x.oracle = k ∧ (x.fallback, x.quote) = v := by
  have := lookup_mem h
  rw [List.mem_reverse, List.mem_map] at this
  obtain ⟨x, hx, e⟩ := this
  simp only [Prod.mk.injEq] at e
  exact ⟨x, hx, e.1, by rw [← e.2]⟩

/-- **C80, known fallbacks** The library passes no other fallbacks: each is that of a token with the oracle, is listed with `Fixed`, and with `Dynamic` the oracle was found invalid. -/
theorem C80_known_only {K : Keys} {c : Ctx} {cfg : FallbackConfig} {k f q : Nat} (h : fallbackKeys K c cfg k = some (f, q)) :
    (∃ x ∈ c.tokens.map Prod.snd, x.oracle = k ∧ x.fallback = f ∧ x.quote = q) ∧ f ≠ K.default ∧
      cfg ≠ .never ∧ (∀ keys, cfg = .fixed keys → f ∈ keys) ∧ (∀ invalid, cfg = .dynamic invalid → k ∈ invalid) := by
  cases cfg with
  | never => simp [fallbackKeys] at h
  | all =>
    obtain ⟨x, hx, e1, e2⟩ := pick_mem h
    simp only [Prod.mk.injEq] at e2
    obtain ⟨hm, hd⟩ := List.mem_filter.mp hx
    exact ⟨⟨x, hm, e1, e2.1, e2.2⟩, by rw [← e2.1]; simpa using hd, by simp, by simp, by simp⟩
  | fixed keys =>
    obtain ⟨x, hx, e1, e2⟩ := pick_mem h
    simp only [Prod.mk.injEq] at e2
    obtain ⟨hm, hd⟩ := List.mem_filter.mp hx
    simp only [Bool.and_eq_true, decide_eq_true_eq] at hd
    exact ⟨⟨x, hm, e1, e2.1, e2.2⟩, by rw [← e2.1]; exact hd.1, by simp, by rintro _ ⟨⟩; rw [← e2.1]; exact hd.2, by simp⟩
  | dynamic invalid =>
    unfold fallbackKeys at h
    by_cases hi : k ∈ invalid
    · simp only [hi, if_true] at h
      cases hx : ((c.tokens.map Prod.snd).reverse.find? (fun t => decide (t.oracle = k))) with
      | none => rw [hx] at h; cases h
      | some y =>
        rw [hx] at h
        by_cases hd : y.fallback ≠ K.default
        · simp only [hd, ne_eq, not_false_eq_true, if_true, Option.some.injEq, Prod.mk.injEq] at h
          have hm := List.mem_of_find?_eq_some hx
          have he := List.find?_some hx
          exact ⟨⟨y, by simpa using hm, by simpa using he, h.1, h.2⟩, by rw [← h.1]; exact hd, by simp, by simp, by rintro _ ⟨⟩; exact hi⟩
        · simp [hd] at h
    · simp [hi] at h

/-! ## Examples and what is missing

Stub prices are never stale; Pyth prices of slot 0 are, at slot 1000. -/

def cxKeys : Keys := ⟨100, 101, 0⟩
def cxCfg : Cfg := { confFilter := S, maxStaleness := 100 }
def cxBank (t o f : Nat) : Content := .bank ⟨7, t, { oracle := o, fallback := f, decimals := 6, cfg := cxCfg }⟩
def cxPyth (price slot : Int) : Content := .oracle (.pyth ⟨true, price, 0, slot, price, 0, slot, -6⟩)
def cxNow : Int × Int := (5000, 1000)

/-- token 0 (bank 10, oracle 1, fallback 2), token 1 (bank 11, oracle 3), token 2 (bank 12, oracle 2), token 3 (bank 13, SOL's feed), token 4 (bank 14, oracle 1, fallback 4), token 5 (bank 15, oracle 6,
fallback a pool quoted in SOL), token 6 (bank 16, the pool as oracle); perp market 9 -/
def cxChain : Nat → Content
  | 10 => cxBank 0 1 2 | 11 => cxBank 1 3 0 | 12 => cxBank 2 2 0 | 13 => cxBank 3 101 0 | 14 => cxBank 4 1 4 | 15 => cxBank 5 6 5 | 16 => cxBank 6 5 0
  | 1 => cxPyth 1000000 0 | 2 => cxPyth 2000000 990 | 3 => cxPyth 3000000 990 | 4 => cxPyth 4000000 990
  | 5 => .oracle (.pool true (2 ^ 64) (.other 1) .sol) | 6 => cxPyth 6000000 0 | 100 => cxPyth 1000000 990 | 101 => .oracle (.pyth ⟨true, 150000000, 0, 990, 150000000, 0, 990, -6⟩)
  | 20 => .perp ⟨7, 9, 3, 6, cxCfg⟩ | 30 => .openOrders 77
  | _ => .other

def cxCtx (toks : List Nat) : Ctx :=
  { tokens := ([(0, ⟨10, 1, 2, 0⟩), (1, ⟨11, 3, 0, 0⟩), (2, ⟨12, 2, 0, 0⟩), (3, ⟨13, 101, 0, 0⟩), (4, ⟨14, 1, 4, 0⟩), (5, ⟨15, 6, 5, 101⟩), (6, ⟨16, 5, 0, 0⟩)] : List (Nat × TokenCtx)).filter
      (fun x => decide (x.1 ∈ toks)),
    perps := [(9, ⟨20, 3, 1⟩)] }
def cxMk : Slots.Markets := ⟨fun _ => 0, fun _ => 1, fun _ => 1⟩

/-- an account with positions in the given tokens and room for two more -/
def cxAcc (toks : List Nat) : Slots.Acc :=
  ⟨toks.map (fun t => ⟨t, 0, 5⟩) ++ [Slots.freeToken, Slots.freeToken], [], [Slots.freePerp], [], 0⟩

/-- the price the program gets for a token from the library's list, read in fixed order and scanned, and the one with everything on chain; `none` if it fails -/
def cxPrices (ctx : List Nat) (cfg : FallbackConfig) (a : Slots.Acc) (pos t bank : Nat) : Option Int × Option Int × Option Int :=
  match derive cxKeys (cxCtx ctx) (fallbackKeys cxKeys (cxCtx ctx) cfg) a [] [] [], cxChain bank with
  | .ok l, .bank b =>
    ((match fixedNew (supply cxChain l) (activeTokens a).length 0 (activePerps a).length cxNow with
      | .ok f => (match f.bankAndOracle noInv cxKeys 7 pos t with | .ok x => some x.2 | .error _ => none)
      | .error _ => none),
     (match scanNew (supply cxChain l) 7 (some cxNow) with
      | .ok s => (match s.bankAndOracle noInv cxKeys t with | .ok x => some x.2 | .error _ => none)
      | .error _ => none),
     (match bankPrice noInv b.o (full cxChain cxKeys b.o) (some cxNow) with | .ok x => some x | .error _ => none))
  | _, _ => (none, none, none)

/-- a stale oracle with a fallback: all three agree -/
example : cxPrices [0, 1, 2, 3, 5, 6] .all (cxAcc [0, 1]) 0 0 10 = (some 562949954000000, some 562949954000000, some 562949954000000) := by decide +kernel
/-- the fallback a pool, with the quote feed in the list -/
example : cxPrices [0, 1, 2, 3, 5, 6] .all (cxAcc [5, 1]) 0 5 15 = (some 42221250000000, some 42221250000000, some 42221250000000) := by decide +kernel

/-- **Not passed: a fallback that is another position's oracle** (context.rs:462-466 leaves it out; the program looks for fallbacks only after the open orders accounts) -/
theorem C80_fallback_is_oracle : cxPrices [0, 1, 2, 3, 5, 6] .all (cxAcc [0, 2]) 0 0 10 = (none, none, some 562949954000000) := by decide +kernel
/-- **Not found when scanning: a quote feed that is another position's oracle**; in fixed order it is found -/
theorem C80_quote_is_oracle : cxPrices [0, 1, 2, 3, 5, 6] .all (cxAcc [5, 3]) 0 5 15 = (some 42221250000000, none, some 42221250000000) := by decide +kernel
/-- **Not passed: the fallback of one of two tokens with the same oracle** (the map is by oracle) -/
theorem C80_shared_oracle : cxPrices [0, 4] .all (cxAcc [0]) 0 0 10 = (none, none, some 562949954000000) ∧
    cxPrices [0, 4] .all (cxAcc [4]) 0 4 14 = (some 1125899908000000, some 1125899908000000, some 1125899908000000) := by
  constructor <;> decide +kernel
/-- **Not passed: the quote feed of a pool that is a token's own oracle** -/
theorem C80_pool_oracle : cxPrices [6] .all (cxAcc [6]) 0 6 16 = (none, none, some 42221250000000) := by decide +kernel

/-- the hypotheses of `C80_fixed` are met: token 0 and an instruction that writes to its bank, and affects token 1 and perp market 9 -/
theorem cx_reach : Slots.Reach cxMk (cxAcc [0]) :=
  Slots.Reach.step (a := Slots.newAcc 3 0 1 0) (.token 0 5 false) (.new 3 0 1 0) (by simp [Slots.Op.Registered, Slots.FREE]) (by decide +kernel)

theorem lookup_any {α : Type} {l : List (Nat × α)} {k : Nat} {v : α} (h : l.lookup k = some v) : (k, v) ∈ l := by
  induction l with
  | nil => simp at h
  | cons x l ih =>
    obtain ⟨k', v'⟩ := x
    rw [List.lookup_cons] at h
    by_cases he : k = k'
    · subst he; simp at h; subst h; simp
    · have : (k == k') = false := by simp [he]
      rw [this] at h; exact List.mem_cons_of_mem _ (ih h)

theorem cx_ctx : CtxOk cxKeys cxChain 7 (cxCtx [0, 1]) where
  tokens := by
    intro t x h
    have h' := lookup_any (show (cxCtx [0, 1]).tokens.lookup t = some x from h)
    have e : (cxCtx [0, 1]).tokens = [(0, ⟨10, 1, 2, 0⟩), (1, ⟨11, 3, 0, 0⟩)] := by decide +kernel
    rw [e] at h'
    simp only [List.mem_cons, Prod.mk.injEq, List.not_mem_nil, or_false] at h'
    rcases h' with ⟨rfl, rfl⟩ | ⟨rfl, rfl⟩
    · exact ⟨by decide, Or.inl ⟨_, rfl⟩, rfl, _, rfl, rfl, rfl, rfl, rfl⟩
    · exact ⟨by decide, Or.inl ⟨_, rfl⟩, rfl, _, rfl, rfl, rfl, rfl, rfl⟩
  perps := by
    intro t x h
    have h' := lookup_any (show (cxCtx [0, 1]).perps.lookup t = some x from h)
    have e : (cxCtx [0, 1]).perps = [(9, ⟨20, 3, 1⟩)] := rfl
    rw [e] at h'
    simp only [List.mem_cons, Prod.mk.injEq, List.not_mem_nil, or_false] at h'
    obtain ⟨rfl, rfl⟩ := h'
    exact ⟨by decide, by decide, Or.inl ⟨_, rfl⟩, _, rfl, rfl, rfl, rfl⟩
  usdc := by decide
  sol := by decide

example : Seen cxKeys cxChain 7 (cxCtx [0, 1]) (fallbackKeys cxKeys (cxCtx [0, 1]) .all) (activeOos (cxAcc [0])) where
  ctx := cx_ctx
  fallbacks := by
    intro o k q h
    have h' := lookup_mem (show (((((cxCtx [0, 1]).tokens.map Prod.snd).filter (fun t => decide (t.fallback ≠ cxKeys.default))).map (fun t => (t.oracle, t.fallback, t.quote))).reverse).lookup o = some (k, q) from h)
    have e : ((((cxCtx [0, 1]).tokens.map Prod.snd).filter (fun t => decide (t.fallback ≠ cxKeys.default))).map (fun t => (t.oracle, t.fallback, t.quote))).reverse = [(1, 2, 0)] := by decide +kernel
    rw [e] at h'
    simp only [List.mem_cons, Prod.mk.injEq, List.not_mem_nil, or_false] at h'
    obtain ⟨rfl, rfl, rfl⟩ := h'
    exact ⟨Or.inl ⟨_, rfl⟩, Or.inr rfl⟩
  orders := by intro k hk; rw [show activeOos (cxAcc [0]) = [] from rfl] at hk; simp at hk

example : (∀ m x, (cxCtx [0, 1]).perp m = some x → cxMk.settle m = x.settle) ∧
    derive cxKeys (cxCtx [0, 1]) (fallbackKeys cxKeys (cxCtx [0, 1]) .all) (cxAcc [0]) [1] [0] [9] =
      .ok [⟨10, true⟩, ⟨11, false⟩, ⟨1, false⟩, ⟨3, false⟩, ⟨20, false⟩, ⟨3, false⟩, ⟨2, false⟩] := by
  refine ⟨?_, by decide +kernel⟩
  intro m x h
  have h' := lookup_any (show ([(9, ⟨20, 3, 1⟩)] : List (Nat × PerpCtx)).lookup m = some x from h)
  simp only [List.mem_cons, Prod.mk.injEq, List.not_mem_nil, or_false] at h'
  obtain ⟨rfl, rfl⟩ := h'
  rfl

end ClientAccounts
end Mango
