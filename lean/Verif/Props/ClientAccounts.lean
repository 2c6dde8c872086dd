import Verif.Client.Accounts
import Verif.Props.ScanComplete
import Verif.Props.Slots
import Verif.Props.Oracle
/-!
# C80: the accounts the client library passes are those the program needs

Specification: `CtxOk` says that the library's view of the group matches the chain; `full` is what is on chain for a bank: its oracle, its fallback and both quote feeds. `FixedEnough` and `ScanEnough`
are the conditions under which nothing that matters is missing from the list.
-/
namespace Mango
namespace ClientAccounts
open Fx Oracle

/-- the account at an address -/
def at_ (chain : Nat → Content) (k : Nat) : Oracle.Acc := ⟨k, chain k⟩

/-- not a bank, perp market or open orders account -/
def Plain (chain : Nat → Content) (k : Nat) : Prop := (∃ s, chain k = .oracle s) ∨ chain k = .other

/-- the price source at an address -/
def src (chain : Nat → Content) (k : Nat) : Source := (at_ chain k).asOracle.src

structure CtxOk (K : Keys) (chain : Nat → Content) (group : Nat) (c : Ctx) : Prop where
  tokens : ∀ t x, c.token t = some x → t ≠ Slots.FREE ∧ Plain chain x.oracle ∧ x.quote = quoteKey K (src chain x.fallback) ∧
    ∃ b, chain x.bank = .bank b ∧ b.group = group ∧ b.tokenIndex = t ∧ b.o.oracle = x.oracle ∧ b.o.fallback = x.fallback
  perps : ∀ m x, c.perp m = some x → m ≠ Slots.FREE ∧ x.settle ≠ Slots.FREE ∧ Plain chain x.oracle ∧
    ∃ p, chain x.address = .perp p ∧ p.group = group ∧ p.marketIndex = m ∧ p.oracle = x.oracle
  usdc : K.usdc ≠ K.default
  sol : K.sol ≠ K.default

/-- everything on chain that matters for a bank's price -/
def full (chain : Nat → Content) (K : Keys) (b : BankO) : Infos :=
  { oracle := (at_ chain b.oracle).asOracle, fallback := if b.fallback = K.default then none else some (at_ chain b.fallback).asOracle,
    usdc := some (at_ chain K.usdc).asOracle, sol := some (at_ chain K.sol).asOracle }

/-- the bank's own oracle decides: it is readable with a price that passes the checks, or fails in a way for which fallbacks are not used -/
def PrimaryDecides (inv : Nat → Res I80F48) (chain : Nat → Content) (K : Keys) (b : BankO) (now : Option (Int × Int)) : Prop :=
  ∀ st, stateOf inv (full chain K b) (full chain K b).oracle b.decimals = .ok st → isOracleError (check st b.cfg now) = false

/-- an address is the oracle of one of the tokens -/
def IsTokenOracle (c : Ctx) (tokens : List Nat) (k : Nat) : Prop := ∃ t ∈ tokens, ∃ x, c.token t = some x ∧ x.oracle = k

/-- for lists read in fixed order: the oracle is not a pool (or its quote feed is another token's oracle), and the fallback is known to the library and is not itself a token's oracle, if it is needed -/
def FixedEnough (inv : Nat → Res I80F48) (chain : Nat → Content) (K : Keys) (c : Ctx) (fc : Nat → Option (Nat × Nat)) (tokens : List Nat) (x : TokenCtx) (b : BankO) (now : Option (Int × Int)) : Prop :=
  (quoteKey K (src chain x.oracle) = K.default ∨ IsTokenOracle c tokens (quoteKey K (src chain x.oracle))) ∧
  (x.fallback = K.default ∨ PrimaryDecides inv chain K b now ∨ (fc x.oracle = some (x.fallback, x.quote) ∧ ¬ IsTokenOracle c tokens x.fallback))

/-- for lists that are scanned: besides, the oracle is not a pool and the fallback's quote feed is not a token's oracle -/
def ScanEnough (inv : Nat → Res I80F48) (chain : Nat → Content) (K : Keys) (c : Ctx) (fc : Nat → Option (Nat × Nat)) (tokens : List Nat) (x : TokenCtx) (b : BankO) (now : Option (Int × Int)) : Prop :=
  quoteKey K (src chain x.oracle) = K.default ∧
  (x.fallback = K.default ∨ PrimaryDecides inv chain K b now ∨
    (fc x.oracle = some (x.fallback, x.quote) ∧ ¬ IsTokenOracle c tokens x.fallback ∧ ¬ IsTokenOracle c tokens x.quote))

/-! ## Price reading -/

theorem stateOf_agree {inv : Nat → Res I80F48} {K : Keys} {i j : Infos} {a : OAcc} {d : Int} (hu : quoteKey K a.src = K.usdc → i.usdc = j.usdc) (hs : quoteKey K a.src = K.sol → i.sol = j.sol) :
    stateOf inv i a d = stateOf inv j a d := by
  unfold stateOf
  cases h : a.src with
  | pool v q x y =>
    cases v with
    | false => rfl
    | true =>
      rw [h] at hu hs
      simp only [quoteKey] at hu hs
      have e : quoteState i x y = quoteState j x y := by
        unfold quoteState
        cases hm : (if isInverted x y = true then x else y) with
        | usdc => rw [hm] at hu; rw [hu rfl]
        | sol => rw [hm] at hs; rw [hs rfl]
        | other n => rfl
      simp only [e]
  | _ => rfl

theorem bankPrice_agree {inv : Nat → Res I80F48} {b : BankO} {i j : Infos} {now : Option (Int × Int)} (ho : i.oracle = j.oracle)
    (hs : stateOf inv i i.oracle b.decimals = stateOf inv j i.oracle b.decimals)
    (hf : (i.fallback = j.fallback ∧ ∀ f, i.fallback = some f → stateOf inv i f b.decimals = stateOf inv j f b.decimals) ∨
      (∀ st, stateOf inv j j.oracle b.decimals = .ok st → isOracleError (check st b.cfg now) = false)) : bankPrice inv b i now = bankPrice inv b j now := by
  unfold bankPrice
  rw [ho] at hs
  simp only [ho, hs]
  cases hst : stateOf inv j j.oracle b.decimals with
  | error e => rfl
  | ok st =>
    rcases hf with ⟨hf, hg⟩ | hf
    · rw [← hf]
      cases hfi : i.fallback with
      | none => rfl
      | some f => simp only [hg f hfi]
    · have := hf st hst
      cases i.fallback <;> cases j.fallback <;> simp [bind, Except.bind, this]

/-! ## The list -/

theorem getAll_ok {α : Type} {f : Nat → Option α} : ∀ {xs : List Nat} {ys : List α}, getAll f xs = .ok ys →
    ys.length = xs.length ∧ (∀ (i x : Nat), xs[i]? = some x → ∃ y, ys[i]? = some y ∧ f x = some y) ∧ (∀ y ∈ ys, ∃ x ∈ xs, f x = some y) := by
  intro xs
  induction xs with
  | nil => intro ys h; injection h with h; subst h; simp
  | cons x xs ih =>
    intro ys h
    unfold getAll at h
    split at h
    · simp at h
    · rename_i y hy
      simp only [bind_ok] at h
      obtain ⟨ys', h1, h2⟩ := h
      injection h2 with h2
      subst h2
      obtain ⟨e1, e2, e3⟩ := ih h1
      refine ⟨by simp [e1], ?_, ?_⟩
      · intro i z hz
        cases i with
        | zero => simp at hz; subst hz; exact ⟨y, by simp, hy⟩
        | succ i => simpa using e2 i z (by simpa using hz)
      · intro z hz
        rcases List.mem_cons.mp hz with rfl | hz
        · exact ⟨x, by simp, hy⟩
        · obtain ⟨w, hw, he⟩ := e3 z hz
          exact ⟨w, by simp [hw], he⟩

theorem find_supply {chain : Nat → Content} {l : List Nat} {k : Nat} : (l.map (at_ chain)).find? (fun a => decide (a.key = k)) = if k ∈ l then some (at_ chain k) else none := by
  induction l with
  | nil => simp
  | cons x l ih =>
    rw [List.map_cons, List.find?_cons]
    by_cases h : x = k
    · subst h; simp [at_]
    · have : decide ((at_ chain x).key = k) = false := by simp [at_, h]
      rw [this, ih]
      simp [Ne.symm h]

theorem nodup_unique : ∀ (n : Nat) (l : List Nat), l.length ≤ n → (unique l).Nodup := by
  intro n
  induction n with
  | zero => intro l h; obtain rfl : l = [] := List.length_eq_zero_iff.mp (by omega); simp [unique]
  | succ n ih =>
    intro l h
    cases l with
    | nil => simp [unique]
    | cons a l =>
      unfold unique
      rw [List.eraseDups_cons]
      refine List.nodup_cons.mpr ⟨?_, ih _ ?_⟩
      · simp
      · have := List.length_filter_le (fun b => !b == a) l
        simp at h; omega

/-- the addresses in the section of fallbacks -/
def fallbackSection (K : Keys) (fc : Nat → Option (Nat × Nat)) (ts : List TokenCtx) : List Nat :=
  (unique (ts.flatMap (fun t => match fc t.oracle with
    | some (k, q) => [k, q]
    | none => []))).filter (fun k => decide (k ∉ ts.map TokenCtx.oracle) && decide (k ≠ K.default))

theorem mem_fallbackSection {K : Keys} {fc : Nat → Option (Nat × Nat)} {ts : List TokenCtx} {k : Nat} :
    k ∈ fallbackSection K fc ts ↔ (∃ t ∈ ts, ∃ a q, fc t.oracle = some (a, q) ∧ (k = a ∨ k = q)) ∧ (∀ t ∈ ts, t.oracle ≠ k) ∧ k ≠ K.default := by
  unfold fallbackSection unique
  rw [List.mem_filter, List.mem_eraseDups, List.mem_flatMap]
  simp only [Bool.and_eq_true, decide_eq_true_eq, List.mem_map, not_exists, not_and]
  refine and_congr ?_ Iff.rfl
  constructor
  · rintro ⟨t, ht, h⟩
    cases hf : fc t.oracle with
    | none => rw [hf] at h; simp at h
    | some v => obtain ⟨a, q⟩ := v; rw [hf] at h; simp at h; exact ⟨t, ht, a, q, hf, h⟩
  · rintro ⟨t, ht, a, q, hf, h⟩
    exact ⟨t, ht, by rw [hf]; simpa using h⟩

theorem metasOf_ok {K : Keys} {c : Ctx} {fc : Nat → Option (Nat × Nat)} {tokens writable perps oos : List Nat} {l : List Meta} (h : metasOf K c fc tokens writable perps oos = .ok l) :
    ∃ ts ps, getAll c.token tokens = .ok ts ∧ getAll c.perp perps = .ok ps ∧
      l = (tokens.zip ts).map (fun x => (⟨x.2.bank, decide (x.1 ∈ writable)⟩ : Meta)) ++ ((ts.map TokenCtx.oracle).map readonly ++ ((ps.map PerpCtx.address).map readonly ++
        ((ps.map PerpCtx.oracle).map readonly ++ (oos.map readonly ++ (fallbackSection K fc ts).map readonly)))) ∧
      ∀ chain : Nat → Content, supply chain l = layout ((ts.map TokenCtx.bank).map (at_ chain)) ((ts.map TokenCtx.oracle).map (at_ chain)) ((ps.map PerpCtx.address).map (at_ chain))
        ((ps.map PerpCtx.oracle).map (at_ chain)) (oos.map (at_ chain)) ((fallbackSection K fc ts).map (at_ chain)) := by
  unfold metasOf at h
  simp only [bind_ok] at h
  obtain ⟨ts, h1, ps, h2, h3⟩ := h
  injection h3 with h3
  refine ⟨ts, ps, h1, h2, h3.symm, ?_⟩
  intro chain
  rw [← h3]
  have hlen := (getAll_ok h1).1
  have hz : ∀ (xs : List Nat) (ys : List TokenCtx), ys.length = xs.length →
      ((xs.zip ys).map (fun x => (⟨x.2.bank, decide (x.1 ∈ writable)⟩ : Meta))).map (fun m => (⟨m.key, chain m.key⟩ : Oracle.Acc)) = (ys.map TokenCtx.bank).map (at_ chain) := by
    intro xs
    induction xs with
    | nil => intro ys h; simp at h; subst h; rfl
    | cons x xs ih =>
      intro ys h
      cases ys with
      | nil => simp at h
      | cons y ys => simp only [List.zip_cons_cons, List.map_cons]; rw [ih ys (by simpa using h)]; rfl
  have hr : ∀ xs : List Nat, (xs.map readonly).map (fun m => (⟨m.key, chain m.key⟩ : Oracle.Acc)) = xs.map (at_ chain) := by
    intro xs; rw [List.map_map]; rfl
  unfold supply layout
  simp only [List.map_append]
  rw [hz tokens ts hlen, hr, hr, hr, hr]
  congr 5
  exact hr _

/-- what a list gives for a bank: `F` are the fallbacks, `A` the addresses among which quote feeds are looked for -/
def given (chain : Nat → Content) (K : Keys) (F A : List Nat) (b : BankO) : Infos :=
  { oracle := (at_ chain b.oracle).asOracle, fallback := if b.fallback ∈ F then some (at_ chain b.fallback).asOracle else none,
    usdc := if K.usdc ∈ A then some (at_ chain K.usdc).asOracle else none, sol := if K.sol ∈ A then some (at_ chain K.sol).asOracle else none }

theorem price_agree {inv : Nat → Res I80F48} {chain : Nat → Content} {K : Keys} {F A : List Nat} {b : BankO} {now : Option (Int × Int)} (hu : K.usdc ≠ K.default) (hs : K.sol ≠ K.default)
    (hF : K.default ∉ F) (hq : quoteKey K (src chain b.oracle) = K.default ∨ quoteKey K (src chain b.oracle) ∈ A)
    (hf : b.fallback = K.default ∨ PrimaryDecides inv chain K b now ∨
      (b.fallback ∈ F ∧ (quoteKey K (src chain b.fallback) = K.default ∨ quoteKey K (src chain b.fallback) ∈ A))) :
    bankPrice inv b (given chain K F A b) now = bankPrice inv b (full chain K b) now := by
  have feed : ∀ (k : Nat) (d : Int), (quoteKey K (src chain k) = K.default ∨ quoteKey K (src chain k) ∈ A) →
      stateOf inv (given chain K F A b) (at_ chain k).asOracle d = stateOf inv (full chain K b) (at_ chain k).asOracle d := by
    intro k d h
    apply stateOf_agree (K := K)
    · intro e
      have e' : quoteKey K (src chain k) = K.usdc := e
      rcases h with h | h
      · exact absurd (e'.symm.trans h) hu
      · rw [e'] at h; simp [given, full, h]
    · intro e
      have e' : quoteKey K (src chain k) = K.sol := e
      rcases h with h | h
      · exact absurd (e'.symm.trans h) hs
      · rw [e'] at h; simp [given, full, h]
  refine bankPrice_agree rfl (feed _ _ hq) ?_
  rcases hf with hf | hf | ⟨hf, hg⟩
  · left
    constructor
    · simp only [given, full]; rw [if_neg (by rw [hf]; exact hF), if_pos hf]
    · intro f h
      simp only [given] at h; rw [if_neg (by rw [hf]; exact hF)] at h; cases h
  · right; exact hf
  · left
    have hne : b.fallback ≠ K.default := fun e => hF (by rw [← e]; exact hf)
    constructor
    · simp only [given, full]; rw [if_pos hf, if_neg hne]
    · intro f h
      simp only [given] at h; rw [if_pos hf] at h
      injection h with h; subst h
      exact feed _ _ hg

/-- the parts of the chain that are looked at -/
structure Seen (K : Keys) (chain : Nat → Content) (group : Nat) (c : Ctx) (fc : Nat → Option (Nat × Nat)) (oos : List Nat) : Prop where
  ctx : CtxOk K chain group c
  fallbacks : ∀ o k q, fc o = some (k, q) → Plain chain k ∧ Plain chain q
  orders : ∀ k ∈ oos, ∃ id, chain k = .openOrders id

theorem plain_not {chain : Nat → Content} {k : Nat} (h : Plain chain k) : (∀ b, chain k ≠ .bank b) ∧ (∀ p, chain k ≠ .perp p) ∧ ∀ o, chain k ≠ .openOrders o := by
  rcases h with ⟨s, h⟩ | h <;> rw [h] <;> simp

theorem wellLaid {K : Keys} {chain : Nat → Content} {group : Nat} {c : Ctx} {fc : Nat → Option (Nat × Nat)} {tokens perps oos : List Nat} {ts : List TokenCtx} {ps : List PerpCtx}
    (hw : Seen K chain group c fc oos) (h1 : getAll c.token tokens = .ok ts) (h2 : getAll c.perp perps = .ok ps) (n1 : tokens.Nodup) (n2 : perps.Nodup) :
    WellLaid group ((ts.map TokenCtx.bank).map (at_ chain)) ((ts.map TokenCtx.oracle).map (at_ chain)) ((ps.map PerpCtx.address).map (at_ chain))
        ((ps.map PerpCtx.oracle).map (at_ chain)) (oos.map (at_ chain)) ((fallbackSection K fc ts).map (at_ chain)) := by
  obtain ⟨t1, t2, t3⟩ := getAll_ok h1
  obtain ⟨p1, p2, p3⟩ := getAll_ok h2
  have hb : ∀ x ∈ ts, ∃ b, chain x.bank = .bank b ∧ b.group = group := by
    intro x hx
    obtain ⟨t, _, ht⟩ := t3 x hx
    obtain ⟨_, _, _, b, hb, hg, _⟩ := hw.ctx.tokens t x ht
    exact ⟨b, hb, hg⟩
  have hp : ∀ x ∈ ps, ∃ p, chain x.address = .perp p ∧ p.group = group := by
    intro x hx
    obtain ⟨t, _, ht⟩ := p3 x hx
    obtain ⟨_, _, _, b, hb, hg, _⟩ := hw.ctx.perps t x ht
    exact ⟨b, hb, hg⟩
  have po : ∀ x ∈ ts, Plain chain x.oracle := fun x hx => by obtain ⟨t, _, ht⟩ := t3 x hx; exact (hw.ctx.tokens t x ht).2.1
  have ppo : ∀ x ∈ ps, Plain chain x.oracle := fun x hx => by obtain ⟨t, _, ht⟩ := p3 x hx; exact (hw.ctx.perps t x ht).2.2.1
  have pf : ∀ k ∈ fallbackSection K fc ts, Plain chain k := by
    intro k hk
    obtain ⟨⟨t, _, a, q, hf, he⟩, _⟩ := mem_fallbackSection.mp hk
    rcases he with rfl | rfl
    · exact (hw.fallbacks _ _ _ hf).1
    · exact (hw.fallbacks _ _ _ hf).2
  have idx : ∀ (xs : List Nat) (ys : List TokenCtx), getAll c.token xs = .ok ys → ((((ys.map TokenCtx.bank).map (at_ chain)).filterMap Acc.bank?).map BankAcc.tokenIndex) = xs := by
    intro xs
    induction xs with
    | nil => intro ys h; injection h with h; subst h; rfl
    | cons x xs ih =>
      intro ys h
      unfold getAll at h
      split at h
      · simp at h
      · rename_i y hy
        simp only [bind_ok] at h
        obtain ⟨ys', e1, e2⟩ := h
        injection e2 with e2; subst e2
        obtain ⟨_, _, _, b, hb, _, hi, _⟩ := hw.ctx.tokens x y hy
        have : Acc.bank? (at_ chain y.bank) = some b := by simp [Acc.bank?, at_, hb]
        simp only [List.map_cons]
        rw [List.filterMap_cons_some this, List.map_cons, ih ys' e1, hi]
  have idp : ∀ (xs : List Nat) (ys : List PerpCtx), getAll c.perp xs = .ok ys → ((((ys.map PerpCtx.address).map (at_ chain)).filterMap Acc.perp?).map PerpAcc.marketIndex) = xs := by
    intro xs
    induction xs with
    | nil => intro ys h; injection h with h; subst h; rfl
    | cons x xs ih =>
      intro ys h
      unfold getAll at h
      split at h
      · simp at h
      · rename_i y hy
        simp only [bind_ok] at h
        obtain ⟨ys', e1, e2⟩ := h
        injection e2 with e2; subst e2
        obtain ⟨_, _, _, b, hb, _, hi, _⟩ := hw.ctx.perps x y hy
        have : Acc.perp? (at_ chain y.address) = some b := by simp [Acc.perp?, at_, hb]
        simp only [List.map_cons]
        rw [List.filterMap_cons_some this, List.map_cons, ih ys' e1, hi]
  refine ⟨?_, ?_, ?_, ?_, ?_, ?_, by simp, by simp, by rw [idx tokens ts h1]; exact n1, by rw [idp perps ps h2]; exact n2⟩
  · intro a ha
    simp only [List.mem_map] at ha
    obtain ⟨_, ⟨x, hx, rfl⟩, rfl⟩ := ha
    exact hb x hx
  · intro a ha
    simp only [List.mem_map] at ha
    obtain ⟨_, ⟨x, hx, rfl⟩, rfl⟩ := ha
    exact hp x hx
  · intro a ha
    simp only [List.mem_map] at ha
    obtain ⟨k, hk, rfl⟩ := ha
    exact hw.orders k hk
  · intro a ha b
    simp only [List.mem_append, List.mem_map] at ha
    rcases ha with ⟨_, ⟨x, hx, rfl⟩, rfl⟩ | ⟨_, ⟨x, hx, rfl⟩, rfl⟩ | ⟨_, ⟨x, hx, rfl⟩, rfl⟩ | ⟨k, hk, rfl⟩ | ⟨k, hk, rfl⟩
    · exact (plain_not (po x hx)).1 b
    · obtain ⟨p, e, _⟩ := hp x hx
      show chain x.address ≠ _
      rw [e]; simp
    · exact (plain_not (ppo x hx)).1 b
    · obtain ⟨p, e⟩ := hw.orders k hk
      show chain k ≠ _
      rw [e]; simp
    · exact (plain_not (pf k hk)).1 b
  · intro a ha b
    simp only [List.mem_append, List.mem_map] at ha
    rcases ha with ⟨_, ⟨x, hx, rfl⟩, rfl⟩ | ⟨k, hk, rfl⟩ | ⟨k, hk, rfl⟩
    · exact (plain_not (ppo x hx)).2.1 b
    · obtain ⟨p, e⟩ := hw.orders k hk
      show chain k ≠ _
      rw [e]; simp
    · exact (plain_not (pf k hk)).2.1 b
  · intro a ha b
    simp only [List.mem_map] at ha
    obtain ⟨k, hk, rfl⟩ := ha
    exact (plain_not (pf k hk)).2.2 b

theorem isTokenOracle_iff {c : Ctx} {tokens : List Nat} {ts : List TokenCtx} (h : getAll c.token tokens = .ok ts) {k : Nat} : IsTokenOracle c tokens k ↔ ∃ x ∈ ts, x.oracle = k := by
  obtain ⟨t1, t2, t3⟩ := getAll_ok h
  constructor
  · rintro ⟨t, ht, x, hx, e⟩
    obtain ⟨i, hi⟩ := List.mem_iff_getElem?.mp ht
    obtain ⟨y, hy, e2⟩ := t2 i t hi
    rw [hx] at e2; injection e2 with e2; subst e2
    exact ⟨x, List.mem_of_getElem? hy, e⟩
  · rintro ⟨x, hx, e⟩
    obtain ⟨t, ht, e2⟩ := t3 x hx
    exact ⟨t, ht, x, e2, e⟩

theorem default_not_fallback {K : Keys} {fc : Nat → Option (Nat × Nat)} {ts : List TokenCtx} : K.default ∉ fallbackSection K fc ts := fun h => (mem_fallbackSection.mp h).2.2 rfl

theorem not_oracle_iff {c : Ctx} {tokens : List Nat} {ts : List TokenCtx} (h : getAll c.token tokens = .ok ts) {k : Nat} : ¬ IsTokenOracle c tokens k ↔ ∀ t ∈ ts, t.oracle ≠ k := by
  rw [isTokenOracle_iff h]; push Not; rfl

/-- the list, scanned -/
theorem scan_metas (inv : Nat → Res I80F48) {K : Keys} {chain : Nat → Content} {group : Nat} {c : Ctx} {fc : Nat → Option (Nat × Nat)} {tokens writable perps oos : List Nat} {l : List Meta}
    (hw : Seen K chain group c fc oos) (n1 : tokens.Nodup) (n2 : perps.Nodup) (n3 : oos.Nodup) (h : metasOf K c fc tokens writable perps oos = .ok l) (now : Option (Int × Int)) :
    ∃ s, scanNew (supply chain l) group now = .ok s ∧
    (∀ t ∈ tokens, ∃ x b, c.token t = some x ∧ chain x.bank = .bank b ∧ ⟨x.bank, decide (t ∈ writable)⟩ ∈ l ∧
      (ScanEnough inv chain K c fc tokens x b.o now → s.bankAndOracle inv K t = (bankPrice inv b.o (full chain K b.o) now).map (fun p => (b, p)))) ∧
    (∀ m ∈ perps, ∃ x p, c.perp m = some x ∧ chain x.address = .perp p ∧
      s.perpAndOracle inv m = (perpState inv p.oracle p.decimals p.cfg { oracle := (at_ chain p.oracle).asOracle, fallback := none, usdc := none, sol := none } now).map (fun st => (p, st.price))) ∧
    (∀ k ∈ oos, ∀ id, chain k = .openOrders id → s.serumOo k = .ok id) := by
  obtain ⟨ts, ps, h1, h2, hl, hsup⟩ := metasOf_ok h
  obtain ⟨t1, t2, t3⟩ := getAll_ok h1
  obtain ⟨p1, p2, p3⟩ := getAll_ok h2
  obtain ⟨s, hs, f1, f2, f3⟩ := C52_scan_complete inv K (wellLaid hw h1 h2 n1 n2) now
  rw [hsup chain]
  refine ⟨s, hs, ?_, ?_, ?_⟩
  · intro t ht
    obtain ⟨i, hi⟩ := List.mem_iff_getElem?.mp ht
    obtain ⟨x, hx, hc⟩ := t2 i t hi
    obtain ⟨_, _, hqk, b, hb, hg, hti, ho, hfb⟩ := hw.ctx.tokens t x hc
    refine ⟨x, b, hc, hb, ?_, ?_⟩
    · rw [hl]
      apply List.mem_append_left
      rw [List.mem_map]
      exact ⟨(t, x), List.mem_iff_getElem?.mpr ⟨i, by rw [List.getElem?_zip_eq_some]; exact ⟨hi, hx⟩⟩, rfl⟩
    · intro he
      have := f1 i (at_ chain x.bank) (at_ chain x.oracle) b (by simp [hx]) (by simp [hx]) hb
      rw [hti] at this
      rw [this]
      congr 1
      rw [← price_agree (F := fallbackSection K fc ts) (A := fallbackSection K fc ts) hw.ctx.usdc hw.ctx.sol default_not_fallback (by rw [ho]; exact Or.inl he.1) ?_]
      · rw [find_supply, find_supply, find_supply]
        unfold given
        rw [ho]
        congr 1
        congr 1
        · by_cases hd : b.o.fallback = K.default
          · rw [if_pos hd, if_neg (by rw [hd]; exact default_not_fallback)]
          · rw [if_neg hd]; split <;> rfl
        · split <;> rfl
        · split <;> rfl
      · rw [hfb]
        by_cases hd : x.fallback = K.default
        · exact Or.inl hd
        rcases he.2 with h | h | ⟨h, hn1, hn2⟩
        · exact Or.inl h
        · exact Or.inr (Or.inl h)
        · refine Or.inr (Or.inr ⟨mem_fallbackSection.mpr ⟨⟨x, List.mem_of_getElem? hx, _, _, h, Or.inl rfl⟩, (not_oracle_iff h1).mp hn1, hd⟩, ?_⟩)
          rw [← hqk]
          by_cases hd : x.quote = K.default
          · exact Or.inl hd
          · exact Or.inr (mem_fallbackSection.mpr ⟨⟨x, List.mem_of_getElem? hx, _, _, h, Or.inr rfl⟩, (not_oracle_iff h1).mp hn2, hd⟩)
  · intro m hm
    obtain ⟨i, hi⟩ := List.mem_iff_getElem?.mp hm
    obtain ⟨x, hx, hc⟩ := p2 i m hi
    obtain ⟨_, _, _, p, hp, hg, hti, ho⟩ := hw.ctx.perps m x hc
    refine ⟨x, p, hc, hp, ?_⟩
    have := f2 i (at_ chain x.address) (at_ chain x.oracle) p (by simp [hx]) (by simp [hx]) hp
    rw [hti] at this
    rw [this, ho]
  · intro k hk id hid
    obtain ⟨i, hi⟩ := List.mem_iff_getElem?.mp hk
    exact f3 i (at_ chain k) id (by rw [List.map_map]; simpa [Function.comp_def, at_] using n3) (by simp [hi]) hid

/-- the list, read in fixed order -/
theorem fixed_metas (inv : Nat → Res I80F48) {K : Keys} {chain : Nat → Content} {group : Nat} {c : Ctx} {fc : Nat → Option (Nat × Nat)} {tokens writable perps oos : List Nat} {l : List Meta}
    (hw : Seen K chain group c fc oos) (n1 : tokens.Nodup) (h : metasOf K c fc tokens writable perps oos = .ok l) (now : Int × Int) :
    ∃ f, fixedNew (supply chain l) tokens.length oos.length perps.length now = .ok f ∧
    (∀ (pos t : Nat), tokens[pos]? = some t → ∃ x b, c.token t = some x ∧ chain x.bank = .bank b ∧ ⟨x.bank, decide (t ∈ writable)⟩ ∈ l ∧
      (FixedEnough inv chain K c fc tokens x b.o (some now) → f.bankAndOracle inv K group pos t = (bankPrice inv b.o (full chain K b.o) (some now)).map (fun p => (b, p)))) ∧
    (∀ (pos m : Nat), perps[pos]? = some m → ∃ x p, c.perp m = some x ∧ chain x.address = .perp p ∧
      f.perpAndOracle inv group pos m =
        (perpState inv p.oracle p.decimals p.cfg { oracle := (at_ chain p.oracle).asOracle, fallback := none, usdc := none, sol := none } (some now)).map (fun st => (p, st.price))) ∧
    (∀ (pos k id : Nat), oos[pos]? = some k → chain k = .openOrders id → f.serumOo pos k = .ok id) := by
  obtain ⟨ts, ps, h1, h2, hl, hsup⟩ := metasOf_ok h
  obtain ⟨t1, t2, t3⟩ := getAll_ok h1
  obtain ⟨p1, p2, p3⟩ := getAll_ok h2
  rw [hsup chain]
  have hbank : ∀ (i : Nat) (x : TokenCtx), ts[i]? = some x → ∃ t b, tokens[i]? = some t ∧ c.token t = some x ∧ chain x.bank = .bank b ∧ b.group = group ∧ b.tokenIndex = t := by
    intro i x hx
    have hlt : i < tokens.length := by rw [← t1]; exact (List.getElem?_eq_some_iff.mp hx).1
    obtain ⟨y, hy, hc⟩ := t2 i tokens[i] (List.getElem?_eq_getElem hlt)
    rw [hx] at hy; injection hy with hy; subst hy
    obtain ⟨_, _, _, b, hb, hg, hti, _, _⟩ := hw.ctx.tokens _ x hc
    exact ⟨_, b, List.getElem?_eq_getElem hlt, hc, hb, hg, hti⟩
  obtain ⟨f, hf, f1, f2, f3⟩ := C52_fixed_complete inv K (bs := (ts.map TokenCtx.bank).map (at_ chain)) (os := (ts.map TokenCtx.oracle).map (at_ chain)) (ps := (ps.map PerpCtx.address).map (at_ chain))
    (po := (ps.map PerpCtx.oracle).map (at_ chain)) (oos := oos.map (at_ chain)) (fbs := (fallbackSection K fc ts).map (at_ chain)) (by simp) (by simp) now
  refine ⟨f, ?_, ?_, ?_, ?_⟩
  · unfold fixedNew
    have e1 : (layout ((ts.map TokenCtx.bank).map (at_ chain)) ((ts.map TokenCtx.oracle).map (at_ chain)) ((ps.map PerpCtx.address).map (at_ chain))
        ((ps.map PerpCtx.oracle).map (at_ chain)) (oos.map (at_ chain)) ((fallbackSection K fc ts).map (at_ chain))).take tokens.length = (ts.map TokenCtx.bank).map (at_ chain) := by
      unfold layout; rw [← t1]; exact List.take_left' (by simp)
    simp only [List.length_map] at hf
    rw [e1, ← t1, ← p1, hf]
    have e2 : ts.length ≤ (layout ((ts.map TokenCtx.bank).map (at_ chain)) ((ts.map TokenCtx.oracle).map (at_ chain)) ((ps.map PerpCtx.address).map (at_ chain))
        ((ps.map PerpCtx.oracle).map (at_ chain)) (oos.map (at_ chain)) ((fallbackSection K fc ts).map (at_ chain))).length := by
      simp [layout]
    have e3 : ∀ a ∈ (ts.map TokenCtx.bank).map (at_ chain), a.bank?.isSome = true := by
      intro a ha
      simp only [List.mem_map] at ha
      obtain ⟨_, ⟨x, hx, rfl⟩, rfl⟩ := ha
      obtain ⟨i, hi⟩ := List.mem_iff_getElem?.mp hx
      obtain ⟨_, b, _, _, hb, _⟩ := hbank i x hi
      simp [Acc.bank?, at_, hb]
    simp only [require, if_pos e2, if_pos e3]
    rfl
  · intro pos t hi
    obtain ⟨x, hx, hc⟩ := t2 pos t hi
    obtain ⟨_, _, hqk, b, hb, hg, hti, ho, hfb⟩ := hw.ctx.tokens t x hc
    refine ⟨x, b, hc, hb, ?_, ?_⟩
    · rw [hl]
      apply List.mem_append_left
      rw [List.mem_map]
      exact ⟨(t, x), List.mem_iff_getElem?.mpr ⟨pos, by rw [List.getElem?_zip_eq_some]; exact ⟨hi, hx⟩⟩, rfl⟩
    · intro he
      have := f1 group pos t pos (at_ chain x.bank) (at_ chain x.oracle) b (by simp [hx]) (by simp [hx]) (Nat.le_refl _) hb hti hg (by
        intro j a' hj ha'
        simp only [List.getElem?_map, Option.map_eq_some_iff] at ha'
        obtain ⟨_, ⟨y, hy, rfl⟩, rfl⟩ := ha'
        obtain ⟨t', b', ht', _, hb', _, hti'⟩ := hbank j y hy
        refine ⟨b', hb', ?_⟩
        rw [hti']
        rintro rfl
        have := (List.nodup_iff_getElem?_ne_getElem?.mp n1) pos j hj (List.getElem?_eq_some_iff.mp ht').1
        rw [hi, ht'] at this; exact this rfl)
      rw [this]
      congr 1
      rw [← price_agree (F := fallbackSection K fc ts)
        (A := (ts.map TokenCtx.bank) ++ ((ts.map TokenCtx.oracle) ++ ((ps.map PerpCtx.address) ++ ((ps.map PerpCtx.oracle) ++ (oos ++ fallbackSection K fc ts)))))
        hw.ctx.usdc hw.ctx.sol default_not_fallback ?_ ?_]
      · have el : layout ((ts.map TokenCtx.bank).map (at_ chain)) ((ts.map TokenCtx.oracle).map (at_ chain)) ((ps.map PerpCtx.address).map (at_ chain))
            ((ps.map PerpCtx.oracle).map (at_ chain)) (oos.map (at_ chain)) ((fallbackSection K fc ts).map (at_ chain)) =
            ((ts.map TokenCtx.bank) ++ ((ts.map TokenCtx.oracle) ++ ((ps.map PerpCtx.address) ++ ((ps.map PerpCtx.oracle) ++ (oos ++ fallbackSection K fc ts))))).map (at_ chain) := by
          unfold layout; simp only [List.map_append]
        rw [el, find_supply, find_supply, find_supply]
        unfold given
        rw [ho]
        congr 1
        congr 1
        · split <;> rfl
        · split <;> rfl
        · split <;> rfl
      · rw [ho]
        rcases he.1 with h | h
        · exact Or.inl h
        · right
          obtain ⟨y, hy, e⟩ := (isTokenOracle_iff h1).mp h
          apply List.mem_append_right
          apply List.mem_append_left
          exact List.mem_map.mpr ⟨y, hy, e⟩
      · rw [hfb]
        by_cases hd : x.fallback = K.default
        · exact Or.inl hd
        rcases he.2 with h | h | ⟨h, hn1⟩
        · exact Or.inl h
        · exact Or.inr (Or.inl h)
        · refine Or.inr (Or.inr ⟨mem_fallbackSection.mpr ⟨⟨x, List.mem_of_getElem? hx, _, _, h, Or.inl rfl⟩, (not_oracle_iff h1).mp hn1, hd⟩, ?_⟩)
          rw [← hqk]
          by_cases hd : x.quote = K.default
          · exact Or.inl hd
          · right
            by_cases ho : IsTokenOracle c tokens x.quote
            · obtain ⟨y, hy, e⟩ := (isTokenOracle_iff h1).mp ho
              apply List.mem_append_right
              apply List.mem_append_left
              exact List.mem_map.mpr ⟨y, hy, e⟩
            · have := mem_fallbackSection.mpr ⟨⟨x, List.mem_of_getElem? hx, _, _, h, Or.inr rfl⟩, (not_oracle_iff h1).mp ho, hd⟩
              simp only [List.mem_append]
              tauto
  · intro pos m hi
    obtain ⟨x, hx, hc⟩ := p2 pos m hi
    obtain ⟨_, _, _, p, hp, hg, hti, ho⟩ := hw.ctx.perps m x hc
    refine ⟨x, p, hc, hp, ?_⟩
    have := f2 pos (at_ chain x.address) (at_ chain x.oracle) p (by simp [hx]) (by simp [hx]) hp
    rw [hti, hg] at this
    rw [this, ho]
  · intro pos k id hi hid
    exact f3 pos (at_ chain k) id (by simp [hi]) hid

end ClientAccounts
end Mango
