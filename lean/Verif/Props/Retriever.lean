import Verif.Props.Oracle
/-!
# Health accounts are matched (C52)
-/
namespace Mango
namespace Oracle
open Fx

/-- quote feeds for pool prices are the two fixed Pyth accounts -/
def QuoteOk (K : Keys) (ais : List Acc) (i : Infos) : Prop :=
  (∀ u, i.usdc = some u → u.key = K.usdc ∧ ∃ a ∈ ais, u = a.asOracle) ∧ (∀ u, i.sol = some u → u.key = K.sol ∧ ∃ a ∈ ais, u = a.asOracle)

/-- `p` is a price health may use for bank `b`: read from the account whose key the bank names as its oracle (or, if that one is readable but not usable, its fallback),
fresh and confident by the bank's configuration. The contents are those of accounts in `ais` with those keys. -/
def GoodBankPrice (inv : Nat → Res I80F48) (K : Keys) (ais : List Acc) (b : BankAcc) (now : Option (Int × Int)) (p : I80F48) : Prop :=
  ∃ a ∈ ais, ∃ i st, QuoteOk K ais i ∧ (a.key = b.o.oracle ∧ stateOf inv i a.asOracle b.o.decimals = .ok st) ∧
    ((p = st.price ∧ Fresh b.o.cfg now st ∧ Confident b.o.cfg st) ∨
     (¬ (Fresh b.o.cfg now st ∧ Confident b.o.cfg st) ∧ ∃ f ∈ ais, ∃ fs, f.key = b.o.fallback ∧ stateOf inv i f.asOracle b.o.decimals = .ok fs ∧
        p = fs.price ∧ Fresh b.o.cfg now fs ∧ Confident b.o.cfg fs))

def GoodPerpPrice (inv : Nat → Res I80F48) (K : Keys) (ais : List Acc) (m : PerpAcc) (now : Option (Int × Int)) (p : I80F48) : Prop :=
  ∃ a ∈ ais, ∃ i st, QuoteOk K ais i ∧ a.key = m.oracle ∧ stateOf inv i a.asOracle m.decimals = .ok st ∧ p = st.price ∧ Fresh m.cfg now st ∧ Confident m.cfg st

/-- `b` is a bank of the group for this token and was passed by the caller -/
def IsBank (ais : List Acc) (group tokenIndex : Nat) (b : BankAcc) : Prop := b.group = group ∧ b.tokenIndex = tokenIndex ∧ ∃ a ∈ ais, a.content = .bank b
def IsPerp (ais : List Acc) (group marketIndex : Nat) (m : PerpAcc) : Prop := m.group = group ∧ m.marketIndex = marketIndex ∧ ∃ a ∈ ais, a.content = .perp m

theorem bank?_some {a : Acc} {b : BankAcc} (h : a.bank? = some b) : a.content = .bank b := by
  unfold Acc.bank? at h; split at h <;> simp_all
theorem perp?_some {a : Acc} {b : PerpAcc} (h : a.perp? = some b) : a.content = .perp b := by
  unfold Acc.perp? at h; split at h <;> simp_all
theorem oo?_some {a : Acc} {b : Nat} (h : a.oo? = some b) : a.content = .openOrders b := by
  unfold Acc.oo? at h; split at h <;> simp_all

theorem goodBank {inv : Nat → Res I80F48} {K : Keys} {ais : List Acc} {b : BankAcc} {now : Option (Int × Int)} (hn : NowOk now) {i : Infos} {p : I80F48} {o : Acc} (ho : o ∈ ais)
    (hio : i.oracle = o.asOracle) (hq : QuoteOk K ais i) (hf : ∀ f, i.fallback = some f → ∃ a ∈ ais, f = a.asOracle) (h : bankPrice inv b.o i now = .ok p) :
    GoodBankPrice inv K ais b now p := by
  obtain ⟨h1, st, h2, h3⟩ := C44_bank_price hn h
  rw [hio] at h1 h2
  refine ⟨o, ho, i, st, hq, ⟨h1, h2⟩, ?_⟩
  rcases h3 with h3 | ⟨h3, f, fs, h4, h5, h6⟩
  · exact Or.inl h3
  · obtain ⟨a, ha, rfl⟩ := hf f h4
    exact Or.inr ⟨h3, a, ha, fs, h5, h6⟩

theorem searchBank_spec {ais : List Acc} {group t : Nat} : ∀ {k i : Nat} {b : BankAcc}, searchBank ais group t k = .ok (i, b) → i < k ∧ IsBank ais group t b := by
  intro k
  induction k with
  | zero => intro i b h; simp [searchBank] at h
  | succ k ih =>
    intro i b h
    unfold searchBank at h
    split at h
    · simp at h
    · rename_i b' hb'
      by_cases ht : b'.tokenIndex = t
      · rw [if_pos ht] at h
        simp only [bind_ok, require_ok] at h
        obtain ⟨_, hg, h⟩ := h
        simp at h
        obtain ⟨rfl, rfl⟩ := h
        simp only [Option.bind_eq_some_iff] at hb'
        obtain ⟨a, ha, hb'⟩ := hb'
        exact ⟨by omega, hg, ht, a, List.mem_of_getElem? ha, bank?_some hb'⟩
      · rw [if_neg ht] at h
        obtain ⟨h1, h2⟩ := ih h
        exact ⟨by omega, h2⟩

theorem find_mem {α} {l : List α} {f : α → Bool} {x : α} (h : l.find? f = some x) : x ∈ l ∧ f x = true :=
  ⟨List.mem_of_find?_eq_some h, List.find?_some h⟩

theorem mem_drop {α} {l : List α} {n : Nat} {x : α} (h : x ∈ l.drop n) : x ∈ l := (List.drop_sublist n l).mem h

theorem quote_find {l ais : List Acc} (hl : ∀ a ∈ l, a ∈ ais) {k : Nat} {u : OAcc} (h : (l.find? (fun a => decide (a.key = k))).map Acc.asOracle = some u) :
    u.key = k ∧ ∃ a ∈ ais, u = a.asOracle := by
  simp only [Option.map_eq_some_iff] at h
  obtain ⟨a, ha, rfl⟩ := h
  obtain ⟨m1, m2⟩ := find_mem ha
  exact ⟨by simpa [Acc.asOracle] using m2, a, hl a m1, rfl⟩
theorem quote_fixed {K : Keys} (f : Fixed) {o : Acc} {k : Nat} : QuoteOk K f.ais (f.infos K o k) :=
  ⟨fun _ h => quote_find (fun _ h => h) h, fun _ h => quote_find (fun _ h => h) h⟩
theorem quote_scan {K : Keys} {s : Scan} {ais : List Acc} (e : ∀ a ∈ s.fallbacks, a ∈ ais) {o : Acc} {k : Nat} : QuoteOk K ais (s.infos K o k) :=
  ⟨fun _ h => quote_find e h, fun _ h => quote_find e h⟩
theorem quote_none {K : Keys} {ais : List Acc} {o : OAcc} : QuoteOk K ais { oracle := o, fallback := none, usdc := none, sol := none } :=
  ⟨fun _ h => by simp at h, fun _ h => by simp at h⟩

/-- **C52, fixed order** Whatever accounts the caller passes and in whatever order: a successful lookup gives a bank of the right group and token with a price from that bank's
own oracles, a perp market of the right group and index with a price from its own oracle, or the open orders account with the requested key. -/
theorem C52_fixed_order {inv : Nat → Res I80F48} {K : Keys} {f : Fixed} (hn : NowOk f.now) {group pos idx : Nat} :
    (∀ b p, f.bankAndOracle inv K group pos idx = .ok (b, p) → IsBank f.ais group idx b ∧ GoodBankPrice inv K f.ais b f.now p) ∧
    (∀ m p, f.perpAndOracle inv group pos idx = .ok (m, p) → IsPerp f.ais group idx m ∧ GoodPerpPrice inv K f.ais m f.now p) ∧
    (∀ o, f.serumOo pos idx = .ok o → ∃ a ∈ f.ais, a.key = idx ∧ a.content = .openOrders o) := by
  refine ⟨?_, ?_, ?_⟩
  · intro b p h
    unfold Fixed.bankAndOracle at h
    simp only [bind_ok] at h
    obtain ⟨⟨i, b'⟩, hb, h⟩ := h
    dsimp only at h
    split at h
    · simp at h
    · rename_i o ho
      simp only [bind_ok] at h
      obtain ⟨p', hp, h⟩ := h
      simp at h
      obtain ⟨rfl, rfl⟩ := h
      refine ⟨(searchBank_spec hb).2, goodBank hn (List.mem_of_getElem? ho) rfl (quote_fixed f) ?_ hp⟩
      intro g hg
      simp only [Fixed.infos, Option.map_eq_some_iff] at hg
      obtain ⟨a, ha, rfl⟩ := hg
      exact ⟨a, mem_drop (find_mem ha).1, rfl⟩
  · intro m p h
    unfold Fixed.perpAndOracle at h
    split at h
    · rename_i m' o hm ho
      simp only [bind_ok, require_ok] at h
      obtain ⟨_, hg, _, hi, st, hst, h⟩ := h
      simp at h
      obtain ⟨rfl, rfl⟩ := h
      simp only [Option.bind_eq_some_iff] at hm
      obtain ⟨a, ha, hm⟩ := hm
      obtain ⟨h1, h2, h3, h4⟩ := C44_perp_price hn hst
      exact ⟨⟨hg, hi, a, List.mem_of_getElem? ha, perp?_some hm⟩, o, List.mem_of_getElem? ho, _, st, quote_none, h1, h2, rfl, h3, h4⟩
    · simp at h
  · intro o h
    unfold Fixed.serumOo at h
    split at h
    · simp at h
    · rename_i a ha
      simp only [bind_ok, require_ok] at h
      obtain ⟨_, hk, h⟩ := h
      split at h
      · rename_i o' ho'
        simp at h; subst h
        exact ⟨a, List.mem_of_getElem? ha, hk.symm, oo?_some ho'⟩
      · simp at h

theorem scanNew_spec {ais : List Acc} {group : Nat} {now : Option (Int × Int)} {s : Scan} (h : scanNew ais group now = .ok s) :
    s.now = now ∧ (∀ b ∈ s.banks, b.group = group ∧ ∃ a ∈ ais, a.content = .bank b) ∧ (s.banks.map BankAcc.tokenIndex).Nodup ∧
    (∀ m ∈ s.perps, m.group = group ∧ ∃ a ∈ ais, a.content = .perp m) ∧ (s.perps.map PerpAcc.marketIndex).Nodup ∧
    (∀ a ∈ s.oracles, a ∈ ais) ∧ (∀ a ∈ s.perpOracles, a ∈ ais) ∧ (∀ a ∈ s.oos, a ∈ ais) ∧ (∀ a ∈ s.fallbacks, a ∈ ais) := by
  unfold scanNew at h
  simp only [bind_ok, require_ok] at h
  obtain ⟨_, h1, _, h2, _, h3, _, h4, _, h5, _, h6, h⟩ := h
  simp at h; subst h
  dsimp only
  refine ⟨rfl, ?_, h2, ?_, h5, ?_, ?_, ?_, ?_⟩
  · intro b hb
    refine ⟨h1 b hb, ?_⟩
    rw [List.mem_filterMap] at hb
    obtain ⟨a, ha, hb⟩ := hb
    exact ⟨a, (List.takeWhile_sublist _).mem ha, bank?_some hb⟩
  · intro m hm
    refine ⟨h4 m hm, ?_⟩
    rw [List.mem_filterMap] at hm
    obtain ⟨a, ha, hm⟩ := hm
    exact ⟨a, mem_drop ((List.takeWhile_sublist _).mem ha), perp?_some hm⟩
  · intro a ha; exact mem_drop ((List.take_sublist _ _).mem ha)
  · intro a ha; exact mem_drop ((List.take_sublist _ _).mem ha)
  · intro a ha; exact mem_drop ((List.takeWhile_sublist _).mem ha)
  · intro a ha; exact mem_drop ha

theorem scan_fallback {K : Keys} {s : Scan} {o : Acc} {k : Nat} {f : OAcc} (h : (s.infos K o k).fallback = some f) : ∃ a ∈ s.fallbacks, f = a.asOracle := by
  unfold Scan.infos at h
  dsimp only at h
  by_cases hk : k = K.default
  · rw [if_pos hk] at h; simp at h
  · rw [if_neg hk] at h
    simp only [Option.map_eq_some_iff] at h
    obtain ⟨a, ha, rfl⟩ := h
    exact ⟨a, (find_mem ha).1, rfl⟩

theorem findIdx_get {α} {l : List α} {f : α → Bool} {i : Nat} {x : α} (h : l.findIdx? f = some i) (hx : l[i]? = some x) : f x = true ∧ x ∈ l := by
  rw [List.findIdx?_eq_some_iff_getElem] at h
  obtain ⟨hi, h1, _⟩ := h
  rw [List.getElem?_eq_getElem hi] at hx
  simp at hx; subst hx
  exact ⟨h1, List.getElem_mem _⟩

/-- **C52, scanning** The same for the scanning retriever, which in addition never holds two banks for one token or two markets with one index. -/
theorem C52_scanning {inv : Nat → Res I80F48} {K : Keys} {ais : List Acc} {group : Nat} {now : Option (Int × Int)} {s : Scan} (hn : NowOk now)
    (hs : scanNew ais group now = .ok s) {idx : Nat} :
    (∀ b p, s.bankAndOracle inv K idx = .ok (b, p) → IsBank ais group idx b ∧ GoodBankPrice inv K ais b now p) ∧
    (∀ m p, s.perpAndOracle inv idx = .ok (m, p) → IsPerp ais group idx m ∧ GoodPerpPrice inv K ais m now p) ∧
    (∀ o, s.serumOo idx = .ok o → ∃ a ∈ ais, a.key = idx ∧ a.content = .openOrders o) ∧
    (s.banks.map BankAcc.tokenIndex).Nodup ∧ (s.perps.map PerpAcc.marketIndex).Nodup := by
  obtain ⟨e0, e1, e2, e3, e4, e5, e6, e7, e8⟩ := scanNew_spec hs
  refine ⟨?_, ?_, ?_, e2, e4⟩
  · intro b p h
    unfold Scan.bankAndOracle at h
    split at h
    · simp at h
    · rename_i i hi
      split at h
      · rename_i b' o hb ho
        simp only [bind_ok] at h
        obtain ⟨p', hp, h⟩ := h
        simp at h
        obtain ⟨rfl, rfl⟩ := h
        obtain ⟨f1, f2⟩ := findIdx_get hi hb
        obtain ⟨g1, g2⟩ := e1 _ f2
        refine ⟨⟨g1, by simpa using f1, g2⟩, ?_⟩
        rw [e0] at hp
        refine goodBank hn (e5 _ (List.mem_of_getElem? ho)) rfl (quote_scan e8) ?_ hp
        intro f hf
        obtain ⟨a, ha, rfl⟩ := scan_fallback hf
        exact ⟨a, e8 a ha, rfl⟩
      · simp at h
  · intro m p h
    unfold Scan.perpAndOracle at h
    split at h
    · simp at h
    · rename_i i hi
      split at h
      · rename_i m' o hm ho
        simp only [bind_ok] at h
        obtain ⟨st, hst, h⟩ := h
        simp at h
        obtain ⟨rfl, rfl⟩ := h
        obtain ⟨f1, f2⟩ := findIdx_get hi hm
        obtain ⟨g1, g2⟩ := e3 _ f2
        rw [e0] at hst
        obtain ⟨h1, h2, h3, h4⟩ := C44_perp_price hn hst
        exact ⟨⟨g1, by simpa using f1, g2⟩, o, e6 _ (List.mem_of_getElem? ho), _, st, quote_none, h1, h2, rfl, h3, h4⟩
      · simp at h
  · intro o h
    unfold Scan.serumOo at h
    split at h
    · simp at h
    · rename_i a ha
      split at h
      · rename_i o' ho'
        simp at h; subst h
        obtain ⟨m1, m2⟩ := find_mem ha
        exact ⟨a, e7 _ m1, by simpa using m2, oo?_some ho'⟩
      · simp at h

/-- **C52, two banks** The mutable lookup of two banks returns them in the order asked for, each with its own price. -/
theorem C52_two_banks {inv : Nat → Res I80F48} {K : Keys} {ais : List Acc} {group : Nat} {now : Option (Int × Int)} {s : Scan} (hn : NowOk now)
    (hs : scanNew ais group now = .ok s) {t1 t2 : Nat} {b1 : BankAcc} {p1 : I80F48} {r : Option (BankAcc × I80F48)}
    (h : s.banksAndOracles inv K t1 t2 = .ok (b1, p1, r)) :
    (IsBank ais group t1 b1 ∧ GoodBankPrice inv K ais b1 now p1) ∧ (r = none ↔ t1 = t2) ∧
    (∀ b2 p2, r = some (b2, p2) → IsBank ais group t2 b2 ∧ GoodBankPrice inv K ais b2 now p2) := by
  obtain ⟨e0, e1, e2, e3, e4, e5, e6, e7, e8⟩ := scanNew_spec hs
  unfold Scan.banksAndOracles at h
  by_cases ht : t1 = t2
  · rw [if_pos ht] at h
    simp only [bind_ok] at h
    obtain ⟨⟨b, p⟩, hb, h⟩ := h
    simp at h
    obtain ⟨rfl, rfl, rfl⟩ := h
    exact ⟨(C52_scanning hn hs).1 _ _ hb, by simp [ht], by simp⟩
  · rw [if_neg ht] at h
    have good : ∀ {i t b o p}, s.banks.findIdx? (fun b => decide (b.tokenIndex = t)) = some i → s.banks[i]? = some b → s.oracles[i]? = some o →
        bankPrice inv b.o (s.infos K o b.o.fallback) s.now = .ok p → IsBank ais group t b ∧ GoodBankPrice inv K ais b now p := by
      intro i t b o p hi hb ho hp
      obtain ⟨f1, f2⟩ := findIdx_get hi hb
      obtain ⟨g1, g2⟩ := e1 _ f2
      refine ⟨⟨g1, by simpa using f1, g2⟩, ?_⟩
      rw [e0] at hp
      refine goodBank hn (e5 _ (List.mem_of_getElem? ho)) rfl (quote_scan e8) ?_ hp
      intro f hf
      obtain ⟨a, ha, rfl⟩ := scan_fallback hf
      exact ⟨a, e8 a ha, rfl⟩
    split at h
    · rename_i i1 i2 hi1 hi2
      by_cases hlt : i1 < i2
      · rw [if_pos hlt] at h
        dsimp only at h
        split at h
        · rename_i c1 o1 c2 o2 hc1 ho1 hc2 ho2
          simp only [bind_ok] at h
          obtain ⟨q1, hq1, q2, hq2, h⟩ := h
          simp at h
          obtain ⟨rfl, rfl, rfl⟩ := h
          refine ⟨good hi1 hc1 ho1 hq1, by simp [ht], ?_⟩
          intro b2 p2 hr
          simp at hr
          obtain ⟨rfl, rfl⟩ := hr
          exact good hi2 hc2 ho2 hq2
        · simp at h
      · rw [if_neg hlt] at h
        dsimp only at h
        split at h
        · rename_i c1 o1 c2 o2 hc1 ho1 hc2 ho2
          simp only [bind_ok] at h
          obtain ⟨q1, hq1, q2, hq2, h⟩ := h
          simp at h
          obtain ⟨rfl, rfl, rfl⟩ := h
          refine ⟨good hi1 hc2 ho2 hq2, by simp [ht], ?_⟩
          intro b2 p2 hr
          simp at hr
          obtain ⟨rfl, rfl⟩ := hr
          exact good hi2 hc1 ho1 hq1
        · simp at h
    · simp at h

/-- a well laid out account list: banks, their oracles, perp markets, their oracles, open orders, fallbacks -/
def layout (bs os ps po oos fbs : List Acc) : List Acc := bs ++ (os ++ (ps ++ (po ++ (oos ++ fbs))))

theorem searchBank_finds {ais : List Acc} {group t i : Nat} {a : Acc} {b : BankAcc} (ha : ais[i]? = some a) (hb : a.content = .bank b) (ht : b.tokenIndex = t) (hg : b.group = group) :
    ∀ {k : Nat}, i < k → (∀ j, i < j → j < k → ∃ a' b', ais[j]? = some a' ∧ a'.content = .bank b' ∧ b'.tokenIndex ≠ t) → searchBank ais group t k = .ok (i, b) := by
  intro k
  induction k with
  | zero => intro h; omega
  | succ k ih =>
    intro hk hu
    unfold searchBank
    by_cases hik : i = k
    · subst hik
      have : (ais[i]?).bind Acc.bank? = some b := by rw [ha]; simp [Acc.bank?, hb]
      rw [this]; dsimp only
      rw [if_pos ht]
      simp [require, hg]; rfl
    · obtain ⟨a', b', h1, h2, h3⟩ := hu k (by omega) (by omega)
      have : (ais[k]?).bind Acc.bank? = some b' := by rw [h1]; simp [Acc.bank?, h2]
      rw [this]; dsimp only
      rw [if_neg h3]
      exact ih (by omega) (fun j h h' => hu j h (by omega))

/-- **C52, nothing else is read** On a well laid out list the fixed order retriever is accepted and answers every question with the account at the matching place: the bank of the
token (wherever it is among the first `posIndex + 1` banks) with the price its own oracle — the one at the same place among the oracles — gives, the market at the position's
place with its own oracle, the open orders account at the position's place. So lookups fail only if that price does. -/
theorem C52_fixed_complete (inv : Nat → Res I80F48) (K : Keys) {bs os ps po oos fbs : List Acc} (hbo : os.length = bs.length) (hpo : po.length = ps.length) (now : Int × Int) :
    ∃ f, fixedInner (layout bs os ps po oos fbs) oos.length ps.length now bs.length = .ok f ∧
    (∀ (group pos t i : Nat) (a o : Acc) (b : BankAcc), bs[i]? = some a → os[i]? = some o → i ≤ pos → a.content = .bank b → b.tokenIndex = t → b.group = group →
      (∀ j a', i < j → bs[j]? = some a' → ∃ b', a'.content = .bank b' ∧ b'.tokenIndex ≠ t) →
      f.bankAndOracle inv K group pos t =
        (bankPrice inv b.o
            { oracle := o.asOracle, fallback := (fbs.find? (fun x => x.key = b.o.fallback)).map Acc.asOracle,
              usdc := ((layout bs os ps po oos fbs).find? (fun x => x.key = K.usdc)).map Acc.asOracle,
              sol := ((layout bs os ps po oos fbs).find? (fun x => x.key = K.sol)).map Acc.asOracle } (some now)).map (fun p => (b, p))) ∧
    (∀ (pos : Nat) (a o : Acc) (m : PerpAcc), ps[pos]? = some a → po[pos]? = some o → a.content = .perp m →
      f.perpAndOracle inv m.group pos m.marketIndex =
        (perpState inv m.oracle m.decimals m.cfg { oracle := o.asOracle, fallback := none, usdc := none, sol := none } (some now)).map (fun st => (m, st.price))) ∧
    (∀ (pos : Nat) (a : Acc) (id : Nat), oos[pos]? = some a → a.content = .openOrders id → f.serumOo pos a.key = .ok id) := by
  have hlen : (layout bs os ps po oos fbs).length = bs.length * 2 + ps.length * 2 + oos.length + fbs.length := by
    simp [layout, hbo, hpo]; omega
  refine ⟨{ ais := layout bs os ps po oos fbs, nBanks := bs.length, nPerps := ps.length, beginPerp := bs.length * 2,
            beginSerum := bs.length * 2 + ps.length * 2, beginFallback := bs.length * 2 + ps.length * 2 + oos.length, now := some now }, ?_, ?_, ?_, ?_⟩
  · unfold fixedInner
    simp only [require]
    rw [if_pos (by omega)]
    rfl
  · intro group pos t i a o b h1 h2 h3 h4 h5 h6 h7
    have hi : i < bs.length := by rw [List.getElem?_eq_some_iff] at h1; exact h1.1
    have g1 : (layout bs os ps po oos fbs)[i]? = some a := by
      unfold layout; rw [List.getElem?_append_left hi]; exact h1
    have g2 : (layout bs os ps po oos fbs)[bs.length + i]? = some o := by
      unfold layout; rw [List.getElem?_append_right (by omega), show bs.length + i - bs.length = i by omega, List.getElem?_append_left (by omega)]; exact h2
    have hd : (layout bs os ps po oos fbs).drop (bs.length * 2 + ps.length * 2 + oos.length) = fbs := by
      have e : layout bs os ps po oos fbs = (bs ++ os ++ ps ++ po ++ oos) ++ fbs := by simp [layout]
      rw [e]
      exact List.drop_left' (by simp [hbo, hpo]; omega)
    have hs := searchBank_finds (group := group) (t := t) g1 h4 h5 h6 (k := min (pos + 1) bs.length) (by omega) (by
      intro j hj1 hj2
      have hj : j < bs.length := by omega
      obtain ⟨b', e1, e2⟩ := h7 j bs[j] hj1 (List.getElem?_eq_getElem hj)
      exact ⟨bs[j], b', by unfold layout; rw [List.getElem?_append_left hj]; exact List.getElem?_eq_getElem hj, e1, e2⟩)
    unfold Fixed.bankAndOracle Fixed.bank
    dsimp only
    rw [hs]
    simp only [bind, Except.bind]
    rw [g2]
    simp only [Fixed.infos]
    rw [hd]
    cases bankPrice inv b.o _ _ <;> rfl
  · intro pos a o m h1 h2 h3
    have hi : pos < ps.length := by rw [List.getElem?_eq_some_iff] at h1; exact h1.1
    have g1 : (layout bs os ps po oos fbs)[bs.length * 2 + pos]? = some a := by
      unfold layout
      rw [List.getElem?_append_right (by omega), List.getElem?_append_right (by omega), show bs.length * 2 + pos - bs.length - os.length = pos by omega,
        List.getElem?_append_left hi]; exact h1
    have g2 : (layout bs os ps po oos fbs)[bs.length * 2 + pos + ps.length]? = some o := by
      unfold layout
      rw [List.getElem?_append_right (by omega), List.getElem?_append_right (by omega), List.getElem?_append_right (by omega),
        show bs.length * 2 + pos + ps.length - bs.length - os.length - ps.length = pos by omega, List.getElem?_append_left (by omega)]; exact h2
    unfold Fixed.perpAndOracle
    dsimp only
    rw [g1, g2]
    simp only [Option.bind_some, Acc.perp?, h3, require, if_true, bind, Except.bind]
    cases perpState inv m.oracle m.decimals m.cfg _ _ <;> rfl
  · intro pos a id h1 h2
    have hi : pos < oos.length := by rw [List.getElem?_eq_some_iff] at h1; exact h1.1
    have g1 : (layout bs os ps po oos fbs)[bs.length * 2 + ps.length * 2 + pos]? = some a := by
      unfold layout
      rw [List.getElem?_append_right (by omega), List.getElem?_append_right (by omega), List.getElem?_append_right (by omega), List.getElem?_append_right (by omega),
        show bs.length * 2 + ps.length * 2 + pos - bs.length - os.length - ps.length - po.length = pos by omega, List.getElem?_append_left hi]; exact h1
    unfold Fixed.serumOo
    dsimp only
    rw [g1]
    simp [require, Acc.oo?, h2]; rfl

theorem sublist_pos {l l' : List Nat} (h : l.Sublist l') : l'.Nodup → ∀ {i pos x : Nat}, l[i]? = some x → l'[pos]? = some x → i ≤ pos := by
  induction h with
  | slnil => intro _ i pos x h; simp at h
  | @cons a b c hs ih =>
    intro hn i pos x h1 h2
    cases pos with
    | zero =>
      simp at h2
      subst h2
      have := hs.mem (List.mem_of_getElem? h1)
      exact absurd this (List.nodup_cons.mp hn).1
    | succ p =>
      have := ih (List.nodup_cons.mp hn).2 h1 (by simpa using h2)
      omega
  | @cons_cons a b c hs ih =>
    intro hn i pos x h1 h2
    cases pos with
    | zero =>
      cases i with
      | zero => exact Nat.le_refl _
      | succ i =>
        simp at h1 h2
        subst h2
        exact absurd (hs.mem (List.mem_of_getElem? h1)) (List.nodup_cons.mp hn).1
    | succ p =>
      cases i with
      | zero => omega
      | succ i =>
        have := ih (List.nodup_cons.mp hn).2 (by simpa using h1) (by simpa using h2)
        omega

theorem searchBank_none {ais : List Acc} {group t : Nat} : ∀ {k : Nat}, (∀ j, j < k → ∃ a' b', ais[j]? = some a' ∧ a'.content = .bank b' ∧ b'.tokenIndex ≠ t) →
    searchBank ais group t k = .error .invalidHealthAccountCount := by
  intro k
  induction k with
  | zero => intro _; rfl
  | succ k ih =>
    intro hu
    obtain ⟨a', b', h1, h2, h3⟩ := hu k (by omega)
    unfold searchBank
    have : (ais[k]?).bind Acc.bank? = some b' := by rw [h1]; simp [Acc.bank?, h2]
    rw [this]; dsimp only
    rw [if_neg h3]
    exact ih (fun j h => hu j (by omega))

theorem takeWhile_len {p : Acc → Bool} {l r : List Acc} (h : ∀ a ∈ l, p a = true) (hr : ∀ a, r.head? = some a → p a = false) : ((l ++ r).takeWhile p).length = l.length := by
  induction l with
  | nil =>
    cases r with
    | nil => rfl
    | cons a r => simp [List.takeWhile, hr a rfl]
  | cons a l ih => simp [List.takeWhile, h a (by simp)]; exact ih (fun x hx => h x (by simp [hx]))

/-- **C52, banks left out** For the instructions that let the caller leave out banks (the health check): pass banks for some of the account's tokens, in the order of its positions, and no bank
account right after them. Then the list is accepted; every token whose bank was passed is answered with that bank and its own oracle's price, and every token whose bank was left out
with the error that the bank is missing — never with another token's bank. -/
theorem C52_optional_banks (inv : Nat → Res I80F48) (K : Keys) {bs os ps po oos fbs : List Acc} {toks : List Nat} {group : Nat} (hbo : os.length = bs.length) (hpo : po.length = ps.length)
    (now : Int × Int) (hn : toks.Nodup) {idx : Acc → Nat} (hb : ∀ a ∈ bs, ∃ b, a.content = .bank b ∧ b.group = group ∧ b.tokenIndex = idx a) (hsub : (bs.map idx).Sublist toks)
    (hnb : ∀ a, (os ++ (ps ++ (po ++ (oos ++ fbs)))).head? = some a → ∀ b, a.content ≠ .bank b) :
    ∃ f, fixedNewOptional (layout bs os ps po oos fbs) toks.length oos.length ps.length now = .ok f ∧
      (∀ (pos t i : Nat) (a o : Acc) (b : BankAcc), toks[pos]? = some t → bs[i]? = some a → os[i]? = some o → a.content = .bank b → b.tokenIndex = t →
        f.bankAndOracle inv K group pos t =
          (bankPrice inv b.o
            { oracle := o.asOracle, fallback := (fbs.find? (fun x => x.key = b.o.fallback)).map Acc.asOracle,
              usdc := ((layout bs os ps po oos fbs).find? (fun x => x.key = K.usdc)).map Acc.asOracle,
              sol := ((layout bs os ps po oos fbs).find? (fun x => x.key = K.sol)).map Acc.asOracle } (some now)).map (fun p => (b, p))) ∧
      (∀ (pos t : Nat), (∀ a ∈ bs, idx a ≠ t) → f.bankAndOracle inv K group pos t = .error .invalidHealthAccountCount) := by
  obtain ⟨f, hf, h1, _⟩ := C52_fixed_complete inv K (fbs := fbs) (oos := oos) hbo hpo now
  have hlen : ((layout bs os ps po oos fbs).takeWhile (fun a => a.bank?.isSome)).length = bs.length := by
    unfold layout
    refine takeWhile_len ?_ ?_
    · intro a ha
      obtain ⟨b, e, _⟩ := hb a ha
      simp [Acc.bank?, e]
    · intro a ha
      have := hnb a ha
      unfold Acc.bank?
      cases hc : a.content with
      | bank b => exact absurd hc (this b)
      | _ => rfl
  have hle : bs.length ≤ toks.length := by simpa using hsub.length_le
  refine ⟨f, ?_, ?_, ?_⟩
  · unfold fixedNewOptional
    dsimp only
    rw [hlen, hf]
    simp [require, hle]
    rfl
  · intro pos t i a o b ht ha ho hc hi
    obtain ⟨b', hc', hg, hx⟩ := hb a (List.mem_of_getElem? ha)
    rw [hc] at hc'
    cases hc'
    have hia : (bs.map idx)[i]? = some t := by rw [List.getElem?_map, ha]; simp [← hx, hi]
    refine h1 group pos t i a o b ha ho (sublist_pos hsub hn hia ht) hc hi hg ?_
    intro j a' hj ha'
    obtain ⟨b', hc', _, hx'⟩ := hb a' (List.mem_of_getElem? ha')
    refine ⟨b', hc', ?_⟩
    intro e
    have hja : (bs.map idx)[j]? = some t := by rw [List.getElem?_map, ha']; simp [← hx', e]
    have hnd : (bs.map idx).Nodup := hsub.nodup hn
    have hjl : j < (bs.map idx).length := by rw [List.getElem?_eq_some_iff] at hja; exact hja.1
    have := (List.getElem?_inj (by rw [List.getElem?_eq_some_iff] at hia; exact hia.1) hnd).mp (hia.trans hja.symm)
    omega
  · intro pos t hu
    simp only [fixedInner, bind_ok, require_ok, ok_inj] at hf
    obtain ⟨_, _, rfl⟩ := hf
    have hs := searchBank_none (ais := layout bs os ps po oos fbs) (group := group) (t := t) (k := min (pos + 1) bs.length) (by
      intro j hj
      have hj' : j < bs.length := by omega
      obtain ⟨b', e1, _, e2⟩ := hb bs[j] (List.getElem_mem hj')
      exact ⟨bs[j], b', by unfold layout; rw [List.getElem?_append_left hj']; exact List.getElem?_eq_getElem hj', e1, by rw [e2]; exact hu _ (List.getElem_mem hj')⟩)
    unfold Fixed.bankAndOracle Fixed.bank
    dsimp only
    rw [hs]
    rfl

/-- two banks, their oracles, one perp market with its oracle, and a fallback oracle for the first bank, whose primary is stale -/
def exAccounts : List Acc :=
  [⟨10, .bank ⟨7, 0, exBank⟩⟩, ⟨11, .bank ⟨7, 4, { exBank with oracle := 3 }⟩⟩, ⟨1, .oracle (.pythV2 true 1000000 0 (-6) 1000 4000)⟩,
   ⟨3, .oracle (.pythV2 true 3000000 0 (-6) 1000 5000)⟩, ⟨12, .perp ⟨7, 9, 3, 6, exCfg⟩⟩, ⟨3, .oracle (.pythV2 true 3000000 0 (-6) 1000 5000)⟩,
   ⟨2, .oracle (.pythV2 true 2000000 0 (-6) 1000 5000)⟩]
def exKeys : Keys := ⟨100, 101, 0⟩

example : ∃ s, scanNew exAccounts 7 (some (5000, 1001)) = .ok s ∧
    s.banksAndOracles noInv exKeys 4 0 = .ok (⟨7, 4, { exBank with oracle := 3 }⟩, 3000000 * (S / 10 ^ 6 + 1), some (⟨7, 0, exBank⟩, 2000000 * (S / 10 ^ 6 + 1))) ∧
    s.perpAndOracle noInv 9 = .ok (⟨7, 9, 3, 6, exCfg⟩, 3000000 * (S / 10 ^ 6 + 1)) := ⟨_, rfl, by decide +kernel, by decide +kernel⟩
example : ∃ f, fixedNew exAccounts 2 0 1 (5000, 1001) = .ok f ∧
    f.bankAndOracle noInv exKeys 7 1 4 = .ok (⟨7, 4, { exBank with oracle := 3 }⟩, 3000000 * (S / 10 ^ 6 + 1)) ∧
    f.bankAndOracle noInv exKeys 7 0 0 = .ok (⟨7, 0, exBank⟩, 2000000 * (S / 10 ^ 6 + 1)) := ⟨_, rfl, by decide +kernel, by decide +kernel⟩

example : exAccounts = layout (exAccounts.take 2) ((exAccounts.drop 2).take 2) ((exAccounts.drop 4).take 1) ((exAccounts.drop 5).take 1) [] (exAccounts.drop 6) := rfl

/-- the bank of token 0 left out: token 4, at the account's second position, is still found, token 0 is reported missing -/
example : ∃ f, fixedNewOptional [exAccounts[1], exAccounts[3], exAccounts[6]] 2 0 0 (5000, 1001) = .ok f ∧
    f.bankAndOracle noInv exKeys 7 1 4 = .ok (⟨7, 4, { exBank with oracle := 3 }⟩, 3000000 * (S / 10 ^ 6 + 1)) ∧
    f.bankAndOracle noInv exKeys 7 0 0 = .error .invalidHealthAccountCount := ⟨_, rfl, by decide +kernel, by decide +kernel⟩
/-- and it meets the hypotheses of `C52_optional_banks` -/
example : ([exAccounts[1]].map (fun a => match a.content with | .bank b => b.tokenIndex | _ => 0)).Sublist [0, 4] ∧ [0, 4].Nodup := by decide

end Oracle
end Mango
