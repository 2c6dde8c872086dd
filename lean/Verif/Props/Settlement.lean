import Verif.Settle.Lookup
import Verif.Props.SettleHealth
import Verif.Props.SettleLedger
import Verif.Props.Bankruptcy
import Verif.Props.ForceClose
/-!
# C72: settling perp profits, losses and fees, as whole instructions
-/
namespace Mango
namespace Settlement
open Fx Health

/-! ## What an observer sees -/

/-- account `i`'s position in token `ti` -/
def Sys.tokAt (s : Sys) (i ti : Nat) : Option TokenPosition := s.accts[i]?.bind (·.tokOf ti)

/-- account `i`'s position in perp market `mi` -/
def Sys.perpAt (s : Sys) (i mi : Nat) : Option PerpSlot := s.accts[i]?.bind (·.perpOf mi)

/-- every account has at most one position per token and per market -/
def Sys.Ok (s : Sys) : Prop := ∀ a ∈ s.accts, a.Ok

/-- a position's profit (negative: loss) at a price after paying funding: quote, minus funding owed, plus base at the price -/
def pnl (m : Perp.Market) (p : Perp.Pos) (price : I80F48) : Int := p.quote - Perp.owed m p + p.base * m.baseLotSize * price

/-! ## The instruction taken apart -/

structure Paying (e : Env) (s s' : Sys) (ti ir : Nat) (fee : I80F48) (r r1 r2 : Acct) (k : Nat) (t t' : TokenPosition) (b : Bank) (active : Bool) : Prop where
  acct : s.accts[ir]? = some r
  ensure : r.ensureTok ti = .ok r1
  tok : r1.toks[k]? = some (ti, t)
  dep : (s.banks ti).bank.deposit t fee e.now = .ok (b, t', active)
  store : r1.store k ti t' active = .ok r2
  out : s' = { s.setBank ti b with accts := s.accts.set ir r2 }

theorem acct_ok {s : Sys} {i : Nat} {a : Acct} (h : s.acct i = .ok a) : s.accts[i]? = some a := by
  unfold Sys.acct at h
  split at h
  · next x hx => rw [ok_inj] at h; subst h; exact hx
  · simp at h

theorem paySettler_ok {e : Env} {s s' : Sys} {ti ir : Nat} {fee : I80F48} (h : paySettler e s ti ir fee = .ok s') :
    ∃ r r1 r2 k t t' b active, Paying e s s' ti ir fee r r1 r2 k t t' b active := by
  unfold paySettler at h
  simp only [bind_ok, ok_inj, Prod.exists] at h
  obtain ⟨r, h1, r1, h2, k, t, h3, b, t', active, h4, r2, h5, rfl⟩ := h
  exact ⟨r, r1, r2, k, t, t', b, active, acct_ok h1, h2, tok_ok h3, h4, h5, rfl⟩

structure Parts (e : Env) (s s1 : Sys) (mi ia ib : Nat) (amt fee : I80F48) (a b : Acct) (ja ka jb kb : Nat) (pa pb : PerpSlot) (ta tb : TokenPosition) (ca cb : Cache)
    (bMax liqEnd maint : I80F48) (pa' pb' : Perp.Pos) (n f : Int) (b1 b2 : Bank) (ta' tb' : TokenPosition) (ra rb : Bool) : Prop where
  ne : ia ≠ ib
  acctA : s.accts[ia]? = some a
  acctB : s.accts[ib]? = some b
  perpA : a.perps[ja]? = some pa ∧ pa.market = mi
  tokA : a.toks[ka]? = some ((s.markets mi).settleTokenIndex, ta)
  perpB : b.perps[jb]? = some pb ∧ pb.market = mi
  tokB : b.toks[kb]? = some ((s.markets mi).settleTokenIndex, tb)
  cacheB : b.cache e s = .ok cb
  max : cb.perpMaxSettle e.fd (s.markets mi).settleTokenIndex = .ok bMax
  cacheA : a.cache e s = .ok ca
  health1 : ca.health e.fd .liqEnd = .ok liqEnd
  health2 : ca.health e.fd .maint = .ok maint
  settle : Perp.settlePnl e.lim (s.markets mi) pa.pos pb.pos (e.oracle mi) (s.banks (s.markets mi).settleTokenIndex).oracle e.now bMax liqEnd maint = .ok (pa', pb', amt, fee)
  nEq : n = Int.tdiv amt S
  fEq : f = Int.tdiv fee S
  dep : (s.banks (s.markets mi).settleTokenIndex).bank.deposit ta (amt - fee) e.now = .ok (b1, ta', ra)
  wd : b1.withdrawWithoutFee tb amt e.now = .ok (b2, tb', rb)
  out : s1 = { s.setBank (s.markets mi).settleTokenIndex b2 with
    accts := (s.accts.set ia { (a.setPerp ja ⟨mi, pa', pa.transfers + (n - f)⟩).setTok ka (s.markets mi).settleTokenIndex ta' with transfers := a.transfers + (n - f) }).set ib
      { (b.setPerp jb ⟨mi, pb', pb.transfers - n⟩).setTok kb (s.markets mi).settleTokenIndex tb' with transfers := b.transfers - n } }

theorem trunc_ok {x : I80F48} {n : Int} (h : Perp.toI64 (roundToZero x) = .ok n) : n = Int.tdiv x S := by
  unfold Perp.toI64 at h
  rw [ck64_ok] at h
  rw [h.1]
  unfold toInt roundToZero
  exact Int.mul_ediv_cancel _ (by have := S_pos; omega)

theorem settlePnl_ok {e : Env} {s s' : Sys} {mi ia ib ir : Nat} {amt fee : I80F48} (h : settlePnl e s mi ia ib ir = .ok (s', amt, fee)) :
    ∃ s1 a b ja ka jb kb pa pb ta tb ca cb bMax liqEnd maint pa' pb' n f b1 b2 ta' tb' ra rb,
      Parts e s s1 mi ia ib amt fee a b ja ka jb kb pa pb ta tb ca cb bMax liqEnd maint pa' pb' n f b1 b2 ta' tb' ra rb ∧ paySettler e s1 (s.markets mi).settleTokenIndex ir fee = .ok s' := by
  unfold settlePnl at h
  simp only [bind_ok, require_ok, ok_inj, Prod.exists, Prod.mk.injEq, ck64_ok, sub_ok] at h
  obtain ⟨_, h0, a, h1, b, h2, ja, pa, h3, ka, ta, h4, jb, pb, h5, kb, tb, h6, cb, h7, bMax, h8, ca, h9, le, h10, mt, h11, pa', pb', am, fe, h12, n, h13, f, h14, d, ⟨rfl, _⟩, t1, ⟨rfl, _⟩, t2, ⟨rfl, _⟩,
    t3, ⟨rfl, _⟩, t4, ⟨rfl, _⟩, x, ⟨rfl, _⟩, b1, ta', ra, h15, b2, tb', rb, h16, s2, h17, rfl, rfl, rfl⟩ := h
  exact ⟨_, a, b, ja, ka, jb, kb, pa, pb, ta, tb, ca, cb, bMax, le, mt, pa', pb', n, f, b1, b2, ta', tb', ra, rb,
    ⟨h0, acct_ok h1, acct_ok h2, perp_ok h3, tok_ok h4, perp_ok h5, tok_ok h6, h7, h8, h9, h10, h11, h12, trunc_ok h13, trunc_ok h14, h15, h16, rfl⟩, h17⟩

/-! ## Effects on what the observer sees -/

theorem ensureTok_ok {a a' : Acct} (ha : a.Ok) {ti : Nat} (h : a.ensureTok ti = .ok a') :
    a'.Ok ∧ a' = { a with toks := a'.toks } ∧ (∀ x, x ≠ ti → a'.tokOf x = a.tokOf x) ∧ a'.tokOf ti = some ((a.tokOf ti).getD {}) := by
  unfold Acct.ensureTok at h
  split at h
  · next hc =>
    rw [ok_inj] at h
    subst h
    refine ⟨ha, rfl, fun _ _ => rfl, ?_⟩
    rw [List.any_eq_true] at hc
    obtain ⟨x, hx, hk⟩ := hc
    have := (find_key (key := fun x : Nat × TokenPosition => x.1) ha.toks (k := ti)).mpr ⟨hx, by simpa using hk⟩
    unfold Acct.tokOf
    rw [this]
    rfl
  · next hc =>
    simp only [bind_ok, ok_inj] at h
    obtain ⟨_, _, rfl⟩ := h
    have hn : a.toks.any (fun z => z.1 == (ti, ({} : TokenPosition)).1) = false := by rw [Bool.not_eq_true] at hc; exact hc
    have hf := find_append (key := fun x : Nat × TokenPosition => x.1) hn
    have hnone : a.tokOf ti = none := by
      unfold Acct.tokOf
      rw [Option.map_eq_none_iff, List.find?_eq_none]
      intro x hx
      rw [List.any_eq_false] at hn
      exact hn x hx
    refine ⟨⟨nodup_append (key := fun x : Nat × TokenPosition => x.1) ha.toks hn, ha.perps⟩, rfl, ?_, ?_⟩
    · intro x hx
      unfold Acct.tokOf
      dsimp only
      rw [hf x, if_neg hx]
    · rw [hnone]
      unfold Acct.tokOf
      dsimp only
      rw [hf ti, if_pos rfl]
      rfl

theorem store_ok {a a' : Acct} (ha : a.Ok) {k ti : Nat} {t t' : TokenPosition} {active : Bool} (hk : a.toks[k]? = some (ti, t)) (h : a.store k ti t' active = .ok a') :
    a'.Ok ∧ a' = { a with toks := a'.toks } ∧ (∀ x, a'.tokOf x = if x = ti then (if active then some t' else none) else a.tokOf x) ∧ (active = false → t'.inUseCount = 0) := by
  unfold Acct.store at h
  cases active with
  | true =>
    simp only [if_true, ok_inj] at h
    subst h
    refine ⟨setTok_ok ha hk, rfl, ?_, by simp⟩
    intro x
    rw [tokOf_set ha hk]
    rfl
  | false =>
    simp only [Bool.false_eq_true, if_false, bind_ok, require_ok, ok_inj] at h
    obtain ⟨_, h0, rfl⟩ := h
    refine ⟨⟨nodup_erase (key := fun x : Nat × TokenPosition => x.1) ha.toks k, ha.perps⟩, rfl, ?_, fun _ => h0⟩
    intro x
    unfold Acct.tokOf
    dsimp only
    rw [find_erase (key := fun x : Nat × TokenPosition => x.1) ha.toks hk]
    split <;> rfl

theorem Sys.tokAt_set {s : Sys} {i : Nat} {a : Acct} (bs : Nat → BankIn) (ms : Nat → Perp.Market) (hi : i < s.accts.length) (j x : Nat) :
    (⟨bs, ms, s.accts.set i a⟩ : Sys).tokAt j x = if j = i then a.tokOf x else s.tokAt j x := by
  unfold Sys.tokAt
  dsimp only
  by_cases e : j = i
  · subst e; rw [List.getElem?_set_self hi, if_pos rfl]; rfl
  · rw [List.getElem?_set_ne (fun h => e h.symm), if_neg e]

theorem Sys.perpAt_set {s : Sys} {i : Nat} {a : Acct} (bs : Nat → BankIn) (ms : Nat → Perp.Market) (hi : i < s.accts.length) (j x : Nat) :
    (⟨bs, ms, s.accts.set i a⟩ : Sys).perpAt j x = if j = i then a.perpOf x else s.perpAt j x := by
  unfold Sys.perpAt
  dsimp only
  by_cases e : j = i
  · subst e; rw [List.getElem?_set_self hi, if_pos rfl]; rfl
  · rw [List.getElem?_set_ne (fun h => e h.symm), if_neg e]

/-- the account with its token positions left out -/
def Acct.rest (a : Acct) : Acct := { a with toks := [] }

/-- Paying the settler: only its position in the settle token changes. -/
theorem paid_seen {e : Env} {s s' : Sys} (hs : s.Ok) {ti ir : Nat} {fee : I80F48} (h : paySettler e s ti ir fee = .ok s') :
    ∃ b t' active, (s.banks ti).bank.deposit ((s.tokAt ir ti).getD {}) fee e.now = .ok (b, t', active) ∧ (active = false → t'.inUseCount = 0) ∧ s'.Ok ∧ ir < s.accts.length ∧
      s'.banks = (s.setBank ti b).banks ∧ s'.markets = s.markets ∧ s'.accts.length = s.accts.length ∧
      (∀ i x, s'.tokAt i x = if i = ir ∧ x = ti then (if active then some t' else none) else s.tokAt i x) ∧ (∀ i x, s'.perpAt i x = s.perpAt i x) ∧
      s'.accts.map Acct.rest = s.accts.map Acct.rest := by
  obtain ⟨r, r1, r2, k, t, t', b, active, P⟩ := paySettler_ok h
  have hr := hs r (List.mem_of_getElem? P.acct)
  have hlt : ir < s.accts.length := (List.getElem?_eq_some_iff.mp P.acct).1
  obtain ⟨o1, e1, f1, g1⟩ := ensureTok_ok hr P.ensure
  obtain ⟨o2, e2, f2, g2⟩ := store_ok o1 P.tok P.store
  have ht := tokOf_at o1 P.tok
  rw [g1, Option.some.injEq] at ht
  have htok : s.tokAt ir ti = r.tokOf ti := by unfold Sys.tokAt; rw [P.acct]; rfl
  have hperp : r2.perpOf = r.perpOf := by
    funext x
    unfold Acct.perpOf
    rw [e2]; dsimp only; rw [e1]
  have hrest : r2.rest = r.rest := by
    unfold Acct.rest
    rw [e2]; dsimp only; rw [e1]
  have hdep := P.dep
  rw [← ht, ← htok] at hdep
  have ho := P.out
  subst ho
  refine ⟨b, t', active, hdep, g2, ?_, hlt, rfl, rfl, by simp, ?_, ?_, ?_⟩
  · intro a ha
    rcases List.mem_or_eq_of_mem_set ha with h | h
    · exact hs a h
    · rw [h]; exact o2
  · intro i x
    rw [show (Sys.mk (s.setBank ti b).banks (s.setBank ti b).markets (s.accts.set ir r2)).tokAt i x = if i = ir then r2.tokOf x else s.tokAt i x from Sys.tokAt_set _ _ hlt i x]
    by_cases ei : i = ir
    · subst ei
      rw [if_pos rfl, f2 x]
      by_cases ex : x = ti
      · subst ex; simp
      · rw [if_neg ex, if_neg (fun h => ex h.2), f1 x ex]
        unfold Sys.tokAt; rw [P.acct]; rfl
    · rw [if_neg ei, if_neg (fun h => ei h.1)]
  · intro i x
    rw [show (Sys.mk (s.setBank ti b).banks (s.setBank ti b).markets (s.accts.set ir r2)).perpAt i x = if i = ir then r2.perpOf x else s.perpAt i x from Sys.perpAt_set _ _ hlt i x]
    by_cases ei : i = ir
    · subst ei
      rw [if_pos rfl, hperp]
      unfold Sys.perpAt; rw [P.acct]; rfl
    · rw [if_neg ei]
  · dsimp only
    apply List.ext_getElem?
    intro i
    rw [List.getElem?_map, List.getElem?_map]
    by_cases ei : i = ir
    · subst ei
      rw [List.getElem?_set_self hlt, P.acct]
      simp [hrest]
    · rw [List.getElem?_set_ne (fun h => ei h.symm)]

/-- what settling `amt` with fee `fee` between `ia` and `ib` does to the positions everyone sees -/
structure PnlSettled (e : Env) (s s' : Sys) (mi ia ib ir : Nat) (amt fee : I80F48) : Prop where
  /-- two different accounts -/
  distinct : ia ≠ ib
  /-- the account-wide transfers statistic follows those of the positions; open orders accounts and the number of slots stay -/
  stats : ∀ i c c', s.accts[i]? = some c → s'.accts[i]? = some c' → c'.os = c.os ∧ c'.slots = c.slots ∧
    c'.transfers = c.transfers + (if i = ia then Int.tdiv amt S - Int.tdiv fee S else if i = ib then -Int.tdiv amt S else 0)
  /-- `a`'s position loses `amt` of quote after paying its funding; its transfers statistic grows by the whole tokens received -/
  a : ∃ p p', s.perpAt ia mi = some p ∧ s'.perpAt ia mi = some p' ∧ Perp.Paid (s.markets mi) p.pos (-amt) p'.pos ∧ p'.transfers = p.transfers + (Int.tdiv amt S - Int.tdiv fee S) ∧
    amt ≤ pnl (s.markets mi) p.pos (e.oracle mi)
  /-- `b`'s position gains `amt` -/
  b : ∃ p p', s.perpAt ib mi = some p ∧ s'.perpAt ib mi = some p' ∧ Perp.Paid (s.markets mi) p.pos amt p'.pos ∧ p'.transfers = p.transfers - Int.tdiv amt S ∧
    amt ≤ -pnl (s.markets mi) p.pos (e.oracle mi)
  /-- something is settled; the fee is part of it -/
  positive : 0 < amt
  fee : 0 ≤ fee ∧ fee ≤ amt
  /-- no other perp position changes -/
  perps : ∀ i x, x ≠ mi ∨ (i ≠ ia ∧ i ≠ ib) → s'.perpAt i x = s.perpAt i x
  /-- no other token position changes -/
  toks : ∀ i x, x ≠ (s.markets mi).settleTokenIndex ∨ (i ≠ ia ∧ i ≠ ib ∧ i ≠ ir) → s'.tokAt i x = s.tokAt i x
  /-- both accounts had a position in the settle token -/
  hasTok : (∃ t, s.tokAt ia (s.markets mi).settleTokenIndex = some t) ∧ ∃ t, s.tokAt ib (s.markets mi).settleTokenIndex = some t
  /-- no market changes, and no other bank -/
  markets : s'.markets = s.markets
  banks : ∀ t, t ≠ (s.markets mi).settleTokenIndex → s'.banks t = s.banks t
  accounts : s'.accts.length = s.accts.length
  ok : s'.Ok

theorem unsettled_pnl {m : Perp.Market} {p p' : Perp.Pos} (h : Perp.Paid m p 0 p') {price u : I80F48} (hu : p'.unsettledPnl m price = .ok u) : u = pnl m p price := by
  simp only [Perp.Pos.unsettledPnl, Perp.Pos.baseNative, bind_ok, ck64_ok, ok_inj, mul_ok, add_ok] at hu
  obtain ⟨_, ⟨_, ⟨rfl, _⟩, rfl⟩, _, ⟨rfl, _⟩, rfl, _⟩ := hu
  unfold pnl
  rw [h.quote, h.size.1]
  unfold Fx.ofInt
  have : p.base * m.baseLotSize * S * price / S = p.base * m.baseLotSize * price := by
    rw [show p.base * m.baseLotSize * S * price = (p.base * m.baseLotSize * price) * S by ring]
    exact Int.mul_ediv_cancel _ (by have := S_pos; omega)
  rw [this]
  omega

theorem limit_bound {lim : I80F48 → Int} {p : Perp.Pos} {m : Perp.Market} {x y : I80F48} (h : p.applyPnlSettleLimit lim m x = .ok y) : (0 < x → y ≤ x) ∧ (x < 0 → x ≤ y) := by
  unfold Perp.Pos.applyPnlSettleLimit at h
  split at h
  · rw [ok_inj] at h; subst h; exact ⟨fun _ => Int.le_refl _, fun _ => Int.le_refl _⟩
  · simp only [bind_ok, ok_inj, Prod.exists] at h
    obtain ⟨lo, hi, _, rfl⟩ := h
    constructor
    · intro hx; rw [if_neg (by omega)]; omega
    · intro hx; rw [if_pos hx]; omega

theorem settle_amounts {lim : I80F48 → Int} {m : Perp.Market} {a b a' b' : Perp.Pos} {oracle price bMax liqEnd maint x fee : I80F48} {now : Int}
    (h : Perp.settlePnl lim m a b oracle price now bMax liqEnd maint = .ok (a', b', x, fee)) : x ≤ pnl m a oracle ∧ x ≤ -pnl m b oracle := by
  unfold Perp.settlePnl at h
  simp only [bind_ok, require_ok, neg_ok, ok_inj, Prod.mk.injEq] at h
  obtain ⟨a0, h1, b0, h2, ap, h3, bp, h4, _, h5, _, h6, a1, h7, aS, h8, b1, h9, bS, h10, _, h11, _, h12, _, h13, nb, ⟨rfl, _⟩, _, h14, a2, h15, ns, ⟨rfl, _⟩, b2, h16,
    _, _, _, _, _, _, _, _, f, _, rfl, rfl, rfl, rfl⟩ := h
  have e1 := unsettled_pnl (Perp.settleFunding_paid h1) h3
  have e2 := unsettled_pnl (Perp.settleFunding_paid h2) h4
  have l1 := (limit_bound h8).1 h5
  have l2 := (limit_bound h10).2 h6
  rw [← e1, ← e2]
  omega

/-- the state between the transfers of the two accounts and the payment of the settler -/
theorem parts_seen {e : Env} {s s1 : Sys} (hs : s.Ok) {mi ia ib : Nat} {amt fee : I80F48} {a b : Acct} {ja ka jb kb : Nat} {pa pb : PerpSlot} {ta tb : TokenPosition} {ca cb : Cache}
    {bMax liqEnd maint : I80F48} {pa' pb' : Perp.Pos} {n f : Int} {b1 b2 : Bank} {ta' tb' : TokenPosition} {ra rb : Bool}
    (P : Parts e s s1 mi ia ib amt fee a b ja ka jb kb pa pb ta tb ca cb bMax liqEnd maint pa' pb' n f b1 b2 ta' tb' ra rb) :
    s1.Ok ∧ s1.markets = s.markets ∧ s1.banks = (s.setBank (s.markets mi).settleTokenIndex b2).banks ∧ s1.accts.length = s.accts.length ∧
    (∀ i x, s1.tokAt i x = if x = (s.markets mi).settleTokenIndex ∧ i = ia then some ta' else if x = (s.markets mi).settleTokenIndex ∧ i = ib then some tb' else s.tokAt i x) ∧
    (∀ i x, s1.perpAt i x = if x = mi ∧ i = ia then some ⟨mi, pa', pa.transfers + (n - f)⟩ else if x = mi ∧ i = ib then some ⟨mi, pb', pb.transfers - n⟩ else s.perpAt i x) ∧
    s.tokAt ia (s.markets mi).settleTokenIndex = some ta ∧ s.tokAt ib (s.markets mi).settleTokenIndex = some tb ∧ s.perpAt ia mi = some pa ∧ s.perpAt ib mi = some pb := by
  have ha := hs a (List.mem_of_getElem? P.acctA)
  have hb := hs b (List.mem_of_getElem? P.acctB)
  have la := (List.getElem?_eq_some_iff.mp P.acctA).1
  have lb := (List.getElem?_eq_some_iff.mp P.acctB).1
  obtain ⟨hpa, hma⟩ := P.perpA
  obtain ⟨hpb, hmb⟩ := P.perpB
  have oa := setPerp_ok (p' := ⟨mi, pa', pa.transfers + (n - f)⟩) ha hpa hma.symm
  have ob := setPerp_ok (p' := ⟨mi, pb', pb.transfers - n⟩) hb hpb hmb.symm
  have ho := P.out
  have hne := P.ne
  generalize hti : (s.markets mi).settleTokenIndex = ti at *
  have htA := P.tokA
  have htB := P.tokB
  rw [hti] at htA htB
  have ta1 : (a.setPerp ja ⟨mi, pa', pa.transfers + (n - f)⟩).toks[ka]? = some (ti, ta) := htA
  have tb1 : (b.setPerp jb ⟨mi, pb', pb.transfers - n⟩).toks[kb]? = some (ti, tb) := htB
  have oa2 := setTok_ok (t' := ta') oa ta1
  have ob2 := setTok_ok (t' := tb') ob tb1
  subst ho
  refine ⟨?_, rfl, rfl, by simp, ?_, ?_, ?_, ?_, ?_, ?_⟩
  · intro c hc
    rcases List.mem_or_eq_of_mem_set hc with h | h
    · rcases List.mem_or_eq_of_mem_set h with h | h
      · exact hs c h
      · rw [h]; exact ⟨oa2.toks, oa2.perps⟩
    · rw [h]; exact ⟨ob2.toks, ob2.perps⟩
  · intro i x
    unfold Sys.tokAt
    dsimp only
    by_cases ei : i = ib
    · subst ei
      rw [List.getElem?_set_self (by simpa using lb), P.acctB]
      dsimp only [Option.bind_some]
      have := tokOf_set (t' := tb') ob tb1 x
      rw [if_neg (show ¬ (x = ti ∧ i = ia) from fun h => hne h.2.symm)]
      simp only [and_true]
      exact this
    · rw [List.getElem?_set_ne (fun h => ei h.symm)]
      by_cases ej : i = ia
      · subst ej
        rw [List.getElem?_set_self la, P.acctA]
        dsimp only [Option.bind_some]
        have := tokOf_set (t' := ta') oa ta1 x
        simp only [and_true, ei, and_false, if_false]
        exact this
      · rw [List.getElem?_set_ne (fun h => ej h.symm)]
        simp only [ei, ej, and_false, if_false]
  · intro i x
    unfold Sys.perpAt
    dsimp only
    by_cases ei : i = ib
    · subst ei
      rw [List.getElem?_set_self (by simpa using lb), P.acctB]
      dsimp only [Option.bind_some]
      have := perpOf_set (p' := ⟨mi, pb', pb.transfers - n⟩) hb hpb hmb.symm x
      rw [hmb] at this
      rw [if_neg (show ¬ (x = mi ∧ i = ia) from fun h => hne h.2.symm)]
      simp only [and_true]
      exact this
    · rw [List.getElem?_set_ne (fun h => ei h.symm)]
      by_cases ej : i = ia
      · subst ej
        rw [List.getElem?_set_self la, P.acctA]
        dsimp only [Option.bind_some]
        have := perpOf_set (p' := ⟨mi, pa', pa.transfers + (n - f)⟩) ha hpa hma.symm x
        rw [hma] at this
        simp only [and_true, ei, and_false, if_false]
        exact this
      · rw [List.getElem?_set_ne (fun h => ej h.symm)]
        simp only [ei, ej, and_false, if_false]
  · unfold Sys.tokAt; rw [P.acctA]; exact tokOf_at ha htA
  · unfold Sys.tokAt; rw [P.acctB]; exact tokOf_at hb htB
  · unfold Sys.perpAt; rw [P.acctA, ← hma]; exact perpOf_at ha hpa
  · unfold Sys.perpAt; rw [P.acctB, ← hmb]; exact perpOf_at hb hpb

/-- **C72, settle pnl.** The settled amount is positive, at most `a`'s profit and at most `b`'s loss (after funding, at the oracle price); exactly it moves from `a`'s to `b`'s position; the fee is part of it;
no other position of anyone changes, apart from the settler's position in the settle token. -/
theorem C72_settle_pnl {e : Env} {s s' : Sys} (hs : s.Ok) {mi ia ib ir : Nat} {amt fee : I80F48} (hflat : 0 ≤ (s.markets mi).settleFeeFlat)
    (h : settlePnl e s mi ia ib ir = .ok (s', amt, fee)) : PnlSettled e s s' mi ia ib ir amt fee := by
  obtain ⟨s1, a, b, ja, ka, jb, kb, pa, pb, ta, tb, ca, cb, bMax, le, mt, pa', pb', n, f, b1, b2, ta', tb', ra, rb, P, hp⟩ := settlePnl_ok h
  obtain ⟨o1, m1, k1, l1, t1, q1, ta0, tb0, pa0, pb0⟩ := parts_seen hs P
  obtain ⟨b3, t3, active, _, _, o2, _, k2, m2, l2, t2, q2, r2⟩ := paid_seen o1 hp
  obtain ⟨c1, c2, c3, c4, c5, c6⟩ := Perp.C50_settle_pnl hflat P.settle
  obtain ⟨u1, u2⟩ := settle_amounts P.settle
  have hne := P.ne
  have nE := P.nEq
  have fE := P.fEq
  refine ⟨hne, ?_, ⟨pa, ⟨mi, pa', pa.transfers + (n - f)⟩, pa0, ?_, c1, by rw [nE, fE], u1⟩, ⟨pb, ⟨mi, pb', pb.transfers - n⟩, pb0, ?_, c2, by rw [nE], u2⟩, c3, ⟨c5, c6⟩, ?_, ?_, ⟨⟨ta, ta0⟩, ⟨tb, tb0⟩⟩, m2.trans m1, ?_, l2.trans l1, o2⟩
  · intro i c c' hc hc'
    have la := (List.getElem?_eq_some_iff.mp P.acctA).1
    have lb := (List.getElem?_eq_some_iff.mp P.acctB).1
    have hr : (s'.accts.map Acct.rest)[i]? = (s1.accts.map Acct.rest)[i]? := by rw [r2]
    rw [List.getElem?_map, List.getElem?_map, hc', P.out] at hr
    dsimp only at hr
    by_cases ei : i = ib
    · subst ei
      have hb := P.acctB
      rw [hc, Option.some.injEq] at hb
      rw [List.getElem?_set_self (by simpa using lb), ← hb] at hr
      simp only [Option.map_some, Option.some.injEq, Acct.rest, Acct.setTok, Acct.setPerp, Acct.mk.injEq] at hr
      rw [if_neg (fun h => hne h.symm), if_pos rfl, ← nE]
      exact ⟨hr.2.2.1, hr.2.1, by rw [hr.2.2.2.2]; omega⟩
    · rw [List.getElem?_set_ne (fun h => ei h.symm)] at hr
      by_cases ej : i = ia
      · subst ej
        have ha := P.acctA
        rw [hc, Option.some.injEq] at ha
        rw [List.getElem?_set_self la, ← ha] at hr
        simp only [Option.map_some, Option.some.injEq, Acct.rest, Acct.setTok, Acct.setPerp, Acct.mk.injEq] at hr
        rw [if_pos rfl, ← nE, ← fE]
        exact ⟨hr.2.2.1, hr.2.1, hr.2.2.2.2⟩
      · rw [List.getElem?_set_ne (fun h => ej h.symm), hc] at hr
        simp only [Option.map_some, Option.some.injEq, Acct.rest, Acct.mk.injEq] at hr
        rw [if_neg ej, if_neg ei]
        exact ⟨hr.2.2.1, hr.2.1, by rw [hr.2.2.2.2]; omega⟩
  · rw [q2, q1, if_pos ⟨rfl, rfl⟩]
  · rw [q2, q1, if_neg (fun h => hne h.2.symm), if_pos ⟨rfl, rfl⟩]
  · intro i x hx
    rw [q2, q1, if_neg (by rintro ⟨rfl, rfl⟩; rcases hx with h | h <;> simp at h), if_neg (by rintro ⟨rfl, rfl⟩; rcases hx with h | h <;> simp at h)]
  · intro i x hx
    rw [t2, if_neg (by rintro ⟨rfl, rfl⟩; rcases hx with h | h <;> simp at h), t1, if_neg (by rintro ⟨rfl, rfl⟩; rcases hx with h | h <;> simp at h),
      if_neg (by rintro ⟨rfl, rfl⟩; rcases hx with h | h <;> simp at h)]
  · intro t ht
    rw [k2]
    unfold Sys.setBank
    dsimp only
    rw [if_neg ht, k1]
    unfold Sys.setBank
    dsimp only
    rw [if_neg ht]

/-! ## The settle token -/

/-- the bank of a token and everyone's position in it, as in the theorems about token histories (accounts without a position: an empty one) -/
def Sys.ledger (s : Sys) (ti : Nat) (vault : Int) : Bank.TokenState := ⟨[(s.banks ti).bank], (List.range s.accts.length).map (fun i => (s.tokAt i ti).getD {}), vault⟩

theorem ledger_set {n : Nat} {f g : Nat → TokenPosition} {i : Nat} (hi : i < n) (h : ∀ j, j ≠ i → g j = f j) :
    ((List.range n).map f).set i (g i) = (List.range n).map g := by
  apply List.ext_getElem?
  intro j
  by_cases e : j = i
  · subst e
    rw [List.getElem?_set_self (by simpa using hi)]
    simp [hi]
  · rw [List.getElem?_set_ne (fun h => e h.symm), List.getElem?_map, List.getElem?_map]
    by_cases hj : j < n
    · simp [hj, h j e]
    · simp [hj]

theorem range_get {n : Nat} {f : Nat → TokenPosition} {i : Nat} (hi : i < n) : ((List.range n).map f)[i]? = some (f i) := by simp [hi]

theorem step_close {s : Bank.TokenState} {op : Bank.PosOp} {k i : Nat} {now : Int} {b b' : Bank} {p p' : TokenPosition} {a : Bool} (hb : s.banks[k]? = some b) (hp : s.positions[i]? = some p)
    (h : op.run b p now = .ok (b', p', a)) (hu : a = false → p'.inUseCount = 0) :
    Bank.step s (.pos op k i true now) = .ok ⟨s.banks.set k b', s.positions.set i (if a then p' else {}), s.vault + op.inflow⟩ := by
  have e1 : Bank.getBank s k = .ok b := by unfold Bank.getBank; rw [hb]
  have e2 : Bank.getPos s i = .ok p := by unfold Bank.getPos; rw [hp]
  simp only [Bank.step, e1, e2]
  dsimp only [bind, Except.bind]
  rw [h]
  cases a with
  | true => simp
  | false => simp [Bank.closePosition, hu rfl]

/-- **C72, tokens.** In the settle token the instruction is exactly: deposit the settled amount less the fee to `a`, withdraw the settled amount from `b` without a loan fee, deposit the fee to the settler
(closing its position if it is repaid up to less than a unit). Nothing enters or leaves the bank, so the theorems about token histories (C02, C47, ...) apply. -/
theorem C72_tokens {e : Env} {s s' : Sys} (hs : s.Ok) {mi ia ib ir : Nat} {amt fee : I80F48} (h : settlePnl e s mi ia ib ir = .ok (s', amt, fee)) (vault : Int) :
    Bank.runOps (s.ledger (s.markets mi).settleTokenIndex vault)
      [.pos (.deposit (amt - fee)) 0 ia false e.now, .pos (.withdrawWithoutFee amt) 0 ib false e.now, .pos (.deposit fee) 0 ir true e.now] =
      .ok (s'.ledger (s.markets mi).settleTokenIndex vault) := by
  obtain ⟨s1, a, b, ja, ka, jb, kb, pa, pb, ta, tb, ca, cb, bMax, le, mt, pa', pb', n, f, b1, b2, ta', tb', ra, rb, P, hp⟩ := settlePnl_ok h
  obtain ⟨o1, m1, k1, l1, t1, q1, ta0, tb0, pa0, pb0⟩ := parts_seen hs P
  obtain ⟨b3, t3, active, hd, hu, o2, hir, k2, m2, l2, t2, q2, _⟩ := paid_seen o1 hp
  have hne := P.ne
  have hdep := P.dep
  have hwd := P.wd
  have la := (List.getElem?_eq_some_iff.mp P.acctA).1
  have lb := (List.getElem?_eq_some_iff.mp P.acctB).1
  generalize (s.markets mi).settleTokenIndex = ti at *
  have hk1 : (s1.banks ti).bank = b2 := by rw [k1]; unfold Sys.setBank; simp
  have hk2 : (s'.banks ti).bank = b3 := by rw [k2]; unfold Sys.setBank; simp
  rw [hk1] at hd
  unfold Sys.ledger
  generalize hN : s.accts.length = N at *
  rw [l2, l1, hk2]
  -- the three steps
  have g0 : ∀ j, j ≠ ia → (fun i => if i = ia then ta' else (s.tokAt i ti).getD {}) j = (fun i => (s.tokAt i ti).getD {}) j := by intro j hj; simp [hj]
  have st1 := Liquidation.step_pos (s := ⟨[(s.banks ti).bank], (List.range N).map (fun i => (s.tokAt i ti).getD {}), vault⟩) (op := .deposit (amt - fee)) (k := 0) (i := ia) (now := e.now)
    (b := (s.banks ti).bank) (p := ta) rfl (by dsimp only; rw [range_get la, ta0]; rfl) hdep
  have e1 := ledger_set la g0
  simp only [if_true] at e1
  dsimp only at st1
  rw [e1] at st1
  have g1 : ∀ j, j ≠ ib → (fun i => (s1.tokAt i ti).getD {}) j = (fun i => if i = ia then ta' else (s.tokAt i ti).getD {}) j := by
    intro j hj
    dsimp only
    rw [t1]
    by_cases ej : j = ia
    · subst ej; simp
    · simp [hj, ej]
  have st2 := Liquidation.step_pos (s := ⟨[(s.banks ti).bank].set 0 b1, (List.range N).map (fun i => if i = ia then ta' else (s.tokAt i ti).getD {}), vault + (Bank.PosOp.deposit (amt - fee)).inflow⟩)
    (op := .withdrawWithoutFee amt) (k := 0) (i := ib) (now := e.now) (b := b1) (p := tb) rfl (by dsimp only; rw [range_get lb, if_neg (Ne.symm hne), tb0]; rfl) hwd
  have e2 := ledger_set lb g1
  have v2 : (s1.tokAt ib ti).getD {} = tb' := by rw [t1, if_neg (fun h => hne h.2.symm), if_pos ⟨rfl, rfl⟩]; rfl
  rw [v2] at e2
  dsimp only at st2
  rw [e2] at st2
  have g2 : ∀ j, j ≠ ir → (fun i => (s'.tokAt i ti).getD {}) j = (fun i => (s1.tokAt i ti).getD {}) j := by
    intro j hj
    dsimp only
    rw [t2, if_neg (fun h => hj h.1)]
  have hir' : ir < N := by omega
  have st3 := step_close (s := ⟨([(s.banks ti).bank].set 0 b1).set 0 b2, (List.range N).map (fun i => (s1.tokAt i ti).getD {}), vault + (Bank.PosOp.deposit (amt - fee)).inflow + (Bank.PosOp.withdrawWithoutFee amt).inflow⟩)
    (op := .deposit fee) (k := 0) (i := ir) (now := e.now) (b := b2) rfl (by dsimp only; rw [range_get hir']) hd hu
  have e3 := ledger_set hir' g2
  have v3 : (s'.tokAt ir ti).getD {} = if active then t3 else {} := by
    rw [t2, if_pos ⟨rfl, rfl⟩]
    cases active <;> rfl
  rw [v3] at e3
  dsimp only at st3
  rw [e3] at st3
  rw [Bank.runOps, st1]
  dsimp only [bind, Except.bind]
  rw [Bank.runOps, st2]
  dsimp only [bind, Except.bind]
  rw [Bank.runOps, st3]
  dsimp only [bind, Except.bind]
  rw [Bank.runOps]
  simp only [List.set_cons_zero, Bank.PosOp.inflow]
  congr 2
  omega

end Settlement
end Mango
