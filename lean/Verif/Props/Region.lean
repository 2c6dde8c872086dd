import Verif.Region.Model
import Verif.Props.HealthCheck
/-!
# C79: health regions

Specification: `NoRegion`: no account is in a health region. `Trace`: the states a transaction goes through, from one top-level instruction to the next. `Guarded pre post` is what a health check
guarantees.
-/
namespace Mango
namespace Region
open Fx Account

def NoRegion {ω : Type} (s : State ω) : Prop := ∀ k x, s.acct k = some x → x.inRegion = false

/-- only `a` may be in a region -/
def OnlyRegion {ω : Type} (a : Nat) (s : State ω) : Prop := ∀ k x, s.acct k = some x → x.inRegion = true → k = a

/-- what is assumed of mango's other instructions (state/mango_account.rs:385-391: `set_in_health_region` has no other callers): they do not touch the region fields, and new accounts are not in a
region. Those allowed inside a region keep all accounts, and do not start or end a liquidation of an account in a region. -/
structure Tame {ω : Type} (d : Disc) (f : State ω → Res (State ω)) : Prop where
  fields : ∀ s s', f s = .ok s' → ∀ k x', s'.acct k = some x' →
    (∃ x, s.acct k = some x ∧ x'.inRegion = x.inRegion ∧ x'.beginHealth = x.beginHealth) ∨ (s.acct k = none ∧ x'.inRegion = false)
  keeps : d ∈ allowedInner → ∀ s s', f s = .ok s' → ∀ k x, s.acct k = some x → ∃ x', s'.acct k = some x' ∧ (x.inRegion = true → x'.being = x.being)

def Call.tame {ω : Type} : Call ω → Prop
  | .ix d f => Tame d f
  | _ => True

def Ix.tame {ω : Type} : Ix ω → Prop
  | .mango c => c.tame
  | .foreign acts => ∀ a ∈ acts, match a with | .cpi c => c.tame | .touch _ => True

/-- the states between the top-level instructions -/
inductive Trace {ω : Type} (env : Env ω) : State ω → List (Ix ω) → List (State ω) → State ω → Prop
  | nil (s : State ω) : Trace env s [] [s] s
  | cons {s s1 s' : State ω} {ix : Ix ω} {rest : List (Ix ω)} {ss : List (State ω)} (h : runIx env s rest ix = .ok s1) (t : Trace env s1 rest ss s') :
      Trace env s (ix :: rest) (s :: ss) s'

theorem runTx_trace {ω : Type} (env : Env ω) : ∀ (tx : List (Ix ω)) (s s' : State ω), runTx env s tx = .ok s' ↔ ∃ ss, Trace env s tx ss s' := by
  intro tx
  induction tx with
  | nil =>
    intro s s'
    constructor
    · intro h; injection h with h; subst h; exact ⟨_, .nil _⟩
    · rintro ⟨ss, h⟩; cases h; rfl
  | cons ix rest ih =>
    intro s s'
    constructor
    · intro h
      unfold runTx at h
      simp only [bind_ok] at h
      obtain ⟨s1, h1, h2⟩ := h
      obtain ⟨ss, t⟩ := (ih s1 s').mp h2
      exact ⟨_, .cons h1 t⟩
    · rintro ⟨ss, h⟩
      cases h with
      | cons h1 t =>
        unfold runTx
        rw [h1]
        exact (ih _ _).mpr ⟨_, t⟩

theorem Trace.length {ω : Type} {env : Env ω} {s s' : State ω} {tx : List (Ix ω)} {ss : List (State ω)} (t : Trace env s tx ss s') : ss.length = tx.length + 1 := by
  induction t with
  | nil => rfl
  | cons _ _ ih => simp [ih]

theorem begin_ok {ω : Type} {env : Env ω} {s s' : State ω} {top : Bool} {rest : List (Ix ω)} {a : Nat} (h : begin_ env s top rest a = .ok s') :
    ∃ x pre l n, s.acct a = some x ∧ top = true ∧ scan a rest = .ok () ∧ x.inRegion = false ∧ env.init s.world a = .ok pre ∧
      (Liq.mk x.being).regionBegin pre (env.liqEnd s.world a) = .ok (l, n) ∧ env.operational s.world a = true ∧ env.enabled s.world a = true ∧
      s' = s.setAcct a { inRegion := true, beginHealth := n, being := l.being } := by
  unfold begin_ at h
  split at h
  · simp at h
  · rename_i x hx
    simp only [bind_ok, require_ok] at h
    obtain ⟨_, h1, _, h2, _, h3, _, h4, _, h5, pre, h6, ⟨l, n⟩, h7, h8⟩ := h
    injection h8 with h8
    exact ⟨x, pre, l, n, hx, h3, h4, h5, h6, h7, h2, h1, h8.symm⟩

theorem end_ok {ω : Type} {env : Env ω} {s s' : State ω} {a : Nat} (h : end_ env s a = .ok s') :
    ∃ x post, s.acct a = some x ∧ x.inRegion = true ∧ env.init s.world a = .ok post ∧ Account.regionEnd x.beginHealth post = .ok () ∧
      s' = s.setAcct a { inRegion := false, beginHealth := 0, being := x.being } := by
  unfold end_ at h
  split at h
  · simp at h
  · rename_i x hx
    simp only [bind_ok, require_ok] at h
    obtain ⟨_, _, _, h2, post, h3, _, h4, h5⟩ := h
    injection h5 with h5
    exact ⟨x, post, hx, h2, h3, h4, h5.symm⟩

/-- what the search for the end has found -/
theorem scan_ok {ω : Type} {a : Nat} : ∀ {rest : List (Ix ω)}, scan a rest = .ok () →
    ∃ mid after, rest = mid ++ Ix.mango (.regionEnd a) :: after ∧ ∀ ix ∈ mid, ∃ d f, ix = .mango (.ix d f) ∧ d ∈ allowedInner := by
  intro rest
  induction rest with
  | nil => intro h; simp [scan] at h
  | cons ix rest ih =>
    intro h
    cases ix with
    | foreign acts => simp [scan] at h
    | mango c =>
      cases c with
      | regionBegin b => simp [scan] at h
      | regionEnd b =>
        simp only [scan, require_ok] at h
        exact ⟨[], rest, by rw [h]; rfl, fun _ h => by cases h⟩
      | ix d f =>
        simp only [scan, bind_ok, require_ok] at h
        obtain ⟨_, h1, h2⟩ := h
        obtain ⟨mid, after, e, hm⟩ := ih h2
        refine ⟨.mango (.ix d f) :: mid, after, by rw [e]; rfl, ?_⟩
        intro ix hix
        rcases List.mem_cons.mp hix with rfl | hix
        · exact ⟨d, f, rfl, h1⟩
        · exact hm ix hix

/-- from a state without regions, another program's instruction leads to one without regions -/
theorem acts_noRegion {ω : Type} {env : Env ω} {rest : List (Ix ω)} : ∀ {acts : List (Act ω)} {s s' : State ω},
    (∀ a ∈ acts, match a with | .cpi c => c.tame | .touch _ => True) → NoRegion s → runActs env rest acts s = .ok s' → NoRegion s' := by
  intro acts
  induction acts with
  | nil => intro s s' _ hn h; injection h with h; subst h; exact hn
  | cons act acts ih =>
    intro s s' ht hn h
    have ht' := fun a ha => ht a (List.mem_cons_of_mem _ ha)
    have hta := ht act (by simp)
    cases act with
    | touch g => exact ih (s := { s with world := g s.world }) ht' hn h
    | cpi c =>
      simp only [runActs, bind_ok] at h
      obtain ⟨s1, h1, h2⟩ := h
      refine ih ht' ?_ h2
      cases c with
      | regionBegin a => obtain ⟨_, _, _, _, _, h, _⟩ := begin_ok h1; cases h
      | regionEnd a =>
        obtain ⟨x, _, hx, hr, _⟩ := end_ok h1
        rw [hn a x hx] at hr; cases hr
      | ix d f =>
        intro k x' hk
        rcases hta.fields s s1 h1 k x' hk with ⟨x, hx, he, _⟩ | ⟨_, h⟩
        · rw [he]; exact hn k x hx
        · exact h

/-- what a health check guarantees (C36): health is not negative afterwards, or has not fallen (below -1000: by less than one unit, and not below the next whole number) -/
def Guarded (pre post : I80F48) : Prop := 0 ≤ post ∨ (ceilUnit pre ≤ ceilUnit post ∧ pre - S < post ∧ (ofInt (-1000) ≤ post → pre ≤ post))

theorem region_guarded {a a' : Liq} {pre post : I80F48} {liqEnd : Res I80F48} {n : Int} (h1 : a.regionBegin pre liqEnd = .ok (a', n)) (h2 : Account.regionEnd n post = .ok ()) :
    Guarded pre post ∧ a'.being = false := by
  simp only [Liq.regionBegin, bind_ok, ck64_ok] at h1
  obtain ⟨l, hl, c, hc, m, ⟨hm, _⟩, h1⟩ := h1
  simp at h1
  obtain ⟨rfl, rfl⟩ := h1
  have hS := S_pos
  have e := ceil_val hc
  have hn : ofInt m = c := by
    rw [hm, e.2.2]
    unfold ofInt toInt
    rw [Int.mul_ediv_cancel _ (by decide)]
  constructor
  · unfold Account.regionEnd at h2
    rw [hn] at h2
    rcases C36_post_check h2 with h3 | ⟨h3, h4, h5⟩
    · exact Or.inl h3
    · right
      have e2 : ceilUnit c = ceilUnit pre := by
        have : c = ceilUnit pre * S := e.2.2
        rw [this]; unfold ceilUnit
        rw [← Int.neg_mul, Int.mul_ediv_cancel _ (by decide)]; omega
      exact ⟨by omega, by omega, fun h => by have := h5 h; omega⟩
  · simp only [Liq.checkPre, bind_ok, require_ok] at hl
    obtain ⟨_, _, _, hb, hl⟩ := hl
    injection hl with hl
    rw [← hl]; exact hb

/-- the state while `a` is in a region -/
structure Inside {ω : Type} (a : Nat) (n : Int) (s : State ω) : Prop where
  acct : s.acct a = some { inRegion := true, beginHealth := n, being := false }
  only : OnlyRegion a s

/-- **The shape of a transaction**: instructions outside regions, and regions. A region is for one account: a top-level begin, allowed instructions of mango, and its end; while it lasts the account,
and no other, is in a region. What it does to the account's health is guarded as a whole, and afterwards the account is not being liquidated. -/
inductive Blocks {ω : Type} (env : Env ω) : State ω → List (Ix ω) → State ω → Prop
  | done (s : State ω) (h : NoRegion s) : Blocks env s [] s
  | plain {s s1 s' : State ω} {ix : Ix ω} {rest : List (Ix ω)} (h0 : NoRegion s) (hix : ∀ a, ix ≠ .mango (.regionBegin a)) (hix' : ∀ a, ix ≠ .mango (.regionEnd a))
      (h1 : runIx env s rest ix = .ok s1) (t : Blocks env s1 rest s') : Blocks env s (ix :: rest) s'
  | region {s s1 s2 s3 s' : State ω} {a : Nat} {n : Int} {mid after : List (Ix ω)} {ss : List (State ω)} {pre post : I80F48} (h0 : NoRegion s)
      (hbegin : begin_ env s true (mid ++ .mango (.regionEnd a) :: after) a = .ok s1)
      (hmid : ∀ ix ∈ mid, ∃ d f, ix = .mango (.ix d f) ∧ d ∈ allowedInner) (hrun : Trace env s1 mid ss s2) (hin : ∀ x ∈ ss, Inside a n x)
      (hend : end_ env s2 a = .ok s3) (hworlds : s1.world = s.world ∧ s3.world = s2.world) (hpre : env.init s.world a = .ok pre) (hpost : env.init s3.world a = .ok post)
      (hg : Guarded pre post) (hb : s3.acct a = some { inRegion := false, beginHealth := 0, being := false }) (t : Blocks env s3 after s') :
      Blocks env s (.mango (.regionBegin a) :: (mid ++ .mango (.regionEnd a) :: after)) s'

theorem Blocks.start {ω : Type} {env : Env ω} {s s' : State ω} {tx : List (Ix ω)} (h : Blocks env s tx s') : NoRegion s := by
  cases h <;> assumption

theorem Blocks.stop {ω : Type} {env : Env ω} {s s' : State ω} {tx : List (Ix ω)} (h : Blocks env s tx s') : NoRegion s' := by
  induction h with
  | done _ h => exact h
  | plain _ _ _ _ _ ih => exact ih
  | region _ _ _ _ _ _ _ _ _ _ _ _ ih => exact ih

/-- the part of a transaction inside a region -/
theorem inside_run {ω : Type} {env : Env ω} {a : Nat} {n : Int} {after : List (Ix ω)} {s' : State ω} : ∀ {mid : List (Ix ω)} {s : State ω},
    (∀ ix ∈ mid, ∃ d f, ix = .mango (.ix d f) ∧ d ∈ allowedInner) → (∀ ix ∈ mid, ix.tame) → Inside a n s → runTx env s (mid ++ after) = .ok s' →
    ∃ s2 ss, Trace env s mid ss s2 ∧ (∀ x ∈ ss, Inside a n x) ∧ Inside a n s2 ∧ runTx env s2 after = .ok s' := by
  intro mid
  induction mid with
  | nil => intro s _ _ hi h; exact ⟨s, [s], .nil s, by simpa using hi, hi, h⟩
  | cons ix mid ih =>
    intro s hm ht hi h
    obtain ⟨d, f, rfl, hd⟩ := hm ix (by simp)
    have htf : Tame d f := ht (.mango (.ix d f)) (by simp)
    simp only [List.cons_append, runTx, bind_ok] at h
    obtain ⟨s1, h1, h2⟩ := h
    have hf : f s = .ok s1 := h1
    have hi1 : Inside a n s1 := by
      obtain ⟨x', hx', hbe⟩ := htf.keeps hd s s1 hf a _ hi.acct
      rcases htf.fields s s1 hf a x' hx' with ⟨x, hx, e1, e2⟩ | ⟨hx, _⟩
      · rw [hi.acct] at hx
        injection hx with hx
        subst hx
        refine ⟨?_, ?_⟩
        · rw [hx']
          obtain ⟨r, b, c⟩ := x'
          simp only at e1 e2 hbe
          rw [e1, e2, hbe trivial]
        · intro k y hy hr
          rcases htf.fields s s1 hf k y hy with ⟨z, hz, e3, _⟩ | ⟨_, h⟩
          · exact hi.only k z hz (by rw [← e3]; exact hr)
          · rw [h] at hr; cases hr
      · rw [hi.acct] at hx; cases hx
    obtain ⟨s2, ss, t, hs, hi2, h3⟩ := ih (fun ix h => hm ix (List.mem_cons_of_mem _ h)) (fun ix h => ht ix (List.mem_cons_of_mem _ h)) hi1 h2
    refine ⟨s2, s :: ss, .cons (rest := mid) (ix := .mango (.ix d f)) hf t, ?_, hi2, h3⟩
    intro x hx
    rcases List.mem_cons.mp hx with rfl | hx
    · exact hi
    · exact hs x hx

theorem blocks_aux {ω : Type} {env : Env ω} : ∀ (k : Nat) {tx : List (Ix ω)} {s s' : State ω}, tx.length ≤ k → (∀ ix ∈ tx, ix.tame) → NoRegion s → runTx env s tx = .ok s' → Blocks env s tx s' := by
  intro k
  induction k with
  | zero =>
    intro tx s s' hk _ hn h
    obtain rfl : tx = [] := List.length_eq_zero_iff.mp (by omega)
    injection h with h; subst h; exact .done s hn
  | succ k ih =>
    intro tx s s' hk ht hn h
    cases tx with
    | nil => injection h with h; subst h; exact .done s hn
    | cons ix rest =>
      simp only [runTx, bind_ok] at h
      obtain ⟨s1, h1, h2⟩ := h
      have htr : ∀ ix ∈ rest, ix.tame := fun ix hix => ht ix (List.mem_cons_of_mem _ hix)
      have hlen : rest.length ≤ k := by simpa using hk
      cases ix with
      | foreign acts => exact .plain hn (by simp) (by simp) h1 (ih hlen htr (acts_noRegion (ht (.foreign acts) (by simp)) hn h1) h2)
      | mango c =>
        cases c with
        | ix d f =>
          refine .plain hn (by simp) (by simp) h1 (ih hlen htr ?_ h2)
          have htf : Tame d f := ht (.mango (.ix d f)) (by simp)
          intro k x' hk
          rcases htf.fields s s1 h1 k x' hk with ⟨x, hx, he, _⟩ | ⟨_, h⟩
          · rw [he]; exact hn k x hx
          · exact h
        | regionEnd a =>
          obtain ⟨x, _, hx, hr, _⟩ := end_ok (show end_ env s a = .ok s1 from h1)
          rw [hn a x hx] at hr; cases hr
        | regionBegin a =>
          obtain ⟨x, pre, l, n, hx, _, hsc, _, hpre, hrb, _, _, rfl⟩ := begin_ok (show begin_ env s true rest a = .ok s1 from h1)
          obtain ⟨mid, after, rfl, hmid⟩ := scan_ok hsc
          have htm : ∀ ix ∈ mid, ix.tame := fun ix hix => htr ix (List.mem_append_left _ hix)
          -- the account is not being liquidated
          have hbe : l.being = false := by
            have hrb' := hrb
            simp only [Liq.regionBegin, bind_ok, ck64_ok] at hrb'
            obtain ⟨l', hl, _, _, _, _, hrb'⟩ := hrb'
            simp at hrb'
            simp only [Liq.checkPre, bind_ok, require_ok] at hl
            obtain ⟨_, _, _, hb, hl⟩ := hl
            injection hl with hl
            rw [← hrb'.1, ← hl]; exact hb
          have hi : Inside a n (s.setAcct a { inRegion := true, beginHealth := n, being := l.being }) := by
            refine ⟨by simp [State.setAcct, hbe], ?_⟩
            intro k y hy hr
            by_contra hne
            simp only [State.setAcct, if_neg hne] at hy
            rw [hn k y hy] at hr; cases hr
          obtain ⟨s2, ss, t, hs, hi2, h3⟩ := inside_run hmid htm hi h2
          simp only [runTx, bind_ok] at h3
          obtain ⟨s3, h3, h4⟩ := h3
          obtain ⟨y, post, hy, _, hpost, hre, rfl⟩ := end_ok (show end_ env s2 a = .ok s3 from h3)
          rw [hi2.acct] at hy
          injection hy with hy
          subst hy
          have hn3 : NoRegion (s2.setAcct a { inRegion := false, beginHealth := 0, being := false }) := by
            intro k y hy
            by_cases hk : k = a
            · subst hk; simp [State.setAcct] at hy; rw [← hy]
            · simp only [State.setAcct, if_neg hk] at hy
              cases hr : y.inRegion with
              | false => rfl
              | true => exact absurd (hi2.only k y hy hr) hk
          refine .region hn h1 hmid t hs h3 ⟨rfl, rfl⟩ hpre hpost (region_guarded hrb hre).1 (by simp [State.setAcct]) (ih ?_ (fun ix hix => htr ix (by simp [hix])) hn3 h4)
          simp at hlen; omega

/-- **C79** Every successful transaction that starts with no account in a region has the shape above. -/
theorem C79_blocks {ω : Type} {env : Env ω} {tx : List (Ix ω)} {s s' : State ω} (ht : ∀ ix ∈ tx, ix.tame) (hn : NoRegion s) (h : runTx env s tx = .ok s') : Blocks env s tx s' :=
  blocks_aux tx.length (Nat.le_refl _) ht hn h

/-- a history of transactions; those that fail change nothing -/
def runAll {ω : Type} (env : Env ω) (s : State ω) : List (List (Ix ω)) → State ω
  | [] => s
  | tx :: txs => match runTx env s tx with
    | .ok s' => runAll env s' txs
    | .error _ => runAll env s txs

/-- **C79** Between transactions no account is ever in a health region. -/
theorem C79_none_left {ω : Type} {env : Env ω} (txs : List (List (Ix ω))) (ht : ∀ tx ∈ txs, ∀ ix ∈ tx, ix.tame) {s : State ω} (hn : NoRegion s) : NoRegion (runAll env s txs) := by
  induction txs generalizing s with
  | nil => exact hn
  | cons tx txs ih =>
    have ht' : ∀ tx ∈ txs, ∀ ix ∈ tx, ix.tame := fun t h => ht t (List.mem_cons_of_mem _ h)
    unfold runAll
    cases h : runTx env s tx with
    | error e => exact ih ht' hn
    | ok s' => exact ih ht' (C79_blocks (ht tx (by simp)) hn h).stop

/-- the account's init health can be computed and is not negative -/
def Healthy {ω : Type} (env : Env ω) (a : Nat) (s : State ω) : Prop := ∃ h, env.init s.world a = .ok h ∧ 0 ≤ h

/-- in a region or not -/
def InRegion {ω : Type} (a : Nat) (s : State ω) : Prop := ∃ x, s.acct a = some x ∧ x.inRegion = true

/-- mango's instructions do not take a healthy account outside a region below zero (C36, C61, C68: their own checks); inside a region nothing is assumed -/
def Respects {ω : Type} (env : Env ω) (a : Nat) : Ix ω → Prop
  | .mango (.ix _ f) => ∀ s s', f s = .ok s' → ¬ InRegion a s → Healthy env a s → Healthy env a s'
  | .mango _ => True
  | .foreign acts => ∀ x ∈ acts, match x with
    | .cpi (.ix _ f) => ∀ s s', f s = .ok s' → ¬ InRegion a s → Healthy env a s → Healthy env a s'
    | .cpi _ => True
    | .touch g => ∀ w h, env.init w a = .ok h → 0 ≤ h → ∃ h', env.init (g w) a = .ok h' ∧ 0 ≤ h'

theorem acts_healthy {ω : Type} {env : Env ω} {rest : List (Ix ω)} {a : Nat} : ∀ {acts : List (Act ω)} {s s' : State ω},
    (∀ a ∈ acts, match a with | .cpi c => c.tame | .touch _ => True) → Respects env a (.foreign acts) → NoRegion s → Healthy env a s → runActs env rest acts s = .ok s' → Healthy env a s' := by
  intro acts
  induction acts with
  | nil => intro s s' _ _ _ hh h; injection h with h; subst h; exact hh
  | cons act acts ih =>
    intro s s' ht hr hn hh h
    have ht' := fun a ha => ht a (List.mem_cons_of_mem _ ha)
    have hr' : Respects env a (.foreign acts) := fun x hx => hr x (List.mem_cons_of_mem _ hx)
    have hta := ht act (by simp)
    have hra := hr act (by simp)
    cases act with
    | touch g =>
      obtain ⟨h0, hh1, hh2⟩ := hh
      exact ih (s := { s with world := g s.world }) ht' hr' hn (hra _ h0 hh1 hh2) h
    | cpi c =>
      simp only [runActs, bind_ok] at h
      obtain ⟨s1, h1, h2⟩ := h
      cases c with
      | regionBegin a => obtain ⟨_, _, _, _, _, h, _⟩ := begin_ok h1; cases h
      | regionEnd a =>
        obtain ⟨x, _, hx, hr, _⟩ := end_ok h1
        rw [hn a x hx] at hr; cases hr
      | ix d f =>
        have hn1 : NoRegion s1 := by
          intro k x' hk
          rcases hta.fields s s1 h1 k x' hk with ⟨x, hx, he, _⟩ | ⟨_, h⟩
          · rw [he]; exact hn k x hx
          · exact h
        exact ih ht' hr' hn1 (hra s s1 h1 (fun ⟨x, hx, hi⟩ => by rw [hn a x hx] at hi; cases hi) hh) h2

/-- inside another account's region -/
theorem mid_healthy {ω : Type} {env : Env ω} {a b : Nat} {n : Int} (hab : a ≠ b) {s s2 : State ω} {mid : List (Ix ω)} {ss : List (State ω)} (t : Trace env s mid ss s2)
    (hmid : ∀ ix ∈ mid, ∃ d f, ix = .mango (.ix d f) ∧ d ∈ allowedInner) (hr : ∀ ix ∈ mid, Respects env a ix) (hin : ∀ x ∈ ss, Inside b n x) (hh : Healthy env a s) : Healthy env a s2 := by
  induction t with
  | nil => exact hh
  | cons h1 t ih =>
    rename_i s s1 s' ix rest ss
    obtain ⟨d, f, rfl, _⟩ := hmid ix (by simp)
    refine ih (fun ix h => hmid ix (List.mem_cons_of_mem _ h)) (fun ix h => hr ix (List.mem_cons_of_mem _ h)) (fun x h => hin x (List.mem_cons_of_mem _ h)) ?_
    refine (show ∀ s s', f s = .ok s' → ¬ InRegion a s → Healthy env a s → Healthy env a s' from hr (.mango (.ix d f)) (by simp)) s s1 h1 ?_ hh
    rintro ⟨x, hx, hi⟩
    exact hab ((hin s (by simp)).only a x hx hi)

/-- **C79** An account that is healthy before a transaction is healthy after it, whatever happens to its health inside its regions. -/
theorem C79_healthy {ω : Type} {env : Env ω} {tx : List (Ix ω)} {s s' : State ω} {a : Nat} (ht : ∀ ix ∈ tx, ix.tame) (hr : ∀ ix ∈ tx, Respects env a ix) (hn : NoRegion s)
    (hh : Healthy env a s) (h : runTx env s tx = .ok s') : Healthy env a s' := by
  have hB := C79_blocks ht hn h
  clear h
  induction hB with
  | done _ _ => exact hh
  | plain h0 hb he h1 t ih =>
    rename_i s s1 s' ix rest
    refine ih (fun ix h => ht ix (List.mem_cons_of_mem _ h)) (fun ix h => hr ix (List.mem_cons_of_mem _ h)) t.start ?_
    have hno : ¬ InRegion a s := fun ⟨x, hx, hi⟩ => by rw [h0 a x hx] at hi; cases hi
    cases ix with
    | foreign acts => exact acts_healthy (ht (.foreign acts) (by simp)) (hr (.foreign acts) (by simp)) h0 hh h1
    | mango c =>
      cases c with
      | ix d f => exact (show ∀ s s', f s = .ok s' → ¬ InRegion a s → Healthy env a s → Healthy env a s' from hr (.mango (.ix d f)) (by simp)) s s1 h1 hno hh
      | regionBegin b => exact absurd rfl (hb b)
      | regionEnd b => exact absurd rfl (he b)
  | region h0 hbegin hmid hrun hin hend hw hpre hpost hg hb t ih =>
    rename_i s s1 s2 s3 s' b n mid after ss pre post
    refine ih (fun ix h => ht ix (by simp [h])) (fun ix h => hr ix (by simp [h])) t.start ?_
    by_cases hab : a = b
    · subst hab
      refine ⟨post, hpost, ?_⟩
      obtain ⟨h', hh1, hh2⟩ := hh
      rw [hpre] at hh1; injection hh1 with hh1; subst hh1
      rcases hg with hg | ⟨g1, g2, g3⟩
      · exact hg
      · by_cases hp : ofInt (-1000) ≤ post
        · have := g3 hp; omega
        · exfalso
          have hS : S = 281474976710656 := rfl
          have : ofInt (-1000) = -1000 * S := rfl
          omega
    · have h1 : Healthy env a s1 := by unfold Healthy; rw [hw.1]; exact hh
      have h2 := mid_healthy hab hrun hmid (fun ix h => hr ix (by simp [h])) hin h1
      unfold Healthy at h2 ⊢
      rw [hw.2]; exact h2

/-- **C79** A begin that is called by another program, or has no end for the same account after only allowed instructions, fails, and so does one for an account in a region. -/
theorem C79_begin_fails {ω : Type} {env : Env ω} {s : State ω} {top : Bool} {rest : List (Ix ω)} {a : Nat}
    (h : top = false ∨ (¬ ∃ mid after, rest = mid ++ Ix.mango (.regionEnd a) :: after ∧ ∀ ix ∈ mid, ∃ d f, ix = .mango (.ix d f) ∧ d ∈ allowedInner) ∨ InRegion a s) :
    ∀ s', begin_ env s top rest a ≠ .ok s' := by
  intro s' hs
  obtain ⟨x, pre, l, n, hx, ht, hsc, hr, _⟩ := begin_ok hs
  rcases h with h | h | ⟨y, hy, hi⟩
  · rw [h] at ht; cases ht
  · exact h (scan_ok hsc)
  · rw [hx] at hy; injection hy with hy; subst hy; rw [hr] at hi; cases hi

/-- the allowed instructions are those named: placing and cancelling orders, and settling spot funds -/
theorem allowed_iff {d : Disc} : d ∈ allowedInner ↔ ∀ n, d ≠ .other n := by
  constructor
  · intro h n e
    subst e
    simp [allowedInner] at h
  · intro h
    cases d with
    | other n => exact absurd rfl (h n)
    | _ => simp [allowedInner]

theorem scan_of {ω : Type} {a : Nat} {mid after : List (Ix ω)} (h : ∀ ix ∈ mid, ∃ d f, ix = .mango (.ix d f) ∧ d ∈ allowedInner) : scan a (mid ++ Ix.mango (.regionEnd a) :: after) = .ok () := by
  induction mid with
  | nil => simp [scan, require]
  | cons ix mid ih =>
    obtain ⟨d, f, rfl, hd⟩ := h ix (by simp)
    simp only [List.cons_append, scan, bind_ok, require_ok]
    exact ⟨(), hd, ih (fun x hx => h x (by simp [hx]))⟩

/-- **C79** When a region can begin: the gate is open and the account operational, it exists and is in no region, mango is called directly, the transaction goes on with instructions that place or
cancel perp or spot orders or settle spot funds and then the end for the same account, and the account passes the check that starts every such instruction. -/
theorem C79_begin_iff {ω : Type} {env : Env ω} {s : State ω} {top : Bool} {rest : List (Ix ω)} {a : Nat} :
    (∃ s', begin_ env s top rest a = .ok s') ↔
      env.enabled s.world a = true ∧ env.operational s.world a = true ∧ top = true ∧
      (∃ mid after, rest = mid ++ Ix.mango (.regionEnd a) :: after ∧ ∀ ix ∈ mid, ∃ d f, ix = .mango (.ix d f) ∧ ∀ n, d ≠ .other n) ∧
      ∃ x pre l n, s.acct a = some x ∧ x.inRegion = false ∧ env.init s.world a = .ok pre ∧ (Liq.mk x.being).regionBegin pre (env.liqEnd s.world a) = .ok (l, n) := by
  constructor
  · rintro ⟨s', h⟩
    obtain ⟨x, pre, l, n, h1, h2, h3, h4, h5, h6, h7, h8, _⟩ := begin_ok h
    obtain ⟨mid, after, e, hm⟩ := scan_ok h3
    refine ⟨h8, h7, h2, ⟨mid, after, e, ?_⟩, x, pre, l, n, h1, h4, h5, h6⟩
    intro ix hx
    obtain ⟨d, f, e, hd⟩ := hm ix hx
    exact ⟨d, f, e, allowed_iff.mp hd⟩
  · rintro ⟨h1, h2, h3, ⟨mid, after, rfl, hm⟩, x, pre, l, n, h4, h5, h6, h7⟩
    refine ⟨s.setAcct a { inRegion := true, beginHealth := n, being := l.being }, ?_⟩
    unfold begin_
    rw [h4]
    simp only [bind_ok, require_ok]
    refine ⟨(), h1, (), h2, (), h3, (), scan_of ?_, (), h5, pre, h6, (l, n), h7, rfl⟩
    intro ix hx
    obtain ⟨d, f, e, hd⟩ := hm ix hx
    exact ⟨d, f, e, allowed_iff.mpr hd⟩

/-! ## Examples

One account whose health is the world; an order inside a region takes it to -5, a second one to 3. -/

def rxEnv : Env Int := ⟨fun _ _ => true, fun _ _ => true, fun w _ => .ok (w * S), fun w _ => .ok (w * S)⟩
def rxOrder (h : Int) : Ix Int := .mango (.ix .perpPlaceOrder (fun s => .ok { s with world := h }))
def rxState : State Int := ⟨fun k => if k = 7 then some ⟨false, 0, false⟩ else none, 10⟩
def rxTx (h : Int) : List (Ix Int) := [.mango (.regionBegin 7), rxOrder (-5), rxOrder h, .mango (.regionEnd 7)]
def rxEnd (r : Res (State Int)) : Option (Int × Option Acct) := match r with
  | .ok s => some (s.world, s.acct 7)
  | .error _ => none

example : rxEnd (runTx rxEnv rxState (rxTx 3)) = some (3, some ⟨false, 0, false⟩) := by decide +kernel
/-- ending at -1 fails, and so do: no end, an end for another account, an instruction that is not allowed, another program in between, a begin inside a region, a begin called by another program -/
example : rxEnd (runTx rxEnv rxState (rxTx (-1))) = none ∧ rxEnd (runTx rxEnv rxState ((rxTx 3).take 3)) = none ∧
    rxEnd (runTx rxEnv rxState ((rxTx 3).take 3 ++ [.mango (.regionEnd 8)])) = none ∧
    rxEnd (runTx rxEnv rxState [.mango (.regionBegin 7), .mango (.ix (.other 3) (fun s => .ok s)), .mango (.regionEnd 7)]) = none ∧
    rxEnd (runTx rxEnv rxState [.mango (.regionBegin 7), .foreign [], .mango (.regionEnd 7)]) = none ∧
    rxEnd (runTx rxEnv rxState [.mango (.regionBegin 7), .mango (.regionBegin 7), .mango (.regionEnd 7), .mango (.regionEnd 7)]) = none ∧
    rxEnd (runTx rxEnv rxState [.foreign [.cpi (.regionBegin 7)], .mango (.regionEnd 7)]) = none := by
  refine ⟨?_, ?_, ?_, ?_, ?_, ?_, ?_⟩ <;> decide +kernel

theorem rx_tame (h : Int) : (rxOrder h).tame where
  fields := by
    intro s s' hs k x' hk
    injection hs with hs; subst hs
    exact Or.inl ⟨x', hk, rfl, rfl⟩
  keeps := by
    intro _ s s' hs k x hk
    injection hs with hs; subst hs
    exact ⟨x, hk, fun _ => rfl⟩

/-- the hypotheses of `C79_blocks` are met -/
example : NoRegion rxState ∧ ∀ ix ∈ rxTx 3, ix.tame := by
  constructor
  · intro k x hk
    unfold rxState at hk
    by_cases h : k = 7
    · simp [h] at hk; rw [← hk]
    · simp [h] at hk
  · intro ix hix
    simp only [rxTx, List.mem_cons, List.not_mem_nil, or_false] at hix
    rcases hix with rfl | rfl | rfl | rfl
    · trivial
    · exact rx_tame _
    · exact rx_tame _
    · trivial

end Region
end Mango
