import Verif.Health.Model
import Verif.ListSum
/-! Reading the results of the health functions as exact sums. -/
namespace Mango
namespace Health
open Fx

/-- the value of a result (0 when it failed) -/
def val (x : Res Int) : Int :=
  match x with
  | .ok v => v
  | .error _ => 0

theorem val_ok {x : Res Int} {v : Int} (h : x = .ok v) : val x = v := by subst h; rfl

theorem sumM_ok {α : Type} {f : α → Res Int} : ∀ {l : List α} {acc r : Int}, sumM f acc l = .ok r →
    r = acc + sumOf (fun x => val (f x)) l ∧ ∀ x ∈ l, ∃ v, f x = .ok v := by
  intro l
  induction l with
  | nil => intro acc r h; simp [sumM] at h; simp [h]
  | cons a l ih =>
    intro acc r h
    simp only [sumM, bind_ok] at h
    obtain ⟨v, h1, acc', h2, h3⟩ := h
    rw [add_ok] at h2
    obtain ⟨e1, e2⟩ := ih h3
    refine ⟨?_, ?_⟩
    · simp [val_ok h1]; omega
    · intro x hx
      rcases List.mem_cons.mp hx with rfl | hx
      · exact ⟨v, h1⟩
      · exact e2 x hx

theorem at_ok {α : Type} {l : List α} {i : Nat} {x : α} : Serum3Info.at_ l i = .ok x ↔ l[i]? = some x := by
  unfold Serum3Info.at_
  split
  · rename_i y hy; rw [hy]; simp
  · rename_i hy; rw [hy]; simp

theorem at_set {α} [DecidableEq Nat] {l : List α} {i j : Nat} {x y b : α} (hi : l[i]? = some x) :
    (l.set i y)[j]? = some b ↔ (if j = i then b = y else l[j]? = some b) := by
  have hlen : i < l.length := by
    by_contra h
    rw [List.getElem?_eq_none (by omega)] at hi; simp at hi
  rw [List.getElem?_set]
  by_cases h : i = j
  · subst h; simp [hlen]; exact ⟨fun h => h.symm, fun h => h.symm⟩
  · have h' : ¬ j = i := fun e => h e.symm
    simp [h, h']

/-- the hupnl of one perp position that lands on the token at position `i` -/
def perpOn (c : Cache) (h : HT) (ign : Bool) (i : Nat) (p : PerpInfo) : Int :=
  if c.tokenIdx p.settleTokenIndex = some i then (if ign = false ∨ val (p.hupnl h) > 0 then val (p.hupnl h) else 0) else 0

theorem perpBalances_ok {c : Cache} {h : HT} {ign : Bool} : ∀ {ps : List PerpInfo} {bs bs' : List Int},
    c.perpBalances h ign bs ps = .ok bs' →
    bs'.length = bs.length ∧ (∀ (i : Nat) b, bs[i]? = some b → bs'[i]? = some (b + sumOf (perpOn c h ign i) ps)) ∧
    ∀ p ∈ ps, (∃ i, c.tokenIdx p.settleTokenIndex = some i) ∧ ∃ v, p.hupnl h = .ok v := by
  intro ps
  induction ps with
  | nil =>
    intro bs bs' hh
    simp [Cache.perpBalances] at hh
    subst hh; simp
  | cons p ps ih =>
    intro bs bs' hh
    simp only [Cache.perpBalances] at hh
    split at hh
    · simp at hh
    · rename_i i hi
      simp only [bind_ok] at hh
      obtain ⟨b, h1, u, h2, bs1, h3, h4⟩ := hh
      rw [at_ok] at h1
      obtain ⟨e1, e2, e3⟩ := ih h4
      have hall : ∀ q ∈ p :: ps, (∃ i, c.tokenIdx q.settleTokenIndex = some i) ∧ ∃ v, q.hupnl h = .ok v := by
        intro q hq
        rcases List.mem_cons.mp hq with rfl | hq
        · exact ⟨⟨i, hi⟩, u, h2⟩
        · exact e3 q hq
      rw [ite_ok] at h3
      rcases h3 with ⟨hc, h3⟩ | ⟨hc, h3⟩
      · simp only [bind_ok] at h3
        obtain ⟨b', h3, h5⟩ := h3
        rw [add_ok] at h3
        simp at h5
        subst h5
        refine ⟨by simpa using e1, ?_, hall⟩
        intro j bj hj
        by_cases hji : j = i
        · subst hji
          rw [h1] at hj; simp at hj; subst hj
          have := e2 j b' (by rw [at_set h1]; simp)
          rw [this]
          simp [perpOn, hi, val_ok h2, h3]
          rw [if_pos (by simpa using hc)]
          omega
        · have := e2 j bj (by rw [at_set h1]; simp [hji]; exact hj)
          rw [this]
          have hne : ¬ c.tokenIdx p.settleTokenIndex = some j := by
            rw [hi]; intro e; simp at e; exact hji e.symm
          simp [perpOn, hne]
      · simp at h3
        subst h3
        refine ⟨e1, ?_, hall⟩
        intro j bj hj
        rw [e2 j bj hj]
        have : perpOn c h ign j p = 0 := by
          unfold perpOn
          split
          · rw [val_ok h2, if_neg hc]
          · rfl
        simp [this]

theorem spotBalances_ok : ∀ {ts : List TokenInfo} {bs r : List Int}, Cache.spotBalances ts bs = .ok r → ts.length = bs.length →
    r.length = ts.length ∧ ∀ (i : Nat) t b, ts[i]? = some t → bs[i]? = some b → r[i]? = some (b + t.balanceSpot) := by
  intro ts
  induction ts with
  | nil => intro bs r h hl; simp [Cache.spotBalances] at h; subst h; simp
  | cons t ts ih =>
    intro bs r h hl
    cases bs with
    | nil => simp at hl
    | cons b bs =>
      simp only [Cache.spotBalances, bind_ok] at h
      obtain ⟨x, h1, r', h2, h3⟩ := h
      rw [add_ok] at h1
      simp at h3; subst h3
      obtain ⟨e1, e2⟩ := ih h2 (by simpa using hl)
      refine ⟨by simp [e1], ?_⟩
      intro i t' b' ht hb
      cases i with
      | zero => simp at ht hb; subst ht; subst hb; simp [h1]
      | succ i => simp at ht hb; simpa using e2 i t' b' ht hb

/-- the effective balance of the token at position `i` -/
theorem balancesI_ok {c : Cache} {h : HT} {ign : Bool} {bs : List Int} (hh : c.balancesI h ign = .ok bs) :
    bs.length = c.tokens.length ∧
    (∀ (i : Nat) t, c.tokens[i]? = some t → bs[i]? = some (sumOf (perpOn c h ign i) c.perps + t.balanceSpot)) ∧
    ∀ p ∈ c.perps, (∃ i, c.tokenIdx p.settleTokenIndex = some i) ∧ ∃ v, p.hupnl h = .ok v := by
  simp only [Cache.balancesI, bind_ok] at hh
  obtain ⟨b0, h1, h2⟩ := hh
  obtain ⟨l1, v1, e1⟩ := perpBalances_ok h1
  obtain ⟨l2, v2⟩ := spotBalances_ok h2 (by simpa using l1.symm)
  refine ⟨l2, ?_, e1⟩
  intro i t ht
  have hi : i < c.tokens.length := by
    by_contra hc
    rw [List.getElem?_eq_none (by omega)] at ht; simp at ht
  have h0 := v1 i 0 (by simp [List.getElem?_replicate, hi])
  have := v2 i t _ ht h0
  rw [this]; simp

theorem contribution_ok {t : TokenInfo} {h : HT} {b v : Int} (hh : t.contribution h b = .ok v) :
    v = (if b < 0 then b * (t.liabWeight h * t.prices.liab h / S) / S else b * (t.assetWeight h * t.prices.asset h / S) / S) := by
  simp only [TokenInfo.contribution, bind_ok, ite_ok, TokenInfo.liabWeightedPrice, TokenInfo.assetWeightedPrice, mul_ok] at hh
  obtain ⟨wp, h1, h2, _⟩ := hh
  rcases h1 with ⟨hc, h1, _⟩ | ⟨hc, h1, _⟩
  · rw [if_pos hc, h2, h1]
  · rw [if_neg hc, h2, h1]

theorem sumOf_le {α} {f g : α → Int} {l : List α} (h : ∀ x ∈ l, f x ≤ g x) : sumOf f l ≤ sumOf g l := by
  induction l with
  | nil => simp
  | cons a l ih =>
    have := h a (by simp); have := ih (fun x hx => h x (by simp [hx])); simp; omega

/-- two sums over lists zipped with the same list, compared pointwise -/
theorem sumOf_zip_le {α β γ : Type} {f : α × β → Int} {g : α × γ → Int} : ∀ {l : List α} {m : List β} {n : List γ},
    m.length = l.length → n.length = l.length →
    (∀ (i : Nat) a b c, l[i]? = some a → m[i]? = some b → n[i]? = some c → f (a, b) ≤ g (a, c)) →
    sumOf f (l.zip m) ≤ sumOf g (l.zip n) := by
  intro l
  induction l with
  | nil => intros; simp
  | cons a l ih =>
    intro m n hm hn hh
    cases m with
    | nil => simp at hm
    | cons b m =>
      cases n with
      | nil => simp at hn
      | cons c n =>
        have h0 := hh 0 a b c (by simp) (by simp) (by simp)
        have := ih (by simpa using hm) (by simpa using hn)
          (fun i a' b' c' h1 h2 h3 => hh (i+1) a' b' c' (by simpa using h1) (by simpa using h2) (by simpa using h3))
        simp; omega

/-- the two parts of `healthSum` -/
theorem healthSum_ok {fd : FDiv} {c : Cache} {h : HT} {bs : List Int} {r : Int} (hh : c.healthSum fd h bs = .ok r) :
    ∃ mr rs, c.reservations fd h = .ok (mr, rs) ∧
      r = sumOf (fun (x : TokenInfo × Int) => val (x.1.contribution h x.2)) (c.tokens.zip bs) +
          sumOf (fun (x : Serum3Info × Serum3Reserved) => val (x.1.contribution h c.tokens bs mr x.2)) (c.serums.zip rs) ∧
      (∀ x ∈ c.tokens.zip bs, ∃ v, x.1.contribution h x.2 = .ok v) ∧
      (∀ x ∈ c.serums.zip rs, ∃ v, x.1.contribution h c.tokens bs mr x.2 = .ok v) := by
  simp only [Cache.healthSum, bind_ok] at hh
  obtain ⟨acc, h1, ⟨mr, rs⟩, h2, h3⟩ := hh
  obtain ⟨e1, f1⟩ := sumM_ok h1
  obtain ⟨e2, f2⟩ := sumM_ok h3
  dsimp only at e2 f2
  exact ⟨mr, rs, h2, by omega, f1, f2⟩

end Health
end Mango
