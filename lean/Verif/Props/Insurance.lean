import Verif.Liq.Insurance
import Verif.Props.Bankruptcy
import Verif.Props.PerpNeg
/-!
# What happens to the insurance fund (C83)
-/
namespace Mango
namespace Insurance
open Fx Liquidation

/-- tokens in an account; 0 if there is none -/
def bal (s : State) (a : Addr) : Int := match s.acct a with
  | some x => x.amount
  | none => 0
/-- tokens in the insurance fund -/
def fund (s : State) : Int := bal s s.vault
/-- addresses of insurance vaults -/
def VaultAddr (a : Addr) : Prop := isUserOrBank a = false

structure Inv (s : State) : Prop where
  amounts : ∀ a x, s.acct a = some x → 0 ≤ x.amount ∧ x.amount ≤ U64MAX
  vault : s.closed = false → VaultAddr s.vault ∧ (∃ x, s.acct s.vault = some x ∧ x.mint = s.mint) ∧ ∀ a, VaultAddr a → a ≠ s.vault → s.acct a = none
  gone : s.closed = true → ∀ a, VaultAddr a → s.acct a = none
  fits : ∀ m x, s.acct (.ofMint m) = some x → x.mint = m

theorem zero_le_u64 : (0 : Int) ≤ U64MAX := by decide

theorem transfer_ok {s s' : State} {f t : Addr} {n : Int} (h : transfer s f t n = .ok s') :
    ∃ x y, s.acct f = some x ∧ s.acct t = some y ∧ x.mint = y.mint ∧ n ≤ x.amount ∧
      ((f = t ∧ s' = s) ∨ (f ≠ t ∧ y.amount + n ≤ U64MAX ∧ 0 ≤ y.amount + n ∧ s' = (s.put f (some { x with amount := x.amount - n })).put t (some { y with amount := y.amount + n }))) := by
  unfold transfer at h
  cases hx : s.acct f with
  | none => simp [hx] at h
  | some x =>
    cases hy : s.acct t with
    | none => simp [hx, hy] at h
    | some y =>
      simp only [hx, hy, bind_ok, require_ok] at h
      obtain ⟨_, h1, _, h2, h⟩ := h
      refine ⟨x, y, rfl, rfl, h1, h2, ?_⟩
      by_cases he : f = t
      · rw [if_pos he, ok_inj] at h
        exact .inl ⟨he, h.symm⟩
      · rw [if_neg he] at h
        simp only [bind_ok, cku64_ok, ok_inj] at h
        obtain ⟨z, ⟨rfl, h3, h4⟩, rfl⟩ := h
        exact .inr ⟨he, h4, h3, rfl⟩

theorem put_acct (s : State) (a y : Addr) (x : Option Acct) : (s.put a x).acct y = if y = a then x else s.acct y := rfl

/-- a transfer moves exactly the amount; mints stay -/
theorem transfer_bal {s s' : State} {f t : Addr} {n : Int} (h : transfer s f t n = .ok s') :
    (∀ a, bal s' a = bal s a - (if a = f then n else 0) + (if a = t then n else 0)) ∧ (∀ a, (s'.acct a).map Acct.mint = (s.acct a).map Acct.mint) ∧
      s'.vault = s.vault ∧ s'.closed = s.closed ∧ s'.mint = s.mint ∧ s'.admin = s.admin ∧ s'.testing = s.testing ∧
      (s.acct f).map Acct.mint = (s.acct t).map Acct.mint ∧ n ≤ bal s f := by
  obtain ⟨x, y, h1, h2, h3, h4, h⟩ := transfer_ok h
  have hb : n ≤ bal s f := by unfold bal; rw [h1]; exact h4
  have hm : (s.acct f).map Acct.mint = (s.acct t).map Acct.mint := by rw [h1, h2]; simp [h3]
  rcases h with ⟨rfl, rfl⟩ | ⟨hne, _, _, rfl⟩
  · refine ⟨fun a => by split <;> omega, fun a => rfl, rfl, rfl, rfl, rfl, rfl, rfl, hb⟩
  · refine ⟨?_, ?_, rfl, rfl, rfl, rfl, rfl, hm, hb⟩
    · intro a
      unfold bal
      rw [put_acct, put_acct]
      by_cases ha : a = t
      · subst ha
        rw [if_pos rfl, if_neg (fun e => hne e.symm), if_pos rfl, h2]
        dsimp only; omega
      · rw [if_neg ha, if_neg ha]
        by_cases hf : a = f
        · subst hf; rw [if_pos rfl, if_pos rfl, h1]; dsimp only; omega
        · rw [if_neg hf, if_neg hf]; omega
    · intro a
      rw [put_acct, put_acct]
      by_cases ha : a = t
      · subst ha; rw [if_pos rfl, h2]; rfl
      · rw [if_neg ha]
        by_cases hf : a = f
        · subst hf; rw [if_pos rfl, h1]; rfl
        · rw [if_neg hf]

theorem inv_transfer {s s' : State} {f t : Addr} {n : Int} (I : Inv s) (hn : 0 ≤ n) (h : transfer s f t n = .ok s') : Inv s' := by
  obtain ⟨x, y, h1, h2, h3, h4, hc⟩ := transfer_ok h
  rcases hc with ⟨rfl, rfl⟩ | ⟨hne, hu, h0, rfl⟩
  · exact I
  · have hx := I.amounts f x h1
    have key : ∀ a z, ((s.put f (some { x with amount := x.amount - n })).put t (some { y with amount := y.amount + n })).acct a = some z →
        ∃ z', s.acct a = some z' ∧ z'.mint = z.mint ∧ 0 ≤ z.amount ∧ z.amount ≤ U64MAX := by
      intro a z hz
      rw [put_acct, put_acct] at hz
      by_cases ha : a = t
      · subst ha; rw [if_pos rfl] at hz; cases hz; exact ⟨y, h2, rfl, h0, hu⟩
      · rw [if_neg ha] at hz
        by_cases hf : a = f
        · subst hf; rw [if_pos rfl] at hz; cases hz; exact ⟨x, h1, rfl, by dsimp only; omega, by dsimp only; omega⟩
        · rw [if_neg hf] at hz; exact ⟨z, hz, rfl, I.amounts a z hz⟩
    have keyn : ∀ a, s.acct a = none → ((s.put f (some { x with amount := x.amount - n })).put t (some { y with amount := y.amount + n })).acct a = none := by
      intro a ha
      rw [put_acct, put_acct, if_neg (by rintro rfl; rw [h2] at ha; cases ha), if_neg (by rintro rfl; rw [h1] at ha; cases ha)]; exact ha
    refine ⟨fun a z hz => ?_, fun hc => ?_, fun hc a ha => keyn a (I.gone hc a ha), fun m z hz => ?_⟩
    · obtain ⟨_, _, _, h⟩ := key a z hz; exact h
    · obtain ⟨v1, ⟨w, v2, v3⟩, v4⟩ := I.vault hc
      refine ⟨v1, ?_, fun a ha hv => keyn a (v4 a ha hv)⟩
      have := (transfer_bal h).2.1 s.vault
      rw [v2] at this
      cases hz : ((s.put f (some { x with amount := x.amount - n })).put t (some { y with amount := y.amount + n })).acct s.vault with
      | none => rw [hz] at this; cases this
      | some z => rw [hz] at this; exact ⟨z, hz, by change z.mint = s.mint; simpa [v3] using this⟩
    · obtain ⟨z', h5, h6, _⟩ := key _ z hz
      rw [← h6]; exact I.fits m z' h5

theorem closeAcct_ok {s s' : State} {a : Addr} (h : closeAcct s a = .ok s') : ∃ x, s.acct a = some x ∧ x.amount = 0 ∧ s' = s.put a none := by
  unfold closeAcct at h
  cases hx : s.acct a with
  | none => simp [hx] at h
  | some x =>
    simp only [hx, bind_ok, require_ok, ok_inj] at h
    obtain ⟨_, h1, rfl⟩ := h
    exact ⟨x, rfl, h1, rfl⟩

theorem checkVault_ok {s : State} {v : Addr} {x : Acct} (h : checkVault s v = .ok x) : s.closed = false ∧ v = s.vault ∧ s.acct s.vault = some x := by
  simp only [checkVault, bind_ok, require_ok] at h
  obtain ⟨_, h1, _, rfl, h⟩ := h
  cases hx : s.acct s.vault with
  | none => simp [hx] at h
  | some y => simp only [hx, ok_inj] at h; exact ⟨h1, rfl, by rw [h]⟩

theorem token_pays {env : BkrEnv} {s s' : Bkr} {l : I80F48} {r : Report} (hv : 0 ≤ s.insuranceVault) (h : tokenLiqBankruptcy env s l = .ok (s', r)) :
    0 ≤ r.insuranceTransfer ∧ r.insuranceTransfer ≤ (if s.eligible = true then s.insuranceVault else 0) ∧ s'.insuranceVault = s.insuranceVault - r.insuranceTransfer := by
  simp only [tokenLiqBankruptcy, bind_ok, ok_inj, Prod.mk.injEq] at h
  obtain ⟨_, _, _, _, b, hb, ⟨n0, loss⟩, _, ⟨ratio, transfer, liab⟩, ha, ⟨b1, s1, loss1⟩, hp, ⟨bk, lq, sc⟩, _, _, _, _, _, _, _, _, _, _, _, _, _, rfl, rfl⟩ := h
  have ham := insuranceAmounts_ok ha
  have h0 := ham.nonneg hv
  refine ⟨h0, ham.fund, ?_⟩
  dsimp only
  dsimp only at hp
  unfold payInsurance at hp
  by_cases hz : transfer > 0
  · rw [if_pos hz] at hp
    simp only [bind_ok] at hp
    obtain ⟨⟨_, _, _⟩, _, _, _, _, _, _, _, hp⟩ := hp
    cases hi : s.insurance with
    | none => simp only [hi, bind_ok, ok_inj, Prod.mk.injEq] at hp; obtain ⟨_, _, _, rfl, _⟩ := hp; rfl
    | some q =>
      obtain ⟨ib, ip⟩ := q
      simp only [hi, bind_ok, ok_inj, Prod.mk.injEq] at hp
      obtain ⟨⟨_, _, _⟩, _, ⟨_, _, _⟩, _, _, _, _, rfl, _⟩ := hp
      rfl
  · rw [if_neg hz, ok_inj] at hp
    simp only [Prod.mk.injEq] at hp
    obtain ⟨_, rfl, _⟩ := hp
    have : transfer = 0 := by omega
    omega

theorem inv_step {s s' : State} {op : Op} (I : Inv s) (h : step s op = .ok s') : Inv s' := by
  cases op with
  | withdraw g v d n =>
    simp only [step, withdraw, bind_ok, require_ok] at h
    obtain ⟨x, hx, _, _, h⟩ := h
    have := I.amounts _ _ (checkVault_ok hx).2.2
    exact inv_transfer I (by omega) h
  | change g v d m =>
    simp only [step, change, bind_ok, require_ok, ok_inj] at h
    obtain ⟨x, hx, _, _, _, hd, _, hm, s1, h1, s2, h2, rfl⟩ := h
    obtain ⟨hc, rfl, hv⟩ := checkVault_ok hx
    obtain ⟨v1, _, v4⟩ := I.vault hc
    have hne : s.vault ≠ .ofMint m := by intro e; rw [e, hm] at hv; cases hv
    obtain ⟨z, _, _, rfl⟩ := closeAcct_ok h2
    obtain ⟨x', y, k1, k2, k3, k4, hcs⟩ := transfer_ok h1
    rw [put_acct, if_neg hne, hv] at k1
    cases k1
    have hdne : d ≠ .ofMint m := by rintro rfl; rw [hm] at hd; cases hd
    rw [put_acct, if_neg hdne] at k2
    have keyo : ∀ a, a ≠ s.vault → a ≠ .ofMint m → ∀ w, s1.acct a = some w → ∃ w', s.acct a = some w' ∧ w.mint = w'.mint ∧ 0 ≤ w.amount ∧ w.amount ≤ U64MAX := by
      intro a h3 h4 w hw
      rcases hcs with ⟨_, rfl⟩ | ⟨_, hu, h0, rfl⟩
      · rw [put_acct, if_neg h4] at hw; exact ⟨w, hw, rfl, I.amounts a w hw⟩
      · rw [put_acct, put_acct, if_neg h3, put_acct, if_neg h4] at hw
        by_cases hd' : a = d
        · subst hd'; rw [if_pos rfl] at hw; cases hw; exact ⟨y, k2, rfl, h0, hu⟩
        · rw [if_neg hd'] at hw; exact ⟨w, hw, rfl, I.amounts a w hw⟩
    have keym : s1.acct (.ofMint m) = some ⟨m, 0⟩ := by
      rcases hcs with ⟨_, rfl⟩ | ⟨_, _, _, rfl⟩
      · rw [put_acct, if_pos rfl]
      · rw [put_acct, put_acct, if_neg hdne.symm, if_neg hne.symm, put_acct, if_pos rfl]
    have e : ∀ a, (s1.put s.vault none).acct a = if a = s.vault then none else s1.acct a := fun a => rfl
    refine ⟨?_, ?_, ?_, ?_⟩
    · intro a w hw
      change (s1.put s.vault none).acct a = some w at hw
      rw [e] at hw
      split at hw
      · cases hw
      · rename_i h3
        by_cases h4 : a = .ofMint m
        · subst h4; rw [keym] at hw; cases hw; exact ⟨Int.le_refl _, zero_le_u64⟩
        · obtain ⟨_, _, _, h⟩ := keyo a h3 h4 w hw; exact h
    · intro _
      refine ⟨rfl, ⟨⟨m, 0⟩, ?_, rfl⟩, ?_⟩
      · change (s1.put s.vault none).acct (.ofMint m) = _
        rw [e, if_neg hne.symm, keym]
      · intro a ha h4
        change (s1.put s.vault none).acct a = none
        change a ≠ .ofMint m at h4
        rw [e]
        split
        · rfl
        · rename_i h3
          cases hw : s1.acct a with
          | none => rfl
          | some w => obtain ⟨w', h5, _⟩ := keyo a h3 h4 w hw; rw [v4 a ha h3] at h5; cases h5
    · intro h3
      have hcl : s1.closed = false := by
        rw [← hc]; exact (transfer_bal h1).2.2.2.1
      change s1.closed = true at h3
      rw [hcl] at h3; cases h3
    · intro m' w hw
      change (s1.put s.vault none).acct _ = some w at hw
      rw [e] at hw
      split at hw
      · cases hw
      · rename_i h3
        by_cases h4 : (Addr.ofMint m') = .ofMint m
        · cases h4; rw [keym] at hw; cases hw; rfl
        · obtain ⟨w', h5, h6, _⟩ := keyo _ h3 h4 w hw; rw [h6]; exact I.fits m' w' h5
  | close g v =>
    simp only [step, close, bind_ok, require_ok, ok_inj] at h
    obtain ⟨x, hx, _, _, _, _, s1, h1, rfl⟩ := h
    obtain ⟨hc, rfl, hv⟩ := checkVault_ok hx
    obtain ⟨v1, _, v4⟩ := I.vault hc
    obtain ⟨z, _, _, rfl⟩ := closeAcct_ok h1
    have e : ∀ a, (s.put s.vault none).acct a = if a = s.vault then none else s.acct a := fun a => rfl
    refine ⟨?_, (by intro h; cases h), ?_, ?_⟩
    · intro a w hw
      change (s.put s.vault none).acct a = some w at hw
      rw [e] at hw
      split at hw
      · cases hw
      · exact I.amounts a w hw
    · intro _ a ha
      change (s.put s.vault none).acct a = none
      rw [e]
      split
      · rfl
      · rename_i h3; exact v4 a ha h3
    · intro m w hw
      change (s.put s.vault none).acct _ = some w at hw
      rw [e] at hw
      split at hw
      · cases hw
      · exact I.fits m w hw
  | token env b l v n =>
    simp only [step, tokenBankruptcy, bind_ok, require_ok, ok_inj] at h
    obtain ⟨⟨s1, b', r⟩, ⟨x, hx, _, _, _, hb, ⟨b1, r1⟩, hl, s2, ht, he⟩, rfl⟩ := h
    simp only [Prod.mk.injEq] at he
    obtain ⟨rfl, rfl, rfl⟩ := he
    dsimp only at ht
    split at ht
    · exact inv_transfer I (by omega) ht
    · rw [ok_inj] at ht; subst ht; exact I
  | perp env b l v n =>
    simp only [step, perpNegative, bind_ok, require_ok, ok_inj] at h
    obtain ⟨⟨s1, b', r⟩, ⟨x, hx, _, hb, ⟨b1, r1⟩, hl, s2, ht, he⟩, rfl⟩ := h
    simp only [Prod.mk.injEq] at he
    obtain ⟨rfl, rfl, rfl⟩ := he
    dsimp only at ht
    cases r1 with
    | none => simp only [ok_inj] at ht; subst ht; exact I
    | some r =>
      dsimp only at ht
      split at ht
      · exact inv_transfer I (by omega) ht
      · rw [ok_inj] at ht; subst ht; exact I
  | move f t n =>
    simp only [step, bind_ok, require_ok] at h
    obtain ⟨_, _, h⟩ := h
    exact inv_transfer I (by omega) h
  | open_ a m =>
    simp only [step, bind_ok, require_ok, ok_inj] at h
    obtain ⟨_, ha, _, hn, rfl⟩ := h
    have hva : ∀ x, VaultAddr x → x ≠ a := by rintro x hx rfl; unfold VaultAddr at hx; rw [ha] at hx; cases hx
    refine ⟨?_, ?_, ?_, ?_⟩
    · intro x w hw
      rw [put_acct] at hw
      split at hw
      · cases hw; exact ⟨Int.le_refl _, zero_le_u64⟩
      · exact I.amounts x w hw
    · intro hc
      obtain ⟨v1, ⟨w, v2, v3⟩, v4⟩ := I.vault hc
      refine ⟨v1, ⟨w, ?_, v3⟩, fun x hx hv => ?_⟩
      · change (s.put a _).acct s.vault = _
        rw [put_acct, if_neg (hva _ v1)]; exact v2
      · rw [put_acct, if_neg (hva _ hx)]; exact v4 x hx hv
    · intro hc x hx
      rw [put_acct, if_neg (hva _ hx)]; exact I.gone hc x hx
    · intro k w hw
      rw [put_acct, if_neg (hva (.ofMint k) rfl)] at hw; exact I.fits k w hw
  | edit a t =>
    simp only [step, ok_inj] at h
    subst h
    exact ⟨I.amounts, I.vault, I.gone, I.fits⟩

theorem Reachable.inv {s : State} (h : Reachable s) : Inv s := by
  induction h with
  | @new creator testing mint users hu =>
    refine ⟨?_, ?_, ?_, ?_⟩
    · intro a x hx
      cases a with
      | first => simp [State.new] at hx; subst hx; exact ⟨Int.le_refl _, zero_le_u64⟩
      | user k => exact hu k x hx
      | ofMint m => simp [State.new] at hx
      | bank n => simp [State.new] at hx
    · intro _
      refine ⟨rfl, ⟨_, rfl, rfl⟩, ?_⟩
      intro a ha hne
      cases a with
      | first => exact absurd rfl hne
      | user k => cases ha
      | ofMint m => rfl
      | bank n => cases ha
    · intro h; cases h
    · intro m x hx; simp [State.new] at hx
  | step _ h ih => exact inv_step ih h

/-- **C83, one vault** At any time the group has exactly one insurance vault, the one it names, holding tokens of the insurance mint; the balance is never negative. After the group is closed there is
none. -/
theorem C83_vault {s : State} (hs : Reachable s) :
    (s.closed = false → (∃ x, s.acct s.vault = some x ∧ x.mint = s.mint ∧ x.amount = fund s) ∧ ∀ a, VaultAddr a → a ≠ s.vault → s.acct a = none) ∧
    (s.closed = true → ∀ a, VaultAddr a → s.acct a = none) ∧ 0 ≤ fund s ∧ fund s ≤ U64MAX := by
  have I := hs.inv
  refine ⟨fun hc => ?_, I.gone, ?_⟩
  · obtain ⟨_, ⟨x, h1, h2⟩, h3⟩ := I.vault hc
    exact ⟨⟨x, h1, h2, by unfold fund bal; rw [h1]⟩, h3⟩
  · unfold fund bal
    cases h : s.acct s.vault with
    | none => exact ⟨Int.le_refl _, by decide⟩
    | some x => exact I.amounts _ x h

/-- **C83, withdrawing** Only the admin withdraws: the amount asked for or all there is, exactly to the destination. -/
theorem C83_withdraw {s s' : State} {g : Nat} {v d : Addr} {n : Nat} (h : step s (.withdraw g v d n) = .ok s') :
    g = s.admin ∧ s'.vault = s.vault ∧ s'.mint = s.mint ∧ (d = s.vault → fund s' = fund s) ∧
    (d ≠ s.vault → fund s' = fund s - min (n : Int) (fund s) ∧ bal s' d = bal s d + min (n : Int) (fund s)) ∧ (∀ a, a ≠ d → a ≠ s.vault → bal s' a = bal s a) := by
  simp only [step, withdraw, bind_ok, require_ok] at h
  obtain ⟨x, hx, _, hg, h⟩ := h
  obtain ⟨_, rfl, hv⟩ := checkVault_ok hx
  obtain ⟨h1, _, h2, _, h3, _⟩ := transfer_bal h
  have hf : x.amount = fund s := by unfold fund bal; rw [hv]
  rw [hf] at h1
  refine ⟨hg, h2, h3, ?_, ?_, ?_⟩
  · rintro rfl
    unfold fund at *
    rw [h2, h1, if_pos rfl]; omega
  · intro hne
    refine ⟨?_, ?_⟩
    · unfold fund at *
      rw [h2, h1, if_pos rfl, if_neg (fun e => hne e.symm)]; omega
    · rw [h1, if_neg hne, if_pos rfl]; omega
  · intro a h4 h5
    rw [h1, if_neg h5, if_neg h4]; omega

/-- **C83, another fund** Only the admin replaces the fund: all its tokens go to the destination, the old vault is gone, and the new vault, for the new mint, is empty. -/
theorem C83_change {s s' : State} {g : Nat} {v d : Addr} {m : Nat} (h : step s (.change g v d m) = .ok s') :
    g = s.admin ∧ s'.vault = .ofMint m ∧ s'.mint = m ∧ fund s' = 0 ∧ s'.acct s.vault = none ∧ (fund s ≠ 0 → d ≠ s.vault) ∧ (d ≠ s.vault → bal s' d = bal s d + fund s) ∧
      (∀ a, a ≠ d → a ≠ s.vault → a ≠ .ofMint m → bal s' a = bal s a) := by
  simp only [step, change, bind_ok, require_ok, ok_inj] at h
  obtain ⟨x, hx, _, hg, _, hd, _, hm, s1, h1, s2, h2, rfl⟩ := h
  obtain ⟨hc, rfl, hv⟩ := checkVault_ok hx
  have hne : s.vault ≠ .ofMint m := by intro e; rw [e, hm] at hv; cases hv
  have hdne : d ≠ .ofMint m := by rintro rfl; rw [hm] at hd; cases hd
  obtain ⟨z, hz, hz0, rfl⟩ := closeAcct_ok h2
  obtain ⟨k1, _⟩ := transfer_bal h1
  have hf : x.amount = fund s := by unfold fund bal; rw [hv]
  have hb : ∀ a, bal (s1.put s.vault none) a = if a = s.vault then 0 else bal s1 a := by
    intro a; unfold bal; rw [put_acct]; by_cases h : a = s.vault <;> simp [h]
  have hp : ∀ a, a ≠ .ofMint m → bal (s.put (.ofMint m) (some ⟨m, 0⟩)) a = bal s a := by
    intro a ha; unfold bal; rw [put_acct, if_neg ha]
  have hpm : bal (s.put (.ofMint m) (some ⟨m, 0⟩)) (.ofMint m) = 0 := by unfold bal; rw [put_acct, if_pos rfl]
  rw [hf] at k1
  refine ⟨hg, rfl, rfl, ?_, ?_, ?_, ?_, ?_⟩
  · change bal (s1.put s.vault none) (.ofMint m) = 0
    rw [hb, if_neg hne.symm, k1, hpm, if_neg hne.symm, if_neg hdne.symm]; omega
  · change (s1.put s.vault none).acct s.vault = none
    rw [put_acct, if_pos rfl]
  · rintro hf0 rfl
    have e := k1 s.vault
    rw [if_pos rfl, hp _ hne] at e
    have : bal s1 s.vault = 0 := by unfold bal; rw [hz]; exact hz0
    have : bal s s.vault = fund s := rfl
    omega
  · intro hn
    change bal (s1.put s.vault none) d = _
    rw [hb, if_neg hn, k1, hp _ hdne, if_neg hn, if_pos rfl]; omega
  · intro a a1 a2 a3
    change bal (s1.put s.vault none) a = _
    rw [hb, if_neg a2, k1, hp _ a3, if_neg a2, if_neg a1]; omega

/-- **C83, closing the group** Only the admin of a testing group, and only with an empty fund. -/
theorem C83_close {s s' : State} {g : Nat} {v : Addr} (h : step s (.close g v) = .ok s') : g = s.admin ∧ s.testing = true ∧ fund s = 0 ∧ s'.closed = true := by
  simp only [step, close, bind_ok, require_ok, ok_inj] at h
  obtain ⟨x, hx, _, hg, _, ht, s1, h1, rfl⟩ := h
  obtain ⟨_, rfl, hv⟩ := checkVault_ok hx
  obtain ⟨z, hz, h0, rfl⟩ := closeAcct_ok h1
  exact ⟨hg, ht, by unfold fund bal; rw [hz]; exact h0, rfl⟩

/-- **C83, token bankruptcy** The fund pays what the bankruptcy says (C12), at most what it has and nothing for tokens it does not cover, into the vault of a bank of the insurance mint. -/
theorem C83_token {s s' : State} (hs : Reachable s) {env : BkrEnv} {b : Bkr} {l : I80F48} {v : Addr} {n : Nat} (h : step s (.token env b l v n) = .ok s') :
    ∃ b' r, tokenLiqBankruptcy env b l = .ok (b', r) ∧ b.insuranceVault = fund s ∧ 0 ≤ r.insuranceTransfer ∧ r.insuranceTransfer ≤ fund s ∧ (b.eligible = false → r.insuranceTransfer = 0) ∧
      s'.vault = s.vault ∧ s'.mint = s.mint ∧ fund s' = fund s - r.insuranceTransfer ∧ b'.insuranceVault = fund s' ∧
      (0 < r.insuranceTransfer → (s.acct (.bank n)).map Acct.mint = some s.mint) ∧ bal s' (.bank n) = bal s (.bank n) + r.insuranceTransfer ∧
      (∀ a, a ≠ s.vault → a ≠ .bank n → bal s' a = bal s a) := by
  have I := hs.inv
  simp only [step, tokenBankruptcy, bind_ok, require_ok, ok_inj] at h
  obtain ⟨⟨s1, b', r⟩, ⟨x, hx, _, hxm, _, hb, ⟨b1, r1⟩, hl, s2, ht, he⟩, rfl⟩ := h
  simp only [Prod.mk.injEq] at he
  obtain ⟨rfl, rfl, rfl⟩ := he
  obtain ⟨hc, rfl, hv⟩ := checkVault_ok hx
  have hf : x.amount = fund s := by unfold fund bal; rw [hv]
  have hf0 := I.amounts _ _ hv
  obtain ⟨p1, p2, p3⟩ := token_pays (by omega) hl
  have hne : s.vault ≠ .bank n := by intro e; have := (I.vault hc).1; rw [e] at this; cases this
  dsimp only
  refine ⟨b1, r1, hl, by omega, p1, ?_, ?_, ?_⟩
  · split at p2 <;> omega
  · intro he; rw [he] at p2; simp at p2; omega
  · dsimp only at ht
    split at ht
    · obtain ⟨h1, _, h2, _, h3, _, _, h4, _⟩ := transfer_bal ht
      have hfs : fund s2 = fund s - r1.insuranceTransfer := by
        unfold fund
        rw [h2, h1, if_pos rfl, if_neg hne]; omega
      refine ⟨h2, h3, hfs, by omega, fun _ => ?_, ?_, ?_⟩
      · rw [← h4, hv]; simp [hxm]
      · rw [h1, if_neg hne.symm, if_pos rfl]; omega
      · intro a a1 a2; rw [h1, if_neg a1, if_neg a2]; omega
    · rename_i hz
      rw [ok_inj] at ht; subst ht
      refine ⟨rfl, rfl, by omega, by omega, fun h => by omega, by omega, fun a _ _ => rfl⟩

/-- **C83, perp bankruptcy** The same for liquidations of negative perp pnl (C73). -/
theorem C83_perp {s s' : State} (hs : Reachable s) {env : NegEnv} {b : NegLiq} {l : Int} {v : Addr} {n : Nat} (h : step s (.perp env b l v n) = .ok s') :
    ∃ b' r, perpLiqNegative env b l = .ok (b', r) ∧ b.vault = fund s ∧ s'.vault = s.vault ∧ s'.mint = s.mint ∧
      (r = none → s' = s) ∧
      ∀ r', r = some r' → 0 ≤ r'.insurance ∧ r'.insurance ≤ fund s ∧ (b.eligible = false → r'.insurance = 0) ∧ fund s' = fund s - r'.insurance ∧ b'.vault = fund s' ∧
        (0 < r'.insurance → (s.acct (.bank n)).map Acct.mint = some s.mint) ∧ bal s' (.bank n) = bal s (.bank n) + r'.insurance ∧
        (∀ a, a ≠ s.vault → a ≠ .bank n → bal s' a = bal s a) := by
  have I := hs.inv
  simp only [step, perpNegative, bind_ok, require_ok, ok_inj] at h
  obtain ⟨⟨s1, b', r⟩, ⟨x, hx, _, hb, ⟨b1, r1⟩, hl, s2, ht, he⟩, rfl⟩ := h
  simp only [Prod.mk.injEq] at he
  obtain ⟨rfl, rfl, rfl⟩ := he
  obtain ⟨hc, rfl, hv⟩ := checkVault_ok hx
  have hf : x.amount = fund s := by unfold fund bal; rw [hv]
  have hf0 := I.amounts _ _ hv
  obtain ⟨hv1, ⟨w, hv2, hv3⟩, _⟩ := I.vault hc
  have hxm : x.mint = s.mint := by rw [hv] at hv2; cases hv2; exact hv3
  have hne : s.vault ≠ .bank n := by intro e; rw [e] at hv1; cases hv1
  dsimp only
  refine ⟨b1, r1, hl, by omega, ?_⟩
  cases r1 with
  | none =>
    simp only [ok_inj] at ht; subst ht
    exact ⟨rfl, rfl, fun _ => rfl, fun r' h => by cases h⟩
  | some r1 =>
    obtain ⟨_, _, _, _, _, p3, p1, p2, _⟩ := C73_moves (by omega) hl
    unfold fundOf at p2
    dsimp only at ht
    have hle : r1.insurance ≤ fund s := by split at p2 <;> omega
    have hel : b.eligible = false → r1.insurance = 0 := by intro he; rw [he] at p2; simp at p2; omega
    split at ht
    · obtain ⟨h1, _, h2, _, h3, _, _, h4, _⟩ := transfer_bal ht
      have hfs : fund s2 = fund s - r1.insurance := by
        unfold fund
        rw [h2, h1, if_pos rfl, if_neg hne]; omega
      refine ⟨h2, h3, (by intro h; cases h), ?_⟩
      rintro r' h; cases h
      refine ⟨p1, hle, hel, hfs, by omega, fun _ => ?_, ?_, ?_⟩
      · rw [← h4, hv]; simp [hxm]
      · rw [h1, if_neg hne.symm, if_pos rfl]; omega
      · intro a a1 a2; rw [h1, if_neg a1, if_neg a2]; omega
    · rename_i hz
      rw [ok_inj] at ht; subst ht
      refine ⟨rfl, rfl, fun _ => rfl, ?_⟩
      rintro r' h; cases h
      exact ⟨p1, hle, hel, by omega, by omega, fun h => by omega, by omega, fun a _ _ => rfl⟩

/-- instructions on the fund itself, which need the admin (`C83_withdraw`, `C83_change`, `C83_close`) -/
def Op.ofAdmin : Op → Bool
  | .withdraw .. => true
  | .change .. => true
  | .close .. => true
  | _ => false
/-- what the bankruptcy in an instruction takes from the fund -/
def Op.pays : Op → Int
  | .token env b l _ _ => match tokenLiqBankruptcy env b l with
    | .ok (_, r) => r.insuranceTransfer
    | .error _ => 0
  | .perp env b l _ _ => match perpLiqNegative env b l with
    | .ok (_, some r) => r.insurance
    | _ => 0
  | _ => 0
/-- tokens somebody sends to account `v` -/
def Op.sent (v : Addr) : Op → Int
  | .move _ t n => if t = v then n else 0
  | _ => 0

def run (s : State) : List Op → Res State
  | [] => .ok s
  | op :: ops => do
    let s ← step s op
    run s ops

theorem step_fund {s s' : State} (hs : Reachable s) (hc : s.closed = false) {op : Op} (ha : op.ofAdmin = false) (h : step s op = .ok s') :
    s'.closed = false ∧ s'.vault = s.vault ∧ s'.mint = s.mint ∧ fund s' = fund s + op.sent s.vault - op.pays ∧ 0 ≤ op.pays := by
  have I := hs.inv
  cases op with
  | withdraw => cases ha
  | change => cases ha
  | close => cases ha
  | token env b l v n =>
    obtain ⟨b', r, h1, h2, h3, h4, h5, h6, h7, h8, _⟩ := C83_token hs h
    have hcl : s'.closed = s.closed := by
      simp only [step, tokenBankruptcy, bind_ok, require_ok, ok_inj] at h
      obtain ⟨⟨s1, _, _⟩, ⟨_, _, _, _, _, _, ⟨_, r1⟩, _, s2, ht, he⟩, rfl⟩ := h
      simp only [Prod.mk.injEq] at he
      obtain ⟨rfl, _⟩ := he
      dsimp only at ht
      split at ht
      · exact (transfer_bal ht).2.2.2.1
      · rw [ok_inj] at ht; rw [ht]
    refine ⟨by rw [hcl, hc], h6, h7, ?_, ?_⟩
    · simp only [Op.sent, Op.pays, h1]; omega
    · simp only [Op.pays, h1]; omega
  | perp env b l v n =>
    obtain ⟨b', r, h1, h2, h3, h4, h5, h6⟩ := C83_perp hs h
    have hcl : s'.closed = s.closed := by
      simp only [step, perpNegative, bind_ok, require_ok, ok_inj] at h
      obtain ⟨⟨s1, _, _⟩, ⟨_, _, _, _, ⟨_, r1⟩, _, s2, ht, he⟩, rfl⟩ := h
      simp only [Prod.mk.injEq] at he
      obtain ⟨rfl, _⟩ := he
      dsimp only at ht
      cases r1 with
      | none => simp only [ok_inj] at ht; rw [ht]
      | some r1 =>
        dsimp only at ht
        split at ht
        · exact (transfer_bal ht).2.2.2.1
        · rw [ok_inj] at ht; rw [ht]
    refine ⟨by rw [hcl, hc], h3, h4, ?_, ?_⟩
    · cases r with
      | none => rw [h5 rfl]; simp only [Op.sent, Op.pays, h1]; omega
      | some r => obtain ⟨_, _, _, e, _⟩ := h6 r rfl; simp only [Op.sent, Op.pays, h1]; omega
    · cases r with
      | none => simp only [Op.pays, h1]; omega
      | some r => obtain ⟨e, _⟩ := h6 r rfl; simp only [Op.pays, h1]; omega
  | move f t n =>
    simp only [step, bind_ok, require_ok] at h
    obtain ⟨_, hf, h⟩ := h
    obtain ⟨h1, _, h2, h3, h4, _⟩ := transfer_bal h
    have hne : s.vault ≠ f := by intro e; have := (I.vault hc).1; rw [e] at this; unfold VaultAddr at this; rw [hf] at this; cases this
    refine ⟨by rw [h3, hc], h2, h4, ?_, Int.le_refl _⟩
    unfold fund
    rw [h2, h1, if_neg hne]
    simp only [Op.sent, Op.pays]
    by_cases e : t = s.vault
    · rw [if_pos e, if_pos e.symm]; omega
    · rw [if_neg e, if_neg (fun h => e h.symm)]; omega
  | open_ a m =>
    simp only [step, bind_ok, require_ok, ok_inj] at h
    obtain ⟨_, ha, _, hn, rfl⟩ := h
    have hne : s.vault ≠ a := by intro e; have := (I.vault hc).1; rw [e] at this; unfold VaultAddr at this; rw [ha] at this; cases this
    refine ⟨hc, rfl, rfl, ?_, Int.le_refl _⟩
    unfold fund bal
    change (match (s.put a _).acct s.vault with | some x => x.amount | none => 0) = _
    rw [put_acct, if_neg hne]
    simp only [Op.sent, Op.pays]; omega
  | edit a t =>
    simp only [step, ok_inj] at h
    subst h
    refine ⟨hc, rfl, rfl, ?_, Int.le_refl _⟩
    change fund s = _
    simp only [Op.sent, Op.pays]; omega

/-- **C83, ledger** Over any history in which the admin does not touch the fund: it is still the same vault, and holds exactly what it held, plus what was sent to it, minus what bankruptcies took.
In particular it falls only by bankruptcies. -/
theorem C83_ledger {s s' : State} (hs : Reachable s) (hc : s.closed = false) {ops : List Op} (ha : ∀ op ∈ ops, op.ofAdmin = false) (h : run s ops = .ok s') :
    s'.vault = s.vault ∧ s'.mint = s.mint ∧ fund s' = fund s + sumOf (Op.sent s.vault) ops - sumOf Op.pays ops ∧ 0 ≤ sumOf Op.pays ops := by
  induction ops generalizing s with
  | nil => simp only [run, ok_inj] at h; subst h; exact ⟨rfl, rfl, by simp [sumOf], by simp [sumOf]⟩
  | cons op ops ih =>
    simp only [run, bind_ok] at h
    obtain ⟨s1, h1, h⟩ := h
    obtain ⟨a1, a2, a3, a4, a5⟩ := step_fund hs hc (ha op (by simp)) h1
    obtain ⟨b1, b2, b3, b4⟩ := ih (.step hs h1) a1 (fun o ho => ha o (by simp [ho])) h
    rw [a2] at b3 b1
    refine ⟨b1, by rw [b2, a3], ?_, ?_⟩
    · simp only [sumOf_cons]; omega
    · simp only [sumOf_cons]; omega

/-! a case: somebody sends 1000 tokens to the fund of a new group, a bankruptcy takes its share, the admin withdraws the rest -/
def exUsers : Nat → Option Acct := fun k => if k = 0 then some ⟨5, 3000⟩ else none
def exNew : State := State.new 1 false 5 exUsers
def exHist : List Op := [.open_ (.bank 0) 5, .move (.user 0) .first 1000, .token exBkrEnv { exBkr with insuranceVault := 1000 } (100 * S) .first 0]
example : ((run exNew exHist).map (fun s => (fund s, bal s (.bank 0), bal s (.user 0))) = .ok (798, 202, 2000)) ∧
    ((run exNew (exHist ++ [.withdraw 1 .first (.user 0) 5000])).map (fun s => (fund s, bal s (.bank 0), bal s (.user 0))) = .ok (0, 202, 2798)) ∧
    ((run exNew (exHist ++ [.change 1 .first (.user 0) 8])).map (fun s => (fund s, bal s (.bank 0), bal s (.user 0), s.mint)) = .ok (0, 202, 2798, 8)) ∧
    ((run exNew (exHist ++ [.withdraw 2 .first (.user 0) 5000])).map fund = .error .someError) ∧ (∀ op ∈ exHist, op.ofAdmin = false) := by
  refine ⟨?_, ?_, ?_, ?_, ?_⟩
  · decide +kernel
  · decide +kernel
  · decide +kernel
  · decide +kernel
  · intro op h
    simp only [exHist, List.mem_cons, List.not_mem_nil, or_false] at h
    rcases h with rfl | rfl | rfl <;> rfl
example : Reachable exNew := .new (by intro k x h; unfold exUsers at h; split at h <;> simp at h; subst h; exact ⟨by decide, by decide⟩)

end Insurance
end Mango
