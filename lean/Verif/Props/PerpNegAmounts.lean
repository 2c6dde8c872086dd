import Verif.Liq.PerpNegative
import Verif.Props.Settlement
import Verif.Props.PerpLiqHealth
/-!
# C73: liquidation of negative perp pnl and perp bankruptcy, part 1: the amounts
-/
namespace Mango
namespace Liquidation
open Fx Health Bank
open Settlement (pnl unsettled_pnl limit_bound)

/-- the amounts of `R` for a liqee whose pnl is `P`; `emax`: what health lets it settle; `hmax`: pnl that brings health to zero; `pf`: settle token price with fee; `ip`: insurance token price -/
structure NegAmounts (P emax : Int) (hmax : Res I80F48) (mt vault pf ip : Int) (R : Perp.Bankrupt) : Prop where
  negative : P < 0
  /-- settled: what the request, health, and the settle limit allow -/
  settled : ∃ avail, avail ≤ -P ∧ R.settlement = min (max (min emax avail) 0) (mt * S) ∧
    /- insurance and socialization only if all of that has been settled and pnl is still negative; then at most what brings health to zero, and with the insurance fund exhausted all of that -/
    (R.insurance ≠ 0 ∨ R.insuranceLiab ≠ 0 ∨ R.socialized ≠ 0 → R.settlement = max (min emax avail) 0 ∧ ∃ g, hmax = .ok g ∧ R.insuranceLiab + R.socialized ≤ max g 0) ∧
    (R.settlement = max (min emax avail) 0 → R.settlement < -P → R.insurance = vault → ∃ g, hmax = .ok g ∧ R.insuranceLiab + R.socialized = max (min (-P - R.settlement) g) 0)
  liab0 : 0 ≤ R.insuranceLiab
  soc0 : 0 ≤ R.socialized
  /-- the liqor takes over no more than it asked for -/
  request : R.settlement + R.insuranceLiab ≤ mt * S
  /-- nothing beyond the negative pnl -/
  total : R.settlement + R.insuranceLiab + R.socialized ≤ -P
  /-- the insurance tokens are worth at most the pnl taken over plus the fee, up to one token; and at least that -/
  fair : R.insurance > 0 → (R.insurance - 1) * ip * S < (R.insuranceLiab + 1) * pf ∧ R.insuranceLiab * pf ≤ R.insurance * ip * S

theorem ceil_toU64 {y c u : Int} (h1 : Fx.ceil y = .ok c) (h2 : Perp.toU64 c = .ok u) : (u - 1) * S < y ∧ y ≤ u * S ∧ 0 ≤ u := by
  have hS := S_pos
  rw [ceil_ok] at h1
  unfold Perp.toU64 at h2
  rw [cku64_ok] at h2
  obtain ⟨rfl, _⟩ := h1
  have hu : u = -((-y) / S) := by rw [h2.1]; unfold Fx.toInt; rw [Int.mul_ediv_cancel _ (by omega)]
  obtain ⟨a, b⟩ := ceil_lt hu
  exact ⟨a, b, by omega⟩

theorem paid_pnl {m : Perp.Market} {p p' : Perp.Pos} {x : Int} (h : Perp.Paid m p x p') {price u : I80F48} (hu : p'.unsettledPnl m price = .ok u) : u = pnl m p price + x := by
  simp only [Perp.Pos.unsettledPnl, Perp.Pos.baseNative, bind_ok, ck64_ok, ok_inj, mul_ok, add_ok] at hu
  obtain ⟨_, ⟨_, ⟨rfl, _⟩, rfl⟩, _, ⟨rfl, _⟩, rfl, _⟩ := hu
  unfold pnl
  rw [h.quote, h.size.1]
  unfold Fx.ofInt
  have : p.base * m.baseLotSize * S * price / S = p.base * m.baseLotSize * price := by
    rw [show p.base * m.baseLotSize * S * price = (p.base * m.baseLotSize * price) * S by ring]
    exact Int.mul_ediv_cancel _ (by have := S_pos; omega)
  rw [this]
  omega

/-- insurance tokens `n = min u vault` for pnl `L`, where `u` is rounded up, and the pnl `min w L` they pay for -/
theorem insurance_fair {L pf ip x y c u w vault : Int} (hL : 0 ≤ L) (hpf : 0 < pf) (hip : 0 < ip) (hv : 0 ≤ vault) (hx : x = L * pf / S) (hy : Fx.div x ip = .ok y) (hc : Fx.ceil y = .ok c)
    (hu : Perp.toU64 c = .ok u) (hw : Fx.div (min u vault * ip) pf = .ok w) :
    0 ≤ min w L ∧ (min u vault = 0 → min w L = 0) ∧ (min u vault - 1) * ip * S < (min w L + 1) * pf ∧ min w L * pf ≤ min u vault * ip * S := by
  have hS := S_pos
  obtain ⟨c1, c2, c3⟩ := ceil_toU64 hc hu
  rw [div_ok] at hy hw
  obtain ⟨_, rfl, _⟩ := hy
  obtain ⟨_, rfl, _⟩ := hw
  have x0 : 0 ≤ x := by rw [hx]; exact floor_nonneg (Int.mul_nonneg hL hpf.le)
  have fx := mulFloor_bounds (L * pf)
  rw [← hx] at fx
  have b1 := tdiv_bounds (a := x * S) (b := ip) (Int.mul_nonneg x0 hS.le) hip
  generalize hn : min u vault = n at *
  have hn0 : 0 ≤ n ∧ n ≤ u := by omega
  have b2 := tdiv_bounds (a := n * ip * S) (b := pf) (Int.mul_nonneg (Int.mul_nonneg hn0.1 hip.le) hS.le) hpf
  generalize Int.tdiv (x * S) ip = y at *
  generalize Int.tdiv (n * ip * S) pf = w at *
  refine ⟨by omega, ?_, ?_, ?_⟩
  · intro hz
    rw [hz, Int.zero_mul, Int.zero_mul] at b2
    have : w = 0 := by
      by_contra hne
      have := Int.mul_pos (show 0 < w by omega) hpf
      omega
    omega
  · by_cases hlt : w ≤ L
    · have k : (n - 1) * ip * S = n * ip * S - ip * S := by ring
      rw [Int.min_eq_left hlt, Int.add_mul, k, Int.one_mul]
      have := Int.mul_pos hip hS
      omega
    · rw [Int.min_eq_right (by omega), Int.add_mul]
      have k1 : (n - 1) * S ≤ (u - 1) * S := Int.mul_le_mul_of_nonneg_right (by omega) hS.le
      have k2 : (n - 1) * S * ip < y * ip := Int.mul_lt_mul_of_pos_right (by omega) hip
      have k3 : (n - 1) * ip * S = (n - 1) * S * ip := by ring
      omega
  · have := Int.mul_le_mul_of_nonneg_right (Int.min_le_left w L) hpf.le
    omega

theorem bankruptcy_amounts {lim : I80F48 → Int} {m : Perp.Market} {e r : Perp.Pos} {oracle price iprice ff emax : I80F48} {hmax : Res I80F48} {now mt vault : Int} {R : Perp.Bankrupt} (hv : 0 ≤ vault)
    (hmt : 0 ≤ mt) (hpf : 0 < price * ff / S) (hip : 0 < iprice) (h : Perp.bankruptcy lim m e r oracle price iprice ff now emax hmax mt vault = .ok R) :
    NegAmounts (pnl m e oracle) emax hmax mt vault (price * ff / S) iprice R := by
  have hS := S_pos
  unfold Perp.bankruptcy at h
  simp only [bind_ok, require_ok, neg_ok, sub_ok, Prod.exists] at h
  obtain ⟨e0, h1, r0, h2, pn, h3, _, h4, e1, h5, s, h6, ns, ⟨rfl, _⟩, nset, ⟨rfl, _⟩, e2, r2, pnl2, h7, left, ⟨rfl, _⟩, h⟩ := h
  have hP := unsettled_pnl (Perp.settleFunding_paid h1) h3
  have hlb := (limit_bound h6).2 h4
  generalize hM : ofInt mt = M at *
  have hM : M = mt * S := hM.symm
  have hmt0 : 0 ≤ mt * S := Int.mul_nonneg hmt hS.le
  generalize hms : max (min emax (-s)) 0 = ms at *
  have hms0 : 0 ≤ ms ∧ ms ≤ -pn := by omega
  generalize hset : max (min ms M) 0 = st at *
  have hst : st = min ms (mt * S) := by omega
  have p1 := (Perp.settleFunding_paid h1).window h5
  have q : Perp.Paid m e st e2 ∧ pnl2 = pn + st := by
    split at h7
    · simp only [bind_ok, ok_inj, Prod.mk.injEq, add_ok] at h7
      obtain ⟨r3, h8, e3, h9, _, ⟨rfl, _⟩, rfl, rfl, rfl⟩ := h7
      have a1 := p1.settle h9
      rw [Int.zero_sub, Int.neg_neg] at a1
      exact ⟨a1, rfl⟩
    · simp only [ok_inj, Prod.mk.injEq] at h7
      obtain ⟨rfl, _, rfl⟩ := h7
      have : st = 0 := by omega
      rw [this]; exact ⟨p1, by omega⟩
  obtain ⟨q1, q2⟩ := q
  by_cases hc : st = ms ∧ pnl2 < 0
  · rw [if_pos hc] at h
    simp only [bind_ok, neg_ok, sub_ok, mul_ok, Prod.exists] at h
    obtain ⟨pnl3, h8, np, ⟨rfl, _⟩, hm, h9, pr, ⟨hpr, _⟩, x, ⟨hx, _⟩, y, hy, c, hcl, u, hu, z, ⟨hz, _⟩, w, hw, nl, ⟨rfl, _⟩, e4, r4, h10, rem, ⟨rfl, _⟩, h⟩ := h
    have e3 : pnl3 = pn + st := by
      rw [hP]; exact paid_pnl q1 h8
    subst e3
    generalize hfl : max (min (-(pn + st)) hm) 0 = fl at *
    generalize htl : max (min fl (M - st)) 0 = tl at *
    have hz' : z = min u vault * iprice := by
      rw [hz]; unfold Fx.ofInt
      rw [show min u vault * S * iprice = min u vault * iprice * S by ring]
      exact Int.mul_ediv_cancel _ (by omega)
    rw [← hpr] at hpf ⊢
    obtain ⟨f1, f2, f3, f4⟩ := insurance_fair (L := tl) (by omega) hpf hip hv hx hy hcl hu (by rw [← hz']; exact hw)
    have hu0 := (ceil_toU64 hcl hu).2.2
    generalize hin : min u vault = ins at *
    generalize hlbb : min w tl = lb at *
    have hl' : (if ins > 0 then lb else 0) = lb := by
      by_cases hp : ins > 0
      · rw [if_pos hp]
      · rw [if_neg hp]; exact (f2 (by omega)).symm
    rw [hl'] at h
    subst hP
    by_cases hd : ins = vault ∧ fl - lb > 0
    · rw [if_pos hd] at h
      simp only [bind_ok, neg_ok, ok_inj, Prod.exists] at h
      obtain ⟨nr, _, sx, m', h11, e6, h12, rfl⟩ := h
      refine ⟨by (try dsimp only at *); omega, ⟨-s, by (try dsimp only at *); omega, by (try dsimp only at *); omega, fun _ => ⟨by (try dsimp only at *); omega, hm, h9, by (try dsimp only at *); omega⟩, fun _ _ _ => ⟨hm, h9, by (try dsimp only at *); omega⟩⟩, by (try dsimp only at *); omega, by (try dsimp only at *); omega, by (try dsimp only at *); omega, by (try dsimp only at *); omega, fun _ => ⟨f3, f4⟩⟩
    · rw [if_neg hd, ok_inj] at h
      subst h
      refine ⟨by (try dsimp only at *); omega, ⟨-s, by (try dsimp only at *); omega, by (try dsimp only at *); omega, fun _ => ⟨by (try dsimp only at *); omega, hm, h9, by (try dsimp only at *); omega⟩, fun _ _ _ => ⟨hm, h9, by (try dsimp only at *); omega⟩⟩, by (try dsimp only at *); omega, by (try dsimp only at *); omega, by (try dsimp only at *); omega, by (try dsimp only at *); omega, fun _ => ⟨f3, f4⟩⟩
  · rw [if_neg hc, ok_inj] at h
    subst h
    subst hP
    refine ⟨by (try dsimp only at *); omega, ⟨-s, by (try dsimp only at *); omega, by (try dsimp only at *); omega, fun h => by simp at h, fun _ _ _ => by (try dsimp only at *); omega⟩, by (try dsimp only at *); omega, by (try dsimp only at *); omega, by (try dsimp only at *); omega, by (try dsimp only at *); omega, fun h => by (try dsimp only at *); omega⟩

end Liquidation
end Mango
