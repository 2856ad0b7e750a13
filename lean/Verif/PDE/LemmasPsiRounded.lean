import Verif.PDE.PropsFitRounded
import Verif.PDE.PropsFitInexact
import Verif.PDE.PropsRoundedCells3
set_option linter.unusedSectionVars false
namespace Fdapde.PDE
open Finset FEM LinAlg Fdapde.Fp Fdapde.Quadrature

variable {d N n nNodes : Nat} {cells : Nat → Nat → Nat} {X : Nat → Fin N → ℝ}

/-- First order basis functions are polynomials with coefficients `coef1`. -/
theorem basis_coef (hN : N ∈ [1, 2, 3]) (h : Fin (N + 1)) (x : Nat → ℝ) :
    refBasis ℝ N 1 (N + 1) h x = ∑ m ∈ range (N + 1), coef1 h m * if m = 0 then 1 else x (m - 1) := by
  rw [basis1 hN, sum_range_succ']
  refine Fin.cases ?_ (fun z => ?_) h
  · simp only [lam, Fin.cons_zero, map_sub, map_one, map_sum, MvPolynomial.eval_X, coef1]
    simp [Finset.sum_range]
    ring
  · simp only [lam, Fin.cons_succ, MvPolynomial.eval_X, coef1]
    rw [sum_eq_single z.1 (fun m _ hm => by simp [Ne.symm hm]) fun hn => absurd (mem_range.2 z.2) hn]
    simp

theorem coef1_le (h m : Nat) : |coef1 h m| ≤ 1 := by
  rw [coef1]; split_ifs <;> norm_num

/-- Points of a cell are not farther from its first node than the edges are long. -/
theorem loc_near {hh ρ : ℝ} (hsh : MeshShape n cells X hh ρ) {c : Nat} (hc : c < n) {x : Fin N → ℝ} (hx : x ∈ region (N + 1) cells X c) (z : Fin N) :
    |x z - X (cells c 0) z| ≤ hh := by
  have hconv : Convex ℝ {x : Fin N → ℝ | |x z - X (cells c 0) z| ≤ hh} := by
    have e : {x : Fin N → ℝ | |x z - X (cells c 0) z| ≤ hh} = (LinearMap.proj z : (Fin N → ℝ) →ₗ[ℝ] ℝ) ⁻¹' Metric.closedBall (X (cells c 0) z) hh := by
      ext x; simp [Real.dist_eq]
    rw [e]
    exact (convex_closedBall _ _).linear_preimage _
  refine convexHull_min ?_ hconv hx
  rintro y ⟨v, hv, rfl⟩
  refine le_trans ?_ (hsh.diam c hc v hv 0 (by omega))
  rw [len, ← Real.sqrt_sq_eq_abs]
  exact Real.sqrt_le_sqrt (single_le_sum (f := fun z => (X (cells c v) - X (cells c 0)) z ^ 2) (fun _ _ => sq_nonneg _) (mem_univ z))

/-- Values of the basis at the locations as the program computes them. -/
theorem psi_err {r : Rounding} {S : List ℝ → ℝ} (hN : N ∈ [1, 2, 3]) (hS : r.Summation S) {kb kc : Nat} {Gi hh ρ : ℝ} {cf : Nat → Nat → ℝ}
    {iv : Nat → Nat → Nat → ℝ} (hsh : MeshShape n cells X hh ρ) (hi : ∀ c < n, ∀ w < N, ∀ z < N, r.Err kc Gi (invAt (cellOf N cells X c) w z) (iv c w z))
    (hcf : ∀ h < N + 1, ∀ m < N + 1, |cf h m - coef1 h m| ≤ r.b ^ kb - 1) {ids : List Int} {locs : Nat → Fin N → ℝ} (hL : Located (N + 1) n cells X ids locs) :
    PsiErr r (kb + kc + 4 + 2 * N) (1 + N * (N * (Gi * hh))) (N + 1) ids (psiAt N 1 (N + 1) cells X locs) (psiAtR r S cf iv cells X locs) := by
  intro i c hic h hh'
  obtain ⟨c', hc, e, hx⟩ := (hL.cell i c hic).resolve_left (by omega)
  obtain rfl : c = c' := by exact_mod_cast e
  have hq : ∀ w < N, r.Err (kc + 2 + N) (N * (Gi * hh)) (refPoint (cellOf N cells X c) (locs i) w) (refPointR r S (iv c) (X (cells c 0)) (locs i) w) := by
    intro w hw
    have h1 := (hS ((List.range N).map fun z => r.rnd (iv c w z * if hz : z < N then r.rnd (locs i ⟨z, hz⟩ - X (cells c 0) ⟨z, hz⟩) else 0))).sum_range
      (m := fun _ => Gi * hh) (x := fun z => invAt (cellOf N cells X c) w z * if hz : z < N then locs i ⟨z, hz⟩ - X (cells c 0) ⟨z, hz⟩ else 0)
      (k := kc + 2) fun z hz => by
        simp only [dif_pos hz]
        exact ((hi c hc w hw z hz).mul (err_size (err_exact (locs i ⟨z, hz⟩ - X (cells c 0) ⟨z, hz⟩) 0).rnd (loc_near hsh hc hx ⟨z, hz⟩))).rnd
    have e1 : refPoint (cellOf N cells X c) (locs i) w =
        ∑ z ∈ range N, invAt (cellOf N cells X c) w z * if hz : z < N then locs i ⟨z, hz⟩ - X (cells c 0) ⟨z, hz⟩ else 0 := by
      rw [refPoint, dif_pos hw, Matrix.mulVec, dotProduct, Finset.sum_range]
      refine sum_congr rfl fun z _ => ?_
      rw [invAt, dif_pos ⟨hw, z.2⟩, dif_pos z.2]
      rfl
    rw [e1, refPointR]
    refine err_size h1 (le_of_eq ?_)
    rw [sum_const, card_range, nsmul_eq_mul]
  have hb := one_le_pow₀ r.one_le_b (n := kc + 2 + N)
  have h2 := (hS ((List.range (N + 1)).map fun m => r.rnd (cf h m * if m = 0 then 1 else refPointR r S (iv c) (X (cells c 0)) (locs i) (m - 1)))).sum_range
    (m := fun m => 1 * if m = 0 then 1 else N * (Gi * hh))
    (x := fun m => coef1 h m * if m = 0 then 1 else refPoint (cellOf N cells X c) (locs i) (m - 1)) (k := kb + (kc + 2 + N) + 1) fun m hm => by
      have hc1 : r.Err kb 1 (coef1 h m) (cf h m) := ⟨coef1_le h m, by rw [mul_one]; exact hcf h hh' m hm⟩
      by_cases h0 : m = 0
      · simp only [if_pos h0]
        exact (hc1.mul ((err_size (err_exact (1 : ℝ) (kc + 2 + N)) (by norm_num)))).rnd
      · simp only [if_neg h0]
        exact (hc1.mul (hq (m - 1) (by omega))).rnd
  rw [psiAt, dif_pos hh', basis_coef hN, psiAtR]
  refine (err_size h2 (le_of_eq ?_)).mono (by omega)
  rw [sum_range_succ']
  simp
  ring

end Fdapde.PDE
