import Verif.PDE.PropsSemi
import Verif.PDE.PropsSpaceTime
/- C164, C165: how fits depend on the smoothing parameters and on the data. -/
namespace Fdapde.PDE
open Finset FEM LinAlg
open Splines (vals pform vals_sub pform_sub_left pform_sub_right)

/-- Least squares: what is left of a change, orthogonally or at an obtuse angle, does not exceed it. -/
theorem sum_sq_le_of_inner {n : Nat} {a v : Nat → ℝ} (h : 0 ≤ ∑ j ∈ range n, (a j - v j) * v j) :
    ∑ j ∈ range n, v j ^ 2 ≤ ∑ j ∈ range n, a j ^ 2 := by
  have h1 : ∑ j ∈ range n, a j ^ 2 = ∑ j ∈ range n, v j ^ 2 + ∑ j ∈ range n, (a j - v j) ^ 2 + 2 * ∑ j ∈ range n, (a j - v j) * v j := by
    rw [mul_sum, ← sum_add_distrib, ← sum_add_distrib]
    exact sum_congr rfl fun j _ => by ring
  have h2 : 0 ≤ ∑ j ∈ range n, (a j - v j) ^ 2 := sum_nonneg fun _ _ => sq_nonneg _
  linarith

variable {P : Prob ℝ} {data : Dense ℝ} {ids : List Int} {psi : Nat → Nat → Nat → ℝ} {l : List (Trip ℝ)}

section Semi
variable {q : Nat} {X : Nat → Nat → ℝ} (h : FitData P data ids psi l) (hX : Identified q P.m ids.length (entry l) X) {lu : Solver ℝ}
    (hlu : ExactLU (P.m + P.m) lu) (hlc : CompleteLU (P.m + P.m) lu) {dense : DenseSolver ℝ q} (hE : ExactDense dense) (junk : Nat → ℝ)
include h hX hlu hlc hE

/-- **C164**: a larger smoothing parameter gives a function which is not farther from a solution of the problem, and a fit which is not closer to the
data. -/
theorem C164_monotone_partial (lam lam' : ℝ) (hl : 0 < lam) (hll : lam < lam') (y : Nat → ℝ) :
    ∃ (β β' : Fin q → ℝ) (f g f' g' : Nat → ℝ), semiFit lu dense P data junk ids psi lam X y = .ok (some (β, f, g)) ∧
      semiFit lu dense P data junk ids psi lam' X y = .ok (some (β', f', g')) ∧ P.l2 g' g' ≤ P.l2 g g ∧
      ∑ j ∈ range ids.length, (y j - ∑ a : Fin q, X j a * β a - ∑ p ∈ range P.m, entry l j p * f p) ^ 2 ≤
        ∑ j ∈ range ids.length, (y j - ∑ a : Fin q, X j a * β' a - ∑ p ∈ range P.m, entry l j p * f' p) ^ 2 := by
  obtain ⟨β, f, g, e, hg, _, hmin⟩ := C164_fit_partial h hX hlu hlc hE junk lam hl y
  obtain ⟨β', f', g', e', hg', _, hmin'⟩ := C164_fit_partial h hX hlu hlc hE junk lam' (hl.trans hll) y
  have i1 := (hmin β' f' g' hg').1
  have i2 := (hmin' β f g hg).1
  have hr : P.l2 g' g' ≤ P.l2 g g := by
    have : (lam' - lam) * (P.l2 g' g' - P.l2 g g) ≤ 0 := by linarith
    by_contra hh
    push Not at hh
    have := mul_pos (sub_pos.2 hll) (sub_pos.2 hh)
    linarith
  refine ⟨β, β', f, g, f', g', e, e', hr, ?_⟩
  have := mul_le_mul_of_nonneg_left hr hl.le
  linarith

/-- **C164**: the fitted values, covariates included, do not change more than the data. -/
theorem C164_stable_partial (lam : ℝ) (hl : 0 < lam) (y y' : Nat → ℝ) :
    ∃ (β β' : Fin q → ℝ) (f g f' g' : Nat → ℝ), semiFit lu dense P data junk ids psi lam X y = .ok (some (β, f, g)) ∧
      semiFit lu dense P data junk ids psi lam X y' = .ok (some (β', f', g')) ∧
      ∑ j ∈ range ids.length, ((∑ a : Fin q, X j a * β a + ∑ p ∈ range P.m, entry l j p * f p) -
        (∑ a : Fin q, X j a * β' a + ∑ p ∈ range P.m, entry l j p * f' p)) ^ 2 ≤ ∑ j ∈ range ids.length, (y j - y' j) ^ 2 := by
  obtain ⟨S, M, hS, hM, hF, hfit⟩ := semi_core h hX hlu hlc hE junk
  obtain ⟨β, f, g, e, hg, h0, hv⟩ := hfit lam hl y
  obtain ⟨β', f', g', e', hg', h0', hv'⟩ := hfit lam hl y'
  refine ⟨β, β', f, g, f', g', e, e', ?_⟩
  set w : Nat → ℝ := fun p => f p - f' p with hw
  refine sum_sq_le_of_inner ?_
  have hk := gap_sub hS hM hg' hg fun p => g p - g' p
  have hm := (hF.mass fun p => g p - g' p).1
  have e4 : pform P.m S w (fun p => g p - g' p) = pform P.m S w g - pform P.m S w g' := pform_sub_right _ _ _ _ _
  rw [← hw, e4] at hk
  -- the residual of the change
  set ρ : Nat → ℝ := fun j => (y j - ∑ c : Fin q, X j c * β c - vals P.m (entry l) f j) - (y' j - ∑ c : Fin q, X j c * β' c - vals P.m (entry l) f' j)
    with hρ
  have c1 : ∑ j ∈ range ids.length, ρ j * vals P.m (entry l) w j = lam * pform P.m M (fun p => g p - g' p) fun p => g p - g' p := by
    have : ∑ j ∈ range ids.length, ρ j * vals P.m (entry l) w j = -(lam * pform P.m S w g) - -(lam * pform P.m S w g') := by
      rw [← hv w, ← hv' w, ← sum_sub_distrib]
      exact sum_congr rfl fun j _ => by rw [hρ]; ring
    rw [this]
    linear_combination (-lam) * hk
  have c2 : ∑ j ∈ range ids.length, ρ j * ∑ c : Fin q, X j c * (β c - β' c) = 0 := by
    have : ∑ j ∈ range ids.length, ρ j * ∑ c : Fin q, X j c * (β c - β' c) =
        ∑ c : Fin q, (β c - β' c) * (∑ j ∈ range ids.length, X j c * (y j - ∑ c : Fin q, X j c * β c - vals P.m (entry l) f j) -
          ∑ j ∈ range ids.length, X j c * (y' j - ∑ c : Fin q, X j c * β' c - vals P.m (entry l) f' j)) := by
      simp only [mul_sum, ← sum_sub_distrib]
      rw [sum_comm]
      exact sum_congr rfl fun c _ => sum_congr rfl fun j _ => by rw [hρ]; ring
    rw [this]
    exact sum_eq_zero fun c _ => by rw [h0, h0', sub_self, mul_zero]
  have c3 : ∀ j, (∑ a : Fin q, X j a * β a + ∑ p ∈ range P.m, entry l j p * f p) - (∑ a : Fin q, X j a * β' a + ∑ p ∈ range P.m, entry l j p * f' p) =
      vals P.m (entry l) w j + ∑ c : Fin q, X j c * (β c - β' c) := fun j => by
    rw [hw, vals_sub]
    simp only [vals, mul_sub, sum_sub_distrib]
    ring
  have c4 : ∑ j ∈ range ids.length, (y j - y' j - ((∑ a : Fin q, X j a * β a + ∑ p ∈ range P.m, entry l j p * f p) -
      (∑ a : Fin q, X j a * β' a + ∑ p ∈ range P.m, entry l j p * f' p))) * ((∑ a : Fin q, X j a * β a + ∑ p ∈ range P.m, entry l j p * f p) -
      (∑ a : Fin q, X j a * β' a + ∑ p ∈ range P.m, entry l j p * f' p)) = ∑ j ∈ range ids.length, ρ j * vals P.m (entry l) w j +
        ∑ j ∈ range ids.length, ρ j * ∑ c : Fin q, X j c * (β c - β' c) := by
    rw [← sum_add_distrib]
    refine sum_congr rfl fun j _ => ?_
    rw [← mul_add, ← c3]
    congr 1
    rw [hρ]
    simp only [vals]
    ring
  rw [c4, c1, c2, add_zero]
  exact mul_nonneg hl.le hm

end Semi

section SpaceTime
variable {tol : ℝ} {R : Nat} {knots qn qw times : List ℝ} (ht : TimeData tol R knots qn qw times) (h : FitData P data ids psi l) {lu : Solver ℝ}
    (hlu : ExactLU ((knots.length + R - 1) * P.m + (knots.length + R - 1) * P.m) lu)
    (hlc : CompleteLU ((knots.length + R - 1) * P.m + (knots.length + R - 1) * P.m) lu) (junk : Nat → ℝ)
include ht h hlu hlc

/-- **C165**: how the fit depends on the two smoothing parameters.  Raising the one in time gives a function of smaller second derivative in time,
raising the one in space one closer to a solution of the problem, and raising both by a factor a fit which is not closer to the data. -/
theorem C165_monotone_partial (lamT lamD lamT' lamD' : ℝ) (hT : 0 < lamT) (hD : 0 < lamD) (hT' : 0 < lamT') (hD' : 0 < lamD') (y : Nat → ℝ) :
    ∃ t b b2 f g f' g', TimeBasis tol R knots t b b2 ∧ spaceTimeFit tol R knots qn qw times lu P data junk ids psi lamT lamD y = .ok (some (f, g)) ∧
      spaceTimeFit tol R knots qn qw times lu P data junk ids psi lamT' lamD' y = .ok (some (f', g')) ∧
      (lamT < lamT' → lamD = lamD' → P.penalties qn qw knots b b2 (Splines.size R t) 1 0 f' g' ≤ P.penalties qn qw knots b b2 (Splines.size R t) 1 0 f g) ∧
      (lamT = lamT' → lamD < lamD' → P.penalties qn qw knots b b2 (Splines.size R t) 0 1 f' g' ≤ P.penalties qn qw knots b b2 (Splines.size R t) 0 1 f g) ∧
      ∀ c, 1 < c → lamT' = c * lamT → lamD' = c * lamD →
        P.penalties qn qw knots b b2 (Splines.size R t) lamT lamD f' g' ≤ P.penalties qn qw knots b b2 (Splines.size R t) lamT lamD f g ∧
        stMisfit (Splines.size R t) P.m b times ids.length (entry l) y f ≤ stMisfit (Splines.size R t) P.m b times ids.length (entry l) y f' := by
  obtain ⟨f, g, e, h1, h2⟩ := st_fit ht h hlu hlc junk lamT lamD hT hD y
  obtain ⟨f', g', e', h1', h2'⟩ := st_fit ht h hlu hlc junk lamT' lamD' hT' hD' y
  refine ⟨_, _, _, f, g, f', g', time_basis ht, e, e', ?_⟩
  rw [Splines.size_padded R knots ht.smooth.good.two]
  have i1 := (h2 f' g' h1').1
  have i2 := (h2' f g h1).1
  rw [penalties_eq, penalties_eq] at i1 i2
  simp only [penalties_eq]
  generalize stMisfit (knots.length + R - 1) P.m (Splines.fD tol R knots 0) times ids.length (entry l) y f = E at *
  generalize stMisfit (knots.length + R - 1) P.m (Splines.fD tol R knots 0) times ids.length (entry l) y f' = E' at *
  generalize Splines.quad qn qw knots (fun z => P.l2 (atTime (knots.length + R - 1) P.m (fun a => Splines.fD tol R knots 2 a z) f)
      (atTime (knots.length + R - 1) P.m (fun a => Splines.fD tol R knots 2 a z) f)) = T at *
  generalize Splines.quad qn qw knots (fun z => P.l2 (atTime (knots.length + R - 1) P.m (fun a => Splines.fD tol R knots 2 a z) f')
      (atTime (knots.length + R - 1) P.m (fun a => Splines.fD tol R knots 2 a z) f')) = T' at *
  generalize Splines.quad qn qw knots (fun z => P.l2 (atTime (knots.length + R - 1) P.m (fun a => Splines.fD tol R knots 0 a z) g)
      (atTime (knots.length + R - 1) P.m (fun a => Splines.fD tol R knots 0 a z) g)) = D at *
  generalize Splines.quad qn qw knots (fun z => P.l2 (atTime (knots.length + R - 1) P.m (fun a => Splines.fD tol R knots 0 a z) g')
      (atTime (knots.length + R - 1) P.m (fun a => Splines.fD tol R knots 0 a z) g')) = D' at *
  refine ⟨fun hlt he => ?_, fun he hlt => ?_, fun c hc hcT hcD => ?_⟩
  · subst he
    by_contra hh
    push Not at hh
    have := mul_pos (sub_pos.2 hlt) (show 0 < T' - T by linarith)
    linarith
  · subst he
    by_contra hh
    push Not at hh
    have := mul_pos (sub_pos.2 hlt) (show 0 < D' - D by linarith)
    linarith
  · subst hcT hcD
    have hp : lamT * T' + lamD * D' ≤ lamT * T + lamD * D := by
      by_contra hh
      push Not at hh
      have := mul_pos (sub_pos.2 hc) (sub_pos.2 hh)
      linarith
    exact ⟨hp, by linarith⟩

/-- **C165**: the fitted values do not change more than the data. -/
theorem C165_stable_partial (lamT lamD : ℝ) (hT : 0 < lamT) (hD : 0 < lamD) (y y' : Nat → ℝ) :
    ∃ t b b2 f g f' g', TimeBasis tol R knots t b b2 ∧ spaceTimeFit tol R knots qn qw times lu P data junk ids psi lamT lamD y = .ok (some (f, g)) ∧
      spaceTimeFit tol R knots qn qw times lu P data junk ids psi lamT lamD y' = .ok (some (f', g')) ∧
      ∑ j ∈ range times.length, ∑ i ∈ range ids.length,
        (∑ q ∈ range P.m, entry l i q * atTime (Splines.size R t) P.m (fun a => b a (times.getD j 0)) f q -
          ∑ q ∈ range P.m, entry l i q * atTime (Splines.size R t) P.m (fun a => b a (times.getD j 0)) f' q) ^ 2 ≤
      ∑ j ∈ range times.length, ∑ i ∈ range ids.length, (y (ids.length * j + i) - y' (ids.length * j + i)) ^ 2 := by
  obtain ⟨A, S, M, T, hA, hg1, hg2, hM, hTT, hfit⟩ := st_core ht h hlu hlc junk
  obtain ⟨hF, hfit⟩ := hfit lamT lamD hT hD
  obtain ⟨f, g, e, hk, hv⟩ := hfit y
  obtain ⟨f', g', e', hk', hv'⟩ := hfit y'
  refine ⟨_, _, _, f, g, f', g', time_basis ht, e, e', ?_⟩
  rw [Splines.size_padded R knots ht.smooth.good.two]
  set w : Nat → ℝ := fun p => f p - f' p with hw
  have e1 : ∑ j ∈ range times.length, ∑ i ∈ range ids.length,
      (∑ q ∈ range P.m, entry l i q * atTime (knots.length + R - 1) P.m (fun a => Splines.fD tol R knots 0 a (times.getD j 0)) f q -
        ∑ q ∈ range P.m, entry l i q * atTime (knots.length + R - 1) P.m (fun a => Splines.fD tol R knots 0 a (times.getD j 0)) f' q) ^ 2 =
      ∑ j ∈ range (times.length * ids.length), vals ((knots.length + R - 1) * P.m) A w j ^ 2 := by
    rw [sum_range_prod]
    refine sum_congr rfl fun j hj => sum_congr rfl fun i hi => ?_
    rw [hw, vals_sub, hA f j (mem_range.1 hj) i (mem_range.1 hi), hA f' j (mem_range.1 hj) i (mem_range.1 hi)]
  have e2 : ∑ j ∈ range times.length, ∑ i ∈ range ids.length, (y (ids.length * j + i) - y' (ids.length * j + i)) ^ 2 =
      ∑ j ∈ range (times.length * ids.length), (y j - y' j) ^ 2 := by rw [sum_range_prod]
  rw [e1, e2]
  refine sum_sq_le_of_inner ?_
  have hkd : pform ((knots.length + R - 1) * P.m) S w (fun p => g p - g' p) +
      pform ((knots.length + R - 1) * P.m) M (fun p => g p - g' p) (fun p => g p - g' p) = 0 := by
    have a1 := hk fun p => g p - g' p
    have a2 := hk' fun p => g p - g' p
    rw [hw, pform_sub_left, pform_sub_left]
    linarith
  have e3 : ∑ j ∈ range (times.length * ids.length), (y j - y' j - vals ((knots.length + R - 1) * P.m) A w j) *
      vals ((knots.length + R - 1) * P.m) A w j = pform ((knots.length + R - 1) * P.m) (fun p q => lamT * T p q) w w +
        lamD * pform ((knots.length + R - 1) * P.m) M (fun p => g p - g' p) (fun p => g p - g' p) := by
    have a1 := hv w
    have a2 := hv' w
    have a3 : ∑ j ∈ range (times.length * ids.length), (y j - y' j - vals ((knots.length + R - 1) * P.m) A w j) *
        vals ((knots.length + R - 1) * P.m) A w j = ∑ j ∈ range (times.length * ids.length), (y j - vals ((knots.length + R - 1) * P.m) A f j) *
          vals ((knots.length + R - 1) * P.m) A w j - ∑ j ∈ range (times.length * ids.length), (y' j - vals ((knots.length + R - 1) * P.m) A f' j) *
          vals ((knots.length + R - 1) * P.m) A w j := by
      rw [← sum_sub_distrib]
      refine sum_congr rfl fun j _ => ?_
      rw [show vals ((knots.length + R - 1) * P.m) A w j = vals ((knots.length + R - 1) * P.m) A f j - vals ((knots.length + R - 1) * P.m) A f' j
        from vals_sub _ _ _ _ _]
      ring
    have a4 : pform ((knots.length + R - 1) * P.m) (fun p q => lamT * T p q) w w =
        pform ((knots.length + R - 1) * P.m) (fun p q => lamT * T p q) f w - pform ((knots.length + R - 1) * P.m) (fun p q => lamT * T p q) f' w :=
      pform_sub_left _ _ _ _ _
    have a5 : pform ((knots.length + R - 1) * P.m) S w (fun p => g p - g' p) =
        pform ((knots.length + R - 1) * P.m) S w g - pform ((knots.length + R - 1) * P.m) S w g' := pform_sub_right _ _ _ _ _
    rw [a3, a1, a2, a4]
    rw [a5] at hkd
    linear_combination (-lamD) * hkd
  rw [e3]
  exact add_nonneg (hF.pen w) (mul_nonneg hD.le (hF.mass fun p => g p - g' p).1)

end SpaceTime

/-! ### The hypotheses are met -/

/-- The rod from 0 to `n`, locations 1/2 and 1/3 in the first cell and one outside of the rod, one covariate equal to the number of the location. -/
example (n : Nat) (hn : 0 < n) (y : Nat → ℝ) : ∃ (lu : Solver ℝ) (dense : DenseSolver ℝ 1) (P : Prob ℝ) (β β' : Fin 1 → ℝ) (f g f' g' : Nat → ℝ),
    problem1 1 (.neg .lap) lineCells n (n + 1) lineX (fun p => p == 0 || p == n) = .ok P ∧
    semiFit lu dense P ⟨n * Quadrature.size P.t, 1, fun r _ => r⟩ (fun _ => 0) [0, -1, 0] (psiAt 1 1 2 lineCells lineX fun i _ => if i = 0 then 1 / 2 else
      if i = 1 then -5 else 1 / 3) 7 (fun i _ => (i : ℝ)) y = .ok (some (β, f, g)) ∧
    semiFit lu dense P ⟨n * Quadrature.size P.t, 1, fun r _ => r⟩ (fun _ => 0) [0, -1, 0] (psiAt 1 1 2 lineCells lineX fun i _ => if i = 0 then 1 / 2 else
      if i = 1 then -5 else 1 / 3) 8 (fun i _ => (i : ℝ)) y = .ok (some (β', f', g')) ∧ P.l2 g' g' ≤ P.l2 g g := by
  obtain ⟨lu, h1, h2⟩ := exists_exactLU (K := ℝ) (n + 1 + (n + 1))
  have hE : ExactDense (fun M B => M⁻¹ * B : DenseSolver ℝ 1) := fun M B hd => by
    rw [← Matrix.mul_assoc, Matrix.mul_nonsing_inv _ (isUnit_iff_ne_zero.2 hd), Matrix.one_mul]
  obtain ⟨P, I, J, l, e, em, eo, hLa, hD, hV, hC⟩ := mesh_fit (d := 1) (by unfold Dims; decide) (op := .neg .lap) (fun _ => trivial) trivial
    (fun p => p == 0 || p == n) (line_good n hn) (fun r => C103_laplacian 1 r) (demo_located n hn)
  have hX : Identified 1 P.m [(0 : Int), -1, 0].length (entry l) fun i _ => (i : ℝ) := by
    rw [em]
    refine mesh_identified hV ?_
    intro c b hb
    have a0 := hb 0 (by simp)
    have a2 := hb 2 (by simp)
    simp at a0 a2
    rw [a0] at a2
    refine ⟨a0, funext fun a => ?_⟩
    rw [Subsingleton.elim a 0]
    simpa using a2.symm
  rw [← em] at h1 h2
  obtain ⟨β, β', f, g, f', g', e1, e2, hz, _⟩ := C164_monotone_partial (hD ⟨n * Quadrature.size P.t, 1, fun r _ => r⟩ le_rfl (by norm_num)) hX h1 h2 hE
    (fun _ => 0) 7 8 (by norm_num) (by norm_num) y
  exact ⟨lu, _, P, β, β', f, g, f', g', e, e1, e2, hz⟩

/-- The same rod and locations, at the times 1/2, 2 and 3, cubic splines on the knots 0, 1 and 3, two
data sets which differ in one datum. -/
example (n : Nat) (hn : 0 < n) (y : Nat → ℝ) (c : ℝ) : ∃ (lu : Solver ℝ) (P : Prob ℝ) (f g f' g' : Nat → ℝ),
    problem1 1 (.neg .lap) lineCells n (n + 1) lineX (fun p => p == 0 || p == n) = .ok P ∧
    spaceTimeFit (1 / 10) 3 [0, 1, 3] (Splines.splineNodes ℝ) (Splines.splineWeights ℝ) [1 / 2, 2, 3] lu P ⟨n * Quadrature.size P.t, 1, fun r _ => r⟩
      (fun _ => 0) [0, -1, 0] (psiAt 1 1 2 lineCells lineX fun i _ => if i = 0 then 1 / 2 else if i = 1 then -5 else 1 / 3) 7 8 y = .ok (some (f, g)) ∧
    spaceTimeFit (1 / 10) 3 [0, 1, 3] (Splines.splineNodes ℝ) (Splines.splineWeights ℝ) [1 / 2, 2, 3] lu P ⟨n * Quadrature.size P.t, 1, fun r _ => r⟩
      (fun _ => 0) [0, -1, 0] (psiAt 1 1 2 lineCells lineX fun i _ => if i = 0 then 1 / 2 else if i = 1 then -5 else 1 / 3) 7 8
      (fun r => if r = 5 then y r + c else y r) = .ok (some (f', g')) := by
  obtain ⟨lu, h1, h2⟩ := exists_exactLU (K := ℝ) (([(0 : ℝ), 1, 3].length + 3 - 1) * (n + 1) + ([(0 : ℝ), 1, 3].length + 3 - 1) * (n + 1))
  obtain ⟨P, I, J, l, e, em, eo, hLa, hD, hV, hC⟩ := mesh_fit (d := 1) (by unfold Dims; decide) (op := .neg .lap) (fun _ => trivial) trivial
    (fun p => p == 0 || p == n) (line_good n hn) (fun r => C103_laplacian 1 r) (demo_located n hn)
  rw [← em] at h1 h2
  obtain ⟨t, b, b2, f, g, f', g', _, e1, e2, _⟩ := C165_stable_partial demo_time (hD ⟨n * Quadrature.size P.t, 1, fun r _ => r⟩ le_rfl (by norm_num)) h1 h2
    (fun _ => 0) 7 8 (by norm_num) (by norm_num) y fun r => if r = 5 then y r + c else y r
  exact ⟨lu, P, f, g, f', g', e, e1, e2⟩

end Fdapde.PDE
