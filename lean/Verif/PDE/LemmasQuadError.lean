import Verif.PDE.LemmasQuadTaylor
set_option linter.unusedSectionVars false
/-
Second order elements on triangles of the plane: the error on a cell and on the mesh.
-/
namespace Fdapde.PDE
open Fdapde.Quadrature MeasureTheory Matrix Fdapde.Geometry Fdapde.FEM

variable {n nNodes : Nat} {cells : Nat → Nat → Nat} {X : Nat → Vec 2}

theorem quad_shape (h : GoodMesh 3 n nNodes cells X) {hh ρ : ℝ} (hs : MeshShape n cells X hh ρ) (hρ : 0 < ρ) {c : Nat} (hc : c < n) :
    (∀ v z, |dLam (cellOf 2 cells X c) v z| ≤ 1 / ρ) ∧
      ∀ x ∈ tri (cellOf 2 cells X c), ∀ y ∈ tri (cellOf 2 cells X c), ∑ z, (x z - y z) ^ 2 ≤ hh ^ 2 := by
  obtain ⟨t, ht⟩ := rule1 (d := 2) (by simp)
  have hO := mesh_onNodes (N := 2) (n := n) (nNodes := nNodes) (by simp) ht (.neg .lap) h.proper fun _ => true
  have hsh := exact_shape (t := t) (nNodes := nNodes) (.neg .lap) (fun _ => true) hρ hs
  have hS : simp (meshProb 2 1 (2 + 1) t (.neg .lap) cells n X (enumDofs1 cells nNodes fun _ => true)) (natX X) c = cellOf 2 cells X c := by
    show (⟨_⟩ : Simplex 2 2) = ⟨_⟩
    congr 1
    funext j
    exact natX_fin X _
  constructor
  · intro v z
    have h1 := simp_dLam hO hc v z
    have h2 := grad_height hO hsh hρ hc (show (v : Nat) < 3 from v.2)
    have h3 : dLam (cellOf 2 cells X c) v z = dLam (simp (meshProb 2 1 (2 + 1) t (.neg .lap) cells n X (enumDofs1 cells nNodes fun _ => true)) (natX X) c) v z :=
      congrArg (fun S : Simplex 2 2 => dLam S v z) hS.symm
    rw [h3, h1]
    have h4 : locGrad 2 (fun c => invAt (cellOf 2 cells X c)) c v z ^ 2 ≤ (1 / ρ) ^ 2 := by
      rw [one_div_pow]
      exact (Finset.single_le_sum (f := fun z : Fin 2 => locGrad 2 (fun c => invAt (cellOf 2 cells X c)) c v z ^ 2) (fun _ _ => sq_nonneg _) (Finset.mem_univ z)).trans h2
    exact abs_le_of_sq_le_sq h4 (by positivity)
  · intro x hx y hy
    have hcell := mesh_cell (N := 2) (t := t) (n := n) (nNodes := nNodes) (X := X) (cells := cells) (.neg .lap) (fun _ => true) c
    rw [tri_region] at hx hy
    exact cell_diam hO hsh hc (x := y) (y := x) (by rw [hcell]; exact hy) (by rw [hcell]; exact hx)

theorem nodes6_len {S : Simplex 2 2} {hh : ℝ} (h0 : 0 ≤ hh) (hd : ∀ x ∈ tri S, ∀ y ∈ tri S, ∑ z, (x z - y z) ^ 2 ≤ hh ^ 2) {x y : Vec 2} (hx : x ∈ tri S) (hy : y ∈ tri S) :
    len (y - x) ≤ hh := by
  have h1 := hd y hy x hx
  exact (Real.sqrt_le_sqrt h1).trans (le_of_eq (Real.sqrt_sq h0))

variable {u : Vec 2 → ℝ} {G M B L hh ρ : ℝ}

theorem smooth_deriv (hu : SmoothOn3 n cells X u G M B L) {c : Nat} (hc : c < n) {x : Vec 2} (hx : x ∈ region 3 cells X c) :
    HasFDerivAt u (lin fun z => pderiv u z x) x ∧ (∀ z, HasFDerivAt (pderiv u z) (lin fun s => pderiv (pderiv u z) s x) x) ∧
      HasFDerivAt (laplacian u) (lin fun s => pderiv (laplacian u) s x) x := by
  obtain ⟨U, hU, hD, hC⟩ := hu.smooth
  have hxU := hU.mem_nhds (hD (region_domain (N := 2) hc hx))
  have h1 : ∀ z, ContDiffOn ℝ 2 (pderiv u z) U := fun z => (hC.fderiv_of_isOpen hU (m := 2) (by norm_num)).clm_apply contDiffOn_const
  have h2 : ∀ z, ContDiffOn ℝ 1 (pderiv (pderiv u z) z) U := fun z => pderiv_contDiff hU (h1 z) z
  have h3 : ContDiffOn ℝ 1 (laplacian u) U := ContDiffOn.sum fun z _ => h2 z
  exact ⟨pderiv_hasFDerivAt ((hC.contDiffAt hxU).differentiableAt (by norm_num)), fun z => pderiv_hasFDerivAt (((h1 z).contDiffAt hxU).differentiableAt (by norm_num)),
    pderiv_hasFDerivAt ((h3.contDiffAt hxU).differentiableAt (by norm_num))⟩

theorem region_convex (c : Nat) : Convex ℝ (region 3 cells X c) := by
  rw [← tri_region]; exact convex_convexHull ℝ _

/-- The error of interpolation. -/
theorem quad_interp (h : GoodMesh 3 n nNodes cells X) (hs : MeshShape n cells X hh ρ) (hρ : 0 < ρ) (h0 : 0 ≤ hh) (hu : SmoothOn3 n cells X u G M B L)
    (hM : 0 ≤ M) {c : Nat} (hc : c < n) {x : Vec 2} (hx : x ∈ region 3 cells X c) :
    |u x - q2 (cellOf 2 cells X c) (fun i => u (nodes6 (cellOf 2 cells X c) i)) x| ≤ 12 * M * hh ^ 3 ∧
      ∀ z, |pderiv u z x - g2 (cellOf 2 cells X c) (fun i => u (nodes6 (cellOf 2 cells X c) i)) x z| ≤ 42 * M * hh ^ 3 / ρ := by
  obtain ⟨hd, hdm⟩ := quad_shape h hs hρ hc
  have hx' : x ∈ tri (cellOf 2 cells X c) := by rw [tri_region]; exact hx
  have key := interp2 (proper_nondeg h.proper hc) hd u hx' (fun z => pderiv u z x)
    (fun a b => (pderiv (pderiv u a) b x + pderiv (pderiv u b) a x) / 2) (ε := 2 * M * hh ^ 3) fun i => by
      have hn : nodes6 (cellOf 2 cells X c) i ∈ region 3 cells X c := by rw [← tri_region]; exact nodes6_mem i
      refine (taylor2 (region_convex c) hM (fun x hx => (smooth_deriv hu hc hx).1) (fun z x hx => (smooth_deriv hu hc hx).2.1 z)
        (fun z x hx y hy => hu.second c hc x hx y hy z) hx hn).trans ?_
      exact mul_le_mul_of_nonneg_left (pow_le_pow_left₀ (len_nonneg _) (nodes6_len h0 hdm hx' (nodes6_mem i)) 3) (by positivity)
  refine ⟨key.1.trans (le_of_eq (by ring)), fun z => (key.2 z).trans (le_of_eq (by ring))⟩

/-- The error of the affine interpolation of the source. -/
theorem quad_source (h : GoodMesh 3 n nNodes cells X) (hs : MeshShape n cells X hh ρ) (hρ : 0 < ρ) (h0 : 0 ≤ hh) (hu : SmoothOn3 n cells X u G M B L)
    (hL : 0 ≤ L) {c : Nat} (hc : c < n) {x : Vec 2} (hx : x ∈ region 3 cells X c) :
    |-laplacian u x - a1 (cellOf 2 cells X c) (fun v => -laplacian u ((cellOf 2 cells X c).coords v)) x| ≤ L * hh ^ 2 := by
  obtain ⟨-, hdm⟩ := quad_shape h hs hρ hc
  set S := cellOf 2 cells X c with hS
  have hx' : x ∈ tri S := by rw [tri_region]; exact hx
  have hN := proper_nondeg h.proper hc
  have key : ∀ v, |laplacian u (S.coords v) - laplacian u x - ∑ z, pderiv (laplacian u) z x * (S.coords v z - x z)| ≤ L * hh ^ 2 := by
    intro v
    have hn : S.coords v ∈ region 3 cells X c := by rw [← tri_region]; exact vertex_mem v
    refine (taylor1 (region_convex c) hL (fun x hx => (smooth_deriv hu hc hx).2.2) (fun x hx y hy => hu.laplace c hc x hx y hy) hx hn).trans ?_
    exact mul_le_mul_of_nonneg_left (pow_le_pow_left₀ (len_nonneg _) (nodes6_len h0 hdm hx' (vertex_mem v)) 2) hL
  have b0 := bary_nonneg hN hx' 0
  have b1 := bary_nonneg hN hx' 1
  have b2 := bary_nonneg hN hx' 2
  have bs := bary_sum3 (S := S) x
  have p0 := bary_point hN x 0
  have p1 := bary_point hN x 1
  have k0 := abs_le.1 (key 0)
  have k1 := abs_le.1 (key 1)
  have k2 := abs_le.1 (key 2)
  simp only [Fin.sum_univ_two] at k0 k1 k2
  have e : -laplacian u x - a1 S (fun v => -laplacian u (S.coords v)) x =
      S.bary x 0 * (laplacian u (S.coords 0) - laplacian u x - (pderiv (laplacian u) 0 x * (S.coords 0 0 - x 0) + pderiv (laplacian u) 1 x * (S.coords 0 1 - x 1))) +
      S.bary x 1 * (laplacian u (S.coords 1) - laplacian u x - (pderiv (laplacian u) 0 x * (S.coords 1 0 - x 0) + pderiv (laplacian u) 1 x * (S.coords 1 1 - x 1))) +
      S.bary x 2 * (laplacian u (S.coords 2) - laplacian u x - (pderiv (laplacian u) 0 x * (S.coords 2 0 - x 0) + pderiv (laplacian u) 1 x * (S.coords 2 1 - x 1))) := by
    rw [a1]
    linear_combination laplacian u x * bs + pderiv (laplacian u) 0 x * p0 + pderiv (laplacian u) 1 x * p1
  rw [e, abs_le]
  have u0 := mul_le_mul_of_nonneg_left k0.2 b0
  have u1 := mul_le_mul_of_nonneg_left k1.2 b1
  have u2 := mul_le_mul_of_nonneg_left k2.2 b2
  have l0 := mul_le_mul_of_nonneg_left k0.1 b0
  have l1 := mul_le_mul_of_nonneg_left k1.1 b1
  have l2 := mul_le_mul_of_nonneg_left k2.1 b2
  have es : S.bary x 0 * (L * hh ^ 2) + S.bary x 1 * (L * hh ^ 2) + S.bary x 2 * (L * hh ^ 2) = L * hh ^ 2 := by rw [← add_mul, ← add_mul, bs, one_mul]
  constructor <;> linarith

end Fdapde.PDE
