import Verif.Quadrature.PropsTables
/- C87 : the integrators. -/
namespace Fdapde.Quadrature
variable {K P : Type} [Field K]

/-- Inner loop of `quadratureNodes`: rows `base, ..., base + k - 1` are filled. -/
theorem qn_inner (t : Table) (g : Nat → P) (base : Nat) (m : List (Option P)) (hm : base + size t ≤ m.length) : ∀ k ≤ size t,
    ∃ m', foldRes (fun (m : List (Option P)) iq => if base + iq < m.length then Res.ok (m.set (base + iq) (some (g iq))) else .ub) m (List.range k) = .ok m' ∧
      m'.length = m.length ∧ ∀ r, m'[r]? = if base ≤ r ∧ r < base + k then some (some (g (r - base))) else m[r]? := by
  intro k
  induction k with
  | zero => intro _; exact ⟨m, rfl, rfl, fun r => by rw [if_neg (by omega)]⟩
  | succ k ih =>
    intro hk
    obtain ⟨m', h1, h2, h3⟩ := ih (by omega)
    refine ⟨m'.set (base + k) (some (g k)), ?_, by simp [h2], ?_⟩
    · rw [List.range_succ, foldRes_append, h1, Res.ok_bind, foldRes_cons, if_pos (by omega)]; rfl
    · intro r
      rw [List.getElem?_set]
      by_cases hr : base + k = r
      · rw [if_pos hr, if_pos (by omega), if_pos (by omega), ← hr, Nat.add_sub_cancel_left]
      · rw [if_neg hr, h3]
        by_cases h : base ≤ r ∧ r < base + k
        · rw [if_pos h, if_pos (by omega)]
        · rw [if_neg h, if_neg (by omega)]

/-- **C87**, quadrature nodes: the matrix has one row per cell and node, all of them are written (none outside of the
matrix), and row `num_nodes * id + iq` is the image in cell `id` of the iq-th node of the rule. -/
theorem C87_quadrature_nodes (t : Table) (n : Nat) (phi : Nat → (Nat → K) → P) :
    ∃ m, quadratureNodes t n phi = .ok m ∧ m.length = n * size t ∧
      ∀ id < n, ∀ iq < size t, m[size t * id + iq]? = some (some (phi id (node K t iq))) := by
  have key : ∀ k ≤ n, ∃ m, foldRes (fun (m : List (Option P)) id =>
      foldRes (fun (m : List (Option P)) iq =>
        if size t * id + iq < m.length then Res.ok (m.set (size t * id + iq) (some (phi id (node K t iq)))) else .ub)
        m (List.range (size t))) (List.replicate (n * size t) none) (List.range k) = .ok m ∧ m.length = n * size t ∧
      ∀ id < k, ∀ iq < size t, m[size t * id + iq]? = some (some (phi id (node K t iq))) := by
    intro k
    induction k with
    | zero => intro _; exact ⟨_, rfl, by simp, by omega⟩
    | succ k ih =>
      intro hk
      obtain ⟨m, h1, h2, h3⟩ := ih (by omega)
      have hb : size t * k + size t ≤ n * size t := by
        calc size t * k + size t = (k + 1) * size t := by ring
          _ ≤ n * size t := Nat.mul_le_mul_right _ hk
      obtain ⟨m', g1, g2, g3⟩ := qn_inner t (fun iq => phi k (node K t iq)) (size t * k) m (by omega) _ le_rfl
      refine ⟨m', ?_, by omega, ?_⟩
      · rw [List.range_succ, foldRes_append, h1, Res.ok_bind, foldRes_cons, g1]; rfl
      · intro id hid iq hiq
        rw [g3]
        by_cases h : id = k
        · subst h
          rw [if_pos (by omega), Nat.add_sub_cancel_left]
        · have : size t * id + size t ≤ size t * k := by
            calc size t * id + size t = size t * (id + 1) := by ring
              _ ≤ size t * k := Nat.mul_le_mul_left _ (by omega)
          rw [if_neg (by omega), h3 id (by omega) iq hiq]
  exact key n le_rfl

theorem accum_congr (t : Table) (g g' : Nat → K) (h : ∀ iq < size t, g iq = g' iq) : accum t g = accum t g' := by
  rw [accum_eq, accum_eq]
  exact Finset.sum_congr rfl (fun iq hi => by rw [h iq (Finset.mem_range.1 hi)])

/-- **C87**, discretised fields: a field sampled at the quadrature nodes of the mesh (as returned by `quadrature_nodes`) has
on every cell the same integral as the callable, alone and against a basis function. -/
theorem C87_sampled_field (t : Table) (n : Nat) (phi : Nat → (Nat → K) → P) (measure : Nat → K) (f : P → K) (Phi : (Nat → K) → K)
    (F : Nat → K) (m : List (Option P)) (hm : quadratureNodes t n phi = .ok m)
    (hF : ∀ r p, m[r]? = some (some p) → F r = f p) : ∀ id < n,
    integrateCellVec t id (measure id) F = integrateCell t (phi id) (measure id) f ∧
    integrateBasisVec t id (measure id) F Phi = integrateBasis t (phi id) (measure id) f Phi := by
  intro id hid
  obtain ⟨m', h1, _, h3⟩ := C87_quadrature_nodes t n phi
  rw [hm] at h1
  cases h1
  constructor
  · unfold integrateCellVec integrateCell
    rw [accum_congr t _ (fun iq => f (phi id (node K t iq))) (fun iq hi => hF _ _ (h3 id hid iq hi))]
  · unfold integrateBasisVec integrateBasis
    rw [accum_congr t _ (fun iq => f (phi id (node K t iq)) * Phi (node K t iq)) (fun iq hi => by rw [hF _ _ (h3 id hid iq hi)])]

/-- **C87**, weak forms: forwarding the index of the quadrature node evaluates a space-varying coefficient, sampled at the
quadrature nodes, at the node where the form is evaluated. -/
theorem C87_weak_form (t : Table) (n : Nat) (phi : Nat → (Nat → K) → P) (measure : Nat → K) (a : P → K) (g : K → (Nat → K) → K)
    (A : Nat → K) (m : List (Option P)) (hm : quadratureNodes t n phi = .ok m) (hA : ∀ r p, m[r]? = some (some p) → A r = a p) :
    ∀ id < n, integrateWeak t id (measure id) (fun r p => g (A r) p) =
      (∑ iq ∈ Finset.range (size t), g (a (phi id (node K t iq))) (node K t iq) * weight K t iq) * measure id := by
  intro id hid
  obtain ⟨m', h1, _, h3⟩ := C87_quadrature_nodes t n phi
  rw [hm] at h1
  cases h1
  unfold integrateWeak
  rw [accum_eq]
  congr 1
  refine Finset.sum_congr rfl (fun iq hi => ?_)
  dsimp only
  rw [hA _ _ (h3 id hid iq (Finset.mem_range.1 hi))]

/-- **C87**, mesh: the integral over a mesh is the sum over the cells. -/
theorem C87_mesh (n : Nat) (cell : Nat → K) : integrateMesh n cell = ∑ id ∈ Finset.range n, cell id := foldl_add_sum cell n

/-- **C87**, cells: if `f` composed with the affine map is a polynomial of degree at most that of the rule, the integral over
the cell is its measure times the mean over the reference simplex, up to 1e-14 times the measure and the coefficients. -/
theorem C87_cell (t : Table) (M d : Nat) (ht : ExactTo t M d) (phi : (Nat → ℝ) → P) (measure : ℝ) (hpos : 0 ≤ measure) (f : P → ℝ)
    (p : MvPolynomial (Fin M) ℝ) (hp : p.totalDegree ≤ d) (hf : ∀ x : Nat → ℝ, f (phi x) = MvPolynomial.eval (fun z : Fin M => x z) p) :
    |integrateCell t phi measure f - measure * refMean M (fun x => MvPolynomial.eval x p)| ≤ measure * (1 / 10 ^ 14 * coeffSum p) := by
  have h := ht p hp
  unfold applyRule at h
  unfold integrateCell
  simp only [hf]
  rw [mul_comm, ← mul_sub, abs_mul, abs_of_nonneg hpos]
  exact mul_le_mul_of_nonneg_left h hpos

/-- A segment cell and the 2 point rule meet the hypotheses, with f(x) = x² and the map x ↦ 1 + 2x. -/
example : ∃ (t : Table) (p : MvPolynomial (Fin 1) ℝ), ExactTo t 1 3 ∧ p.totalDegree ≤ 3 ∧
    ∀ x : Nat → ℝ, (1 + 2 * x 0) ^ 2 = MvPolynomial.eval (fun z : Fin 1 => x z) p := by
  refine ⟨rule1_2, (MvPolynomial.C 1 + MvPolynomial.C 2 * MvPolynomial.X 0) ^ 2, exact1 _ _ (by decide +kernel), ?_, by intro x; simp⟩
  have h1 : (MvPolynomial.C 1 + MvPolynomial.C 2 * MvPolynomial.X 0 : MvPolynomial (Fin 1) ℝ).totalDegree ≤ 1 := by
    refine (MvPolynomial.totalDegree_add _ _).trans (max_le (by simp) ?_)
    refine (MvPolynomial.totalDegree_mul _ _).trans ?_
    simp
  refine (MvPolynomial.totalDegree_pow _ _).trans ?_
  omega

/-- **C87**, intervals: the spline integrator is exact up to 1e-14 on polynomials of degree 5 over every interval: the
integral of `f` over [a, b] is (b - a)/2 times that over [-1, 1] of the transformed polynomial. -/
theorem C87_interval (a b : ℝ) (f : ℝ → ℝ) (p : MvPolynomial (Fin 1) ℝ) (hp : p.totalDegree ≤ 5)
    (hf : ∀ x : ℝ, f ((b - a) / 2 * x + (b + a) / 2) = MvPolynomial.eval ![x] p) :
    |integrateInterval legendre1_3 a b f - ∫ x in a..b, f x| ≤ |(b - a) / 2| * (1 / 10 ^ 14 * coeffSum p) := by
  have h := C59_legendre (legendre1_3, 5) (by simp) p hp
  have e1 : ∫ x in a..b, f x = (b - a) / 2 * ∫ x in (-1 : ℝ)..1, MvPolynomial.eval ![x] p := by
    have := intervalIntegral.mul_integral_comp_mul_add (a := -1) (b := 1) (f := f) ((b - a) / 2) ((b + a) / 2)
    rw [show (b - a) / 2 * -1 + (b + a) / 2 = a by ring, show (b - a) / 2 * 1 + (b + a) / 2 = b by ring] at this
    rw [← this]
    simp only [hf]
  have e2 : integrateInterval legendre1_3 a b f = (b - a) / 2 * applyRule legendre1_3 1 (fun x => MvPolynomial.eval x p) := by
    unfold integrateInterval applyRule
    congr 1
    refine accum_congr _ _ _ (fun iq _ => ?_)
    rw [hf]
    congr 1
    congr 1
    funext z
    fin_cases z
    rfl
  rw [e1, e2, ← mul_sub, abs_mul]
  exact mul_le_mul_of_nonneg_left h (abs_nonneg _)

/-- Sampling x ↦ 2x at the nodes of a mesh of three cells meets the hypotheses of `C87_sampled_field`. -/
example : ∃ m, quadratureNodes (K := ℚ) rule1_2 3 (fun id x => (id : ℚ) + x 0) = .ok m ∧ m.length = 6 ∧
    ∃ F : Nat → ℚ, ∀ r p, m[r]? = some (some p) → F r = 2 * p := by
  obtain ⟨m, h1, h2, _⟩ := C87_quadrature_nodes (K := ℚ) rule1_2 3 (fun id x => (id : ℚ) + x 0)
  refine ⟨m, h1, h2, fun r => 2 * ((m[r]?).join.getD 0), fun r p hr => by show 2 * ((m[r]?).join.getD 0) = _; rw [hr]; rfl⟩

end Fdapde.Quadrature
