import Verif.Geometry.LemmasDivergence
import Verif.PDE.PropsError
import Mathlib.Analysis.Calculus.FDeriv.Mul
set_option linter.unusedSectionVars false
/-
The divergence theorem on a mesh, the weak form of the strong equation and the inequality of Friedrichs.
-/
namespace Fdapde.PDE
open Fdapde.Quadrature MeasureTheory Matrix Fdapde.Geometry
variable {P : Prob ℝ} {X : Nat → Nat → ℝ} {I : Nat → Nat → Nat → ℝ}

/-- Cell as a simplex. -/
def simp (P : Prob ℝ) (X : Nat → Nat → ℝ) (c : Nat) : Simplex P.N P.N := ⟨fun j z => X (P.dofs c j) z⟩

theorem simp_det (h : P.OnNodes X I) {c : Nat} (hc : c < P.n) : P.measure c = |(simp P X c).J.det| / (P.N.factorial : ℝ) := h.measure c hc

theorem simp_nondeg (h : P.OnNodes X I) {c : Nat} (hc : c < P.n) : (simp P X c).Nondeg := by
  by_contra hn
  have := measure_pos h hc
  rw [simp_det h hc, Geometry.det_zero hn, abs_zero, zero_div] at this
  exact lt_irrefl _ this

theorem simp_inv (h : P.OnNodes X I) {c : Nat} (hc : c < P.n) (w z : Fin P.N) : I c w z = (simp P X c).invJ w z := by
  have e : (of fun w z : Fin P.N => I c w z) * (simp P X c).J = 1 := by
    ext a b
    rw [Matrix.mul_apply, Matrix.one_apply]
    have := h.lagrange.inv c hc a a.2 b b.2
    rw [Finset.sum_range] at this
    simp only [← Fin.ext_iff] at this
    exact this
  have e2 : (of fun w z : Fin P.N => I c w z) = (simp P X c).invJ := by
    calc _ = (of fun w z : Fin P.N => I c w z) * ((simp P X c).J * (simp P X c).invJ) := by
          rw [Simplex.J_mul_invJ (simp_nondeg h hc), mul_one]
      _ = _ := by rw [← mul_assoc, e, one_mul]
  exact congrFun (congrFun e2 w) z

theorem simp_dLam (h : P.OnNodes X I) {c : Nat} (hc : c < P.n) (i : Fin (P.N + 1)) (z : Fin P.N) :
    dLam (simp P X c) i z = locGrad P.N I c i z := by
  rw [locGrad, Finset.sum_range, dLam]
  refine Fin.cases ?_ (fun w => ?_) i
  · simp only [Fin.cons_zero, Fin.val_zero]
    rw [← Finset.sum_neg_distrib]
    exact Finset.sum_congr rfl fun w _ => by rw [← simp_inv h hc]; simp
  · simp only [Fin.cons_succ, Fin.val_succ]
    rw [Finset.sum_eq_single w]
    · rw [← simp_inv h hc]; simp
    · intro b _ hb
      rw [if_neg (fun e => hb (Fin.ext (by omega))), if_neg (by omega)]; simp
    · simp

theorem fin_nb (h : P.OnNodes X I) (i : Fin (P.N + 1)) : (i : Nat) < P.nb := by rw [nb_eq h]; exact i.2

/-- Nodes of the facet opposite to local node `i`. -/
def facetPts (P : Prob ℝ) (X : Nat → Nat → ℝ) (c : Nat) (i : Fin (P.N + 1)) (j : Fin P.N) (z : Fin P.N) : ℝ := X (P.dofs c (i.succAbove j)) z

theorem facet_pts_perm (h : P.OnNodes X I) {c c' : Nat} (hc : c < P.n) (hc' : c' < P.n) (i i' : Fin (P.N + 1))
    (hf : P.facet c' i' = P.facet c i) : ∃ s : Equiv.Perm (Fin P.N), facetPts P X c i = facetPts P X c' i' ∘ s := by
  have hn := nb_eq h
  obtain ⟨s, s1, s2⟩ := facet_perm h hc (fin_nb h i) hc' (fin_nb h i') hf
  have s1 : s i = i' := Fin.ext s1
  have hex : ∀ j : Fin P.N, ∃ k : Fin P.N, i'.succAbove k = s (i.succAbove j) := by
    intro j
    refine Fin.exists_succAbove_eq ?_
    rw [← s1]
    exact fun e => Fin.succAbove_ne i j (s.injective e)
  choose f hf' using hex
  have hinj : Function.Injective f := by
    intro a b e
    have : s (i.succAbove a) = s (i.succAbove b) := by rw [← hf', ← hf', e]
    exact Fin.succAbove_right_injective (s.injective this)
  refine ⟨Equiv.ofBijective f (Finite.injective_iff_bijective.1 hinj), ?_⟩
  funext j z
  show X (P.dofs c (i.succAbove j)) z = X (P.dofs c' (i'.succAbove (f j))) z
  rw [hf', s2 _ (fun e => Fin.succAbove_ne i j (Fin.ext e))]

theorem mem_facet_pts (h : P.OnNodes X I) {c : Nat} (i : Fin (P.N + 1)) (j : Fin P.N) : P.dofs c (i.succAbove j) ∈ P.facet c i := by
  simp only [Prob.facet, Finset.mem_image, Finset.mem_erase, Finset.mem_range]
  exact ⟨_, ⟨fun e => Fin.succAbove_ne i j (Fin.ext e), fin_nb h _⟩, rfl⟩

/-- The divergence theorem on a mesh: functions on the cells that agree on common facets and vanish on the others. The facets with `A` are
the common ones. -/
theorem mesh_divergence' (h : P.OnNodes X I) (A : Finset Nat → Prop)
    (hcf : ∀ c < P.n, ∀ i < P.nb, A (P.facet c i) →
      ∃ c' < P.n, ∃ i' < P.nb, c' ≠ c ∧ P.facet c' i' = P.facet c i ∧
        (∀ d < P.n, ∀ j < P.nb, P.facet d j = P.facet c i → d = c ∨ d = c') ∧
        ∀ (a : Nat → ℝ) (b : ℝ), (∀ p ∈ P.facet c i, dot P.N a (X p) + b = 0) →
          (dot P.N a (X (P.dofs c i)) + b) * (dot P.N a (X (P.dofs c' i')) + b) ≤ 0) (z : Fin P.N) (F : Nat → (Fin P.N → ℝ) → ℝ)
    (F' : Nat → (Fin P.N → ℝ) → (Fin P.N → ℝ) →L[ℝ] ℝ)
    (hF : ∀ c < P.n, ∀ x ∈ P.cell X c, HasFDerivWithinAt (F c) (F' c x) (P.cell X c) x)
    (hF' : ∀ c < P.n, ContinuousOn (F' c) (P.cell X c))
    (hag : ∀ c < P.n, ∀ c' < P.n, ∀ i i' : Fin (P.N + 1), P.facet c' i' = P.facet c i →
      ∀ x ∈ convexHull ℝ (Set.range (facetPts P X c i)), F c x = F c' x)
    (hva : ∀ c < P.n, ∀ i : Fin (P.N + 1), ¬ A (P.facet c i) →
      ∀ x ∈ convexHull ℝ (Set.range (facetPts P X c i)), F c x = 0) :
    ∑ c ∈ Finset.range P.n, ∫ x in P.cell X c, F' c x (Pi.single z 1) = 0 := by
  classical
  obtain ⟨Φ, f1, f2, f3, f4⟩ := exists_facet_functional (N := P.N) (by have := z.2; omega)
  have hn := nb_eq h
  have e1 : ∀ c ∈ Finset.range P.n, ∫ x in P.cell X c, F' c x (Pi.single z 1) =
      -(P.N.factorial : ℝ) * ∑ i : Fin (P.N + 1), P.measure c * locGrad P.N I c i z * Φ (facetPts P X c i) (F c) := by
    intro c hc
    have hc' := Finset.mem_range.1 hc
    have := f4 (simp P X c) (simp_nondeg h hc') (F c) (F' c) z (hF c hc') (hF' c hc')
    refine this.trans ?_
    have hd : |(simp P X c).J.det| = P.N.factorial * P.measure c := by
      rw [simp_det h hc']; field_simp
    rw [hd, Finset.mul_sum, Finset.mul_sum, ← Finset.sum_neg_distrib]
    refine Finset.sum_congr rfl fun i _ => ?_
    rw [simp_dLam h hc']
    have : (simp P X c).coords ∘ i.succAbove = facetPts P X c i := rfl
    rw [this]
    ring
  rw [Finset.sum_congr rfl e1, ← Finset.mul_sum]
  refine mul_eq_zero_of_right _ ?_
  rw [← Finset.sum_product']
  rw [← Finset.sum_filter_of_ne (p := fun a : Nat × Fin (P.N + 1) => A (P.facet a.1 a.2))]
  swap
  · intro a ha hne
    by_contra hno
    have ha' := (Finset.mem_product.1 ha).1
    apply hne
    rw [f2 _ _ (fun _ => 0) (hva a.1 (Finset.mem_range.1 ha') a.2 hno), f3, mul_zero]
  have hmem : ∀ a : Nat × Fin (P.N + 1), a ∈ (Finset.range P.n ×ˢ (Finset.univ : Finset (Fin (P.N + 1)))).filter
      (fun a => A (P.facet a.1 a.2)) ↔ a.1 < P.n ∧ A (P.facet a.1 a.2) := by
    intro a; simp [Finset.mem_filter]
  set AA := (Finset.range P.n ×ˢ (Finset.univ : Finset (Fin (P.N + 1)))).filter (fun a => A (P.facet a.1 a.2)) with hA
  have hex : ∀ a ∈ AA, ∃ b : Nat × Fin (P.N + 1),
      b.1 < P.n ∧ b.1 ≠ a.1 ∧ P.facet b.1 b.2 = P.facet a.1 a.2 ∧
      (∀ d < P.n, ∀ j : Fin (P.N + 1), P.facet d j = P.facet a.1 a.2 → d = a.1 ∨ d = b.1) ∧
      P.measure a.1 * locGrad P.N I a.1 a.2 z * Φ (facetPts P X a.1 a.2) (F a.1) +
        P.measure b.1 * locGrad P.N I b.1 b.2 z * Φ (facetPts P X b.1 b.2) (F b.1) = 0 := by
    intro a ha
    rw [hmem] at ha
    obtain ⟨c', h1, i', h2, h3, h4, h5, h6⟩ := hcf a.1 ha.1 a.2 (fin_nb h a.2) ha.2
    have hi' : i' < P.N + 1 := by rw [← hn]; exact h2
    refine ⟨(c', ⟨i', hi'⟩), h1, h3, h4, fun d hd j => h5 d hd j (fin_nb h j), ?_⟩
    have hpc := pair_cancel h ha.1 (fin_nb h a.2) h1 h2 h4 h6 z z.2
    obtain ⟨s, hs⟩ := facet_pts_perm h ha.1 h1 a.2 ⟨i', hi'⟩ h4
    have e : Φ (facetPts P X a.1 a.2) (F a.1) = Φ (facetPts P X c' ⟨i', hi'⟩) (F c') := by
      rw [f2 _ _ _ (hag a.1 ha.1 c' h1 a.2 ⟨i', hi'⟩ h4), hs, f1]
    simp only [e, ← add_mul, hpc, zero_mul]
  choose! g h1 h3 h4 h5 h6 using hex
  have hin : ∀ a (_ : a ∈ AA), g a ∈ AA := fun a ha => by
    rw [hmem, h4 a ha]
    exact ⟨h1 a ha, ((hmem a).1 ha).2⟩
  refine Finset.sum_involution (fun a _ => g a) (fun a ha => h6 a ha) (fun a ha _ e => h3 a ha (congrArg Prod.fst e)) (fun a ha => hin a ha) ?_
  intro a ha
  have ha' := (hmem a).1 ha
  have hgg := (hmem _).1 (hin _ (hin a ha))
  have e0 : P.facet (g (g a)).1 (g (g a)).2 = P.facet a.1 a.2 := (h4 _ (hin a ha)).trans (h4 a ha)
  have e1 : (g (g a)).1 = a.1 := by
    rcases h5 a ha _ hgg.1 _ e0 with e | e
    · exact e
    · exact absurd e (h3 _ (hin a ha))
  refine Prod.ext e1 ?_
  by_contra hne
  rw [e1] at e0
  have hlt : ((g (g a)).2 : Nat) < P.nb := fin_nb h _
  have : P.dofs a.1 a.2 ∈ P.facet a.1 (g (g a)).2 := by
    rw [mem_facet h ha'.1 hlt]
    exact ⟨fun e => hne (Fin.ext (dofs_inj h ha'.1 hlt (fin_nb h a.2) e)), a.2, fin_nb h a.2, rfl⟩
  rw [e0, mem_facet h ha'.1 (fin_nb h a.2)] at this
  exact this.1 rfl

/-- The divergence theorem on a mesh: functions on the cells that agree on common facets and vanish on the others. -/
theorem mesh_divergence (h : P.OnNodes X I) (hcf : P.Conforming X) (z : Fin P.N) (F : Nat → (Fin P.N → ℝ) → ℝ)
    (F' : Nat → (Fin P.N → ℝ) → (Fin P.N → ℝ) →L[ℝ] ℝ)
    (hF : ∀ c < P.n, ∀ x ∈ P.cell X c, HasFDerivWithinAt (F c) (F' c x) (P.cell X c) x)
    (hF' : ∀ c < P.n, ContinuousOn (F' c) (P.cell X c))
    (hag : ∀ c < P.n, ∀ c' < P.n, ∀ i i' : Fin (P.N + 1), P.facet c' i' = P.facet c i →
      ∀ x ∈ convexHull ℝ (Set.range (facetPts P X c i)), F c x = F c' x)
    (hva : ∀ c < P.n, ∀ i : Fin (P.N + 1), (∀ p ∈ P.facet c i, P.bd p = true) →
      ∀ x ∈ convexHull ℝ (Set.range (facetPts P X c i)), F c x = 0) :
    ∑ c ∈ Finset.range P.n, ∫ x in P.cell X c, F' c x (Pi.single z 1) = 0 := by
  refine mesh_divergence' h (fun S => ∃ p ∈ S, P.bd p = false) hcf z F F' hF hF' hag fun c hc i hno => hva c hc i fun p hp => ?_
  push Not at hno
  simpa using hno p hp

/-- Affine function. -/
def aff {N : Nat} (G : Fin N → ℝ) (b : ℝ) (x : Fin N → ℝ) : ℝ := (∑ z, G z * x z) + b

/-- Its derivative. -/
noncomputable def affD {N : Nat} (G : Fin N → ℝ) : (Fin N → ℝ) →L[ℝ] ℝ := ∑ z, G z • ContinuousLinearMap.proj (R := ℝ) (φ := fun _ : Fin N => ℝ) z

theorem affD_single {N : Nat} (G : Fin N → ℝ) (z : Fin N) : affD G (Pi.single z 1) = G z := by
  simp [affD, _root_.sum_apply, Pi.single_apply]

theorem aff_deriv {N : Nat} (G : Fin N → ℝ) (b : ℝ) (x : Fin N → ℝ) : HasFDerivAt (aff G b) (affD G) x := by
  have h : aff G b = fun x => affD G x + b := by
    funext y; simp [aff, affD, _root_.sum_apply]
  rw [h]
  exact (affD G).hasFDerivAt.add_const b

theorem aff_cont {N : Nat} (G : Fin N → ℝ) (b : ℝ) : Continuous (aff G b) := by
  unfold aff
  fun_prop

theorem aff_hull {N : Nat} {ι : Type} {q : ι → Fin N → ℝ} {G G' : Fin N → ℝ} {b b' : ℝ} (h : ∀ j, aff G b (q j) = aff G' b' (q j))
    {x : Fin N → ℝ} (hx : x ∈ convexHull ℝ (Set.range q)) : aff G b x = aff G' b' x := by
  have hsub : convexHull ℝ (Set.range q) ⊆ {x | aff G b x = aff G' b' x} := by
    refine convexHull_min ?_ ?_
    · rintro _ ⟨j, rfl⟩; exact h j
    · intro u hu v hv s t hs ht hst
      have key : ∀ (G : Fin N → ℝ) (b : ℝ), aff G b (s • u + t • v) = s * aff G b u + t * aff G b v := by
        intro G b
        simp only [aff, Pi.add_apply, Pi.smul_apply, smul_eq_mul, mul_add, Finset.sum_add_distrib, Finset.mul_sum]
        have : s * b + t * b = b := by rw [← add_mul, hst, one_mul]
        rw [Finset.sum_congr rfl fun z _ => mul_left_comm (G z) s (u z), Finset.sum_congr rfl fun z _ => mul_left_comm (G z) t (v z)]
        linarith
      show aff G b _ = aff G' b' _
      rw [key, key, show aff G b u = aff G' b' u from hu, show aff G b v = aff G' b' v from hv]
  exact hsub hx

section
variable {v : Nat → ℝ} {G : Nat → Fin P.N → ℝ} {b : Nat → ℝ}

theorem affine_agree (h : P.OnNodes X I) (hA : P.Affine X v G b) {c c' : Nat} (hc : c < P.n) (hc' : c' < P.n)
    {i i' : Fin (P.N + 1)} (hf : P.facet c' i' = P.facet c i) {x : Fin P.N → ℝ} (hx : x ∈ convexHull ℝ (Set.range (facetPts P X c i))) :
    aff (G c) (b c) x = aff (G c') (b c') x := by
  refine aff_hull (fun j => ?_) hx
  have h1 : aff (G c) (b c) (facetPts P X c i j) = v (P.dofs c (i.succAbove j)) := (hA c hc _ (fin_nb h _)).symm
  have hm := mem_facet_pts (c := c) h i j
  rw [← hf, mem_facet h hc' (fin_nb h _)] at hm
  obtain ⟨-, k, hk, e⟩ := hm
  have h2 := hA c' hc' k hk
  rw [h1, ← e, h2]
  show _ = (∑ z, G c' z * facetPts P X c i j z) + b c'
  simp only [facetPts, ← e]

theorem affine_vanish (h : P.OnNodes X I) (hP : ∀ c < P.n, ∀ i < P.nb, P.dofs c i < P.m) (hv : P.Test v) (hA : P.Affine X v G b) {c : Nat} (hc : c < P.n)
    {i : Fin (P.N + 1)} (hf : ∀ p ∈ P.facet c i, P.bd p = true) {x : Fin P.N → ℝ} (hx : x ∈ convexHull ℝ (Set.range (facetPts P X c i))) :
    aff (G c) (b c) x = 0 := by
  have : aff (G c) (b c) x = aff (fun _ => 0) 0 x := by
    refine aff_hull (fun j => ?_) hx
    have h1 : aff (G c) (b c) (facetPts P X c i j) = v (P.dofs c (i.succAbove j)) := (hA c hc _ (fin_nb h _)).symm
    rw [h1, hv _ (hP c hc _ (fin_nb h _)) (hf _ (mem_facet_pts h i j))]
    simp [aff]
  rw [this]
  simp [aff]

/-- Integration by parts with a test function. -/
theorem mesh_parts (h : P.OnNodes X I) (hcf : P.Conforming X) (hP : ∀ c < P.n, ∀ i < P.nb, P.dofs c i < P.m) (hv : P.Test v) (hA : P.Affine X v G b)
    (z : Fin P.N) (g : (Fin P.N → ℝ) → ℝ) (g' : Nat → (Fin P.N → ℝ) → (Fin P.N → ℝ) →L[ℝ] ℝ)
    (hg : ∀ c < P.n, ∀ x ∈ P.cell X c, HasFDerivWithinAt g (g' c x) (P.cell X c) x) (hg' : ∀ c < P.n, ContinuousOn (g' c) (P.cell X c)) :
    ∑ c ∈ Finset.range P.n, ∫ x in P.cell X c, (aff (G c) (b c) x * g' c x (Pi.single z 1) + g x * G c z) = 0 := by
  refine (Finset.sum_congr rfl fun c _ => ?_).trans (mesh_divergence h hcf z (fun c x => aff (G c) (b c) x * g x)
    (fun c x => aff (G c) (b c) x • g' c x + g x • affD (G c)) (fun c hc x hx => (aff_deriv _ _ _).hasFDerivWithinAt.mul (hg c hc x hx)) (fun c hc => ?_)
    (fun c hc c' hc' i i' hf x hx => by rw [affine_agree h hA hc hc' hf hx]) fun c hc i hf x hx => by rw [affine_vanish h hP hv hA hc hf hx, zero_mul])
  · refine setIntegral_congr_fun (cell_compact c).measurableSet fun x _ => ?_
    simp only [_root_.add_apply, _root_.smul_apply, smul_eq_mul, affD_single]
  · refine ((aff_cont _ _).continuousOn.smul (hg' c hc)).add ?_
    exact ContinuousOn.smul (fun x hx => (hg c hc x hx).continuousWithinAt) continuousOn_const

/-- The weak form of the strong equation. -/
theorem poisson_of_strong (h : P.OnNodes X I) (hcf : P.Conforming X) (hP : ∀ c < P.n, ∀ i < P.nb, P.dofs c i < P.m)
    {q : (Fin P.N → ℝ) → Fin P.N → ℝ} {f : (Fin P.N → ℝ) → ℝ} (q' : Nat → (Fin P.N → ℝ) → Fin P.N → (Fin P.N → ℝ) →L[ℝ] ℝ)
    (hq : ∀ c < P.n, ∀ x ∈ P.cell X c, ∀ z, HasFDerivWithinAt (fun x => q x z) (q' c x z) (P.cell X c) x)
    (hq' : ∀ c < P.n, ∀ z, ContinuousOn (fun x => q' c x z) (P.cell X c))
    (hf : ∀ c < P.n, ∀ x ∈ P.cell X c, f x = -∑ z, q' c x z (Pi.single z 1)) : P.Poisson X q f := by
  intro v G b hv hA
  have hp := fun z => mesh_parts h hcf hP hv hA z (fun x => q x z) (fun c x => q' c x z) (fun c hc x hx => hq c hc x hx z) (fun c hc => hq' c hc z)
  have hs : ∑ z : Fin P.N, ∑ c ∈ Finset.range P.n, ∫ x in P.cell X c, (aff (G c) (b c) x * q' c x z (Pi.single z 1) + q x z * G c z) = 0 :=
    Finset.sum_eq_zero fun z _ => hp z
  rw [Finset.sum_comm] at hs
  rw [← sub_eq_zero, ← Finset.sum_sub_distrib, ← hs]
  refine Finset.sum_congr rfl fun c hc => ?_
  have hc' := Finset.mem_range.1 hc
  have hqc : ∀ z, ContinuousOn (fun x => q x z) (P.cell X c) := fun z x hx => (hq c hc' x hx z).continuousWithinAt
  have hdc : ∀ z, ContinuousOn (fun x => q' c x z (Pi.single z 1)) (P.cell X c) := fun z => (hq' c hc' z).clm_apply continuousOn_const
  have hac : ContinuousOn (aff (G c) (b c)) (P.cell X c) := (aff_cont _ _).continuousOn
  have i1 : IntegrableOn (fun x => ∑ z, q x z * G c z) (P.cell X c) :=
    (continuousOn_finsetSum _ fun z _ => (hqc z).mul continuousOn_const).integrableOn_compact (cell_compact c)
  have i2 : IntegrableOn (fun x => -(∑ z, q' c x z (Pi.single z 1)) * aff (G c) (b c) x) (P.cell X c) :=
    (((continuousOn_finsetSum _ fun z _ => hdc z).neg).mul hac).integrableOn_compact (cell_compact c)
  have i3 : ∀ z, IntegrableOn (fun x => aff (G c) (b c) x * q' c x z (Pi.single z 1) + q x z * G c z) (P.cell X c) := fun z =>
    ((hac.mul (hdc z)).add ((hqc z).mul continuousOn_const)).integrableOn_compact (cell_compact c)
  have e : ∫ x in P.cell X c, f x * ((∑ z, G c z * x z) + b c) = ∫ x in P.cell X c, -(∑ z, q' c x z (Pi.single z 1)) * aff (G c) (b c) x :=
    setIntegral_congr_fun (cell_compact c).measurableSet fun x hx => by simp only [hf c hc' x hx, aff]
  rw [e, ← integral_sub i1 i2, ← integral_finsetSum _ fun z _ => i3 z]
  refine integral_congr_ae (Filter.Eventually.of_forall fun x => ?_)
  simp only [Finset.sum_add_distrib, ← Finset.mul_sum]
  ring

/-- The inequality of Friedrichs on a domain between two parallel planes. -/
theorem friedrichs (h : P.OnNodes X I) (hcf : P.Conforming X) (hP : ∀ c < P.n, ∀ i < P.nb, P.dofs c i < P.m) (z : Fin P.N) {a ℓ : ℝ}
    (hl : ∀ c < P.n, ∀ x ∈ P.cell X c, |x z - a| ≤ ℓ) : P.Friedrichs X (2 * ℓ) := by
  intro v G b hv hA
  have hd : ∀ x : Fin P.N → ℝ, HasFDerivAt (fun x : Fin P.N → ℝ => x z - a) (ContinuousLinearMap.proj (R := ℝ) (φ := fun _ : Fin P.N => ℝ) z) x :=
    fun x => (ContinuousLinearMap.proj (R := ℝ) (φ := fun _ : Fin P.N => ℝ) z).hasFDerivAt.sub_const a
  have key := mesh_divergence h hcf z (fun c x => (aff (G c) (b c) x * aff (G c) (b c) x) * (x z - a))
    (fun c x => (aff (G c) (b c) x * aff (G c) (b c) x) • ContinuousLinearMap.proj (R := ℝ) (φ := fun _ : Fin P.N => ℝ) z +
      (x z - a) • (aff (G c) (b c) x • affD (G c) + aff (G c) (b c) x • affD (G c)))
    (fun c hc x hx => (((aff_deriv _ _ _).mul (aff_deriv _ _ _)).mul (hd x)).hasFDerivWithinAt) (fun c hc => ?_)
    (fun c hc c' hc' i i' hf x hx => by rw [affine_agree h hA hc hc' hf hx]) fun c hc i hf x hx => by rw [affine_vanish h hP hv hA hc hf hx]; ring
  swap
  · refine Continuous.continuousOn ?_
    have := aff_cont (G c) (b c)
    fun_prop
  have e : ∀ c ∈ Finset.range P.n, ∫ x in P.cell X c, ((∑ z, G c z * x z) + b c) ^ 2 ≤
      2 * (∫ x in P.cell X c, ((aff (G c) (b c) x * aff (G c) (b c) x) • ContinuousLinearMap.proj (R := ℝ) (φ := fun _ : Fin P.N => ℝ) z +
      (x z - a) • (aff (G c) (b c) x • affD (G c) + aff (G c) (b c) x • affD (G c))) (Pi.single z 1)) + (2 * ℓ) ^ 2 * ∫ _ in P.cell X c, ∑ z, G c z ^ 2 := by
    intro c hc
    have hc' := Finset.mem_range.1 hc
    have ha := aff_cont (G c) (b c)
    have hpt : ∀ x, ((aff (G c) (b c) x * aff (G c) (b c) x) • ContinuousLinearMap.proj (R := ℝ) (φ := fun _ : Fin P.N => ℝ) z +
      (x z - a) • (aff (G c) (b c) x • affD (G c) + aff (G c) (b c) x • affD (G c))) (Pi.single z 1) =
        aff (G c) (b c) x ^ 2 + 2 * ((x z - a) * (aff (G c) (b c) x * G c z)) := by
      intro x
      simp only [_root_.add_apply, _root_.smul_apply, smul_eq_mul, affD_single, ContinuousLinearMap.proj_apply, Pi.single_eq_same]
      ring
    simp only [hpt]
    rw [← integral_const_mul, ← integral_const_mul, ← integral_add]
    · refine setIntegral_mono_on (ContinuousOn.integrableOn_compact (f := fun x => aff (G c) (b c) x ^ 2) (cell_compact c) (Continuous.continuousOn (by fun_prop))) ?_ (cell_compact c).measurableSet fun x hx => ?_
      · exact ContinuousOn.integrableOn_compact (cell_compact c) (Continuous.continuousOn (by fun_prop))
      · show aff (G c) (b c) x ^ 2 ≤ _
        have h1 : (x z - a) ^ 2 ≤ ℓ ^ 2 := sq_le_sq' (by linarith [neg_abs_le (x z - a), hl c hc' x hx]) ((le_abs_self _).trans (hl c hc' x hx))
        have h2 : G c z ^ 2 ≤ ∑ z, G c z ^ 2 := Finset.single_le_sum (f := fun z => G c z ^ 2) (fun z _ => sq_nonneg _) (Finset.mem_univ z)
        have h3 : (x z - a) ^ 2 * G c z ^ 2 ≤ ℓ ^ 2 * ∑ z, G c z ^ 2 := mul_le_mul h1 h2 (sq_nonneg _) (sq_nonneg _)
        nlinarith [sq_nonneg (aff (G c) (b c) x + 2 * ((x z - a) * G c z))]
    · exact ContinuousOn.integrableOn_compact (cell_compact c) (Continuous.continuousOn (by fun_prop))
    · exact int_const c _
  refine (Finset.sum_le_sum e).trans (le_of_eq ?_)
  rw [Finset.sum_add_distrib, ← Finset.mul_sum, key, ← Finset.mul_sum, mul_zero, zero_add]
  rfl

end
end Fdapde.PDE
