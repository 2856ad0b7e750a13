import Verif.PDE.LemmasQuadModel
set_option linter.unusedSectionVars false
/-
Second order elements on triangles of the plane: the divergence theorem, the weak form and the inequality of Friedrichs.
-/
namespace Fdapde.PDE
open Fdapde.Quadrature MeasureTheory Matrix Fdapde.Geometry Fdapde.FEM Fdapde.Triang

variable {n nNodes : Nat} {cells : Nat → Nat → Nat} {X : Nat → Vec 2}

theorem tri_region (c : Nat) : tri (cellOf 2 cells X c) = region 3 cells X c := (region_hull (d := 2) cells X c).symm

theorem bary_convex {S : Simplex 2 2} (i : Fin 3) : Convex ℝ {x : Vec 2 | S.bary x i = 0} := by
  intro x hx y hy a b _ _ hab
  have hx : S.bary x i = 0 := hx
  have hy : S.bary y i = 0 := hy
  show S.bary (a • x + b • y) i = 0
  have h1 := bary_diff (S := S) (a • x + b • y) x i
  have h2 := bary_diff (S := S) y x i
  rw [Fin.sum_univ_two] at h1 h2
  simp only [Pi.add_apply, Pi.smul_apply, smul_eq_mul] at h1
  obtain rfl : a = 1 - b := by linarith
  rw [hx] at h1 h2
  rw [hy] at h2
  linear_combination h1 - b * h2

/-- The edge of `c` opposite to its vertex `i` is in a second cell. -/
def Inner (cells : Nat → Nat → Nat) (n c i : Nat) : Prop := ∃ c' < n, Shares cells 3 c i c' ∧ c' ≠ c

/-- The divergence theorem for functions on the cells that agree where cells meet and vanish on the edges of one cell. -/
theorem mesh_div2 (h : GoodMesh 3 n nNodes cells X) (z : Fin 2) (F : Nat → Vec 2 → ℝ) (F' : Nat → Vec 2 → Vec 2 →L[ℝ] ℝ)
    (hF : ∀ c < n, ∀ x ∈ region 3 cells X c, HasFDerivWithinAt (F c) (F' c x) (region 3 cells X c) x)
    (hF' : ∀ c < n, ContinuousOn (F' c) (region 3 cells X c))
    (hag : ∀ c < n, ∀ c' < n, ∀ x ∈ region 3 cells X c, x ∈ region 3 cells X c' → F c x = F c' x)
    (hva : ∀ c < n, ∀ i : Fin 3, ¬ Inner cells n c i → ∀ x ∈ region 3 cells X c, (cellOf 2 cells X c).bary x i = 0 → F c x = 0) :
    ∑ c ∈ Finset.range n, ∫ x in region 3 cells X c, F' c x (Pi.single z 1) = 0 := by
  classical
  obtain ⟨t, ht⟩ := rule1 (d := 2) (by simp)
  have hO := mesh_onNodes (N := 2) (n := n) (nNodes := nNodes) (by simp) ht (.neg .lap) h.proper fun _ => true
  set P := meshProb 2 1 (2 + 1) t (.neg .lap) cells n X (enumDofs1 cells nNodes fun _ => true) with hP
  have hcell : ∀ c, P.cell (natX X) c = region 3 cells X c := fun c => mesh_cell (N := 2) (t := t) (nNodes := nNodes) (.neg .lap) _ c
  have hpts : ∀ c, ∀ i : Fin 3, ∀ j : Fin 2, facetPts P (natX X) c i j = (cellOf 2 cells X c).coords (i.succAbove j) := by
    intro c i j
    exact natX_fin X _
  have hsub : ∀ c, ∀ i : Fin 3, convexHull ℝ (Set.range (facetPts P (natX X) c i)) ⊆ region 3 cells X c := by
    intro c i
    refine HasSubset.Subset.trans (convexHull_mono ?_) (tri_region c).subset
    rintro _ ⟨j, rfl⟩
    exact ⟨_, (hpts c i j).symm⟩
  have hzero : ∀ c < n, ∀ i : Fin 3, ∀ j : Fin 2, (cellOf 2 cells X c).bary (facetPts P (natX X) c i j) i = 0 := by
    intro c hc i j
    refine (congrArg (fun y => (cellOf 2 cells X c).bary y i) (hpts c i j)).trans ?_
    show (cellOf 2 cells X c).bary ((cellOf 2 cells X c).coords (i.succAbove j)) i = 0
    rw [C42_vertex (proper_nondeg h.proper hc)]
    exact Pi.single_eq_of_ne (Fin.succAbove_ne i j).symm 1
  have hmem : ∀ c i p, i < 3 → (p ∈ P.facet c i ↔ ∃ w < 3, w ≠ i ∧ cells c w = p) := by
    intro c i p hi
    rw [facet_fin (P := P) (nn := 3) rfl c ⟨i, hi⟩, Finset.mem_image]
    constructor
    · rintro ⟨w, hw, e⟩
      exact ⟨w, w.2, fun e' => (Finset.mem_erase.1 hw).1 (Fin.ext e'), e⟩
    · rintro ⟨w, hw, hne, e⟩
      exact ⟨⟨w, hw⟩, Finset.mem_erase.2 ⟨fun e' => hne (congrArg Fin.val e'), Finset.mem_univ _⟩, e⟩
  have hsh : ∀ c i c', i < 3 → (Shares cells 3 c i c' ↔ ∀ p ∈ P.facet c i, Vertex cells 3 c' p) := by
    intro c i c' hi
    constructor
    · intro hs p hp
      obtain ⟨w, hw, hne, rfl⟩ := (hmem c i p hi).1 hp
      exact hs w hw hne
    · intro hs w hw hne
      exact hs _ ((hmem c i _ hi).2 ⟨w, hw, hne, rfl⟩)
  have key := mesh_divergence' hO (fun T => ∃ c < n, ∃ i < 3, P.facet c i = T ∧ Inner cells n c i) (fun c hc i hi hA => ?_) z F F'
    (fun c hc x hx => ?_) (fun c hc => ?_) (fun c hc c' hc' i i' hf x hx => ?_) (fun c hc i hA x hx => ?_)
  · rw [← key]
    exact Finset.sum_congr rfl fun c _ => congrArg (fun s : Set (Fin 2 → ℝ) => ∫ x in s, F' c x (Pi.single z 1)) (hcell c).symm
  · refine mesh_paired (by norm_num) (.neg .lap) h _ hP c hc i hi ?_
    obtain ⟨c1, hc1, i1, hi1, e, c2, hc2, hs2, hne2⟩ := hA
    have hi' : i < 3 := hi
    by_cases hcc : c1 = c
    · subst hcc
      refine ⟨c2, hc2, ?_, hne2⟩
      rw [hsh _ _ _ hi', ← e, ← hsh _ _ _ hi1]
      exact hs2
    · refine ⟨c1, hc1, ?_, hcc⟩
      rw [hsh _ _ _ hi', ← e]
      intro p hp
      obtain ⟨w, hw, -, e'⟩ := (hmem c1 i1 p hi1).1 hp
      exact ⟨w, hw, e'⟩
  · rw [hcell] at hx ⊢
    exact hF c hc x hx
  · rw [hcell]
    exact hF' c hc
  · refine hag c hc c' hc' x (hsub c i hx) (hsub c' i' ?_)
    obtain ⟨σ, hσ⟩ := facet_pts_perm hO hc hc' i i' hf
    refine convexHull_mono ?_ hx
    rw [hσ]
    exact Set.range_comp_subset_range _ _
  · refine hva c hc i (fun hin => hA ⟨c, hc, i, i.2, rfl, hin⟩) x (hsub c i hx) ?_
    refine convexHull_min ?_ (bary_convex (S := cellOf 2 cells X c) i) hx
    rintro _ ⟨j, rfl⟩
    exact hzero c hc i j


/-! ### Functions of second order -/

variable {fs : List (List Nat)} {D : Nat → Nat → Nat}

theorem q2_val (h : Proper 3 n cells X) (D : Nat → Nat → Nat) (v : Nat → ℝ) {c : Nat} (hc : c < n) {x : Vec 2} (hx : x ∈ region 3 cells X c) :
    q2 (cellOf 2 cells X c) (loc D v c) x = valIn 2 2 6 cells D X v c x := by
  have hS := proper_nondeg h hc
  have hb := refPoint_back hS (by rw [← region_hull]; exact hx)
  conv_lhs => rw [← hb]
  have := q2_eval hS (loc D v c) fun z : Fin 2 => refPoint (cellOf 2 cells X c) x z
  refine this.trans (Finset.sum_congr rfl fun i _ => ?_)
  rw [basis2]
  rfl

theorem q2_same (h : GoodMesh 3 n nNodes cells X) (hD : Numbered cells n nNodes fs D) (v : Nat → ℝ) {c c' : Nat} (hc : c < n) (hc' : c' < n)
    {x : Vec 2} (hx : x ∈ region 3 cells X c) (hx' : x ∈ region 3 cells X c') :
    q2 (cellOf 2 cells X c) (loc D v c) x = q2 (cellOf 2 cells X c') (loc D v c') x := by
  have hm := C131_manifold (N := 2) (by norm_num) h
  rw [q2_val h.proper D v hc hx, q2_val h.proper D v hc' hx', val2 h.proper hm h.nodes hD v hc, val2 h.proper hm h.nodes hD v hc',
    wt_same h.proper h.conforming hc hc' hx hx']

/-- `v` vanishes at the dofs of the edges that are in one cell only. -/
def Vanish (cells : Nat → Nat → Nat) (n : Nat) (D : Nat → Nat → Nat) (v : Nat → ℝ) : Prop :=
  ∀ c < n, ∀ i : Fin 3, ¬ Inner cells n c i → (∀ w : Fin 3, w ≠ i → v (D c w) = 0) ∧ v (D c (3 + (2 - i))) = 0

theorem q2_vanish {v : Nat → ℝ} (hv : Vanish cells n D v) {c : Nat} (hc : c < n) {i : Fin 3} (hi : ¬ Inner cells n c i) {x : Vec 2}
    (hx : (cellOf 2 cells X c).bary x i = 0) : q2 (cellOf 2 cells X c) (loc D v c) x = 0 := by
  obtain ⟨h1, h2⟩ := hv c hc i hi
  have hl : ∀ k, loc D v c k = v (D c k) := fun _ => rfl
  fin_cases i
  · have a := h1 1 (by decide)
    have b := h1 2 (by decide)
    have hx : (cellOf 2 cells X c).bary x 0 = 0 := hx
    have e1 : loc D v c 1 = 0 := a
    have e2 : loc D v c 2 = 0 := b
    have e3 : loc D v c 5 = 0 := h2
    simp [q2, hx, e1, e2, e3]
  · have a := h1 0 (by decide)
    have b := h1 2 (by decide)
    have hx : (cellOf 2 cells X c).bary x 1 = 0 := hx
    have e1 : loc D v c 0 = 0 := a
    have e2 : loc D v c 2 = 0 := b
    have e3 : loc D v c 4 = 0 := h2
    simp [q2, hx, e1, e2, e3]
  · have a := h1 0 (by decide)
    have b := h1 1 (by decide)
    have hx : (cellOf 2 cells X c).bary x 2 = 0 := hx
    have e1 : loc D v c 0 = 0 := a
    have e2 : loc D v c 1 = 0 := b
    have e3 : loc D v c 3 = 0 := h2
    simp [q2, hx, e1, e2, e3]

/-- The gradient of a function of second order as a linear map. -/
noncomputable def g2D (S : Simplex 2 2) (w : Fin 6 → ℝ) (x : Vec 2) : Vec 2 →L[ℝ] ℝ :=
  ∑ z, g2 S w x z • ContinuousLinearMap.proj (R := ℝ) (φ := fun _ : Fin 2 => ℝ) z

theorem g2D_single (S : Simplex 2 2) (w : Fin 6 → ℝ) (x : Vec 2) (z : Fin 2) : g2D S w x (Pi.single z 1) = g2 S w x z := by
  fin_cases z <;> simp [g2D, Pi.single_apply]

theorem g2D_cont (S : Simplex 2 2) (w : Fin 6 → ℝ) : Continuous (g2D S w) := by
  unfold g2D
  exact continuous_finsetSum _ fun z _ => (g2_cont w z).smul continuous_const

theorem region_cpt (c : Nat) : IsCompact (region 3 cells X c) := region_compact (N := 2) cells X c

/-- Integration by parts with a test function. -/
theorem parts2 (h : GoodMesh 3 n nNodes cells X) (hD : Numbered cells n nNodes fs D) {v : Nat → ℝ} (hv : Vanish cells n D v) (z : Fin 2)
    (g : Vec 2 → ℝ) (g' : Vec 2 → Vec 2 →L[ℝ] ℝ)
    (hg : ∀ c < n, ∀ x ∈ region 3 cells X c, HasFDerivAt g (g' x) x) (hg' : ∀ c < n, ContinuousOn g' (region 3 cells X c)) :
    ∑ c ∈ Finset.range n, ∫ x in region 3 cells X c,
      (q2 (cellOf 2 cells X c) (loc D v c) x * g' x (Pi.single z 1) + g x * g2 (cellOf 2 cells X c) (loc D v c) x z) = 0 := by
  refine (Finset.sum_congr rfl fun c _ => ?_).trans (mesh_div2 h z (fun c x => q2 (cellOf 2 cells X c) (loc D v c) x * g x)
    (fun c x => q2 (cellOf 2 cells X c) (loc D v c) x • g' x + g x • g2D (cellOf 2 cells X c) (loc D v c) x)
    (fun c hc x hx => ((q2_hasFDerivAt _ x).mul (hg c hc x hx)).hasFDerivWithinAt) (fun c hc => ?_)
    (fun c hc c' hc' x hx hx' => by rw [q2_same h hD v hc hc' hx hx']) fun c hc i hi x _ hx => by rw [q2_vanish hv hc hi hx, zero_mul])
  · refine setIntegral_congr_fun (region_cpt c).measurableSet fun x _ => ?_
    simp only [_root_.add_apply, _root_.smul_apply, smul_eq_mul, g2D_single]
  · refine ((q2_cont _).continuousOn.smul (hg' c hc)).add ?_
    exact ContinuousOn.smul (fun x hx => (hg c hc x hx).continuousAt.continuousWithinAt) (g2D_cont _ _).continuousOn

/-- The weak form of the strong equation. -/
theorem weak2 (h : GoodMesh 3 n nNodes cells X) (hD : Numbered cells n nNodes fs D) {v : Nat → ℝ} (hv : Vanish cells n D v) {u : Vec 2 → ℝ}
    (hu : ∃ U, IsOpen U ∧ domain 3 n cells X ⊆ U ∧ ContDiffOn ℝ 2 u U) :
    ∑ c ∈ Finset.range n, ∫ x in region 3 cells X c, ∑ z, pderiv u z x * g2 (cellOf 2 cells X c) (loc D v c) x z =
      ∑ c ∈ Finset.range n, ∫ x in region 3 cells X c, -laplacian u x * q2 (cellOf 2 cells X c) (loc D v c) x := by
  obtain ⟨U, hU, hDo, hC⟩ := hu
  have hp := fun z => parts2 h hD hv z (pderiv u z) (fderiv ℝ (pderiv u z))
    (fun c hc x hx => (((pderiv_contDiff hU hC z).contDiffAt (hU.mem_nhds (hDo (region_domain (N := 2) hc hx)))).differentiableAt (by norm_num)).hasFDerivAt)
    (fun c hc => ((pderiv_contDiff hU hC z).continuousOn_fderiv_of_isOpen hU (by norm_num)).mono ((region_domain (N := 2) hc).trans hDo))
  have hs : ∑ z : Fin 2, ∑ c ∈ Finset.range n, ∫ x in region 3 cells X c,
      (q2 (cellOf 2 cells X c) (loc D v c) x * pderiv (pderiv u z) z x + pderiv u z x * g2 (cellOf 2 cells X c) (loc D v c) x z) = 0 :=
    Finset.sum_eq_zero fun z _ => hp z
  rw [Finset.sum_comm] at hs
  rw [← sub_eq_zero, ← Finset.sum_sub_distrib, ← hs]
  refine Finset.sum_congr rfl fun c hc => ?_
  have hc' := Finset.mem_range.1 hc
  have hsub : region 3 cells X c ⊆ U := (region_domain (N := 2) hc').trans hDo
  have c1 : ∀ z, ContinuousOn (pderiv u z) (region 3 cells X c) := fun z => (pderiv_contDiff hU hC z).continuousOn.mono hsub
  have c2 : ∀ z, ContinuousOn (pderiv (pderiv u z) z) (region 3 cells X c) := fun z =>
    (((pderiv_contDiff hU hC z).continuousOn_fderiv_of_isOpen hU (by norm_num)).mono hsub).clm_apply continuousOn_const
  have c3 : ContinuousOn (q2 (cellOf 2 cells X c) (loc D v c)) (region 3 cells X c) := (q2_cont _).continuousOn
  have c4 : ∀ z, ContinuousOn (fun x => g2 (cellOf 2 cells X c) (loc D v c) x z) (region 3 cells X c) := fun z => (g2_cont _ z).continuousOn
  have i1 : IntegrableOn (fun x => ∑ z, pderiv u z x * g2 (cellOf 2 cells X c) (loc D v c) x z) (region 3 cells X c) :=
    (continuousOn_finsetSum _ fun z _ => (c1 z).mul (c4 z)).integrableOn_compact (region_cpt c)
  have i2 : IntegrableOn (fun x => -laplacian u x * q2 (cellOf 2 cells X c) (loc D v c) x) (region 3 cells X c) :=
    (((continuousOn_finsetSum _ fun z _ => c2 z).neg).mul c3).integrableOn_compact (region_cpt c)
  have i3 : ∀ z, IntegrableOn (fun x => q2 (cellOf 2 cells X c) (loc D v c) x * pderiv (pderiv u z) z x +
      pderiv u z x * g2 (cellOf 2 cells X c) (loc D v c) x z) (region 3 cells X c) := fun z =>
    ((c3.mul (c2 z)).add ((c1 z).mul (c4 z))).integrableOn_compact (region_cpt c)
  rw [← integral_sub i1 i2, ← integral_finsetSum _ fun z _ => i3 z]
  refine integral_congr_ae (Filter.Eventually.of_forall fun x => ?_)
  simp only [laplacian, Finset.sum_add_distrib, ← Finset.mul_sum]
  ring

/-- The inequality of Friedrichs on a domain between two parallel lines. -/
theorem friedrichs2 (h : GoodMesh 3 n nNodes cells X) (hD : Numbered cells n nNodes fs D) {v : Nat → ℝ} (hv : Vanish cells n D v) (z : Fin 2) {a ℓ : ℝ}
    (hl : ∀ c < n, ∀ x ∈ region 3 cells X c, |x z - a| ≤ ℓ) :
    ∑ c ∈ Finset.range n, en0 (cellOf 2 cells X c) (loc D v c) ≤ (2 * ℓ) ^ 2 * ∑ c ∈ Finset.range n, en1 (cellOf 2 cells X c) (loc D v c) := by
  have hd : ∀ x : Vec 2, HasFDerivAt (fun x : Vec 2 => x z - a) (ContinuousLinearMap.proj (R := ℝ) (φ := fun _ : Fin 2 => ℝ) z) x :=
    fun x => (ContinuousLinearMap.proj (R := ℝ) (φ := fun _ : Fin 2 => ℝ) z).hasFDerivAt.sub_const a
  set E : Nat → Vec 2 → ℝ := fun c => q2 (cellOf 2 cells X c) (loc D v c) with hE
  set G : Nat → Vec 2 → Vec 2 →L[ℝ] ℝ := fun c => g2D (cellOf 2 cells X c) (loc D v c) with hG
  have hEc : ∀ c, Continuous (E c) := fun c => q2_cont _
  have hGc : ∀ c, Continuous (G c) := fun c => g2D_cont _ _
  have hEd : ∀ c x, HasFDerivAt (E c) (G c x) x := fun c x => q2_hasFDerivAt _ x
  have key := mesh_div2 h z (fun c x => (E c x * E c x) * (x z - a))
    (fun c x => (E c x * E c x) • ContinuousLinearMap.proj (R := ℝ) (φ := fun _ : Fin 2 => ℝ) z + (x z - a) • (E c x • G c x + E c x • G c x))
    (fun c hc x hx => (((hEd c x).mul (hEd c x)).mul (hd x)).hasFDerivWithinAt) (fun c hc => ?_)
    (fun c hc c' hc' x hx hx' => by simp only [hE, q2_same h hD v hc hc' hx hx']) fun c hc i hi x _ hx => by simp only [hE, q2_vanish hv hc hi hx]; ring
  swap
  · refine Continuous.continuousOn ?_
    have := hEc c
    have := hGc c
    fun_prop
  have e : ∀ c ∈ Finset.range n, en0 (cellOf 2 cells X c) (loc D v c) ≤
      2 * (∫ x in region 3 cells X c, ((E c x * E c x) • ContinuousLinearMap.proj (R := ℝ) (φ := fun _ : Fin 2 => ℝ) z +
        (x z - a) • (E c x • G c x + E c x • G c x)) (Pi.single z 1)) + (2 * ℓ) ^ 2 * en1 (cellOf 2 cells X c) (loc D v c) := by
    intro c hc
    have hc' := Finset.mem_range.1 hc
    set g : Vec 2 → Fin 2 → ℝ := g2 (cellOf 2 cells X c) (loc D v c) with hg
    have hgc : ∀ z, Continuous fun x => g x z := fun z => g2_cont _ z
    have hec := hEc c
    have hpt : ∀ x, ((E c x * E c x) • ContinuousLinearMap.proj (R := ℝ) (φ := fun _ : Fin 2 => ℝ) z +
        (x z - a) • (E c x • G c x + E c x • G c x)) (Pi.single z 1) = E c x ^ 2 + 2 * ((x z - a) * (E c x * g x z)) := by
      intro x
      have : G c x (Pi.single z 1) = g x z := g2D_single _ _ x z
      simp only [_root_.add_apply, _root_.smul_apply, smul_eq_mul, this, ContinuousLinearMap.proj_apply, Pi.single_eq_same]
      ring
    simp only [hpt]
    rw [en0, en1, tri_region]
    have i1 : IntegrableOn (fun x => 2 * (E c x ^ 2 + 2 * ((x z - a) * (E c x * g x z)))) (region 3 cells X c) :=
      ContinuousOn.integrableOn_compact (region_cpt c) (Continuous.continuousOn (by have := hgc z; fun_prop))
    have i2 : IntegrableOn (fun x => (2 * ℓ) ^ 2 * ∑ z, g x z ^ 2) (region 3 cells X c) :=
      ContinuousOn.integrableOn_compact (region_cpt c) (Continuous.continuousOn (continuous_const.mul (continuous_finsetSum _ fun z _ => (hgc z).pow 2)))
    have i0 : IntegrableOn (fun x => E c x ^ 2) (region 3 cells X c) :=
      ContinuousOn.integrableOn_compact (region_cpt c) (Continuous.continuousOn (by fun_prop))
    rw [← integral_const_mul, ← integral_const_mul, ← integral_add i1 i2]
    refine setIntegral_mono_on i0 (i1.add i2) (region_cpt c).measurableSet fun x hx => ?_
    show E c x ^ 2 ≤ 2 * (E c x ^ 2 + 2 * ((x z - a) * (E c x * g x z))) + (2 * ℓ) ^ 2 * ∑ z, g x z ^ 2
    have h1 : (x z - a) ^ 2 ≤ ℓ ^ 2 := sq_le_sq' (by linarith [neg_abs_le (x z - a), hl c hc' x hx]) ((le_abs_self _).trans (hl c hc' x hx))
    have h2 : g x z ^ 2 ≤ ∑ z, g x z ^ 2 := Finset.single_le_sum (f := fun z => g x z ^ 2) (fun z _ => sq_nonneg _) (Finset.mem_univ z)
    have h3 : (x z - a) ^ 2 * g x z ^ 2 ≤ ℓ ^ 2 * ∑ z, g x z ^ 2 := mul_le_mul h1 h2 (sq_nonneg _) (sq_nonneg _)
    nlinarith [sq_nonneg (E c x + 2 * ((x z - a) * g x z))]
  refine (Finset.sum_le_sum e).trans (le_of_eq ?_)
  rw [Finset.sum_add_distrib, ← Finset.mul_sum, key, ← Finset.mul_sum, mul_zero, zero_add]

end Fdapde.PDE
