import Verif.PDE.MeshProb
import Verif.PDE.MeshProbSpec
import Verif.PDE.PropsMaximum
import Verif.PDE.PropsPatch
import Verif.FEM.LemmasMesh
import Verif.Geometry.PropsMeasure
/- C131: problems on meshes. -/
set_option linter.unusedSectionVars false
namespace Fdapde.PDE
open Fdapde.Geometry Fdapde.FEM Fdapde.Quadrature Fdapde.Triang Matrix
variable {d N : Nat}

theorem cellMeasure_full (S : Simplex N N) : cellMeasure S = S.measure := by
  rw [cellMeasure, dif_pos rfl]; rfl

theorem col_ne_zero {S : Simplex d N} (hS : S.Nondeg) (w : Fin d → ℝ) (hw : w ≠ 0) : S.J *ᵥ w ≠ 0 := by
  intro h
  exact hw (hS.injective (h.trans (Matrix.mulVec_zero _).symm))

theorem det_ne_zero {S : Simplex N N} (hS : S.Nondeg) : S.J.det ≠ 0 := by
  have := Simplex.J_mul_invJ hS
  intro h
  have e := congrArg Matrix.det this
  rw [Matrix.det_mul, h, zero_mul, Matrix.det_one] at e
  exact zero_ne_one e

theorem measureSeg_pos {S : Simplex 1 N} (hS : S.Nondeg) : 0 < S.measureSeg := by
  refine norm_pos fun h => col_ne_zero hS (fun _ => 1) (fun e => one_ne_zero (congrFun e 0)) ?_
  ext i
  rw [Matrix.mulVec, dotProduct, Fin.sum_univ_one, mul_one]
  exact congrFun h i

theorem measureTri_pos {S : Simplex 2 3} (hS : S.Nondeg) : 0 < S.measureTri := by
  refine mul_pos (by norm_num) (norm_pos fun h => ?_)
  set u : Vec 3 := fun i => S.J i 0 with hu
  set v : Vec 3 := fun i => S.J i 1 with hv
  have hl := lagrange_identity u v
  rw [sqNorm_eq_zero.2 h] at hl
  -- (v·v) u - (u·v) v has zero norm
  have hz : S.J *ᵥ ![sqNorm v, -(u ⬝ᵥ v)] = 0 := by
    rw [← sqNorm_eq_zero]
    have e : S.J *ᵥ ![sqNorm v, -(u ⬝ᵥ v)] = fun i => sqNorm v * u i - (u ⬝ᵥ v) * v i := by
      ext i
      simp [Matrix.mulVec, dotProduct, Fin.sum_univ_two, hu, hv]; ring
    rw [e]
    have : sqNorm (fun i => sqNorm v * u i - (u ⬝ᵥ v) * v i) = sqNorm v * (sqNorm u * sqNorm v - (u ⬝ᵥ v) ^ 2) := by
      simp only [sqNorm, dotProduct, Fin.sum_univ_three]; ring
    rw [this, ← hl, mul_zero]
  by_cases h0 : sqNorm v = 0
  · have hv0 : v = 0 := sqNorm_eq_zero.1 h0
    refine col_ne_zero hS ![0, 1] (fun e => one_ne_zero (congrFun e 1)) ?_
    ext i
    simpa [Matrix.mulVec, dotProduct, Fin.sum_univ_two] using congrFun hv0 i
  · exact col_ne_zero hS _ (fun e => h0 (congrFun e 0)) hz

theorem cellMeasure_pos (hd : Dims d N) {S : Simplex d N} (hS : S.Nondeg) : 0 < cellMeasure S := by
  by_cases h : d = N
  · subst h
    rw [cellMeasure_full]
    exact div_pos (abs_pos.2 (det_ne_zero hS)) (by exact_mod_cast Nat.factorial_pos _)
  · simp only [Dims, List.mem_cons, Prod.mk.injEq, List.not_mem_nil, or_false] at hd
    have : (d = 1 ∧ N = 2) ∨ (d = 2 ∧ N = 3) := by omega
    rcases this with ⟨rfl, rfl⟩ | ⟨rfl, rfl⟩
    · rw [cellMeasure, dif_neg (by decide)]; exact measureSeg_pos hS
    · rw [cellMeasure, dif_neg (by decide)]; exact measureTri_pos hS

/-- Coordinates of a point as a function on the natural numbers. -/
noncomputable def natX (X : Nat → Vec N) (p z : Nat) : ℝ := if h : z < N then X p ⟨z, h⟩ else 0

/-- Jacobian of a cell. -/
noncomputable def jacAt (S : Simplex d N) (z w : Nat) : ℝ := if h : z < N ∧ w < d then S.J ⟨z, h.1⟩ ⟨w, h.2⟩ else 0

theorem inv_jac {S : Simplex d N} (hS : S.Nondeg) {w w' : Nat} (hw : w < d) (hw' : w' < d) :
    ∑ z ∈ Finset.range N, invAt S w z * jacAt S z w' = if w = w' then 1 else 0 := by
  rw [Finset.sum_range]
  have h := congrFun (congrFun (Simplex.invJ_mul_J hS) ⟨w, hw⟩) ⟨w', hw'⟩
  rw [Matrix.mul_apply, Matrix.one_apply] at h
  simp only [Fin.mk.injEq] at h
  rw [← h]
  exact Finset.sum_congr rfl fun z _ => by rw [invAt, jacAt, dif_pos ⟨hw, z.2⟩, dif_pos ⟨z.2, hw'⟩]

/-- Elements on a mesh are Lagrangian elements. -/
theorem mesh_lagrange {R nb n : Nat} {t : Table} (hs : Supported d R nb) (ht : standardRule d R = some t) (op : Op ℝ) {cells : Nat → Nat → Nat}
    {X : Nat → Vec N} (hp : Proper (d + 1) n cells X) (dofs : (Nat → Nat → Option Nat) × (Nat → Bool) × Nat) :
    (meshProb d R nb t op cells n X dofs).Lagrange d R (fun c => invAt (cellOf d cells X c)) (fun c => jacAt (cellOf d cells X c)) where
  supported := hs
  rule := ht
  psi := fun i x => dif_pos (c := (i : Nat) < nb) i.2
  grad := fun c _ i x z => dif_pos (c := (i : Nat) < nb) i.2
  inv := fun c hc w hw w' hw' => inv_jac (proper_nondeg hp hc) hw hw'

theorem dims_mem (hd : Dims d N) : d ∈ [1, 2, 3] := by
  simp only [Dims, List.mem_cons, Prod.mk.injEq, List.not_mem_nil, or_false] at hd ⊢
  omega

theorem rule1 (hd : d ∈ [1, 2, 3]) : ∃ t, standardRule d 1 = some t := by
  simp only [List.mem_cons, List.not_mem_nil, or_false] at hd
  rcases hd with rfl | rfl | rfl <;> exact ⟨_, rfl⟩

/-- Dofs are linked when the vertices of every cell are dofs of the cell, every dof is in a cell and cells are linked through nodes. -/
theorem linked_of {P : Prob ℝ} {nn : Nat} {cells : Nat → Nat → Nat} (hv : ∀ c < P.n, ∀ v < nn, ∃ i < P.nb, P.dofs c i = cells c v)
    (hu : ∀ p < P.m, ∃ c < P.n, ∃ i < P.nb, P.dofs c i = p)
    (hc : ∀ c < P.n, ∀ c' < P.n, Relation.ReflTransGen (Touch nn P.n cells) c c') :
    ∀ p < P.m, ∀ q < P.m, Relation.ReflTransGen P.Linked p q := by
  intro p hp q hq
  obtain ⟨c, hc0, i, hi, rfl⟩ := hu p hp
  obtain ⟨c', hc', j, hj, rfl⟩ := hu q hq
  have key : ∀ x, Relation.ReflTransGen (Touch nn P.n cells) c x → x < P.n → ∀ j < P.nb, Relation.ReflTransGen P.Linked (P.dofs c i) (P.dofs x j) := by
    intro x hx
    induction hx with
    | refl => exact fun _ j hj => .single ⟨c, hc0, i, hi, j, hj, rfl, rfl⟩
    | tail _ hxy ih =>
      intro hy j hj
      obtain ⟨hb, _, v, hv1, w, hw1, e⟩ := hxy
      obtain ⟨a, ha, ea⟩ := hv _ hb v hv1
      obtain ⟨b, hb', eb⟩ := hv _ hy w hw1
      refine (ih hb a ha).tail ?_
      exact ⟨_, hy, b, hb', j, hj, by rw [eb, ea, e], rfl⟩
  exact key c' (hc c hc0 c' hc') hc' j hj

/-! ### The theorems -/

/-- **C131**, topology: on a mesh of full dimension at most two cells share a facet, so that the results about edges, faces, neighbours and
numbering of dofs apply. -/
theorem C131_manifold (hN : 0 < N) {n nNodes : Nat} {cells : Nat → Nat → Nat} {X : Nat → Fin N → ℝ} (h : GoodMesh (N + 1) n nNodes cells X) :
    Manifold cells (N + 1) n :=
  manifold_of_conforming hN h.proper h.conforming h.distinct

/-- **C131**, first order, for every pair of dimensions: the problem is made of Lagrangian elements with their standard rule on
cells of positive measure and any two of its dofs are linked through cells. -/
theorem C131_first_order (hd : Dims d N) (op : Op ℝ) {n nNodes : Nat} {cells : Nat → Nat → Nat} {X : Nat → Fin N → ℝ} (bNodes : Nat → Bool)
    (h : GoodMesh (d + 1) n nNodes cells X) :
    ∃ P I J, problem1 d op cells n nNodes X bNodes = .ok P ∧ P.Lagrange d 1 I J ∧ P.op = op ∧ P.N = N ∧ P.n = n ∧ P.nb = d + 1 ∧
      P.m = nNodes ∧ P.bd = bNodes ∧ (∀ c v, P.dofs c v = cells c v) ∧ (∀ c < n, 0 < P.measure c) ∧
      ∀ p < P.m, ∀ q < P.m, Relation.ReflTransGen P.Linked p q := by
  obtain ⟨t, ht⟩ := rule1 (dims_mem hd)
  refine ⟨_, _, _, by rw [problem1, ht]; rfl, mesh_lagrange (supported1 (dims_mem hd)) ht op h.proper _, rfl, rfl, rfl, rfl, rfl, rfl, fun _ _ => rfl,
    fun c hc => cellMeasure_pos hd (proper_nondeg h.proper hc), ?_⟩
  refine linked_of (nn := d + 1) (cells := cells) (fun c _ v hv => ⟨v, hv, rfl⟩) (fun p hp => ?_)
    fun c hc c' hc' => touch_of_connected (Nat.succ_pos d) h.conforming h.connected hc hc'
  obtain ⟨c, hc, v, hv, e⟩ := h.used p hp
  exact ⟨c, hc, v, hv, e⟩

/-- **C131**, second order, on triangles of the plane or of a surface with at most two cells at an edge. -/
theorem C131_second_order (hN : N = 2 ∨ N = 3) (op : Op ℝ) {n nNodes : Nat} {cells : Nat → Nat → Nat} {X : Nat → Fin N → ℝ} (bNodes : Nat → Bool)
    (h : GoodMesh 3 n nNodes cells X) (hm : Manifold cells 3 n) :
    ∃ P I J, problem2 op cells n nNodes X bNodes = .ok P ∧ P.Lagrange 2 2 I J ∧ P.op = op ∧ P.N = N ∧ P.n = n ∧ P.nb = 6 ∧
      nNodes ≤ P.m ∧ (∀ p < nNodes, P.bd p = bNodes p) ∧ (∀ c < n, ∀ v < 3, P.dofs c v = cells c v) ∧
      (∀ c < n, ∀ i < 6, P.dofs c i < P.m) ∧ (∀ c < n, 0 < P.measure c) ∧
      ∀ p < P.m, ∀ q < P.m, Relation.ReflTransGen P.Linked p q := by
  have hd : Dims 2 N := by rcases hN with rfl | rfl <;> (unfold Dims; decide)
  obtain ⟨f, h1, dofs, bnd, h2, hv, he, hb, _⟩ := C57_numbering cells n nNodes bNodes hm
  obtain ⟨f', h1', dofs', bnd', m', h2', _, _, h5, h6⟩ := C57_bijection cells n nNodes bNodes hm h.nodes
  obtain rfl := Res.ok.inj (h1.symm.trans h1')
  have e := Res.ok.inj (h2.symm.trans h2')
  simp only [Prod.mk.injEq] at e
  obtain ⟨rfl, rfl, rfl⟩ := e
  refine ⟨meshProb 2 2 6 rule2_6 op cells n X (dofs, bnd, nNodes + f.facets.length), _, _, by rw [problem2, show standardRule 2 2 = some _ from rfl, Res.ofOptionUB_some, Res.ok_bind, h1, Res.ok_bind, h2, Res.ok_bind],
    mesh_lagrange supported22 rfl op h.proper _, rfl, rfl, rfl, rfl, Nat.le_add_right _ _, hb, fun c hc v hv' => ?_, fun c hc i hi => ?_,
    fun c hc => cellMeasure_pos hd (proper_nondeg h.proper hc), ?_⟩
  · simp only [meshProb, hv c hc v hv', Option.getD_some]
  · obtain ⟨y, hy, e⟩ := h5 c hc i hi
    simp only [meshProb, e, Option.getD_some]
    exact hy
  · refine linked_of (nn := 3) (cells := cells) (fun c hc v hv' => ⟨v, by simp only [meshProb]; omega, by simp only [meshProb, hv c hc v hv', Option.getD_some]⟩) (fun p hp => ?_)
      fun c hc c' hc' => touch_of_connected (by norm_num) h.conforming h.connected hc hc'
    by_cases hpn : p < nNodes
    · obtain ⟨c, hc, v, hv', e⟩ := h.used p hpn
      exact ⟨c, hc, v, by simp only [meshProb]; omega, by simp only [meshProb, hv c hc v hv', Option.getD_some, e]⟩
    · obtain ⟨c, hc, j, hj, e⟩ := h6 p (by omega) hp
      exact ⟨c, hc, 3 + j, by simp only [meshProb]; omega, by simp only [meshProb, e, Option.getD_some]⟩

/-- **C131**, solution with first order elements: on a mesh, for an elliptic operator, initialisation and solution succeed and give the
unique discrete solution.  Partial: the operator has symmetric tensors and no scalar factors, and dof 0 is on the boundary (C102). -/
theorem C131_solve_first_partial (hd : Dims d N) (op : Op ℝ) (hs : FlagRight N op) (hns : NoScalar op) {n nNodes : Nat} {cells : Nat → Nat → Nat}
    {X : Nat → Fin N → ℝ} (bNodes : Nat → Bool) (h : GoodMesh (d + 1) n nNodes cells X) (hell : ∀ r, Elliptic N op r)
    (lu : Solver ℝ) (hlu : ExactLU nNodes lu) (hlc : CompleteLU nNodes lu) (hm : 0 < nNodes) (h0 : bNodes 0 = true) :
    ∃ P, problem1 d op cells n nNodes X bNodes = .ok P ∧ P.m = nNodes ∧ ∀ (data : Dense ℝ), n * size P.t ≤ data.rows → data.cols = 1 →
      ∀ g : Dense ℝ, nNodes ≤ g.rows → 0 < g.cols → ∀ junk, ∃ w, (P.init data junk >>= pdeSolveElliptic lu g) = .ok (true, some w) ∧
        P.Galerkin (fun c k => data.at' (size P.t * c + k) 0) (fun p => g.at' p 0) w ∧
        ∀ w', P.Galerkin (fun c k => data.at' (size P.t * c + k) 0) (fun p => g.at' p 0) w' → ∀ p < nNodes, w' p = w p := by
  obtain ⟨P, I, J, e, hL, e1, e2, e3, e4, e5, e6, e7, hpos, hcon⟩ := C131_first_order hd op bNodes h
  refine ⟨P, e, e5, fun data hr hc g hg hgc junk => ?_⟩
  have hE := C103_coercive P (C103_elements P hL (by simp) (fun c _ k _ => by rw [e1, e2]; exact hell _) (by rwa [e3]) hcon)
  have := C103_solve_partial P ⟨fun c hc i hi => by rw [e7, e5]; exact h.nodes c (by omega) i (by omega), by rw [e1, e2]; exact hs, by rw [e1]; exact hns⟩
    hE lu (by rwa [e5]) (by rwa [e5]) data (by rwa [e3]) hc g (by rwa [e5]) hgc (by rwa [e5]) (by rwa [e6]) junk
  rwa [e5] at this

/-- **C131**, solution with second order elements on triangles. -/
theorem C131_solve_second_partial (hN : N = 2 ∨ N = 3) (op : Op ℝ) (hs : FlagRight N op) (hns : NoScalar op) {n nNodes : Nat}
    {cells : Nat → Nat → Nat} {X : Nat → Fin N → ℝ} (bNodes : Nat → Bool) (h : GoodMesh 3 n nNodes cells X) (hM : Manifold cells 3 n)
    (hell : ∀ r, Elliptic N op r) (hm : 0 < nNodes) (h0 : bNodes 0 = true) :
    ∃ P, problem2 op cells n nNodes X bNodes = .ok P ∧ ∀ (lu : Solver ℝ), ExactLU P.m lu → CompleteLU P.m lu →
      ∀ (data : Dense ℝ), n * size P.t ≤ data.rows → data.cols = 1 → ∀ g : Dense ℝ, P.m ≤ g.rows → 0 < g.cols → ∀ junk,
        ∃ w, (P.init data junk >>= pdeSolveElliptic lu g) = .ok (true, some w) ∧
        P.Galerkin (fun c k => data.at' (size P.t * c + k) 0) (fun p => g.at' p 0) w ∧
        ∀ w', P.Galerkin (fun c k => data.at' (size P.t * c + k) 0) (fun p => g.at' p 0) w' → ∀ p < P.m, w' p = w p := by
  obtain ⟨P, I, J, e, hL, e1, e2, e3, e4, e5, e6, _, e7, hpos, hcon⟩ := C131_second_order hN op bNodes h hM
  refine ⟨P, e, fun lu hlu hlc data hr hc g hg hgc junk => ?_⟩
  have hE := C103_coercive P (C103_elements P hL (by simp) (fun c _ k _ => by rw [e1, e2]; exact hell _) (by rwa [e3]) hcon)
  exact C103_solve_partial P ⟨fun c hc i hi => e7 c (by omega) i (by omega), by rw [e1, e2]; exact hs, by rw [e1]; exact hns⟩
    hE lu hlu hlc data (by rwa [e3]) hc g hg hgc (by omega) (by rwa [e6 0 hm]) junk

/-! ### Full dimension: the geometry of the nodes -/

theorem dot_natX (X : Nat → Vec N) (a : Nat → ℝ) (p : Nat) : dot N a (natX X p) = (fun z : Fin N => a z) ⬝ᵥ X p := by
  rw [dot, Finset.sum_range, dotProduct]
  exact Finset.sum_congr rfl fun z _ => by rw [natX, dif_pos z.2]

theorem facet_fin {P : Prob ℝ} {nn : Nat} (hnb : P.nb = nn) (c : Nat) (i : Fin nn) :
    P.facet c i = (Finset.univ.erase i).image (fun w : Fin nn => P.dofs c w) := by
  ext y
  simp only [Prob.facet, hnb, Finset.mem_image, Finset.mem_erase, Finset.mem_range, Finset.mem_univ, and_true]
  constructor
  · rintro ⟨w, ⟨h1, h2⟩, rfl⟩
    exact ⟨⟨w, h2⟩, fun e => h1 (congrArg Fin.val e), rfl⟩
  · rintro ⟨w, h1, rfl⟩
    exact ⟨w, ⟨fun e => h1 (Fin.ext e), w.2⟩, rfl⟩

theorem mesh_onNodes (hN : N ∈ [1, 2, 3]) {n nNodes : Nat} {t : Table} (ht : standardRule N 1 = some t) (op : Op ℝ) {cells : Nat → Nat → Nat}
    {X : Nat → Vec N} (hp : Proper (N + 1) n cells X) (bNodes : Nat → Bool) :
    (meshProb N 1 (N + 1) t op cells n X (enumDofs1 cells nNodes bNodes)).OnNodes (natX X) (fun c => invAt (cellOf N cells X c)) where
  lagrange :=
    { supported := supported1 hN
      rule := ht
      psi := fun i x => dif_pos (c := (i : Nat) < N + 1) i.2
      grad := fun c _ i x z => dif_pos (c := (i : Nat) < N + 1) i.2
      inv := fun c hc w hw w' hw' => by
        rw [← inv_jac (proper_nondeg hp hc) (show w < N from hw) (show w' < N from hw')]
        refine Finset.sum_congr rfl fun z hz => ?_
        have hz : z < N := Finset.mem_range.1 hz
        rw [jacAt, dif_pos ⟨hz, hw'⟩, natX, natX, dif_pos hz, dif_pos hz]
        rfl }
  measure := fun c hc => by
    change cellMeasure _ = _
    rw [cellMeasure_full, Simplex.measure]
    congr 3
    ext z w
    change _ = natX X (cells c (w + 1)) z - natX X (cells c 0) z
    rw [natX, natX, dif_pos z.2, dif_pos z.2]
    rfl

/-- A facet with a second cell: the two cells are on opposite sides of it. -/
theorem mesh_paired (hN : 0 < N) {n nNodes : Nat} {t : Table} (op : Op ℝ) {cells : Nat → Nat → Nat} {X : Nat → Vec N}
    (h : GoodMesh (N + 1) n nNodes cells X) (bNodes : Nat → Bool) {P : Prob ℝ}
    (hP : P = meshProb N 1 (N + 1) t op cells n X (enumDofs1 cells nNodes bNodes)) (c : Nat) (hc : c < P.n) (i : Nat) (hi : i < P.nb)
    (hex : ∃ c' < n, Shares cells (N + 1) c i c' ∧ c' ≠ c) :
    ∃ c' < P.n, ∃ i' < P.nb, c' ≠ c ∧ P.facet c' i' = P.facet c i ∧
      (∀ d < P.n, ∀ j < P.nb, P.facet d j = P.facet c i → d = c ∨ d = c') ∧
      ∀ (a : Nat → ℝ) (b : ℝ), (∀ p ∈ P.facet c i, dot P.N a (natX X p) + b = 0) →
        (dot P.N a (natX X (P.dofs c i)) + b) * (dot P.N a (natX X (P.dofs c' i')) + b) ≤ 0 := by
  have hM := C131_manifold hN h
  subst hP
  set P := meshProb N 1 (N + 1) t op cells n X (enumDofs1 cells nNodes bNodes) with hP
  have shares : ∀ c i c' i', i < N + 1 → i' < N + 1 → P.facet c' i' = P.facet c i → Shares cells (N + 1) c i c' := by
    intro c i c' i' hi hi' e w hw hwi
    have : cells c w ∈ P.facet c' i' := by
      rw [e, facet_fin (P := P) (nn := N + 1) rfl c ⟨i, hi⟩]
      exact Finset.mem_image.2 ⟨⟨w, hw⟩, Finset.mem_erase.2 ⟨fun e => hwi (congrArg Fin.val e), Finset.mem_univ _⟩, rfl⟩
    rw [facet_fin (P := P) (nn := N + 1) rfl c' ⟨i', hi'⟩] at this
    obtain ⟨v, _, e⟩ := Finset.mem_image.1 this
    exact ⟨v, v.2, e⟩
  have hc : c < n := hc
  have hi : i < N + 1 := hi
  obtain ⟨c', hc', hs, hne⟩ := hex
  obtain ⟨ho, i', hF⟩ := shares_opposite hM.distinct h.distinct hc hc' hne ⟨i, hi⟩ hs
  refine ⟨c', hc', i', i'.2, hne, ?_, ?_, ?_⟩
  · rw [facet_fin (P := P) (nn := N + 1) rfl c' i', facet_fin (P := P) (nn := N + 1) rfl c ⟨i, hi⟩]
    exact hF
  · intro x hx j hj e
    by_contra hcon
    push Not at hcon
    exact hcon.2 (hM.two c hc i hi x hx c' hc' hcon.1 hne (shares c i x j hi hj e) hs)
  · intro a b hz
    change (dot N a (natX X (cells c i)) + b) * (dot N a (natX X (cells c' i')) + b) ≤ 0
    rw [dot_natX, dot_natX]
    refine facet_sides hN h.proper h.conforming hc hc' ⟨i, hi⟩ i' ho hF _ b fun w hw => ?_
    rw [← dot_natX]
    refine hz _ ?_
    rw [facet_fin (P := P) (nn := N + 1) rfl c ⟨i, hi⟩]
    exact Finset.mem_image.2 ⟨w, Finset.mem_erase.2 ⟨hw, Finset.mem_univ _⟩, rfl⟩

theorem mesh_conforming (hN : 0 < N) {n nNodes : Nat} {t : Table} (op : Op ℝ) {cells : Nat → Nat → Nat} {X : Nat → Vec N}
    (h : GoodMesh (N + 1) n nNodes cells X) {bNodes : Nat → Bool} (hb : MarksBoundary (N + 1) n cells bNodes) :
    (meshProb N 1 (N + 1) t op cells n X (enumDofs1 cells nNodes bNodes)).Conforming (natX X) := by
  intro c hc i hi ⟨p, hp, hpb⟩
  refine mesh_paired hN op h bNodes rfl c hc i hi ?_
  have hc : c < n := hc
  have hi : i < N + 1 := hi
  rw [facet_fin (nn := N + 1) rfl c ⟨i, hi⟩] at hp
  obtain ⟨w, hw, rfl⟩ := Finset.mem_image.1 hp
  by_contra hn
  push Not at hn
  have := hb c hc i hi (fun c' hc' hs => hn c' hc' hs) w w.2 (fun e => Finset.ne_of_mem_erase hw (Fin.ext e))
  have hpb : bNodes (cells c w) = false := hpb
  rw [this] at hpb
  exact absurd hpb (by decide)

theorem meshPoint_eq (cells : Nat → Nat → Nat) (X : Nat → Vec N) (c : Nat) (x : Nat → ℝ) (z : Fin N) :
    cellPoint N (natX X) (cells c) x z = meshPoint cells X c (fun w => x w) z := by
  simp only [cellPoint, meshPoint, natX, dif_pos z.2, Finset.sum_range, Pi.add_apply, Finset.sum_apply, Pi.smul_apply, smul_eq_mul, Pi.sub_apply]
  congr 1
  exact Finset.sum_congr rfl fun w _ => by rw [mul_comm]

/-- **C131**, patch test: on a mesh of full dimension whose boundary nodes are marked, with first order elements and an elliptic operator with a
constant diffusion tensor, an affine function that satisfies the equation is computed exactly.  Partial as `C131_solve_first_partial`. -/
theorem C131_patch_partial (hN : N ∈ [1, 2, 3]) (op : Op ℝ) (hs : FlagRight N op) (hns : NoScalar op) {n nNodes : Nat} {cells : Nat → Nat → Nat}
    {X : Nat → Fin N → ℝ} (bNodes : Nat → Bool) (h : GoodMesh (N + 1) n nNodes cells X) (hb : MarksBoundary (N + 1) n cells bNodes)
    (hell : ∀ r, Elliptic N op r) (D : Nat → Nat → ℝ) (bt : Nat → Nat → ℝ) (ct : Nat → ℝ)
    (hop : ∀ r u v gu gv, form N op r u v gu gv = dot N (fun z => dot N (D z) gu) gv + dot N (bt r) gu * v + ct r * u * v)
    (lu : Solver ℝ) (hlu : ExactLU nNodes lu) (hlc : CompleteLU nNodes lu) (hm : 0 < nNodes) (h0 : bNodes 0 = true) (a : Nat → ℝ) (b : ℝ) :
    ∃ P, problem1 N op cells n nNodes X bNodes = .ok P ∧ ∀ (data : Dense ℝ), n * size P.t ≤ data.rows → data.cols = 1 →
      (∀ c < n, ∀ k < size P.t, data.at' (size P.t * c + k) 0 = dot N (bt (size P.t * c + k)) a +
        ct (size P.t * c + k) * ((fun z : Fin N => a z) ⬝ᵥ meshPoint cells X c (fun w => node ℝ P.t k w) + b)) →
      ∀ g : Dense ℝ, nNodes ≤ g.rows → 0 < g.cols → (∀ p < nNodes, bNodes p = true → g.at' p 0 = (fun z : Fin N => a z) ⬝ᵥ X p + b) →
      ∀ junk, ∃ w, (P.init data junk >>= pdeSolveElliptic lu g) = .ok (true, some w) ∧
        ∀ p < nNodes, w p = (fun z : Fin N => a z) ⬝ᵥ X p + b := by
  have hd : Dims N N := by
    simp only [Dims, List.mem_cons, Prod.mk.injEq, List.not_mem_nil, or_false] at hN ⊢
    omega
  have hN0 : 0 < N := by
    simp only [List.mem_cons, List.not_mem_nil, or_false] at hN
    omega
  obtain ⟨P, I, J, e, hL, e1, e2, e3, e4, e5, e6, e7, hpos, hcon⟩ := C131_first_order hd op bNodes h
  obtain ⟨t, ht⟩ := rule1 hN
  have eP : P = meshProb N 1 (N + 1) t op cells n X (enumDofs1 cells nNodes bNodes) := by
    rw [problem1, ht, Res.ofOptionUB_some, Res.ok_bind] at e
    exact (Res.ok.inj e).symm
  subst eP
  refine ⟨_, e, fun data hr hc hf g hg hgc hgb junk => ?_⟩
  obtain ⟨w, h1, h2⟩ := C110_solve_partial (mesh_onNodes hN ht op h.proper bNodes) (mesh_conforming hN0 op h hb) ⟨h.nodes, hs, hns⟩ hcon
    (fun c _ k _ => hell _) D bt ct hop lu hlu hlc a b data hr hc (fun c hc k hk => by
      rw [hf c hc k hk]
      congr 3
      rw [dot, dotProduct, Finset.sum_range]
      exact Finset.sum_congr rfl fun z _ => by rw [← meshPoint_eq]; rfl)
    g hg hgc (fun p hp hb => by rw [hgb p hp hb, ← dot_natX]; rfl) hm h0 junk
  exact ⟨w, h1, fun p hp => by rw [h2 p hp, ← dot_natX]; rfl⟩

/-- **C131**, maximum principle: for -Δ on triangles without obtuse angles, non-negative forcing and boundary data give a non-negative
solution, and without forcing the solution stays between the bounds of the boundary data.  Partial as `C131_solve_first_partial`. -/
theorem C131_maximum_partial {n nNodes : Nat} {cells : Nat → Nat → Nat} {X : Nat → Fin 2 → ℝ} (bNodes : Nat → Bool)
    (h : GoodMesh 3 n nNodes cells X)
    (hO : ∀ c < n, ∀ i < 3, ∀ j < 3, ∀ k < 3, i ≠ j → i ≠ k → j ≠ k →
      0 ≤ (X (cells c i) - X (cells c k)) ⬝ᵥ (X (cells c j) - X (cells c k)))
    (lu : Solver ℝ) (hlu : ExactLU nNodes lu) (hlc : CompleteLU nNodes lu) (hm : 0 < nNodes) (h0 : bNodes 0 = true) :
    ∃ P, problem1 2 (.neg .lap) cells n nNodes X bNodes = .ok P ∧ ∀ (data : Dense ℝ), n * size P.t ≤ data.rows → data.cols = 1 →
      ∀ g : Dense ℝ, nNodes ≤ g.rows → 0 < g.cols → ∀ junk, ∃ w, (P.init data junk >>= pdeSolveElliptic lu g) = .ok (true, some w) ∧
        ((∀ c < n, ∀ k < size P.t, 0 ≤ data.at' (size P.t * c + k) 0) → (∀ p < nNodes, bNodes p = true → 0 ≤ g.at' p 0) → ∀ p < nNodes, 0 ≤ w p) ∧
        ∀ lo hi : ℝ, (∀ c < n, ∀ k < size P.t, data.at' (size P.t * c + k) 0 = 0) →
          (∀ p < nNodes, bNodes p = true → lo ≤ g.at' p 0 ∧ g.at' p 0 ≤ hi) → ∀ p < nNodes, lo ≤ w p ∧ w p ≤ hi := by
  obtain ⟨P, I, J, e, hL, e1, e2, e3, e4, e5, e6, e7, hpos, hcon⟩ := C131_first_order (d := 2) (N := 2) (by unfold Dims; decide) (.neg .lap) bNodes h
  obtain ⟨t, ht⟩ := rule1 (d := 2) (by simp)
  have eP : P = meshProb 2 1 3 t (.neg .lap) cells n X (enumDofs1 cells nNodes bNodes) := by
    rw [problem1, ht, Res.ofOptionUB_some, Res.ok_bind] at e
    exact (Res.ok.inj e).symm
  subst eP
  have hn := mesh_onNodes (nNodes := nNodes) (by simp) ht (.neg .lap) h.proper bNodes
  refine ⟨_, e, fun data hr hc g hg hgc junk => ?_⟩
  refine C111_solve_partial hn ⟨h.nodes, fun _ => trivial, trivial⟩ hcon (fun c _ k _ => C103_laplacian 2 _) _ (lap_diffusive 2)
    (C111_triangles hn rfl fun c hc i hi j hj k hk h1 h2 h3 => ?_) lu hlu hlc data hr hc g hg hgc hm h0 junk
  have := hO c hc i hi j hj k hk h1 h2 h3
  rw [dotProduct, Fin.sum_univ_two] at this
  rw [dot, Finset.sum_range_succ, Finset.sum_range_one]
  exact this

/-! ### The hypotheses are met -/

/-- The interval from 0 to `n` in `n` cells. -/
def lineCells (c v : Nat) : Nat := c + v
def lineX (p : Nat) : Fin 1 → ℝ := fun _ => p

theorem line_region (c : Nat) (p : Fin 1 → ℝ) : p ∈ region 2 lineCells lineX c ↔ (c : ℝ) ≤ p 0 ∧ p 0 ≤ c + 1 := by
  constructor
  · intro h
    have hc : Convex ℝ {p : Fin 1 → ℝ | (c : ℝ) ≤ p 0 ∧ p 0 ≤ c + 1} := by
      intro x hx y hy a b ha hb hab
      simp only [Set.mem_ofPred_eq, Pi.add_apply, Pi.smul_apply, smul_eq_mul] at hx hy ⊢
      constructor <;> nlinarith
    refine (convexHull_min ?_ hc : convexHull ℝ _ ⊆ _) h
    rintro x ⟨v, hv, rfl⟩
    rcases (by omega : v = 0 ∨ v = 1) with rfl | rfl <;> simp [lineCells, lineX]
  · intro h
    have e : p = (c + 1 - p 0) • lineX (lineCells c 0) + (p 0 - c) • lineX (lineCells c 1) := by
      funext z
      fin_cases z
      simp [lineX, lineCells]; ring
    rw [e]
    have hv : ∀ v < 2, lineX (lineCells c v) ∈ region 2 lineCells lineX c := fun v hv => subset_convexHull ℝ _ ⟨v, hv, rfl⟩
    exact (show Convex ℝ (region 2 lineCells lineX c) from convex_convexHull ℝ _) (hv 0 (by norm_num)) (hv 1 (by norm_num))
      (by linarith [h.2]) (by linarith [h.1]) (by ring)

theorem line_domain (n : Nat) (hn : 0 < n) : domain 2 n lineCells lineX = {p : Fin 1 → ℝ | 0 ≤ p 0 ∧ p 0 ≤ n} := by
  ext p
  simp only [domain, Set.mem_iUnion₂, Set.mem_ofPred_eq, line_region]
  constructor
  · rintro ⟨c, hc, h1, h2⟩
    have : ((c + 1 : Nat) : ℝ) ≤ n := by exact_mod_cast hc
    push_cast at this
    exact ⟨(Nat.cast_nonneg c).trans h1, by linarith⟩
  · rintro ⟨h1, h2⟩
    by_cases hl : p 0 = n
    · refine ⟨n - 1, by omega, ?_⟩
      rw [hl, Nat.cast_sub (by omega)]
      constructor <;> simp
    · have hlt : p 0 < n := lt_of_le_of_ne h2 hl
      exact ⟨⌊p 0⌋₊, (Nat.floor_lt h1).2 hlt, Nat.floor_le h1, (Nat.lt_floor_add_one _).le⟩

theorem line_good (n : Nat) (hn : 0 < n) : GoodMesh 2 n (n + 1) lineCells lineX where
  nodes := fun c hc v hv => by rw [lineCells]; omega
  used := fun p hp => by
    by_cases h : p < n
    · exact ⟨p, h, 0, by norm_num, rfl⟩
    · exact ⟨n - 1, by omega, 1, by norm_num, by rw [lineCells]; omega⟩
  proper := fun c _ => by
    rw [affineIndependent_iff_of_fintype]
    intro w h1 h2
    rw [Finset.weightedVSub_eq_linear_combination _ h1] at h2
    have a := congrFun h2 0
    rw [Fin.sum_univ_two] at h1
    simp [Fin.sum_univ_two, lineCells, lineX] at a
    have h0 : w 1 = 0 := by
      have : (w 0 + w 1) * (c : ℝ) + w 1 = 0 := by rw [← a]; ring
      rw [h1] at this; linarith
    intro i
    fin_cases i <;> simp <;> linarith
  conforming := fun c hc c' hc' p ⟨h, h'⟩ => by
    rw [line_region] at h h'
    have h1 : (c : ℝ) < c' + 1 + 1 := by linarith [h.1, h'.2]
    have h2 : (c' : ℝ) < c + 1 + 1 := by linarith [h.2, h'.1]
    have h1' : c < c' + 1 + 1 := by exact_mod_cast h1
    have h2' : c' < c + 1 + 1 := by exact_mod_cast h2
    rcases (by omega : c' = c ∨ c' = c + 1 ∨ c = c' + 1) with rfl | rfl | rfl
    · refine convexHull_mono ?_ ((line_region _ p).2 h)
      rintro x ⟨v, hv, rfl⟩
      exact ⟨v, hv, v, hv, rfl, rfl⟩
    · refine subset_convexHull ℝ _ ⟨1, by norm_num, 0, by norm_num, by simp [lineCells], ?_⟩
      funext z
      fin_cases z
      push_cast at h'
      simp only [lineX, lineCells, Fin.zero_eta, Nat.cast_add, Nat.cast_one]
      linarith [h.2, h'.1]
    · refine subset_convexHull ℝ _ ⟨0, by norm_num, 1, by norm_num, by simp [lineCells], ?_⟩
      funext z
      fin_cases z
      push_cast at h
      simp only [lineX, lineCells, Fin.zero_eta, Nat.cast_add, Nat.cast_one, Nat.cast_zero]
      linarith [h.1, h'.2]
  distinct := fun c _ c' _ h => by
    obtain ⟨w, hw, e⟩ := h 0 (by norm_num)
    obtain ⟨w', hw', e'⟩ := h 1 (by norm_num)
    simp only [lineCells] at e e'
    omega
  connected := by
    rw [line_domain n hn]
    refine Convex.isPreconnected ?_
    intro x hx y hy a b ha hb hab
    simp only [Set.mem_ofPred_eq, Pi.add_apply, Pi.smul_apply, smul_eq_mul] at hx hy ⊢
    constructor <;> nlinarith [mul_nonneg ha hx.1, mul_nonneg hb hy.1]

theorem line_marks (n : Nat) : MarksBoundary 2 n lineCells fun p => p == 0 || p == n := by
  intro c hc i hi h w hw hwi
  have key : ∀ c' < n, (∃ v < 2, lineCells c' v = lineCells c w) → c' = c := fun c' hc' e => h c' hc' fun w' hw' hne => by
    rcases (by omega : w' = w) with rfl; exact e
  simp only [Bool.or_eq_true, beq_iff_eq]
  by_contra hn
  simp only [lineCells] at hn key
  rcases (by omega : w = 0 ∨ w = 1) with rfl | rfl
  · have := key (c - 1) (by omega) ⟨1, by norm_num, by omega⟩; omega
  · have := key (c + 1) (by omega) ⟨0, by norm_num, by omega⟩; omega

theorem square_good : GoodMesh 3 2 4 demo2 FEM.squareX where
  nodes := square_lt
  used := by decide
  proper := square_proper
  conforming := FEM.square_conforming
  distinct := by decide
  connected := by
    have : domain 3 2 demo2 FEM.squareX = region 3 demo2 FEM.squareX 0 ∪ region 3 demo2 FEM.squareX 1 := by
      ext p
      simp only [domain, Set.mem_iUnion₂, Set.mem_union, Set.mem_ofPred_eq]
      constructor
      · rintro ⟨c, hc, h⟩
        rcases (by omega : c = 0 ∨ c = 1) with rfl | rfl
        · exact .inl h
        · exact .inr h
      · rintro (h | h)
        · exact ⟨0, by norm_num, h⟩
        · exact ⟨1, by norm_num, h⟩
    rw [this]
    exact IsPreconnected.union (FEM.squareX 1) (subset_convexHull ℝ _ ⟨1, by norm_num, rfl⟩) (subset_convexHull ℝ _ ⟨2, by norm_num, rfl⟩)
      (convex_convexHull ℝ _).isPreconnected (convex_convexHull ℝ _).isPreconnected

/-- The patch test on the interval in `n` cells, for every `n`. -/
example (n : Nat) (hn : 0 < n) : ∃ (lu : Solver ℝ) (P : Prob ℝ) (w : Nat → ℝ), problem1 1 (.neg .lap) lineCells n (n + 1) lineX (fun p => p == 0 || p == n) = .ok P ∧
    (P.init ⟨n * size P.t, 1, fun _ _ => 0⟩ (fun _ => 0) >>= pdeSolveElliptic lu ⟨n + 1, 1, fun p _ => 3 * p + 5⟩) = .ok (true, some w) ∧
      ∀ p < n + 1, w p = 3 * p + 5 := by
  obtain ⟨lu, h1, h2⟩ := exists_exactLU (K := ℝ) (n + 1)
  obtain ⟨P, e, h⟩ := C131_patch_partial (N := 1) (by simp) (.neg .lap) (fun _ => trivial) trivial _ (line_good n hn) (line_marks n) (fun r => C103_laplacian 1 r)
    (fun z y => if z = y then 1 else 0) (fun _ _ => 0) (fun _ => 0) (fun r u v gu gv => by
      rw [lap_diffusive 1 r u v gu gv]; simp [dot]) lu h1 h2 (by omega) (by simp) (fun _ => 3) 5
  obtain ⟨w, e1, e2⟩ := h ⟨n * size P.t, 1, fun _ _ => 0⟩ le_rfl rfl (fun c hc k hk => by simp [dot, Dense.at'])
    ⟨n + 1, 1, fun p _ => 3 * p + 5⟩ le_rfl (by norm_num) (fun p hp _ => by simp [Dense.at', dotProduct, lineX]) (fun _ => 0)
  exact ⟨lu, P, w, e, e1, fun p hp => by rw [e2 p hp]; simp [dotProduct, lineX]⟩

example := C131_solve_second_partial (N := 2) (.inl rfl) (.neg .lap) (fun _ => trivial) trivial (fun _ => true) square_good (C131_manifold (by norm_num) square_good)
  (fun r => C103_laplacian 2 r) (by norm_num) rfl

example (lu : Solver ℝ) (h1 : ExactLU 4 lu) (h2 : CompleteLU 4 lu) := C131_maximum_partial (fun _ => true) square_good (by
  have : ∀ c < 2, ∀ i < 3, ∀ j < 3, ∀ k < 3, i ≠ j → i ≠ k → j ≠ k →
      0 ≤ (FEM.squareX (demo2 c i) - FEM.squareX (demo2 c k)) ⬝ᵥ (FEM.squareX (demo2 c j) - FEM.squareX (demo2 c k)) := by
    intro c hc i hi j hj k hk h1 h2 h3
    rcases (by omega : c = 0 ∨ c = 1) with rfl | rfl <;> rcases (by omega : i = 0 ∨ i = 1 ∨ i = 2) with rfl | rfl | rfl <;>
      rcases (by omega : j = 0 ∨ j = 1 ∨ j = 2) with rfl | rfl | rfl <;> rcases (by omega : k = 0 ∨ k = 1 ∨ k = 2) with rfl | rfl | rfl <;>
      first | omega | norm_num [demo2, FEM.squareX, Fin.ofNat, dotProduct, Fin.sum_univ_two]
  exact this) lu h1 h2 (by norm_num) rfl

end Fdapde.PDE
