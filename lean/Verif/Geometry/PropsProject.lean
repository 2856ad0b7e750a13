import Verif.Geometry.Project
import Verif.Geometry.PropsNearest
import Verif.Geometry.PropsSearch
/- C100: projection of points on a mesh. -/
namespace Fdapde.Geometry
open KDTree BinTree
variable {d N : Nat}

theorem norm_sub_comm (a b : Vec N) : norm (a - b) = norm (b - a) := by
  have : sqNorm (a - b) = sqNorm (b - a) := by
    simp [sqNorm]; ring
  unfold norm; rw [this]

/-- `b` is the nearest candidate met so far: the distance and the point of one of `cs`, minimal; nothing if `cs` is empty. -/
def Best (p : Vec N) (cs : List (Vec N)) (b : Option (ℝ × Vec N)) : Prop :=
  (cs = [] ∧ b = none) ∨ ∃ q ∈ cs, b = some (norm (q - p), q) ∧ ∀ q' ∈ cs, norm (q - p) ≤ norm (q' - p)

theorem best_keep {p : Vec N} {cs : List (Vec N)} {b : Option (ℝ × Vec N)} (h : Best p cs b) (q : Vec N) :
    Best p (cs ++ [q]) (keep p b q) := by
  right
  rcases h with ⟨rfl, rfl⟩ | ⟨q0, h1, rfl, h3⟩
  · exact ⟨q, by simp, rfl, by intro q' hq'; simp at hq'; rw [hq']⟩
  · unfold keep
    dsimp only
    split
    · rename_i hlt
      refine ⟨q, by simp, rfl, ?_⟩
      intro q' hq'
      rcases List.mem_append.1 hq' with h | h
      · exact hlt.le.trans (h3 q' h)
      · simp at h; rw [h]
    · rename_i hlt
      refine ⟨q0, by simp [h1], rfl, ?_⟩
      intro q' hq'
      rcases List.mem_append.1 hq' with h | h
      · exact h3 q' h
      · simp at h; rw [h]; exact not_lt.1 hlt

theorem best_foldl (p : Vec N) (f : Nat → Vec N) (l : List Nat) {cs : List (Vec N)} {b : Option (ℝ × Vec N)}
    (h : Best p cs b) : Best p (cs ++ l.map f) (l.foldl (fun b j => keep p b (f j)) b) := by
  induction l generalizing cs b with
  | nil => simpa using h
  | cons j l ih =>
    have := ih (best_keep h (f j))
    simpa using this

/-- The loop over cells and points treats the points independently. -/
theorem exact_pointwise (f : Nat → Vec N → Vec N) (l : List Nat) (ps : List (Vec N)) (g : Vec N → Option (ℝ × Vec N)) :
    l.foldl (fun best j => List.zipWith (fun p b => keep p b (f j p)) ps best) (ps.map g) =
      ps.map fun p => l.foldl (fun b j => keep p b (f j p)) (g p) := by
  induction l generalizing g with
  | nil => rfl
  | cons j l ih =>
    rw [List.foldl_cons]
    have e : List.zipWith (fun p b => keep p b (f j p)) ps (ps.map g) = ps.map fun p => keep p (g p) (f j p) := by
      rw [List.zipWith_map_right, List.zipWith_self]
    rw [e, ih]
    rfl

/-- C100 (what the exact projection computes): every point is sent to the nearest among the points that `nearest` of the
cells returns for it. -/
theorem C100_exact (eps : ℝ) (srt : (n : Nat) → (Fin n → ℝ) → Equiv.Perm (Fin n)) (m : SMesh d N) (hm : 0 < m.n)
    (ps : List (Vec N)) :
    (projectExact eps srt m ps).length = ps.length ∧
    ∀ (i : Nat) (p : Vec N), ps[i]? = some p → ∃ q, (projectExact eps srt m ps)[i]? = some (some q) ∧
      (∃ j < m.n, q = (m.cell j).nearest eps srt p) ∧
      ∀ j < m.n, norm (p - q) ≤ norm (p - (m.cell j).nearest eps srt p) := by
  unfold projectExact
  rw [exact_pointwise]
  refine ⟨by simp, ?_⟩
  intro i p hp
  rw [List.getElem?_map, List.getElem?_map, hp]
  have hb := best_foldl p (fun j => (m.cell j).nearest eps srt p) (List.range m.n) (cs := []) (b := none) (Or.inl ⟨rfl, rfl⟩)
  rw [List.nil_append] at hb
  rcases hb with ⟨h1, _⟩ | ⟨q, h1, h2, h3⟩
  · simp at h1; omega
  · obtain ⟨j, hj, rfl⟩ := List.mem_map.1 h1
    refine ⟨_, ?_, ⟨j, List.mem_range.1 hj, rfl⟩, ?_⟩
    · simp only [Option.map_some]
      rw [h2]
      rfl
    · intro j' hj'
      rw [norm_sub_comm p, norm_sub_comm p]
      exact h3 _ (List.mem_map.2 ⟨j', List.mem_range.2 hj', rfl⟩)

/-- C100 (where the exact projection sends points that it moves, on meshes of triangles and tetrahedra): to a vertex of the mesh, and no vertex of the mesh is
nearer.  Missing: the points of edges and faces that are nearer than all vertices (C100_bug_vertex). -/
theorem C100_nearest_vertex_partial (eps : ℝ) (srt : (n : Nat) → (Fin n → ℝ) → Equiv.Perm (Fin n)) (hs : ∀ n (key : Fin n → ℝ), Monotone fun i => key (srt n key i))
    (hN : 1 ≠ N) (m : SMesh (d + 2) N) (hm : 0 < m.n) (ps : List (Vec N)) (i : Nat) (p : Vec N) (hp : ps[i]? = some p) :
    ∃ q, (projectExact eps srt m ps)[i]? = some (some q) ∧ (q = p ∨ (∃ j < m.n, ∃ v, q = (m.cell j).coords v) ∧
      ∀ j < m.n, ∀ v, norm (p - q) ≤ norm (p - (m.cell j).coords v)) := by
  obtain ⟨q, h1, ⟨j, hj, h2⟩, h3⟩ := (C100_exact eps srt m hm ps).2 i p hp
  refine ⟨q, h1, ?_⟩
  by_cases hq : q = p
  · exact Or.inl hq
  · refine Or.inr ⟨?_, fun k hk v => (h3 k hk).trans ?_⟩
    · rcases C45_nearest_vertex_partial eps srt hs hN p (m.cell j) with h | ⟨v, h, -⟩
      · exact absurd (h2.trans h) hq
      · exact ⟨j, hj, v, h2.trans h⟩
    · rcases C45_nearest_vertex_partial eps srt hs hN p (m.cell k) with h | ⟨w, h, hw⟩
      · rw [h, sub_self, show norm (0 : Vec N) = 0 from norm_eq_zero.2 rfl]
        exact norm_nonneg _
      · rw [h, norm_sub_comm p, norm_sub_comm p]
        exact hw v

/-- C100 (proved part): the exact projection leaves a point of the mesh where it is (cells of full dimension, any positive
tolerance).  Missing: points outside, for which the projection is wrong (C100_bug_vertex). -/
theorem C100_inside_partial (eps : ℝ) (he : 0 < eps) (srt : (n : Nat) → (Fin n → ℝ) → Equiv.Perm (Fin n)) (m : SMesh N N)
    (hN : 0 < N) (hS : ∀ j < m.n, (m.cell j).Nondeg) (ps : List (Vec N)) (i : Nat) (p : Vec N) (hp : ps[i]? = some p)
    (j : Nat) (hj : j < m.n) (hin : p ∈ convexHull ℝ (Set.range (m.cell j).coords)) :
    (projectExact eps srt m ps)[i]? = some (some p) := by
  obtain ⟨q, h1, _, h3⟩ := (C100_exact eps srt m (by omega) ps).2 i p hp
  have := h3 j hj
  rw [C45_inside_partial (hS j hj) hN eps he srt p hin, sub_self] at this
  have h0 : norm (0 : Vec N) = 0 := norm_eq_zero.2 rfl
  rw [h0] at this
  have : norm (p - q) = 0 := le_antisymm this (norm_nonneg _)
  have : p - q = 0 := norm_eq_zero.1 this
  rw [h1, sub_eq_zero.1 this]

/-- C100 (the same on a surface made of triangles in space). -/
theorem C100_inside_surface_partial (eps : ℝ) (he : 0 < eps) (srt : (n : Nat) → (Fin n → ℝ) → Equiv.Perm (Fin n))
    (m : SMesh 2 3) (hS : ∀ j < m.n, (m.cell j).Nondeg) (ps : List (Vec 3)) (i : Nat) (p : Vec 3) (hp : ps[i]? = some p)
    (j : Nat) (hj : j < m.n) (hin : p ∈ convexHull ℝ (Set.range (m.cell j).coords)) :
    (projectExact eps srt m ps)[i]? = some (some p) := by
  obtain ⟨q, h1, _, h3⟩ := (C100_exact eps srt m (by omega) ps).2 i p hp
  have := h3 j hj
  rw [C45_inside_tri3_partial (hS j hj) eps he srt p hin, sub_self] at this
  have h0 : norm (0 : Vec 3) = 0 := norm_eq_zero.2 rfl
  rw [h0] at this
  have : norm (p - q) = 0 := le_antisymm this (norm_nonneg _)
  have : p - q = 0 := norm_eq_zero.1 this
  rw [h1, sub_eq_zero.1 this]

/-- C100 (proved part, intervals): on a mesh of an interval no point of the mesh is nearer than the exact projection. -/
theorem C100_interval_partial (eps : ℝ) (he : 0 < eps) (srt : (n : Nat) → (Fin n → ℝ) → Equiv.Perm (Fin n))
    (m : SMesh 1 1) (hm : 0 < m.n) (hS : ∀ j < m.n, (m.cell j).Nondeg) (ps : List (Vec 1)) (i : Nat) (p : Vec 1)
    (hp : ps[i]? = some p) :
    ∃ q, (projectExact eps srt m ps)[i]? = some (some q) ∧
      (∀ j < m.n, ∀ y ∈ convexHull ℝ (Set.range (m.cell j).coords), norm (p - q) ≤ norm (p - y)) ∧
      ∃ j < m.n, q ∈ convexHull ℝ (Set.range (m.cell j).coords) ∨ (q = p ∧ ∀ v, (m.cell j).bary p v > -eps) := by
  obtain ⟨q, h1, ⟨j, hj, hq⟩, h3⟩ := (C100_exact eps srt m hm ps).2 i p hp
  refine ⟨q, h1, ?_, j, hj, ?_⟩
  · intro j' hj' y hy
    exact (h3 j' hj').trans ((C45_interval (hS j' hj') eps he srt p).1 y hy)
  · rw [hq]; exact (C45_interval (hS j hj) eps he srt p).2

/-- C100 (finding): whatever the mesh, the exact projection of a point is the point itself or a node of the mesh: it never
falls inside a cell, an edge or a face. -/
theorem C100_bug_vertex_or_point (eps : ℝ) (srt : (n : Nat) → (Fin n → ℝ) → Equiv.Perm (Fin n)) (m : SMesh d N)
    (hm : 0 < m.n) (ps : List (Vec N)) (i : Nat) (p : Vec N) (hp : ps[i]? = some p) :
    ∃ q, (projectExact eps srt m ps)[i]? = some (some q) ∧ (q = p ∨ ∃ j < m.n, ∃ v, q = (m.cell j).coords v) := by
  obtain ⟨q, h1, ⟨j, hj, hq⟩, _⟩ := (C100_exact eps srt m hm ps).2 i p hp
  refine ⟨q, h1, ?_⟩
  rcases C45_point_or_vertex_partial eps srt (m.cell j) p with h | ⟨v, h⟩
  · left; rw [hq, h]
  · right; exact ⟨j, hj, v, by rw [hq, h]⟩

/-- The mesh made of the unit triangle. -/
noncomputable def triMesh : SMesh 2 2 := ⟨fun _ => unitTri, 1, ![0, 0], ![1, 1]⟩

/-- C100 (finding): the exact projection of (1/2, -1) on the unit triangle is not the nearest point of the triangle,
(1/2, 0), for any tolerance and tie-breaking. -/
theorem C100_bug_vertex (eps : ℝ) (srt : (n : Nat) → (Fin n → ℝ) → Equiv.Perm (Fin n)) :
    ∃ q, projectExact eps srt triMesh [![1/2, -1]] = [some q] ∧
      ¬ (q ∈ convexHull ℝ (Set.range unitTri.coords) ∧
        ∀ y ∈ convexHull ℝ (Set.range unitTri.coords), norm (![1/2, -1] - q) ≤ norm (![1/2, -1] - y)) := by
  obtain ⟨h0, h⟩ := C100_exact eps srt triMesh (by decide) [![1/2, -1]]
  obtain ⟨q, h1, ⟨j, _, hq⟩, _⟩ := h 0 _ rfl
  refine ⟨q, ?_, ?_⟩
  · match hl : projectExact eps srt triMesh [![1/2, -1]], h0 with
    | [a], _ => rw [hl] at h1; simp at h1; rw [h1]
  · rw [hq]; exact C45_bug_not_nearest eps srt

/-- C100 (approximate projection, what is computed): if the search in the tree of the nodes returns node `i`, the point is
sent to the nearest among the points that `nearest` returns for the cells whose `contains` does not put node `i` outside;
all the cells having node `i` are among them. -/
theorem C100_approx_partial (nth) (hnth : NthContract nth) (ord : List Nat → List Nat) (hord : ∀ l, (ord l).Perm l)
    (eps : ℝ) (he : 0 ≤ eps) (srt : (n : Nat) → (Fin n → ℝ) → Equiv.Perm (Fin n)) (m : SMesh N N) (hm : m.Ok) (hN : 0 < N)
    (hS : ∀ i < m.n, (m.cell i).Nondeg) (nodes : Nat → Vec N) (t : BT Nat) (fuel : Nat) (p : Vec N) (i : Nat)
    (hnn : nnSearch (fun i => comp (nodes i)) N (comp p) t fuel = some (.ok (some i)))
    (hnode : ∃ j < m.n, ∃ v, (m.cell j).coords v = nodes i) :
    ∃ q, projectApprox nth ord eps srt m nodes t fuel p = some (.ok (some q)) ∧
      (∃ j < m.n, (m.cell j).contains eps (nodes i) ≠ .outside ∧ q = (m.cell j).nearest eps srt p) ∧
      ∀ j < m.n, (∃ v, (m.cell j).coords v = nodes i) → norm (p - q) ≤ norm (p - (m.cell j).nearest eps srt p) := by
  obtain ⟨l, h1, h2, h3, h4⟩ := C48_all_locate m hm hN hS nth hnth ord hord eps he (nodes i)
  have hv : ∀ j < m.n, (∃ v, (m.cell j).coords v = nodes i) → j ∈ l := by
    rintro j hj ⟨v, hv⟩
    exact h4 j hj (hv ▸ subset_convexHull ℝ _ ⟨v, rfl⟩)
  have hb := best_foldl p (fun j => (m.cell j).nearest eps srt p) l (cs := []) (b := none) (Or.inl ⟨rfl, rfl⟩)
  rw [List.nil_append] at hb
  rcases hb with ⟨e, _⟩ | ⟨q, a1, a2, a3⟩
  · obtain ⟨j, hj, hjv⟩ := hnode
    have := hv j hj hjv
    rw [List.map_eq_nil_iff] at e
    rw [e] at this; cases this
  · obtain ⟨j, hj, rfl⟩ := List.mem_map.1 a1
    refine ⟨_, ?_, ⟨j, (h3 j hj).1, (h3 j hj).2, rfl⟩, ?_⟩
    · simp only [projectApprox, hnn, h1, bestOf, a2, Option.map_some]
    · intro j' hj' hjv
      rw [norm_sub_comm p, norm_sub_comm p]
      exact a3 _ (List.mem_map.2 ⟨j', hv j' hj' hjv, rfl⟩)

/-- The hypotheses hold for the unit triangle and a point of it; for an interval; and, for the approximate projection, when
the tree has the node (0, 0) and the query is (0, -1). -/
example : (∀ j < triMesh.n, (triMesh.cell j).Nondeg) ∧ (0 : Nat) < triMesh.n ∧ triMesh.Ok ∧
    (![0, 0] : Vec 2) ∈ convexHull ℝ (Set.range (triMesh.cell 0).coords) ∧
    (∃ v, (triMesh.cell 0).coords v = ![0, 0]) ∧
    nnSearch (fun _ => comp (![0, 0] : Vec 2)) 2 (comp (![0, -1] : Vec 2)) ⟨.node .nil 0 0 .nil, 1⟩ 5 =
      some (.ok (some 0)) := by
  have hv : (triMesh.cell 0).coords 0 = ![0, 0] := by simp [triMesh, unitTri]
  refine ⟨fun _ _ => unitTri_nondeg, by decide, ⟨by decide, ?_, ?_⟩, ?_, ⟨0, hv⟩, ?_⟩
  · intro k; fin_cases k <;> simp [triMesh]
  · intro i _ v k; fin_cases v <;> fin_cases k <;> simp [triMesh, unitTri]
  · exact hv ▸ subset_convexHull ℝ _ ⟨0, rfl⟩
  · simp [nnSearch, walkDown, walk, BinTree.Tree.isNil, nnLoop, KDTree.sqDist, Finset.sum_range_succ, comp, KDTree.better,
      newBest]

example : ∃ srt : (n : Nat) → (Fin n → ℝ) → Equiv.Perm (Fin n), ∃ q, (projectExact 0 srt triMesh [![2, -1]])[0]? = some (some q) ∧
    (q = ![2, -1] ∨ (∃ j < triMesh.n, ∃ v, q = (triMesh.cell j).coords v) ∧
      ∀ j < triMesh.n, ∀ v, norm (![2, -1] - q) ≤ norm (![2, -1] - (triMesh.cell j).coords v)) := by
  obtain ⟨srt, hs⟩ := sorts_exist
  exact ⟨srt, C100_nearest_vertex_partial 0 srt hs (by decide) triMesh (by decide) [![2, -1]] 0 ![2, -1] rfl⟩

example : ∃ m : SMesh 1 1, 0 < m.n ∧ ∀ j < m.n, (m.cell j).Nondeg := by
  refine ⟨⟨fun _ => ⟨fun i => ![(i : ℝ)]⟩, 1, ![0], ![1]⟩, by simp, fun j _ => ?_⟩
  have h : AffineIndependent ℝ (![![(0 : ℝ)], ![(1 : ℝ)]] : Fin 2 → Vec 1) :=
    affineIndependent_of_ne ℝ (fun h => zero_ne_one (congrFun h 0))
  have e : (fun i : Fin 2 => (![((i : ℕ) : ℝ)] : Vec 1)) = ![![(0 : ℝ)], ![(1 : ℝ)]] := by
    funext i; fin_cases i <;> simp
  unfold Simplex.Nondeg
  dsimp only
  rw [e]; exact h

/-- Four nodes of a mesh of two triangles, sorted by first coordinate. -/
noncomputable def fourNodes : Nat → Vec 2 := fun i => ([![0, 0], ![1, 3], ![2, 0], ![3, 3]] : List (Vec 2)).getD i 0

/-- C100 (finding): the default projection can dereference a null pointer, even when asked for a node of the mesh: on the
nodes (0,0), (1,3), (2,0), (3,3), which need no rearrangement when the tree is built, the search for (1,3) is undefined. -/
theorem C100_bug_undefined (nth : Nat → Nat → List Nat → List Nat) (ord : List Nat → List Nat) (eps : ℝ)
    (srt : (n : Nat) → (Fin n → ℝ) → Equiv.Perm (Fin n)) (m : SMesh d 2) (fuel : Nat) :
    ∃ t, build (fun _ _ l => l) (fun i => comp (fourNodes i)) 2 4 = some (.ok t) ∧
      projectApprox nth ord eps srt m fourNodes t fuel ![1, 3] = some .ub := by
  have e00 : comp (fourNodes 0) 0 = 0 := by simp [comp, fourNodes]
  have e01 : comp (fourNodes 0) 1 = 0 := by simp [comp, fourNodes]
  have e10 : comp (fourNodes 1) 0 = 1 := by simp [comp, fourNodes]
  have e11 : comp (fourNodes 1) 1 = 3 := by simp [comp, fourNodes]
  have e20 : comp (fourNodes 2) 0 = 2 := by simp [comp, fourNodes]
  have e30 : comp (fourNodes 3) 0 = 3 := by simp [comp, fourNodes]
  refine ⟨⟨.node (.node (.node .nil 0 2 .nil) 1 1 .nil) 2 0 (.node .nil 3 1 .nil), 4⟩, ?_, ?_⟩
  · simp [KDTree.build, KDTree.buildLoop, KDTree.buildStep, KDTree.nthRange, KDTree.insertBy, kdLt, BT.empty, e00, e01, e10, e11, e20, e30, List.range_succ,
      Res.bind]
    have h32 : ¬ ((3 : ℝ) < 2) := by norm_num
    simp [KDTree.insertBy, kdLt, h32, e00, e01, e10, e11, e20]
  · have p0 : comp (![1, 3] : Vec 2) 0 = 1 := by simp [comp]
    have p1 : comp (![1, 3] : Vec 2) 1 = 3 := by simp [comp]
    have : nnSearch (fun i => comp (fourNodes i)) 2 (comp (![1, 3] : Vec 2))
        ⟨.node (.node (.node .nil 0 2 .nil) 1 1 .nil) 2 0 (.node .nil 3 1 .nil), 4⟩ fuel = some .ub := by
      simp [nnSearch, walkDown, walk, BinTree.Tree.isNil, e20, e11, p0, p1]
    simp only [projectApprox, this]

end Fdapde.Geometry
