import Verif.Triang.Lemmas2
import Verif.Triang.Iter
/- C18-C23: tables and iterators of triangulations. -/
namespace Fdapde.Triang

theorem patOK2 : PatOK 3 [[0, 1], [0, 2], [1, 2]] := by unfold PatOK; decide
theorem patOK3 : PatOK 4 [[0, 1, 2], [0, 1, 3], [0, 2, 3], [1, 2, 3]] := by unfold PatOK; decide

theorem comb2 : Combinatorics.combinations 2 3 = .ok [[0, 1], [0, 2], [1, 2]] := by decide +kernel
theorem comb3 : Combinatorics.combinations 3 4 = .ok [[0, 1, 2], [0, 1, 3], [0, 2, 3], [1, 2, 3]] := by decide +kernel

theorem build2_spec {cells : Nat → Nat → Nat} {n : Nat} (h : Manifold cells 3 n) :
    ∃ s, build2 cells n = .ok s ∧ FacetSpec cells 3 n s := by
  obtain ⟨s, h1, h2⟩ := facetLoop_facetSpec patOK2 h
  exact ⟨s, by rw [build2, comb2]; exact h1, h2⟩

theorem build3_spec {cells : Nat → Nat → Nat} {n : Nat} (h : Manifold cells 4 n) :
    ∃ s, build3 cells n = .ok s ∧ FacetSpec cells 4 n s := by
  obtain ⟨s, h1, h2⟩ := facetLoop_facetSpec patOK3 h
  exact ⟨s, by rw [build3, comb3]; exact h1, h2⟩

/-- Two triangles sharing an edge. -/
def demo2 : Nat → Nat → Nat := fun c v => (([[0, 1, 2], [3, 2, 1]] : List (List Nat)).getD c []).getD v 0
/-- Two tetrahedra sharing a face. -/
def demo3 : Nat → Nat → Nat := fun c v => (([[0, 1, 2, 3], [4, 3, 1, 2]] : List (List Nat)).getD c []).getD v 0

instance (cells : Nat → Nat → Nat) (nn c x : Nat) : Decidable (Vertex cells nn c x) :=
  inferInstanceAs (Decidable (∃ w < nn, cells c w = x))
instance (cells : Nat → Nat → Nat) (nn c v d : Nat) : Decidable (Shares cells nn c v d) :=
  inferInstanceAs (Decidable (∀ w < nn, w ≠ v → Vertex cells nn d (cells c w)))

theorem demo2_manifold : Manifold demo2 3 2 := ⟨by decide, by intros; omega⟩
theorem demo3_manifold : Manifold demo3 4 2 := ⟨by decide +kernel, by intros; omega⟩

/-- C18: the edge list of a 2D triangulation contains every pair of vertices of some cell exactly
once, and `cell_to_edges(c, j)` is the index of the edge of `c` opposite to vertex `2 - j`. -/
theorem C18_edges_once (cells : Nat → Nat → Nat) (n : Nat) (h : Manifold cells 3 n) :
    ∃ s, build2 cells n = .ok s ∧ s.facets.Nodup ∧
      (∀ k, k ∈ s.facets ↔ ∃ c < n, ∃ v < 3, IsFacet cells 3 c v k) ∧
      ∀ c < n, ∀ j < 3, ∃ h k, s.cellTo c j = some h ∧ s.facets[h]? = some k ∧ IsFacet cells 3 c (2 - j) k := by
  obtain ⟨s, h1, h2⟩ := build2_spec h
  exact ⟨s, h1, h2.nodup, h2.mem, h2.cellTo⟩

example : ∃ s, build2 demo2 2 = .ok s ∧ s.facets.Nodup ∧ [1, 2] ∈ s.facets := by
  obtain ⟨s, h1, h2, h3, _⟩ := C18_edges_once demo2 2 demo2_manifold
  refine ⟨s, h1, h2, (h3 _).2 ⟨0, by decide, 0, by decide, by decide, ?_⟩⟩
  intro x
  constructor
  · intro hx
    simp at hx
    rcases hx with rfl | rfl
    · exact ⟨1, by decide, by decide, by decide⟩
    · exact ⟨2, by decide, by decide, by decide⟩
  · rintro ⟨w, hw, hne, rfl⟩
    have : w = 1 ∨ w = 2 := by omega
    rcases this with rfl | rfl <;> decide

/-- C18 (edge traversal): `edges_begin()` to `edges_end()` (all edges) yields every index once, in order. -/
theorem C18_edges_traversal (n : Nat) : edges2 (fun _ => true) n = some (List.range n) := by
  rw [edges2, walkFwd_all]; simp

/-- C18 (finding): if three triangles share an edge the edge is listed twice: the constructor forgets
the edge once it has seen it twice. -/
theorem C18_bug_three_triangles :
    (fun s : FSt => s.facets.count [0, 1]) <$> build2 (fun c v => (([[0, 1, 2], [0, 1, 3], [0, 1, 4]] : List (List Nat)).getD c []).getD v 0) 3 = Res.ok 2 := by
  decide +kernel

/-- C19: `neighbors(c)(v)` is the other cell that contains the edge of `c` opposite to its `v`-th
vertex, -1 exactly when there is none, and the relation is symmetric. -/
theorem C19_neighbours (cells : Nat → Nat → Nat) (n : Nat) (h : Manifold cells 3 n) :
    ∃ s, build2 cells n = .ok s ∧ ∀ c < n, ∀ v < 3,
      (∀ d : Nat, s.neigh c v = d ↔ d < n ∧ d ≠ c ∧ Shares cells 3 c v d) ∧
      (s.neigh c v = -1 ↔ ∀ d < n, d ≠ c → ¬ Shares cells 3 c v d) ∧
      (s.neigh c v = -1 ∨ ∃ d < n, s.neigh c v = (d : Nat)) ∧
      (∀ d : Nat, s.neigh c v = d → ∃ w < 3, s.neigh d w = c) := by
  obtain ⟨s, h1, h2⟩ := build2_spec h
  exact ⟨s, h1, fun c hc v hv => ⟨h2.neigh c hc v hv, h2.neighNone c hc v hv, h2.neighRange c hc v hv,
    h2.neighSymm c hc v hv⟩⟩

example : ∃ s, build2 demo2 2 = .ok s ∧ s.neigh 0 0 = 1 ∧ s.neigh 1 0 = 0 ∧ s.neigh 0 1 = -1 := by
  obtain ⟨s, h1, h2⟩ := C19_neighbours demo2 2 demo2_manifold
  refine ⟨s, h1, ((h2 0 (by decide) 0 (by decide)).1 1).2 (by decide), ((h2 1 (by decide) 0 (by decide)).1 0).2 (by decide),
    ((h2 0 (by decide) 1 (by decide)).2.1).2 (by decide)⟩

/-- C20: edge `h` is marked on the boundary iff exactly one cell contains it, and `edge_to_cells`
lists its one or two incident cells, in increasing order, -1 for the absent one. -/
theorem C20_boundary_edges (cells : Nat → Nat → Nat) (n : Nat) (h : Manifold cells 3 n) :
    ∃ s, build2 cells n = .ok s ∧ s.markers.length = s.facets.length ∧ ∀ (h : Nat) k, s.facets[h]? = some k →
      (s.markers[h]? = some true ↔
        ∃ c, (c < n ∧ Contains cells 3 c k) ∧ ∀ d, d < n ∧ Contains cells 3 d k → d = c) ∧
      ((∃ a < n, s.toCells[h]? = some ((a : Int), -1) ∧ ∀ d < n, Contains cells 3 d k ↔ d = a) ∨
       (∃ a < n, ∃ b < n, a < b ∧ s.toCells[h]? = some ((a : Int), (b : Int)) ∧
          ∀ d < n, Contains cells 3 d k ↔ d = a ∨ d = b)) := by
  obtain ⟨s, h1, h2⟩ := build2_spec h
  exact ⟨s, h1, h2.lengths.2, fun h k hk => ⟨h2.marker h k hk, h2.toCells h k hk⟩⟩

example : Manifold demo2 3 2 ∧ (fun s : FSt => (s.facets, s.markers, s.toCells)) <$> build2 demo2 2 =
    Res.ok ([[0, 1], [0, 2], [1, 2], [2, 3], [1, 3]], [true, true, false, true, true],
      [(0, -1), (0, -1), (0, 1), (1, -1), (1, -1)]) := ⟨demo2_manifold, by decide +kernel⟩

/-- C20 (traversal): `boundary_edges_begin()` to `boundary_edges_end()` yields exactly the marked
edges, in increasing order; the backward traversal yields them in reverse. -/
theorem C20_boundary_edges_traversal (filter : Nat → Bool) (n : Nat) :
    edges2 filter n = some ((List.range n).filter filter) ∧
    edges2Back filter n = some ((List.range n).filter filter).reverse := by
  constructor
  · rw [edges2, walkFwd_all]; simp
  · unfold edges2Back
    obtain ⟨a, b, c, d⟩ := skipFwd_spec (fun i => !filter i) n n 0 (by omega)
    simp only [Bool.not_not] at d c
    generalize skipFwd (fun i => !filter i) n 0 n = r at a b c d
    have hb : (List.range r).filter filter = [] := by
      rw [List.filter_eq_nil_iff]
      intro x hx hf
      simp at hx
      have : x ∈ from' filter n 0 := by simp [from', hf]; omega
      rw [d] at this
      simp [from'] at this
      omega
    refine walkBack_spec filter r hb _ _ b (by omega) ?_
    rcases c with h | h
    · exact Or.inr h.symm
    · by_cases hr : n = r
      · exact Or.inr hr
      · exact Or.inl ⟨r, Nat.le_refl _, by omega, by simpa using h, rfl⟩

example : edges2 (fun i => i % 2 == 1) 5 = some [1, 3] := by decide

/-- C18 (cell traversal): `cells_begin()` to `cells_end()` yields every cell once, in order. -/
theorem C18_cells_traversal (n : Nat) : cellIter n = some (List.range n) := by
  have := walkFwd_spec (fun _ => false) n (n + 1) 0 (Nat.zero_le _) (by omega) (Or.inr rfl)
  rw [cellIter, this]
  simp [from', List.range_eq_range']

/-- C21 (finding): the traversal of the boundary nodes yields exactly the nodes that are NOT marked as
boundary: the test in the iterator is inverted. -/
theorem C21_bug_interior (marker : Nat → Bool) (n : Nat) :
    boundaryNodes marker n = some ((List.range n).filter fun i => !marker i) := by
  rw [boundaryNodes, walkFwd_all]
  congr 1
  apply List.filter_congr
  intro i _
  cases marker i <;> rfl

/-- C21 (finding): on a mesh with at least one node the traversal never yields the boundary nodes. -/
theorem C21_bug_never_right (marker : Nat → Bool) (n : Nat) (hn : 0 < n) :
    boundaryNodes marker n ≠ some ((List.range n).filter marker) := by
  rw [C21_bug_interior]
  intro h
  have h := congrArg (fun l => decide ((0 : Nat) ∈ l)) (Option.some.inj h)
  simp [hn] at h

/-- C21 (proved part): the traversal terminates, and yields nodes of the mesh in increasing order.
Missing: that they are the boundary nodes, which is false. -/
theorem C21_increasing_partial (marker : Nat → Bool) (n : Nat) :
    ∃ l, boundaryNodes marker n = some l ∧ l.Pairwise (· < ·) ∧ ∀ i ∈ l, i < n := by
  refine ⟨_, C21_bug_interior marker n, List.pairwise_lt_range.filter _, ?_⟩
  intro i hi
  simp at hi
  exact hi.1

example : boundaryNodes (fun i => i == 1) 3 = some [0, 2] := by decide

/-- C22 (finding): the traversal of the edges, faces or boundary faces of a 3D triangulation yields
every index passing the filter except the last one, so it is incomplete whenever the last entity
passes the filter (always for the unfiltered traversal). -/
theorem C22_bug_last_missing (filter : Nat → Bool) (n : Nat) (hn : 0 < n) (hl : filter (n - 1) = true) :
    entities3 filter n ≠ some ((List.range n).filter filter) := by
  rw [entities3_spec]
  intro h
  have h := congrArg (fun l => decide (n - 1 ∈ l)) (Option.some.inj h)
  simp [hl] at h
  omega

/-- C22 (what the traversal yields): exactly the indices passing the filter below the last one. -/
theorem C22_yields (filter : Nat → Bool) (n : Nat) :
    entities3 filter n = some ((List.range (n - 1)).filter filter) := entities3_spec filter n

example : entities3 (fun _ => true) 4 = some [0, 1, 2] := by decide

/-- C22 (proved part): if the last entity does not pass the filter the traversal is complete: it
yields every index passing the filter exactly once, in increasing order.  Missing: filters passing
the last index, for which it is false. -/
theorem C22_complete_partial (filter : Nat → Bool) (n : Nat) (hl : filter (n - 1) = false) :
    entities3 filter n = some ((List.range n).filter filter) := by
  rw [entities3_spec]
  rcases n with _ | n
  · rfl
  · simp only [Nat.add_sub_cancel] at hl ⊢
    rw [List.range_succ, List.filter_append]
    simp [hl]

example : entities3 (fun i => i % 3 == 0) 6 = some [0, 3] := C22_complete_partial _ 6 (by decide)

/-- C23: the faces of a 3D triangulation are listed once, the neighbour relation across faces is right
and symmetric, and a face is on the boundary iff exactly one cell contains it. -/
theorem C23_faces (cells : Nat → Nat → Nat) (n : Nat) (h : Manifold cells 4 n) :
    ∃ s, build3 cells n = .ok s ∧ s.facets.Nodup ∧
      (∀ k, k ∈ s.facets ↔ ∃ c < n, ∃ v < 4, IsFacet cells 4 c v k) ∧
      (∀ c < n, ∀ j < 4, ∃ h k, s.cellTo c j = some h ∧ s.facets[h]? = some k ∧ IsFacet cells 4 c (3 - j) k) ∧
      (∀ (h : Nat) k, s.facets[h]? = some k →
        (s.markers[h]? = some true ↔
          ∃ c, (c < n ∧ Contains cells 4 c k) ∧ ∀ d, d < n ∧ Contains cells 4 d k → d = c) ∧
        ((∃ a < n, s.toCells[h]? = some ((a : Int), -1) ∧ ∀ d < n, Contains cells 4 d k ↔ d = a) ∨
         (∃ a < n, ∃ b < n, a < b ∧ s.toCells[h]? = some ((a : Int), (b : Int)) ∧
            ∀ d < n, Contains cells 4 d k ↔ d = a ∨ d = b))) ∧
      (∀ c < n, ∀ v < 4,
        (∀ d : Nat, s.neigh c v = d ↔ d < n ∧ d ≠ c ∧ Shares cells 4 c v d) ∧
        (s.neigh c v = -1 ↔ ∀ d < n, d ≠ c → ¬ Shares cells 4 c v d) ∧
        (∀ d : Nat, s.neigh c v = d → ∃ w < 4, s.neigh d w = c)) := by
  obtain ⟨s, h1, h2⟩ := build3_spec h
  exact ⟨s, h1, h2.nodup, h2.mem, h2.cellTo, fun h k hk => ⟨h2.marker h k hk, h2.toCells h k hk⟩,
    fun c hc v hv => ⟨h2.neigh c hc v hv, h2.neighNone c hc v hv, h2.neighSymm c hc v hv⟩⟩

example : Manifold demo3 4 2 ∧ (fun s : FSt => (s.facets.length, s.markers, s.neigh 0 0, s.neigh 1 0)) <$> build3 demo3 2 =
    Res.ok (7, [true, true, true, false, true, true, true], 1, 0) := ⟨demo3_manifold, by decide +kernel⟩

end Fdapde.Triang
