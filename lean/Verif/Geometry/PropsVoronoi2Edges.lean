import Verif.Geometry.PropsVoronoi2Geo
import Mathlib.Algebra.Order.Field.Rat
import Mathlib.Data.List.Sort
/-
C96 and C95: edges of the whole diagram, cells on the boundary.
-/
namespace Fdapde.Voronoi2
open Geometry

set_option linter.unusedSectionVars false
section
variable {K : Type} [Field K] [LinearOrder K]

/-- The vertices `a`, `b` are consecutive around the cell of some site. -/
def Joined (s : V K) (order : List Nat) (a b : Nat) : Prop :=
  ∃ v ∈ order, ∃ j < (s.cells v).length, ((s.cells v).getD j 0 = a ∧ (s.cells v).getD ((j + 1) % (s.cells v).length) 0 = b) ∨
    ((s.cells v).getD j 0 = b ∧ (s.cells v).getD ((j + 1) % (s.cells v).length) 0 = a)

theorem insertEdge_spec (l : List (Nat × Nat)) : ∀ vis : List (Nat × Nat), vis.Nodup →
    (l.foldl insertEdge vis).Nodup ∧ ∀ e, e ∈ l.foldl insertEdge vis ↔ e ∈ vis ∨ ∃ e' ∈ l, sortEdge e' = e := by
  induction l with
  | nil => intro vis h; exact ⟨h, fun e => by simp⟩
  | cons a l ih =>
    intro vis h
    rw [List.foldl_cons]
    have hn : (insertEdge vis a).Nodup := by
      unfold insertEdge
      split_ifs with hc
      · exact h
      · rw [List.nodup_append]
        refine ⟨h, List.nodup_singleton _, ?_⟩
        intro x hx y hy
        rw [List.mem_singleton] at hy
        subst hy
        rintro rfl
        exact hc (List.contains_iff_mem.2 hx)
    have hm : ∀ e, e ∈ insertEdge vis a ↔ e ∈ vis ∨ sortEdge a = e := by
      intro e
      unfold insertEdge
      split_ifs with hc
      · rw [List.contains_iff_mem] at hc
        constructor
        · exact Or.inl
        · rintro (h' | rfl)
          · exact h'
          · exact hc
      · rw [List.mem_append, List.mem_singleton, eq_comm (a := e)]
    obtain ⟨h1, h2⟩ := ih _ hn
    refine ⟨h1, fun e => ?_⟩
    rw [h2, hm]
    simp only [List.mem_cons, exists_eq_or_imp]
    tauto

/-- C96: `edges()` of the diagram lists every pair of vertices that are consecutive around some cell exactly once, the smaller
index first, and nothing else, whatever the order of the hash containers. -/
theorem C96_diagram_edges (s : V K) (order : List Nat) (perm : List (Nat × Nat) → List (Nat × Nat)) (hp : ∀ l, (perm l).Perm l) :
    (edges s order perm).Nodup ∧ ∀ a b, (a, b) ∈ edges s order perm ↔ a ≤ b ∧ Joined s order a b := by
  obtain ⟨h1, h2⟩ := insertEdge_spec (order.flatMap fun v => cellEdges (s.cells v)) [] List.nodup_nil
  refine ⟨(hp _).nodup_iff.2 h1, fun a b => ?_⟩
  unfold edges
  rw [(hp _).mem_iff, h2]
  simp only [List.not_mem_nil, false_or, List.mem_flatMap, cellEdges, List.mem_map, List.mem_range]
  constructor
  · rintro ⟨e, ⟨v, hv, j, hj, rfl⟩, he⟩
    rw [Nat.mod_eq_of_lt hj] at he
    unfold sortEdge at he
    split_ifs at he with hc
    · obtain ⟨rfl, rfl⟩ := Prod.mk.inj he
      exact ⟨le_of_lt hc, v, hv, j, hj, Or.inr ⟨rfl, rfl⟩⟩
    · obtain ⟨rfl, rfl⟩ := Prod.mk.inj he
      exact ⟨not_lt.1 hc, v, hv, j, hj, Or.inl ⟨rfl, rfl⟩⟩
  · rintro ⟨hab, v, hv, j, hj, h⟩
    refine ⟨_, ⟨v, hv, j, hj, rfl⟩, ?_⟩
    rw [Nat.mod_eq_of_lt hj]
    unfold sortEdge
    rcases h with ⟨rfl, rfl⟩ | ⟨h1, h2⟩
    · rw [if_neg (not_lt.2 hab)]
    · dsimp only
      rw [h1, h2]
      split_ifs with hc
      · rfl
      · rw [le_antisymm hab (not_lt.1 hc)]

/-! ### Cells on the boundary -/

/-- On a cycle in which more than half of the elements satisfy `p` two consecutive ones do. -/
theorem two_consecutive (p : Nat → Bool) (l : List Nat) (h : l.length < 2 * l.countP p) :
    ∃ j < l.length, p (l.getD j 0) = true ∧ p (l.getD ((j + 1) % l.length) 0) = true := by
  by_contra hn
  push Not at hn
  have hpos : 0 < l.length := by
    rcases Nat.eq_zero_or_pos l.length with h0 | h0
    · have := List.countP_le_length (p := p) (l := l); omega
    · exact h0
  -- positions of the elements with `p`
  set A := (Finset.range l.length).filter fun j => p (l.getD j 0) = true with hA
  have hcard : A.card = l.countP p := by
    rw [hA]
    clear hn h hA A hpos
    induction l using List.reverseRecOn with
    | nil => simp
    | append_singleton l x ih =>
      rw [List.countP_append, List.length_append, List.length_singleton, Finset.range_add_one, Finset.filter_insert]
      have e1 : (l ++ [x]).getD l.length 0 = x := by simp
      have e2 : (Finset.range l.length).filter (fun j => p ((l ++ [x]).getD j 0) = true) =
          (Finset.range l.length).filter fun j => p (l.getD j 0) = true := by
        apply Finset.filter_congr
        intro j hj
        rw [List.getD_eq_getElem?_getD, List.getD_eq_getElem?_getD, List.getElem?_append_left (Finset.mem_range.1 hj)]
      rw [e1, e2]
      split_ifs with hx
      · rw [Finset.card_insert_of_notMem (by simp), ih]; simp [hx]
      · rw [ih]; simp [hx]
  have himg : A.image (fun j => (j + 1) % l.length) ⊆ Finset.range l.length \ A := by
    intro i hi
    rw [Finset.mem_image] at hi
    obtain ⟨j, hj, rfl⟩ := hi
    rw [hA, Finset.mem_filter, Finset.mem_range] at hj
    rw [Finset.mem_sdiff, Finset.mem_range]
    refine ⟨Nat.mod_lt _ hpos, fun hm => ?_⟩
    rw [hA, Finset.mem_filter] at hm
    exact hn j hj.1 hj.2 hm.2
  have hinj : Set.InjOn (fun j => (j + 1) % l.length) A := by
    intro i hi j hj hij
    have hi := Finset.mem_range.1 (Finset.mem_filter.1 (Finset.mem_coe.1 hi)).1
    have hj := Finset.mem_range.1 (Finset.mem_filter.1 (Finset.mem_coe.1 hj)).1
    dsimp only at hij
    rcases Nat.lt_or_ge (i + 1) l.length with h1 | h1 <;> rcases Nat.lt_or_ge (j + 1) l.length with h2 | h2
    · rw [Nat.mod_eq_of_lt h1, Nat.mod_eq_of_lt h2] at hij; omega
    · rw [Nat.mod_eq_of_lt h1, show j + 1 = l.length by omega, Nat.mod_self] at hij; omega
    · rw [Nat.mod_eq_of_lt h2, show i + 1 = l.length by omega, Nat.mod_self] at hij; omega
    · omega
  have h1 := Finset.card_le_card himg
  rw [Finset.card_image_of_injOn hinj, Finset.card_sdiff_of_subset (Finset.filter_subset _ _), Finset.card_range] at h1
  have h2 : A.card ≤ l.length := by rw [hcard]; exact List.countP_le_length
  rw [← hA] at h1
  omega

/-- C95: a cell more than half of whose vertices are boundary vertices is reported on the boundary (for instance the cells of
boundary sites with one or two triangles: two midpoints and the site against two circumcenters).  Missing: the other boundary sites, for
which it is false, see `C95_bug_boundary`. -/
theorem C95_boundary_partial (s : V K) (v : Nat) (h : (s.cells v).length < 2 * (s.cells v).countP s.markers) :
    cellOnBoundary s v = true := by
  obtain ⟨j, hj, h1, h2⟩ := two_consecutive s.markers (s.cells v) h
  unfold cellOnBoundary
  rw [List.any_eq_true]
  refine ⟨_, List.mem_map.2 ⟨j, List.mem_range.2 hj, rfl⟩, ?_⟩
  rw [Nat.mod_eq_of_lt hj]
  simp only [h1, h2, Bool.and_self]

end

/-- A fan of three triangles around the node 0, with obtuse boundary triangles. -/
def fanMesh : Mesh ℚ where
  nCells := 3
  cellNodes c := [[0, 1, 2], [0, 2, 3], [0, 3, 4]].getD c []
  cellEdges c := [[0, 1, 2], [2, 3, 4], [4, 5, 6]].getD c []
  edgeNodes e := [[0, 1], [1, 2], [0, 2], [2, 3], [0, 3], [3, 4], [0, 4]].getD e []
  edgeBd e := e != 2 && e != 4
  nodeBd _ := true
  nBoundaryEdges := 5
  nBoundaryNodes := 5
  node v := [(0, 0), (-2, -3), (0, -2), (3, 2), (3, 3)].getD v (0, 0)
  circumcenter c := [(-7/4, -1), (17/6, -1), (1/2, 5/2)].getD c (0, 0)
  project e x :=
    let n : Nat → ℚ × ℚ := fun v => [(0, 0), (-2, -3), (0, -2), (3, 2), (3, 3)].getD v (0, 0)
    let ab := [[0, 1], [1, 2], [0, 2], [2, 3], [0, 3], [3, 4], [0, 4]].getD e []
    let a := n (ab.getD 0 0)
    let b := n (ab.getD 1 0)
    let t := ((x.1 - a.1) * (b.1 - a.1) + (x.2 - a.2) * (b.2 - a.2)) /
      ((b.1 - a.1) * (b.1 - a.1) + (b.2 - a.2) * (b.2 - a.2))
    (a.1 + t * (b.1 - a.1), a.2 + t * (b.2 - a.2))

/-- Insertion sort by the comparison. -/
def demoSort (lt : Nat → Nat → Bool) (l : List Nat) : List Nat := l.insertionSort fun a b => !lt b a

/-- C95 (finding): the cell of a boundary site is not always reported on the boundary.  On a valid Delaunay mesh of three
triangles around the node 0 the boundary vertices of its cell (the site and two midpoints) alternate with the circumcenters, which fall
outside of the domain. -/
theorem C95_bug_boundary : fanMesh.nodeBd 0 = true ∧
    (∃ s, build fanMesh demoSort [0, 1, 2, 3, 4] = .ok s ∧ cellOnBoundary s 0 = false) ∧
    (∀ c < 3, ∀ v ∈ fanMesh.cellNodes c,
      dist2 (fanMesh.node v) (fanMesh.circumcenter c) = dist2 (fanMesh.node 0) (fanMesh.circumcenter c)) ∧
    (∀ c < 3, ∀ v < 5, v ∉ fanMesh.cellNodes c →
      dist2 (fanMesh.node 0) (fanMesh.circumcenter c) < dist2 (fanMesh.node v) (fanMesh.circumcenter c)) := by
  refine ⟨rfl, ?_, by decide +kernel, by decide +kernel⟩
  have h : (match build fanMesh demoSort [0, 1, 2, 3, 4] with | .ok s => cellOnBoundary s 0 | _ => true) = false := by decide +kernel
  revert h
  cases build fanMesh demoSort [0, 1, 2, 3, 4] with
  | ok s => exact fun h => ⟨s, rfl, h⟩
  | throws => simp
  | ub => simp

/-- The other sites of the mesh have one or two triangles. -/
example : (match build fanMesh demoSort [0, 1, 2, 3, 4] with
    | .ok s => decide ((s.cells 1).length < 2 * (s.cells 1).countP s.markers) && cellOnBoundary s 1
    | _ => false) = true := by decide +kernel

example : (match build fanMesh demoSort [0, 1, 2, 3, 4] with
    | .ok s => (edges s [0, 1, 2, 3, 4] id).length
    | _ => 0) = 21 := by decide +kernel

end Fdapde.Voronoi2
