import Verif.Geometry.Search
import Verif.Geometry.PropsPlane
import Verif.KDTree.Props
/- C48: point location by tree search. -/
namespace Fdapde.Geometry
open KDTree BinTree
variable {d N : Nat}

/-- The mesh has a cell, its nodes lie in its range, which is not flat in any direction. -/
structure SMesh.Ok (m : SMesh d N) : Prop where
  pos : 0 < m.n
  flat : ∀ k, m.lo k < m.hi k
  nodes : ∀ i < m.n, ∀ v k, m.lo k ≤ (m.cell i).coords v k ∧ (m.cell i).coords v k ≤ m.hi k

/-- Points of a simplex are in its bounding box. -/
theorem mem_boundingBox (S : Simplex d N) (p : Vec N) (hp : p ∈ convexHull ℝ (Set.range S.coords)) (k : Fin N) :
    S.boundingBox.1 k ≤ p k ∧ p k ≤ S.boundingBox.2 k := by
  have hconv : Convex ℝ {x : Vec N | S.boundingBox.1 k ≤ x k ∧ x k ≤ S.boundingBox.2 k} := by
    intro x hx y hy a b ha hb hab
    simp only [Set.mem_setOf_eq, Pi.add_apply, Pi.smul_apply, smul_eq_mul] at *
    constructor
    · have e : S.boundingBox.1 k = a * S.boundingBox.1 k + b * S.boundingBox.1 k := by rw [← add_mul, hab, one_mul]
      rw [e]
      exact add_le_add (mul_le_mul_of_nonneg_left hx.1 ha) (mul_le_mul_of_nonneg_left hy.1 hb)
    · have e : S.boundingBox.2 k = a * S.boundingBox.2 k + b * S.boundingBox.2 k := by rw [← add_mul, hab, one_mul]
      rw [e]
      exact add_le_add (mul_le_mul_of_nonneg_left hx.2 ha) (mul_le_mul_of_nonneg_left hy.2 hb)
  refine convexHull_min ?_ hconv hp
  rintro _ ⟨v, rfl⟩
  exact ⟨Finset.inf'_le (fun v => S.coords v k) (Finset.mem_univ v), Finset.le_sup' (fun v => S.coords v k) (Finset.mem_univ v)⟩

theorem stack_lt (a b : Fin N → ℝ) (k : Fin N) : stack a b k = a k := by simp [stack]
theorem stack_ge (a b : Fin N → ℝ) (k : Fin N) : stack a b (N + k) = b k := by
  simp [stack]

/-- The bounding box of a cell containing p is in the query. -/
theorem inBox_of_mem (m : SMesh d N) (hm : m.Ok) (i : Nat) (hi : i < m.n) (p : Vec N)
    (hp : p ∈ convexHull ℝ (Set.range (m.cell i).coords)) : InBox m.data (2 * N) (m.query p) i := by
  have hc : ∀ k, 0 < m.c k := by
    intro k; have := hm.flat k; unfold SMesh.c; exact div_pos (by norm_num) (by linarith)
  have hlo : ∀ k, m.lo k ≤ (m.cell i).boundingBox.1 k := fun k =>
    Finset.le_inf' Finset.univ_nonempty _ fun v _ => (hm.nodes i hi v k).1
  have hhi : ∀ k, (m.cell i).boundingBox.2 k ≤ m.hi k := fun k =>
    Finset.sup'_le Finset.univ_nonempty _ fun v _ => (hm.nodes i hi v k).2
  intro k hk
  by_cases h : k < N
  · have e1 := stack_lt (m.scale (m.cell i).boundingBox.1) (m.scale (m.cell i).boundingBox.2) ⟨k, h⟩
    have e2 := stack_lt (fun _ => 0) (m.scale p) ⟨k, h⟩
    have e3 := stack_lt (m.scale p) (fun _ => 1) ⟨k, h⟩
    simp only at e1 e2 e3
    simp only [SMesh.data, SMesh.query, e1, e2, e3, SMesh.scale]
    refine ⟨mul_nonneg (by have := hlo ⟨k, h⟩; linarith) (hc _).le, ?_⟩
    exact mul_le_mul_of_nonneg_right (by have := (mem_boundingBox _ p hp ⟨k, h⟩).1; linarith) (hc _).le
  · obtain ⟨j, rfl⟩ : ∃ j, k = N + j := ⟨k - N, by omega⟩
    have hj : j < N := by omega
    have e1 := stack_ge (m.scale (m.cell i).boundingBox.1) (m.scale (m.cell i).boundingBox.2) ⟨j, hj⟩
    have e2 := stack_ge (fun _ => 0) (m.scale p) ⟨j, hj⟩
    have e3 := stack_ge (m.scale p) (fun _ => 1) ⟨j, hj⟩
    simp only at e1 e2 e3
    simp only [SMesh.data, SMesh.query, e1, e2, e3, SMesh.scale]
    refine ⟨mul_le_mul_of_nonneg_right (by have := (mem_boundingBox _ p hp ⟨j, hj⟩).2; linarith) (hc _).le, ?_⟩
    have h1 := hhi ⟨j, hj⟩
    have h2 := hm.flat ⟨j, hj⟩
    have : m.c ⟨j, hj⟩ = 1 / (m.hi ⟨j, hj⟩ - m.lo ⟨j, hj⟩) := by unfold SMesh.c; norm_num
    rw [this, mul_one_div, div_le_one (by linarith)]
    linarith

theorem scanAll_eq (hit : Nat → Bool) (l res : List Nat) : scanAll hit l res = res ++ l.filter hit := by
  induction l generalizing res with
  | nil => simp [scanAll]
  | cons x l ih => by_cases h : hit x <;> simp [scanAll, h, ih]

theorem scanFirst_spec (hit : Nat → Bool) (l : List Nat) :
    (scanFirst hit l = -1 ∧ ∀ i ∈ l, hit i = false) ∨ ∃ i ∈ l, hit i = true ∧ scanFirst hit l = (i : Int) := by
  induction l with
  | nil => left; simp [scanFirst]
  | cons x l ih =>
      by_cases h : hit x
      · right; exact ⟨x, by simp, h, by simp [scanFirst, h]⟩
      · rcases ih with ⟨h1, h2⟩ | ⟨i, h1, h2, h3⟩
        · left; refine ⟨by simp [scanFirst, h, h1], ?_⟩
          intro i hi
          rcases List.mem_cons.1 hi with rfl | hi
          · simpa using h
          · exact h2 i hi
        · right; exact ⟨i, by simp [h1], h2, by simp [scanFirst, h, h3]⟩

theorem candidates_spec (m : SMesh d N) (hm : m.Ok) (hN : 0 < N) (nth) (hnth : NthContract nth) (ord : List Nat → List Nat)
    (hord : ∀ l, (ord l).Perm l) (p : Vec N) :
    ∃ l, m.candidates nth ord p = some (.ok l) ∧ l.Nodup ∧ ∀ i, i ∈ l ↔ i < m.n ∧ InBox m.data (2 * N) (m.query p) i := by
  obtain ⟨t, out, h1, h2, h3, h4⟩ := C16_range_search nth hnth m.data (2 * N) m.n (by omega) hm.pos (m.query p)
  refine ⟨ord out, by simp only [SMesh.candidates, h1, h2], (hord out).nodup_iff.2 h3, fun i => ?_⟩
  rw [(hord out).mem_iff]; exact h4 i

/-- all_locate: returns without duplicates only cells whose `contains` does not answer OUTSIDE, and among them every cell
the point is in.  Any tolerance, any tie-breaking in the construction of the tree, any iteration order of the hash set. -/
theorem C48_all_locate (m : SMesh N N) (hm : m.Ok) (hN : 0 < N) (hS : ∀ i < m.n, (m.cell i).Nondeg) (nth)
    (hnth : NthContract nth) (ord : List Nat → List Nat) (hord : ∀ l, (ord l).Perm l) (eps : ℝ) (he : 0 ≤ eps) (p : Vec N) :
    ∃ l, m.allLocate nth ord eps p = some (.ok l) ∧ l.Nodup ∧
      (∀ i ∈ l, i < m.n ∧ (m.cell i).contains eps p ≠ .outside) ∧
      (∀ i < m.n, p ∈ convexHull ℝ (Set.range (m.cell i).coords) → i ∈ l) := by
  obtain ⟨l, h1, h2, h3⟩ := candidates_spec m hm hN nth hnth ord hord p
  refine ⟨l.filter (m.hit eps p), by simp only [SMesh.allLocate, h1, scanAll_eq, List.nil_append], h2.filter _, ?_, ?_⟩
  · intro i hi
    obtain ⟨hi1, hi2⟩ := List.mem_filter.1 hi
    exact ⟨((h3 i).1 hi1).1, by simpa [SMesh.hit] using hi2⟩
  · intro i hi hp
    refine List.mem_filter.2 ⟨(h3 i).2 ⟨hi, inBox_of_mem m hm i hi p hp⟩, ?_⟩
    simpa [SMesh.hit] using C43_tolerance (hS i hi) eps he p hp

/-- With zero tolerance all_locate returns exactly the cells containing p. -/
theorem C48_all_locate_exact (m : SMesh N N) (hm : m.Ok) (hN : 0 < N) (hS : ∀ i < m.n, (m.cell i).Nondeg) (nth)
    (hnth : NthContract nth) (ord : List Nat → List Nat) (hord : ∀ l, (ord l).Perm l) (p : Vec N) :
    ∃ l, m.allLocate nth ord 0 p = some (.ok l) ∧ l.Nodup ∧
      ∀ i, i ∈ l ↔ i < m.n ∧ p ∈ convexHull ℝ (Set.range (m.cell i).coords) := by
  obtain ⟨l, h1, h2, h3, h4⟩ := C48_all_locate m hm hN hS nth hnth ord hord 0 le_rfl p
  refine ⟨l, h1, h2, fun i => ⟨fun hi => ⟨(h3 i hi).1, ?_⟩, fun hi => h4 i hi.1 hi.2⟩⟩
  by_contra hc
  exact (h3 i hi).2 ((C43_outside (hS i (h3 i hi).1) p).2 hc)

/-- locate: the result is -1 or a cell whose `contains` does not answer OUTSIDE; it is not -1 if p is in a cell. -/
theorem C48_locate (m : SMesh N N) (hm : m.Ok) (hN : 0 < N) (hS : ∀ i < m.n, (m.cell i).Nondeg) (nth)
    (hnth : NthContract nth) (ord : List Nat → List Nat) (hord : ∀ l, (ord l).Perm l) (eps : ℝ) (he : 0 ≤ eps) (p : Vec N) :
    (m.locate nth ord eps p = some (.ok (-1)) ∧ ∀ i < m.n, p ∉ convexHull ℝ (Set.range (m.cell i).coords)) ∨
    ∃ i < m.n, m.locate nth ord eps p = some (.ok (i : Int)) ∧ (m.cell i).contains eps p ≠ .outside := by
  obtain ⟨l, h1, h2, h3⟩ := candidates_spec m hm hN nth hnth ord hord p
  rcases scanFirst_spec (m.hit eps p) l with ⟨h4, h5⟩ | ⟨i, h4, h5, h6⟩
  · left
    refine ⟨by simp only [SMesh.locate, h1, h4], fun i hi hp => ?_⟩
    have := h5 i ((h3 i).2 ⟨hi, inBox_of_mem m hm i hi p hp⟩)
    have hc := C43_tolerance (hS i hi) eps he p hp
    simp [SMesh.hit] at this
    exact hc this
  · right
    exact ⟨i, ((h3 i).1 h4).1, by simp only [SMesh.locate, h1, h6], by simpa [SMesh.hit] using h5⟩

/-- With zero tolerance: -1 exactly when no cell contains p, otherwise a cell containing p. -/
theorem C48_locate_exact (m : SMesh N N) (hm : m.Ok) (hN : 0 < N) (hS : ∀ i < m.n, (m.cell i).Nondeg) (nth)
    (hnth : NthContract nth) (ord : List Nat → List Nat) (hord : ∀ l, (ord l).Perm l) (p : Vec N) :
    (m.locate nth ord 0 p = some (.ok (-1)) ∧ ∀ i < m.n, p ∉ convexHull ℝ (Set.range (m.cell i).coords)) ∨
    ∃ i < m.n, m.locate nth ord 0 p = some (.ok (i : Int)) ∧ p ∈ convexHull ℝ (Set.range (m.cell i).coords) := by
  rcases C48_locate m hm hN hS nth hnth ord hord 0 le_rfl p with h | ⟨i, h1, h2, h3⟩
  · exact Or.inl h
  · right
    refine ⟨i, h1, h2, ?_⟩
    by_contra hc
    exact h3 ((C43_outside (hS i h1) p).2 hc)

/-- The same for a surface mesh of triangles in space. -/
theorem C48_locate_surface (m : SMesh 2 3) (hm : m.Ok) (hS : ∀ i < m.n, (m.cell i).Nondeg) (nth)
    (hnth : NthContract nth) (ord : List Nat → List Nat) (hord : ∀ l, (ord l).Perm l) (p : Vec 3) :
    (m.locate nth ord 0 p = some (.ok (-1)) ∧ ∀ i < m.n, p ∉ convexHull ℝ (Set.range (m.cell i).coords)) ∨
    ∃ i < m.n, m.locate nth ord 0 p = some (.ok (i : Int)) ∧ p ∈ convexHull ℝ (Set.range (m.cell i).coords) := by
  obtain ⟨l, h1, h2, h3⟩ := candidates_spec m hm (by decide) nth hnth ord hord p
  rcases scanFirst_spec (m.hit 0 p) l with ⟨h4, h5⟩ | ⟨i, h4, h5, h6⟩
  · left
    refine ⟨by simp only [SMesh.locate, h1, h4], fun i hi hp => ?_⟩
    have := h5 i ((h3 i).2 ⟨hi, inBox_of_mem m hm i hi p hp⟩)
    simp [SMesh.hit] at this
    exact (C43_outside_tri3 (hS i hi) p).1 this hp
  · right
    have hi := ((h3 i).1 h4).1
    refine ⟨i, hi, by simp only [SMesh.locate, h1, h6], ?_⟩
    by_contra hc
    have := (C43_outside_tri3 (hS i hi) p).2 hc
    simp [SMesh.hit, this] at h5

/-- The hypotheses hold for the mesh of one unit triangle. -/
example : ∃ m : SMesh 2 2, m.Ok ∧ ∀ i < m.n, (m.cell i).Nondeg := by
  refine ⟨⟨fun _ => unitTri, 1, ![0, 0], ![1, 1]⟩, ⟨by simp, ?_, ?_⟩, fun _ _ => unitTri_nondeg⟩
  · intro k; fin_cases k <;> simp
  · intro i _ v k; fin_cases v <;> fin_cases k <;> simp [unitTri]

end Fdapde.Geometry
