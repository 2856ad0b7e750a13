import Verif.FEM.Lagrange
import Verif.FEM.PropsPoly
import Mathlib.Data.Rat.Cast.CharZero
import Mathlib.Tactic.FinCases
/- C55, C56 : the Lagrangian basis and the reference nodes. -/
namespace Fdapde.FEM
open Fdapde.Combinatorics

/-- Inverse of the Vandermonde matrix of ReferenceElement<1, 1>. -/
def inv11 : List (List ℚ) :=
  [[1, 0],
   [-1, 1]]

/-- Inverse of the Vandermonde matrix of ReferenceElement<1, 2>. -/
def inv12 : List (List ℚ) :=
  [[1, 0, 0],
   [-3, -1, 4],
   [2, 2, -4]]

/-- Inverse of the Vandermonde matrix of ReferenceElement<2, 1>. -/
def inv21 : List (List ℚ) :=
  [[1, 0, 0],
   [-1, 1, 0],
   [-1, 0, 1]]

/-- Inverse of the Vandermonde matrix of ReferenceElement<2, 2>. -/
def inv22 : List (List ℚ) :=
  [[1, 0, 0, 0, 0, 0],
   [-3, -1, 0, 4, 0, 0],
   [2, 2, 0, -4, 0, 0],
   [-3, 0, -1, 0, 4, 0],
   [4, 0, 0, -4, -4, 4],
   [2, 0, 2, 0, -4, 0]]

/-- Inverse of the Vandermonde matrix of ReferenceElement<2, 3>. -/
def inv23 : List (List ℚ) :=
  [[1, 0, 0, 0, 0, 0, 0, 0, 0, 0],
   [-11/2, 1, 0, 9, -9/2, 0, 0, 0, 0, 0],
   [9, -9/2, 0, -45/2, 18, 0, 0, 0, 0, 0],
   [-9/2, 9/2, 0, 27/2, -27/2, 0, 0, 0, 0, 0],
   [-11/2, 0, 1, 0, 0, 9, -9/2, 0, 0, 0],
   [18, 0, 0, -45/2, 9/2, -45/2, 9/2, -9/2, -9/2, 27],
   [-27/2, 0, 0, 27, -27/2, 27/2, 0, 27/2, 0, -27],
   [9, 0, -9/2, 0, 0, -45/2, 18, 0, 0, 0],
   [-27/2, 0, 0, 27/2, 0, 27, -27/2, 0, 27/2, -27],
   [-9/2, 0, 9/2, 0, 0, 27/2, -27/2, 0, 0, 0]]

/-- Inverse of the Vandermonde matrix of ReferenceElement<3, 1>. -/
def inv31 : List (List ℚ) :=
  [[1, 0, 0, 0],
   [-1, 1, 0, 0],
   [-1, 0, 1, 0],
   [-1, 0, 0, 1]]

/-- Inverse of the Vandermonde matrix of ReferenceElement<3, 2>. -/
def inv32 : List (List ℚ) :=
  [[1, 0, 0, 0, 0, 0, 0, 0, 0, 0],
   [-3, -1, 0, 0, 0, 0, 4, 0, 0, 0],
   [2, 2, 0, 0, 0, 0, -4, 0, 0, 0],
   [-3, 0, -1, 0, 0, 4, 0, 0, 0, 0],
   [4, 0, 0, 0, 4, -4, -4, 0, 0, 0],
   [2, 0, 2, 0, 0, -4, 0, 0, 0, 0],
   [-3, 0, 0, -1, 0, 0, 0, 0, 0, 4],
   [4, 0, 0, 0, 0, 0, -4, 4, 0, -4],
   [4, 0, 0, 0, 0, -4, 0, 0, 4, -4],
   [2, 0, 0, 2, 0, 0, 0, 0, 0, -4]]

section
variable {K : Type} [Field K]

theorem monomialSum_dot {n M : Nat} (hn : 0 < n) (tab : Nat → Nat → Nat) (c : Fin n → K) (x : Nat → K) :
    monomialSum (fun m => if h : m < n then c ⟨m, h⟩ else 0) x tab M (n - 1) =
      ∑ m : Fin n, c m * ∏ z ∈ Finset.range (M + 1), x z ^ tab m z := by
  rw [C54_value, show n - 1 + 1 = n by omega, Finset.sum_range]
  refine Finset.sum_congr rfl (fun m _ => ?_)
  rw [dif_pos m.2]

theorem vander_eq {n M : Nat} {tab : Nat → Nat → Nat} (h0 : ∀ z ≤ M, tab 0 z = 0) (nodes : Nat → Nat → K) (i j : Fin n) :
    vander n M tab nodes i j = ∏ z ∈ Finset.range (M + 1), nodes i z ^ tab j z := by
  unfold vander
  split_ifs with h
  · exact monomial_eq _ _ _
  · rw [show j.1 = 0 by omega]
    symm
    refine Finset.prod_eq_one (fun z hz => ?_)
    rw [h0 z (by have := Finset.mem_range.1 hz; omega), pow_zero]

/-- Values of the i-th basis function in terms of the inverse of the Vandermonde matrix. -/
theorem lagEval_eq {n M : Nat} (hn : 0 < n) (tab : Nat → Nat → Nat) (nodes : Nat → Nat → K) (i : Fin n) (x : Nat → K) :
    lagEval n M tab nodes i x = ∑ m : Fin n, (vander n M tab nodes)⁻¹ m i * ∏ z ∈ Finset.range (M + 1), x z ^ tab m z := by
  unfold lagEval
  have : lagCoeff n M tab nodes i = fun m => if h : m < n then (vander n M tab nodes)⁻¹ ⟨m, h⟩ i else 0 := by
    funext m
    unfold lagCoeff
    split_ifs
    · rw [Matrix.mulVec_single_one]; rfl
    · rfl
  rw [this]
  exact monomialSum_dot hn tab (fun m => (vander n M tab nodes)⁻¹ m i) x

/-- The basis is nodal, for any nodes with an invertible Vandermonde matrix. -/
theorem lag_nodal {n M : Nat} {tab : Nat → Nat → Nat} (h0 : ∀ z ≤ M, tab 0 z = 0) (nodes : Nat → Nat → K)
    (hu : IsUnit (vander n M tab nodes).det) (i j : Fin n) :
    lagEval n M tab nodes i (nodes j) = if j = i then 1 else 0 := by
  rw [lagEval_eq (by have := i.2; omega)]
  have := congrFun (congrFun (Matrix.mul_nonsing_inv _ hu) j) i
  rw [Matrix.mul_apply, Matrix.one_apply] at this
  rw [← this]
  refine Finset.sum_congr rfl (fun m _ => ?_)
  rw [vander_eq h0, mul_comm]

/-- Every combination of the monomials of the table is reproduced from its nodal values. -/
theorem lag_reproduces {n M : Nat} (hn : 0 < n) {tab : Nat → Nat → Nat} (h0 : ∀ z ≤ M, tab 0 z = 0) (nodes : Nat → Nat → K)
    (hu : IsUnit (vander n M tab nodes).det) (q : Fin n → K) (x : Nat → K) :
    ∑ i : Fin n, (∑ m : Fin n, q m * ∏ z ∈ Finset.range (M + 1), nodes i z ^ tab m z) * lagEval n M tab nodes i x =
      ∑ m : Fin n, q m * ∏ z ∈ Finset.range (M + 1), x z ^ tab m z := by
  have h1 : ∀ i : Fin n, (∑ m : Fin n, q m * ∏ z ∈ Finset.range (M + 1), nodes i z ^ tab m z) =
      (vander n M tab nodes).mulVec q i := by
    intro i
    rw [Matrix.mulVec, dotProduct]
    refine Finset.sum_congr rfl (fun m _ => ?_)
    rw [vander_eq h0, mul_comm]
  have h2 : q = (vander n M tab nodes)⁻¹.mulVec ((vander n M tab nodes).mulVec q) := by
    rw [Matrix.mulVec_mulVec, Matrix.nonsing_inv_mul _ hu, Matrix.one_mulVec]
  simp only [h1, lagEval_eq hn]
  conv_rhs => rw [h2]
  simp only [Matrix.mulVec, dotProduct, Finset.sum_mul, Finset.mul_sum]
  rw [Finset.sum_comm]
  refine Finset.sum_congr rfl (fun m _ => ?_)
  refine Finset.sum_congr rfl (fun i _ => ?_)
  refine Finset.sum_congr rfl (fun l _ => ?_)
  ring
end

/-! ### The supported elements -/

/-- Inverse of the Vandermonde matrix of a supported element. -/
def refInv : Nat → Nat → List (List ℚ)
  | 1, 1 => inv11
  | 1, 2 => inv12
  | 2, 1 => inv21
  | 2, 2 => inv22
  | 2, 3 => inv23
  | 3, 1 => inv31
  | 3, 2 => inv32
  | _, _ => []

/-- The supported dimensions and orders, with the number of basis functions. -/
def Supported (M R n : Nat) : Prop := (M, R, n) ∈ [(1, 1, 2), (1, 2, 3), (2, 1, 3), (2, 2, 6), (2, 3, 10), (3, 1, 4), (3, 2, 10)]

theorem inverse_ok : ∀ e ∈ [(1, 1, 2), (1, 2, 3), (2, 1, 3), (2, 2, 6), (2, 3, 10), (3, 1, 4), (3, 2, 10)],
    ∀ i < e.2.2, ∀ j < e.2.2, (List.range e.2.2).foldl (fun v k => v +
      (if 1 ≤ k then monomial (look ((refNodes e.1 e.2.1).getD []) i) (refTable e.1 e.2.1 k) (e.1 - 1) else 1) *
        look (refInv e.1 e.2.1) k j) 0 = if i = j then (1 : ℚ) else 0 := by
  decide +kernel

theorem sizes_ok : ∀ e ∈ [(1, 1, 2), (1, 2, 3), (2, 1, 3), (2, 2, 6), (2, 3, 10), (3, 1, 4), (3, 2, 10)],
    1 ≤ e.1 ∧ e.2.2 = (e.1 + e.2.1).choose e.2.1 ∧ ((refNodes e.1 e.2.1).getD []).length = e.2.2 := by
  decide +kernel

variable {K : Type} [Field K] [CharZero K]

theorem monomial_cast (p : Nat → ℚ) (v : Nat → Nat) (n : Nat) :
    monomial (fun z => (p z : K)) v n = ((monomial p v n : ℚ) : K) := by
  rw [monomial_eq, monomial_eq]; push_cast; rfl

theorem vander_inv {M R n : Nat} (h : Supported M R n) :
    vander n (M - 1) (refTable M R) (refNodesK K M R) *
      (Matrix.of fun k j : Fin n => ((look (refInv M R) k.1 j.1 : ℚ) : K)) = 1 := by
  have hi := inverse_ok _ h
  · ext i j
    have hij := hi i i.2 j j.2
    rw [Matrix.mul_apply, Matrix.one_apply]
    have hf : ∀ (f : Nat → ℚ) m, (List.range m).foldl (fun v k => v + f k) 0 = ∑ k ∈ Finset.range m, f k := by
      intro f m
      induction m with
      | zero => rfl
      | succ m ih => rw [List.range_succ, List.foldl_append, ih, Finset.sum_range_succ]; rfl
    rw [hf, Finset.sum_range] at hij
    have hcast := congrArg (fun q : ℚ => (q : K)) hij
    simp only [Rat.cast_sum, Rat.cast_mul] at hcast
    have e2 : ((if i.1 = j.1 then (1 : ℚ) else 0 : ℚ) : K) = if i = j then 1 else 0 := by
      by_cases hij : i = j
      · subst hij; simp
      · rw [if_neg (fun h => hij (Fin.ext h)), if_neg hij, Rat.cast_zero]
    rw [e2] at hcast
    rw [← hcast]
    refine Finset.sum_congr rfl (fun k _ => ?_)
    congr 1
    unfold vander
    split_ifs
    · exact monomial_cast _ _ _
    · exact Rat.cast_one.symm

theorem vander_unit {M R n : Nat} (h : Supported M R n) :
    IsUnit (vander n (M - 1) (refTable M R) (refNodesK K M R)).det := Matrix.isUnit_det_of_right_inverse (vander_inv h)

theorem refTable_eq {M R : Nat} (hM : 1 ≤ M) : refTable M R = look (enum R M) := by
  unfold refTable; rw [polyExp_eq M R hM]

theorem refTable_zero {M R : Nat} (hM : 1 ≤ M) (z : Nat) : refTable M R 0 z = 0 := by
  rw [refTable_eq hM]
  have := (enum_chained R M).1
  unfold look
  cases he : enum R M with
  | nil => rw [he] at this; simp at this
  | cons a l =>
    rw [he] at this
    simp only [List.head?_cons, Option.some.injEq] at this
    rw [this]
    simp [List.getElem?_replicate]
    split_ifs <;> rfl

/-- **C55**, nodes: for every supported dimension and order, the i-th basis function is 1 at the i-th reference node and 0
at the others. -/
theorem C55_nodal (M R n : Nat) (h : Supported M R n) (i j : Fin n) :
    refBasis K M R n i (refNodesK K M R j) = if j = i then 1 else 0 :=
  lag_nodal (fun z _ => refTable_zero (sizes_ok _ h).1 z) _ (vander_unit h) i j

/-- **C55**, reproduction: every polynomial of degree at most R (a finite combination of monomials of degree at most R) is
the combination of the basis functions with its values at the nodes. -/
theorem C55_reproduces (M R n : Nat) (h : Supported M R n) (s : Finset (List Nat)) (q : List Nat → K)
    (hs : ∀ v ∈ s, v.length = M ∧ v.sum ≤ R) (x : Nat → K) :
    ∑ i : Fin n, (∑ v ∈ s, q v * ∏ z ∈ Finset.range M, refNodesK K M R i z ^ v.getD z 0) * refBasis K M R n i x =
      ∑ v ∈ s, q v * ∏ z ∈ Finset.range M, x z ^ v.getD z 0 := by
  classical
  obtain ⟨hM, hn, _⟩ := sizes_ok _ h
  simp only at hn hM
  have hM1 : M - 1 + 1 = M := by omega
  have hlen : (enum R M).length = n := by rw [enum_length, hn, Nat.add_comm]
  have hpos : 0 < n := by rw [hn]; exact Nat.choose_pos (by omega)
  have one : ∀ v ∈ s, ∑ i : Fin n, (∏ z ∈ Finset.range M, refNodesK K M R i z ^ v.getD z 0) * refBasis K M R n i x =
      ∏ z ∈ Finset.range M, x z ^ v.getD z 0 := by
    intro v hv
    obtain ⟨m, hm, hget⟩ := List.mem_iff_getElem.1 ((mem_enum R M v).2 (hs v hv))
    have hrow : ∀ z, refTable M R m z = v.getD z 0 := by
      intro z
      have : (enum R M).getD m [] = v := by
        rw [List.getD_eq_getElem?_getD, List.getElem?_eq_getElem hm, hget]; rfl
      rw [refTable_eq hM, look, this]
    have hm' : m < n := by omega
    have := lag_reproduces hpos (fun z _ => refTable_zero hM z) (refNodesK K M R) (vander_unit h)
      (Pi.single ⟨m, hm'⟩ 1) x
    simp only [Pi.single_apply, ite_mul, one_mul, zero_mul, Finset.sum_ite_eq', Finset.mem_univ, if_true, hrow, hM1] at this
    exact this
  simp only [Finset.sum_mul]
  rw [Finset.sum_comm]
  refine Finset.sum_congr rfl (fun v hv => ?_)
  rw [← one v hv, Finset.mul_sum]
  refine Finset.sum_congr rfl (fun i _ => ?_)
  ring

/-- **C55**, partition of unity: the basis functions sum to one at every point. -/
theorem C55_sum_one (M R n : Nat) (h : Supported M R n) (x : Nat → K) : ∑ i : Fin n, refBasis K M R n i x = 1 := by
  have := C55_reproduces (K := K) M R n h {List.replicate M 0} (fun _ => 1) (by simp) x
  have e : ∀ z, (List.replicate M 0).getD z 0 = 0 := by
    intro z; simp [List.getElem?_replicate]; split_ifs <;> rfl
  simp only [Finset.sum_singleton, e, pow_zero, Finset.prod_const_one, one_mul] at this
  exact this

omit [CharZero K] in
/-- For any nodes with an invertible Vandermonde matrix (not only the reference ones), first coefficient row constant. -/
theorem C55_general (n M : Nat) (tab : Nat → Nat → Nat) (h0 : ∀ z ≤ M, tab 0 z = 0) (nodes : Nat → Nat → K)
    (hu : IsUnit (vander n M tab nodes).det) (i j : Fin n) :
    lagEval n M tab nodes i (nodes j) = if j = i then 1 else 0 := lag_nodal h0 nodes hu i j

example : Supported 2 2 6 := by unfold Supported; decide

/-! ### C56 -/

/-- Midpoint of the vertices `a`, `b` of the reference simplex. -/
def refMid (nodes : List (List ℚ)) (a b z : Nat) : ℚ := (look nodes a z + look nodes b z) / 2

/-- **C56** (partial: dimensions 1 and 2).  The node of local dof `M + 1 + k` of a second order element is the midpoint of
the k-th edge in the order of `combinations<2, M + 1>()`, which is the one used to number the dofs. -/
theorem C56_edge_nodes_partial : ∀ M ∈ [1, 2], ∃ pat, combinations 2 (M + 1) = .ok pat ∧ ∃ nodes, refNodes M 2 = some nodes ∧
    nodes.length = M + 1 + pat.length ∧
    ∀ k < pat.length, ∀ z < M, look nodes (M + 1 + k) z = refMid nodes (look pat k 0) (look pat k 1) z := by
  intro M hM
  simp only [List.mem_cons, List.not_mem_nil, or_false] at hM
  rcases hM with rfl | rfl
  · exact ⟨[[0, 1]], by decide +kernel, _, rfl, by decide +kernel⟩
  · exact ⟨[[0, 1], [0, 2], [1, 2]], by decide +kernel, _, rfl, by decide +kernel⟩

/-- In dimension 3 the two enumerations disagree: the first edge is (0, 1), but the node of the first edge dof is the
midpoint of vertices 1 and 2; only the dof of edge (0, 2) is where it should be. -/
theorem C56_bug_dimension_three : ∃ pat nodes, combinations 2 4 = .ok pat ∧ refNodes 3 2 = some nodes ∧
    look pat 0 0 = 0 ∧ look pat 0 1 = 1 ∧ (∀ z < 3, look nodes 4 z = refMid nodes 1 2 z) ∧
    ∀ k < 6, ((∀ z < 3, look nodes (4 + k) z = refMid nodes (look pat k 0) (look pat k 1) z) ↔ k = 1) :=
  ⟨[[0, 1], [0, 2], [0, 3], [1, 2], [1, 3], [2, 3]], _, by decide +kernel, rfl, by decide +kernel⟩

/-- **C56**: where they exist, the barycentric coordinates of the nodes agree with the nodes: they sum to one and the last
M of them are the coordinates. -/
theorem C56_barycentric : ∀ e ∈ [(1, 1), (1, 2), (2, 1), (2, 2), (2, 3), (3, 1)],
    ∃ nodes bary, refNodes e.1 e.2 = some nodes ∧ refBary e.1 e.2 = some bary ∧ nodes.length = bary.length ∧
      ∀ i < nodes.length, ((bary.getD i []).sum = 1 ∧ (bary.getD i []).length = e.1 + 1) ∧
        ∀ z < e.1, look bary i (z + 1) = look nodes i z := by
  intro e he
  simp only [List.mem_cons, List.not_mem_nil, or_false] at he
  rcases he with rfl | rfl | rfl | rfl | rfl | rfl <;> exact ⟨_, _, rfl, rfl, by decide +kernel⟩

end Fdapde.FEM
