import Verif.Geometry.FloatSearch
import Verif.Geometry.PropsSearch
import Verif.Float.Error
/- C135 : point location in floating point arithmetic. -/
namespace Fdapde.Geometry
open KDTree BinTree Fdapde.Fp Matrix
variable {d N : Nat}

/-- `x * (1 / x)` is not rounded above one. -/
theorem binary64_one : binary64.rnd (1 + binary64.u) ≤ 1 := by
  have hu : binary64.u = 2⁻¹ ^ 53 := rfl
  have hr : binary64.rnd = rnd64 := rfl
  rw [hu, hr]
  unfold rnd64 rndPos
  have hlog : Int.log 2 |(1 + 2⁻¹ ^ 53 : ℝ)| = 0 := by
    rw [abs_of_pos (by positivity)]
    refine le_antisymm ?_ ?_
    · have : Int.log 2 (1 + 2⁻¹ ^ 53 : ℝ) < 1 := by
        rw [← Int.lt_zpow_iff_log_lt (by norm_num) (by positivity)]
        norm_num
      omega
    · rw [← Int.zpow_le_iff_le_log (by norm_num) (by positivity)]
      norm_num
  have hulp : ulp (1 + 2⁻¹ ^ 53 : ℝ) = 2⁻¹ ^ 52 := by
    unfold ulp; rw [hlog]; norm_num
  have hfl : ⌊((1 + 2⁻¹ ^ 53 : ℝ) / 2⁻¹ ^ 52)⌋ = 2 ^ 52 := by
    rw [Int.floor_eq_iff]; norm_num
  rw [if_pos (by positivity), hulp]
  unfold nearest
  rw [hfl, if_neg (by norm_num), if_neg (by norm_num), if_pos (by decide)]
  norm_num

theorem scaleR_mono (r : Rounding) (m : SMesh d N) (k : Fin N) (hm : m.lo k < m.hi k) {x y : Vec N} (h : x k ≤ y k) :
    m.scaleR r x k ≤ m.scaleR r y k := by
  have hc : 0 ≤ m.cR r k := r.nonneg (div_nonneg zero_le_one (r.nonneg (by linarith)))
  exact r.mono (mul_le_mul_of_nonneg_right (r.mono (by linarith)) hc)

theorem scaleR_lo (r : Rounding) (m : SMesh d N) (k : Fin N) {x : Vec N} (h : x k = m.lo k) : m.scaleR r x k = 0 := by
  simp only [SMesh.scaleR, Rounding.ops, h, sub_self, r.zero, zero_mul]

theorem scaleR_hi (r : Rounding) (h1 : r.rnd (1 + r.u) ≤ 1) (m : SMesh d N) (k : Fin N) (hm : m.lo k < m.hi k) {x : Vec N}
    (h : x k = m.hi k) : m.scaleR r x k ≤ 1 := by
  simp only [SMesh.scaleR, SMesh.cR, Rounding.ops, h]
  refine le_trans (r.mono ?_) h1
  set D := r.rnd (m.hi k - m.lo k)
  have hD : 0 < D := by
    refine lt_of_le_of_ne (r.nonneg (by linarith)) fun e => ?_
    have := r.eq_zero.1 e.symm
    linarith
  have hc := r.upper (x := 1 / D) (by positivity)
  calc D * r.rnd (1 / D) ≤ D * ((1 + r.u) * (1 / D)) := mul_le_mul_of_nonneg_left hc hD.le
    _ = 1 + r.u := by field_simp

/-- A cell whose bounding box contains p is in the query. -/
theorem inBoxR (r : Rounding) (h1 : r.rnd (1 + r.u) ≤ 1) (m : SMesh d N) (hm : m.Ok) (i : Nat) (hi : i < m.n) (p : Vec N)
    (hp : ∀ k, (m.cell i).boundingBox.1 k ≤ p k ∧ p k ≤ (m.cell i).boundingBox.2 k) : InBox (m.dataR r) (2 * N) (m.queryR r p) i := by
  have hlo : ∀ k, m.lo k ≤ (m.cell i).boundingBox.1 k := fun k =>
    Finset.le_inf' Finset.univ_nonempty _ fun v _ => (hm.nodes i hi v k).1
  have hhi : ∀ k, (m.cell i).boundingBox.2 k ≤ m.hi k := fun k =>
    Finset.sup'_le Finset.univ_nonempty _ fun v _ => (hm.nodes i hi v k).2
  intro k hk
  by_cases h : k < N
  · have e1 := stack_lt (m.scaleR r (m.cell i).boundingBox.1) (m.scaleR r (m.cell i).boundingBox.2) ⟨k, h⟩
    have e2 := stack_lt (fun _ => 0) (m.scaleR r p) ⟨k, h⟩
    have e3 := stack_lt (m.scaleR r p) (fun _ => 1) ⟨k, h⟩
    simp only at e1 e2 e3
    simp only [SMesh.dataR, SMesh.queryR, e1, e2, e3]
    refine ⟨?_, scaleR_mono r m _ (hm.flat _) (hp ⟨k, h⟩).1⟩
    rw [← scaleR_lo r m ⟨k, h⟩ (x := m.lo) rfl]
    exact scaleR_mono r m _ (hm.flat _) (hlo _)
  · obtain ⟨j, rfl⟩ : ∃ j, k = N + j := ⟨k - N, by omega⟩
    have hj : j < N := by omega
    have e1 := stack_ge (m.scaleR r (m.cell i).boundingBox.1) (m.scaleR r (m.cell i).boundingBox.2) ⟨j, hj⟩
    have e2 := stack_ge (fun _ => 0) (m.scaleR r p) ⟨j, hj⟩
    have e3 := stack_ge (m.scaleR r p) (fun _ => 1) ⟨j, hj⟩
    simp only at e1 e2 e3
    simp only [SMesh.dataR, SMesh.queryR, e1, e2, e3]
    exact ⟨scaleR_mono r m _ (hm.flat _) (hp ⟨j, hj⟩).2,
      (scaleR_mono r m _ (hm.flat _) (hhi _)).trans (scaleR_hi r h1 m ⟨j, hj⟩ (hm.flat _) (x := m.hi) rfl)⟩

/-- **C135**, candidates: whatever the rounding of the scaled boxes, no cell is lost.  Every cell whose bounding box contains the
point is tested, on every mesh of cells of any dimension which is not flat. -/
theorem C135_candidates (m : SMesh d N) (hm : m.Ok) (hN : 0 < N) (nth) (hnth : NthContract nth) (ord : List Nat → List Nat)
    (hord : ∀ l, (ord l).Perm l) (p : Vec N) :
    ∃ l, m.candidatesR binary64 nth ord p = some (.ok l) ∧ l.Nodup ∧ (∀ i ∈ l, i < m.n) ∧
      ∀ i < m.n, (∀ k, (∃ v, (m.cell i).coords v k ≤ p k) ∧ ∃ v, p k ≤ (m.cell i).coords v k) → i ∈ l := by
  obtain ⟨t, out, h1, h2, h3, h4⟩ := C16_range_search nth hnth (m.dataR binary64) (2 * N) m.n (by omega) hm.pos (m.queryR binary64 p)
  refine ⟨ord out, by simp only [SMesh.candidatesR, h1, h2], (hord out).nodup_iff.2 h3, fun i hi => ?_, fun i hi hp => ?_⟩
  · rw [(hord out).mem_iff] at hi; exact ((h4 i).1 hi).1
  · rw [(hord out).mem_iff]
    refine (h4 i).2 ⟨hi, inBoxR binary64 binary64_one m hm i hi p fun k => ?_⟩
    obtain ⟨⟨v, hv⟩, ⟨w, hw⟩⟩ := hp k
    exact ⟨(Finset.inf'_le (fun v => (m.cell i).coords v k) (Finset.mem_univ v)).trans hv,
      hw.trans (Finset.le_sup' (fun v => (m.cell i).coords v k) (Finset.mem_univ w))⟩

/-! ### Barycentric coordinates -/

theorem foldl_err (r : Rounding) {k : Nat} {n : Nat} (f f' g : Fin n → ℝ) (h : ∀ i, r.Err k (g i) (f i) (f' i)) :
    ∀ {a a' m : ℝ} {j : Nat}, k ≤ j → r.Err j m a a' →
      r.Err (j + n) (m + ∑ i, g i) (a + ∑ i, f i) ((List.ofFn f').foldl r.ops.add a') := by
  induction n with
  | zero => intro a a' m j _ ha; simpa using ha
  | succ n ih =>
    intro a a' m j hj ha
    rw [List.ofFn_succ, List.foldl_cons, Fin.sum_univ_succ, Fin.sum_univ_succ, ← add_assoc m, ← add_assoc a]
    have h1 : r.Err (j + 1) (m + g 0) (a + f 0) (r.ops.add a' (f' 0)) := (ha.add ((h 0).mono hj)).rnd
    have := ih (fun i => f i.succ) (fun i => f' i.succ) (fun i => g i.succ) (fun i => h i.succ) (show k ≤ j + 1 by omega) h1
    have e : j + (n + 1) = j + 1 + n := by omega
    rw [e]
    exact this

theorem sumR_err (r : Rounding) {k : Nat} {n : Nat} (f f' g : Fin n → ℝ) (h : ∀ i, r.Err k (g i) (f i) (f' i)) :
    r.Err (k + n) (∑ i, g i) (∑ i, f i) (sumR r (List.ofFn f')) := by
  cases n with
  | zero => simp [sumR, Rounding.Err]
  | succ n =>
    rw [List.ofFn_succ, sumR, Fin.sum_univ_succ, Fin.sum_univ_succ]
    exact (foldl_err r (fun i => f i.succ) (fun i => f' i.succ) (fun i => g i.succ) (fun i => h i.succ) le_rfl (h 0)).mono (by omega)

/-- Bound of the error of the barycentric coordinates computed with the matrix `inv`: rounding, and error of the matrix. -/
noncomputable def Simplex.baryErr (r : Rounding) (inv : Matrix (Fin d) (Fin N) ℝ) (S : Simplex d N) (p : Vec N) : ℝ :=
  (r.b ^ (N + d + 3) - 1) * (1 + ∑ j, ∑ i, |inv j i| * |p i - S.coords 0 i|) + ∑ j, ∑ i, |inv j i - S.invJ j i| * |p i - S.coords 0 i|

/-- **C135**, barycentric coordinates: the error of each computed coordinate. -/
theorem C135_bary (r : Rounding) (inv : Matrix (Fin d) (Fin N) ℝ) (S : Simplex d N) (p : Vec N) (i : Fin (d + 1)) :
    |S.baryR r inv p i - S.bary p i| ≤ S.baryErr r inv p := by
  set M : Fin d → ℝ := fun j => ∑ i, |inv j i| * |p i - S.coords 0 i| with hM
  set E : Fin d → ℝ := fun j => ∑ i, |inv j i - S.invJ j i| * |p i - S.coords 0 i| with hE
  have hM0 : ∀ j, 0 ≤ M j := fun j => Finset.sum_nonneg fun i _ => by positivity
  have hE0 : ∀ j, 0 ≤ E j := fun j => Finset.sum_nonneg fun i _ => by positivity
  have hb : 0 ≤ r.b ^ (N + d + 3) - 1 := by linarith [one_le_pow₀ r.one_le_b (n := N + d + 3)]
  have hz : ∀ j, r.Err (2 + N) (M j) (∑ i, inv j i * (p i - S.coords 0 i))
      (sumR r (List.ofFn fun i : Fin N => r.ops.mul (inv j i) (r.ops.sub (p i) (S.coords 0 i)))) := by
    intro j
    refine sumR_err r _ _ _ fun i => ?_
    exact (((Rounding.Err.exact (inv j i)).mul (Rounding.Err.exact (p i - S.coords 0 i)).rnd).rnd).mono (by omega)
  have hd : ∀ j, |∑ i, inv j i * (p i - S.coords 0 i) - (S.invJ *ᵥ (p - S.coords 0)) j| ≤ E j := by
    intro j
    rw [Matrix.mulVec, dotProduct, ← Finset.sum_sub_distrib]
    refine (Finset.abs_sum_le_sum_abs _ _).trans (Finset.sum_le_sum fun i _ => ?_)
    rw [Pi.sub_apply, ← sub_mul, abs_mul]
  have hsumM : ∀ j, M j ≤ ∑ j, M j := fun j => Finset.single_le_sum (f := M) (fun j _ => hM0 j) (Finset.mem_univ j)
  have hsumE : ∀ j, E j ≤ ∑ j, E j := fun j => Finset.single_le_sum (f := E) (fun j _ => hE0 j) (Finset.mem_univ j)
  unfold Simplex.baryErr Simplex.baryR Simplex.bary
  refine Fin.cases ?_ (fun j => ?_) i
  · simp only [Fin.cons_zero]
    have h1 := sumR_err r _ _ _ hz
    have h2 := (((Rounding.Err.exact (r := r) 1).mono (Nat.zero_le (2 + N + d))).sub h1).rnd
    rw [abs_one] at h2
    have h3 := (h2.mono (show 2 + N + d + 1 ≤ N + d + 3 by omega)).2
    have h4 : |∑ j, ∑ i, inv j i * (p i - S.coords 0 i) - ∑ j, (S.invJ *ᵥ (p - S.coords 0)) j| ≤ ∑ j, E j := by
      rw [← Finset.sum_sub_distrib]
      exact (Finset.abs_sum_le_sum_abs _ _).trans (Finset.sum_le_sum fun j _ => hd j)
    rw [abs_le] at h3 h4 ⊢
    simp only [Rounding.ops] at h3 ⊢
    constructor <;> linarith [h3.1, h3.2, h4.1, h4.2]
  · simp only [Fin.cons_succ]
    have h3 := ((hz j).mono (show 2 + N ≤ N + d + 3 by omega)).2
    have h4 := hd j
    have h5 : (r.b ^ (N + d + 3) - 1) * M j ≤ (r.b ^ (N + d + 3) - 1) * (1 + ∑ j, M j) :=
      mul_le_mul_of_nonneg_left (by linarith [hsumM j]) hb
    have h6 := hsumE j
    rw [abs_le] at h3 h4 ⊢
    simp only [Rounding.ops] at h3 ⊢
    constructor <;> linarith [h3.1, h3.2, h4.1, h4.2]

/-- **C135**, locate.  If, in the cells which hold the point, the error of the computed coordinates is at most the tolerance `eps` of the
code, the answer -1 means that the point is in no cell; any other answer is a cell in which the exact coordinates of the point are at
least minus `eps` and the error of the coordinates in that cell.
There is neither undefined behaviour nor an exception. -/
theorem C135_locate (m : SMesh N N) (hm : m.Ok) (hN : 0 < N) (hS : ∀ i < m.n, (m.cell i).Nondeg) (nth) (hnth : NthContract nth)
    (ord : List Nat → List Nat) (hord : ∀ l, (ord l).Perm l) (inv : Nat → Matrix (Fin N) (Fin N) ℝ) (eps : ℝ) (p : Vec N)
    (herr : ∀ i < m.n, p ∈ convexHull ℝ (Set.range (m.cell i).coords) → (m.cell i).baryErr binary64 (inv i) p ≤ eps) :
    (m.locateR binary64 inv nth ord eps p = some (.ok (-1)) ∧ ∀ i < m.n, p ∉ convexHull ℝ (Set.range (m.cell i).coords)) ∨
    ∃ i < m.n, m.locateR binary64 inv nth ord eps p = some (.ok (i : Int)) ∧
      ∀ k, -(eps + (m.cell i).baryErr binary64 (inv i) p) ≤ (m.cell i).bary p k := by
  obtain ⟨l, h1, h2, h3, h4⟩ := C135_candidates m hm hN nth hnth ord hord p
  have hbox : ∀ i < m.n, p ∈ convexHull ℝ (Set.range (m.cell i).coords) → i ∈ l := by
    intro i hi hp
    refine h4 i hi fun k => ?_
    have hb := mem_boundingBox _ p hp k
    obtain ⟨v, _, hv⟩ := Finset.exists_mem_eq_inf' Finset.univ_nonempty (fun v => (m.cell i).coords v k)
    obtain ⟨w, _, hw⟩ := Finset.exists_mem_eq_sup' Finset.univ_nonempty (fun v => (m.cell i).coords v k)
    exact ⟨⟨v, by rw [← hv]; exact hb.1⟩, ⟨w, by rw [← hw]; exact hb.2⟩⟩
  rcases scanFirst_spec (m.hitR binary64 inv eps p) l with ⟨h5, h6⟩ | ⟨i, h5, h6, h7⟩
  · left
    refine ⟨by simp only [SMesh.locateR, h1, h5], fun i hi hp => ?_⟩
    have := h6 i (hbox i hi hp)
    simp only [SMesh.hitR, decide_eq_false_iff_not, not_not] at this
    obtain ⟨k, hk⟩ := this
    have hb := (bary_nonneg_iff (hS i hi) p (mem_span_full (hS i hi) p)).2 hp k
    have he := (abs_le.1 (C135_bary binary64 (inv i) (m.cell i) p k)).1
    linarith [herr i hi hp]
  · right
    refine ⟨i, h3 i h5, by simp only [SMesh.locateR, h1, h7], fun k => ?_⟩
    simp only [SMesh.hitR, decide_eq_true_eq, not_exists, not_lt] at h6
    have he := (abs_le.1 (C135_bary binary64 (inv i) (m.cell i) p k)).2
    linarith [h6 k]

/-- **C135**, all_locate: every cell which holds the point is returned, once, if the error of the coordinates in it is at most the tolerance, and
no cell is returned where an exact coordinate is below minus the tolerance and the error. -/
theorem C135_all_locate (m : SMesh N N) (hm : m.Ok) (hN : 0 < N) (hS : ∀ i < m.n, (m.cell i).Nondeg) (nth) (hnth : NthContract nth)
    (ord : List Nat → List Nat) (hord : ∀ l, (ord l).Perm l) (inv : Nat → Matrix (Fin N) (Fin N) ℝ) (eps : ℝ) (p : Vec N) :
    ∃ l, m.allLocateR binary64 inv nth ord eps p = some (.ok l) ∧ l.Nodup ∧
      (∀ i ∈ l, i < m.n ∧ ∀ k, -(eps + (m.cell i).baryErr binary64 (inv i) p) ≤ (m.cell i).bary p k) ∧
      ∀ i < m.n, p ∈ convexHull ℝ (Set.range (m.cell i).coords) → (m.cell i).baryErr binary64 (inv i) p ≤ eps → i ∈ l := by
  obtain ⟨l, h1, h2, h3, h4⟩ := C135_candidates m hm hN nth hnth ord hord p
  refine ⟨l.filter (m.hitR binary64 inv eps p), by simp only [SMesh.allLocateR, h1, scanAll_eq, List.nil_append], h2.filter _, fun i hi => ?_,
    fun i hi hp he => ?_⟩
  · rw [List.mem_filter] at hi
    refine ⟨h3 i hi.1, fun k => ?_⟩
    have h6 := hi.2
    simp only [SMesh.hitR, decide_eq_true_eq, not_exists, not_lt] at h6
    have he := (abs_le.1 (C135_bary binary64 (inv i) (m.cell i) p k)).2
    linarith [h6 k]
  · rw [List.mem_filter]
    constructor
    · refine h4 i hi fun k => ?_
      have hb := mem_boundingBox _ p hp k
      obtain ⟨v, _, hv⟩ := Finset.exists_mem_eq_inf' Finset.univ_nonempty (fun v => (m.cell i).coords v k)
      obtain ⟨w, _, hw⟩ := Finset.exists_mem_eq_sup' Finset.univ_nonempty (fun v => (m.cell i).coords v k)
      exact ⟨⟨v, by rw [← hv]; exact hb.1⟩, ⟨w, by rw [← hw]; exact hb.2⟩⟩
    · simp only [SMesh.hitR, decide_eq_true_eq, not_exists, not_lt]
      intro k
      have hb := (bary_nonneg_iff (hS i hi) p (mem_span_full (hS i hi) p)).2 hp k
      have h5 := (abs_le.1 (C135_bary binary64 (inv i) (m.cell i) p k)).1
      linarith

/-- The tolerance of the code, a triangle whose inverse is stored exactly and all its points. -/
example (p : Vec 2) (h0 : 0 ≤ p 0) (h1 : 0 ≤ p 1) (h : p 0 + p 1 ≤ 1) :
    ∃ m : SMesh 2 2, m.Ok ∧ (∀ i < m.n, (m.cell i).Nondeg) ∧
      ∀ i < m.n, (m.cell i).baryErr binary64 ((m.cell i).invJ) p ≤ 10 * 2⁻¹ ^ 52 := by
  refine ⟨⟨fun _ => unitTri, 1, ![0, 0], ![1, 1]⟩, ⟨by simp, ?_, ?_⟩, fun _ _ => unitTri_nondeg, fun i _ => ?_⟩
  · intro k; fin_cases k <;> simp
  · intro i _ v k; fin_cases v <;> fin_cases k <;> simp [unitTri]
  have hJ : unitTri.J = 1 := by
    ext i j; fin_cases i <;> fin_cases j <;> simp [Simplex.J, unitTri]
  have hinv : unitTri.invJ = 1 := by
    unfold Simplex.invJ
    rw [dif_pos rfl]
    ext i j
    simp [hJ]
    rfl
  have hg := binary64.gamma 7
  have hu : binary64.u = 2⁻¹ ^ 53 := rfl
  simp only [Simplex.baryErr, hinv, sub_self, abs_zero, zero_mul, Finset.sum_const_zero, add_zero]
  have e : ∑ j : Fin 2, ∑ i : Fin 2, |(1 : Matrix (Fin 2) (Fin 2) ℝ) j i| * |p i - unitTri.coords 0 i| = p 0 + p 1 := by
    simp [Fin.sum_univ_two, unitTri, abs_of_nonneg h0, abs_of_nonneg h1]
  rw [e]
  rw [hu] at hg
  norm_num at hg ⊢
  nlinarith [one_le_pow₀ binary64.one_le_b (n := 7)]

end Fdapde.Geometry
