import Verif.PDE.SemiSpec
import Verif.PDE.PropsRegression
import Verif.LinAlg.PropsMisc
/- C164: spatial regression with covariates. -/
set_option linter.unusedSectionVars false
namespace Fdapde.PDE
open Finset FEM LinAlg Matrix
open Splines (vals pform vals_sub pform_sub_left pform_sub_right)

/-! ### The covariates -/
section
variable {q L : Nat} {X : Nat → Nat → ℝ}

theorem gram_mul (b : Fin q → ℝ) (a : Fin q) : ∑ c, gram q L X a c * b c = ∑ j ∈ range L, X j a * ∑ c : Fin q, X j c * b c := by
  simp only [gram, of_apply, sum_mul, mul_sum]
  rw [sum_comm]
  exact sum_congr rfl fun j _ => sum_congr rfl fun c _ => by ring

/-- Independent covariates have a non-singular Gram matrix. -/
theorem gram_det (h : ∀ b : Fin q → ℝ, (∀ j < L, ∑ a : Fin q, X j a * b a = 0) → b = 0) : (gram q L X).det ≠ 0 := by
  intro hd
  obtain ⟨b, hb, h0⟩ := Matrix.exists_mulVec_eq_zero_iff.2 hd
  refine hb (h b fun j hj => ?_)
  have z : ∑ j ∈ range L, (∑ a : Fin q, X j a * b a) * ∑ a : Fin q, X j a * b a = 0 := by
    have e : ∑ j ∈ range L, (∑ a : Fin q, X j a * b a) * ∑ a : Fin q, X j a * b a =
        ∑ a : Fin q, b a * ∑ j ∈ range L, X j a * ∑ c : Fin q, X j c * b c := by
      simp only [mul_sum, sum_mul]
      rw [sum_comm]
      refine sum_congr rfl fun a _ => ?_
      refine sum_congr rfl fun j _ => ?_
      exact sum_congr rfl fun c _ => by ring
    rw [e]
    refine sum_eq_zero fun a _ => mul_eq_zero_of_right _ ?_
    rw [← gram_mul]
    exact congrFun h0 a
  exact mul_self_eq_zero.1 ((sum_eq_zero_iff_of_nonneg fun j _ => mul_self_nonneg _).1 z j (mem_range.2 hj))

variable {dense : DenseSolver ℝ q}

theorem regress_eq (hE : ExactDense dense) (hd : (gram q L X).det ≠ 0) (r : Nat → ℝ) (a : Fin q) :
    ∑ j ∈ range L, X j a * ∑ c : Fin q, X j c * regress L dense X r c = ∑ j ∈ range L, X j a * r j := by
  rw [← gram_mul]
  exact congrFun (congrFun (hE _ (Matrix.of fun a _ => ∑ j ∈ range L, X j a * r j) hd) a) 0

end

/-! ### The system -/
section
variable {m L q : Nat} {A S M X : Nat → Nat → ℝ} {lam : ℝ}

theorem columns_solve {n k : Nat} {lu : Solver ℝ} (hlu : ExactLU n lu) {B : Nat → Nat → ℝ} {F} (hF : lu B = some F) (C : Matrix (Fin n) (Fin k) ℝ) :
    (Matrix.of fun i j : Fin n => B i j) * byColumns n F C = C := by
  ext i a
  rw [mul_apply]
  have := hlu B F hF (fun p => if h : p < n then C ⟨p, h⟩ a else 0) i i.2
  rw [sum_range, dif_pos i.2] at this
  exact this

/-- Rows of the system with the projection. -/
structure SemiSol (m L q : Nat) (A S M X : Nat → Nat → ℝ) (lam : ℝ) (x : Nat → ℝ) (t : Fin q → ℝ) (b : Nat → ℝ) : Prop where
  first : ∀ p < m, ∑ c ∈ range m, (-∑ j ∈ range L, A j p * A j c) * x c + ∑ c ∈ range m, lam * S c p * x (m + c) +
    ∑ a : Fin q, (∑ j ∈ range L, A j p * X j a) * t a = b p
  second : ∀ p < m, ∑ c ∈ range m, lam * S p c * x c + ∑ c ∈ range m, lam * M p c * x (m + c) = b (m + p)
  part : ∀ a : Fin q, ∑ j ∈ range L, X j a * ∑ c : Fin q, X j c * t c = ∑ j ∈ range L, X j a * vals m A x j

theorem semi_first {x : Nat → ℝ} {t : Fin q → ℝ} {b : Nat → ℝ} (h : SemiSol m L q A S M X lam x t b) (v : Nat → ℝ) :
    ∑ j ∈ range L, (∑ a : Fin q, X j a * t a - vals m A x j) * vals m A v j + lam * pform m S v (fun p => x (m + p)) =
      ∑ p ∈ range m, v p * b p := by
  have e1 := block_first (m := m) (L := L) (A := A) (S := S) (lam := lam) x (fun p => x (m + p)) v
  have e2 : ∑ p ∈ range m, v p * ∑ a : Fin q, (∑ j ∈ range L, A j p * X j a) * t a = ∑ j ∈ range L, (∑ a : Fin q, X j a * t a) * vals m A v j := by
    have e : ∀ p, v p * ∑ a : Fin q, (∑ j ∈ range L, A j p * X j a) * t a = ∑ j ∈ range L, (∑ a : Fin q, X j a * t a) * (A j p * v p) := by
      intro p
      simp only [mul_sum, sum_mul]
      rw [sum_comm]
      exact sum_congr rfl fun j _ => sum_congr rfl fun a _ => by ring
    rw [sum_congr rfl fun p _ => e p, sum_comm]
    exact sum_congr rfl fun j _ => by rw [vals, mul_sum]
  have e3 : ∑ p ∈ range m, v p * b p = ∑ p ∈ range m, v p * (∑ c ∈ range m, (-∑ j ∈ range L, A j p * A j c) * x c +
      ∑ c ∈ range m, lam * S c p * x (m + c)) + ∑ p ∈ range m, v p * ∑ a : Fin q, (∑ j ∈ range L, A j p * X j a) * t a := by
    rw [← sum_add_distrib]
    refine sum_congr rfl fun p hp => ?_
    rw [← h.first p (mem_range.1 hp)]
    ring
  rw [e3, e2, e1]
  simp only [sub_mul, sum_sub_distrib]
  ring

theorem semi_second {x : Nat → ℝ} {t : Fin q → ℝ} {b : Nat → ℝ} (h : SemiSol m L q A S M X lam x t b) (v : Nat → ℝ) :
    lam * (pform m S x v + pform m M (fun p => x (m + p)) v) = ∑ p ∈ range m, v p * b (m + p) := by
  rw [← block_second]
  exact sum_congr rfl fun p hp => by rw [h.second p (mem_range.1 hp)]

theorem cross_sum (t : Fin q → ℝ) (r : Nat → ℝ) : ∑ a : Fin q, t a * ∑ j ∈ range L, X j a * r j = ∑ j ∈ range L, r j * ∑ a : Fin q, X j a * t a := by
  simp only [mul_sum]
  rw [sum_comm]
  exact sum_congr rfl fun j _ => sum_congr rfl fun a _ => by ring

/-- The homogeneous system has no other solution than zero. -/
theorem semi_zero (hF : Forms m L A S M) (hX : Identified q m L A X) (hl : 0 < lam) {x : Nat → ℝ} {t : Fin q → ℝ}
    (h : SemiSol m L q A S M X lam x t fun _ => 0) : (∀ p < m + m, x p = 0) ∧ t = 0 := by
  have h2 : ∀ v, pform m S x v + pform m M (fun p => x (m + p)) v = 0 := fun v => by
    have := semi_second h v
    simp only [mul_zero, sum_const_zero] at this
    exact (mul_eq_zero.1 this).resolve_left hl.ne'
  have h1 := semi_first h x
  simp only [mul_zero, sum_const_zero] at h1
  set g : Nat → ℝ := fun p => x (m + p) with hg
  have hxg : pform m S x g = -pform m M g g := by have := h2 g; linarith
  have orth : ∑ j ∈ range L, (∑ a : Fin q, X j a * t a - vals m A x j) * ∑ a : Fin q, X j a * t a = 0 := by
    have : ∑ a : Fin q, t a * (∑ j ∈ range L, X j a * ∑ c : Fin q, X j c * t c - ∑ j ∈ range L, X j a * vals m A x j) = 0 :=
      sum_eq_zero fun a _ => by rw [h.part a, sub_self, mul_zero]
    rw [← this]
    rw [← cross_sum]
    refine sum_congr rfl fun a _ => ?_
    rw [← sum_sub_distrib]
    simp only [mul_sub]
  have sq : ∑ j ∈ range L, (∑ a : Fin q, X j a * t a - vals m A x j) * (∑ a : Fin q, X j a * t a - vals m A x j) + lam * pform m M g g = 0 := by
    have e : ∑ j ∈ range L, (∑ a : Fin q, X j a * t a - vals m A x j) * (∑ a : Fin q, X j a * t a - vals m A x j) =
        ∑ j ∈ range L, (∑ a : Fin q, X j a * t a - vals m A x j) * ∑ a : Fin q, X j a * t a -
        ∑ j ∈ range L, (∑ a : Fin q, X j a * t a - vals m A x j) * vals m A x j := by
      rw [← sum_sub_distrib]; exact sum_congr rfl fun j _ => by ring
    rw [e, orth]
    rw [hxg] at h1
    linarith
  have n1 : 0 ≤ ∑ j ∈ range L, (∑ a : Fin q, X j a * t a - vals m A x j) * (∑ a : Fin q, X j a * t a - vals m A x j) :=
    sum_nonneg fun j _ => mul_self_nonneg _
  have n2 : 0 ≤ lam * pform m M g g := mul_nonneg hl.le (hF.mass g).1
  have zg := (hF.mass g).2 ((mul_eq_zero.1 (by linarith : lam * pform m M g g = 0)).resolve_left hl.ne')
  have zM : pform m M g x = 0 := by
    rw [pform_congr M (u' := fun _ => 0) (v' := x) zg fun _ _ => rfl]
    simp [pform]
  have zc := (hF.coercive x).2 (by have := h2 x; linarith)
  have zr : ∀ j < L, ∑ a : Fin q, X j a * t a = vals m A x j := fun j hj =>
    sub_eq_zero.1 (mul_self_eq_zero.1 ((sum_eq_zero_iff_of_nonneg fun j _ => mul_self_nonneg _).1
      (by linarith : ∑ j ∈ range L, (∑ a : Fin q, X j a * t a - vals m A x j) * (∑ a : Fin q, X j a * t a - vals m A x j) = 0) j (mem_range.2 hj)))
  have zx : (∀ p < m, x p = 0) ∧ t = 0 := by
    rcases Nat.eq_zero_or_pos m with h0 | h0
    · refine ⟨fun p hp => by omega, (hX 0 t fun j hj => ?_).2⟩
      rw [zr j hj, zero_mul, vals, h0]; simp
    · have := hX (x 0) t fun j hj => by
        rw [zr j hj, vals, mul_sum]
        exact sum_congr rfl fun p hp => by rw [zc p (mem_range.1 hp) 0 h0]; ring
      exact ⟨fun p hp => by rw [zc p hp 0 h0]; exact this.1, this.2⟩
  refine ⟨fun p hp => ?_, zx.2⟩
  by_cases hpm : p < m
  · exact zx.1 p hpm
  · have := zg (p - m) (by omega)
    simp only [hg] at this
    rwa [Nat.add_sub_cancel' (by omega)] at this

/-- From matrices to rows of the system with the projection. -/
theorem semi_rows {B : Nat → Nat → ℝ}
    (hB : ∀ p < m + m, ∀ c < m + m, B p c = quadEntry m (fun p c => -∑ j ∈ range L, A j p * A j c) (fun p c => lam * S c p)
      (fun p c => lam * S p c) (fun p c => lam * M p c) p c)
    (z : Matrix (Fin (m + m)) (Fin 1) ℝ) (t : Matrix (Fin q) (Fin 1) ℝ) (r : Matrix (Fin (m + m)) (Fin 1) ℝ)
    (e1 : (Matrix.of fun i j : Fin (m + m) => B i j) * z + crossBlock m L A X * t = r) (e2 : gram q L X * t = (crossBlock m L A X).transpose * z) :
    SemiSol m L q A S M X lam (fun p => if h : p < m + m then z ⟨p, h⟩ 0 else 0) (fun a => t a 0) fun p => if h : p < m + m then r ⟨p, h⟩ 0 else 0 := by
  set BM : Matrix (Fin (m + m)) (Fin (m + m)) ℝ := Matrix.of fun i j => B i j with hBM
  set U : Matrix (Fin (m + m)) (Fin q) ℝ := crossBlock m L A X with hU
  set x : Nat → ℝ := fun p => if h : p < m + m then z ⟨p, h⟩ 0 else 0 with hx
  have hrow : ∀ p (hp : p < m + m), ∑ c ∈ range (m + m), quadEntry m (fun p c => -∑ j ∈ range L, A j p * A j c) (fun p c => lam * S c p)
      (fun p c => lam * S p c) (fun p c => lam * M p c) p c * x c + ∑ a, U ⟨p, hp⟩ a * t a 0 = r ⟨p, hp⟩ 0 := by
    intro p hp
    rw [← e1, Matrix.add_apply, mul_apply, mul_apply, sum_range]
    congr 1
    refine sum_congr rfl fun c _ => ?_
    rw [← hB p hp c c.2, hx]
    simp [hBM]
  refine ⟨fun p hp => ?_, fun p hp => ?_, fun a => ?_⟩
  · have := hrow p (by omega)
    rw [(quad_rows _ _ _ _ x hp).1] at this
    rw [dif_pos (by omega), ← this]
    congr 1
    exact sum_congr rfl fun a _ => by rw [hU, crossBlock, of_apply, if_pos hp]
  · have := hrow (m + p) (by omega)
    rw [(quad_rows _ _ _ _ x hp).2] at this
    rw [dif_pos (by omega), ← this]
    have z0 : ∑ a, U ⟨m + p, by omega⟩ a * t a 0 = 0 := sum_eq_zero fun a _ => by
      rw [hU, crossBlock, of_apply, if_neg (by simp), zero_mul]
    rw [z0, add_zero]
  · have := congrFun (congrFun e2 a) 0
    rw [mul_apply, mul_apply] at this
    rw [← gram_mul, this]
    simp only [transpose_apply]
    have e3 : ∑ p : Fin (m + m), U p a * z p 0 = ∑ p ∈ range (m + m), (if p < m then ∑ j ∈ range L, A j p * X j a else 0) * x p := by
      rw [sum_range]
      exact sum_congr rfl fun p _ => by rw [hU, hx]; simp [crossBlock]
    rw [e3, sum_halves]
    have e4 : ∑ p ∈ range m, (if m + p < m then ∑ j ∈ range L, A j (m + p) * X j a else 0) * x (m + p) = 0 :=
      sum_eq_zero fun p _ => by rw [if_neg (by omega), zero_mul]
    rw [e4, add_zero]
    simp only [vals, mul_sum]
    rw [sum_comm]
    refine sum_congr rfl fun p hp => ?_
    rw [if_pos (mem_range.1 hp), sum_mul]
    exact sum_congr rfl fun j _ => by ring

/-- The small matrix of the formula is not singular. -/
theorem small_det (hF : Forms m L A S M) (hX : Identified q m L A X) (hl : 0 < lam) {B : Nat → Nat → ℝ}
    (hB : ∀ p < m + m, ∀ c < m + m, B p c = quadEntry m (fun p c => -∑ j ∈ range L, A j p * A j c) (fun p c => lam * S c p)
      (fun p c => lam * S p c) (fun p c => lam * M p c) p c)
    (Y : Matrix (Fin (m + m)) (Fin q) ℝ) (hBY : (Matrix.of fun i j : Fin (m + m) => B i j) * Y = crossBlock m L A X) :
    (gram q L X + (crossBlock m L A X).transpose * Y).det ≠ 0 := by
  set U : Matrix (Fin (m + m)) (Fin q) ℝ := crossBlock m L A X with hU
  intro hd
  obtain ⟨w, hw, h0⟩ := Matrix.exists_mulVec_eq_zero_iff.2 hd
  set W : Matrix (Fin q) (Fin 1) ℝ := Matrix.of fun a _ => w a with hW
  have hGW : gram q L X * W + U.transpose * (Y * W) = 0 := by
    rw [← Matrix.mul_assoc, ← Matrix.add_mul]
    ext a k
    exact congrFun h0 a
  have hs := semi_rows hB (Y * W) (-W) 0 (by rw [← Matrix.mul_assoc, hBY, Matrix.mul_neg, add_neg_cancel]) (by
    rw [Matrix.mul_neg]; exact neg_eq_of_add_eq_zero_right hGW)
  have hz := semi_zero hF hX hl (x := fun p => if h : p < m + m then (Y * W) ⟨p, h⟩ 0 else 0) (t := fun a => (-W) a 0) (by
    have e : (fun p => if h : p < m + m then (0 : Matrix (Fin (m + m)) (Fin 1) ℝ) ⟨p, h⟩ 0 else 0) = fun _ => (0 : ℝ) := by
      funext p; split <;> rfl
    rw [e] at hs; exact hs)
  refine hw (funext fun a => ?_)
  have := congrFun hz.2 a
  simp only [hW, Matrix.neg_apply, of_apply, Pi.zero_apply, neg_eq_zero] at this
  exact this

/-- The Sherman-Morrison-Woodbury formula with the blocks of the program solves the system with the projection. -/
theorem smw_solves (hF : Forms m L A S M) (hX : Identified q m L A X) (hl : 0 < lam) {lu : Solver ℝ} (hlu : ExactLU (m + m) lu)
    {dense : DenseSolver ℝ q} (hE : ExactDense dense) {B : Nat → Nat → ℝ} {F}
    (hB : ∀ p < m + m, ∀ c < m + m, B p c = quadEntry m (fun p c => -∑ j ∈ range L, A j p * A j c) (fun p c => lam * S c p)
      (fun p c => lam * S p c) (fun p c => lam * M p c) p c) (hluF : lu B = some F) (b : Matrix (Fin (m + m)) (Fin 1) ℝ) :
    ∃ t : Fin q → ℝ, SemiSol m L q A S M X lam
      (fun p => if h : p < m + m then smwSolve (byColumns (m + m) F) (byColumns (m + m) F) dense (crossBlock m L A X) (gram q L X)
        (crossBlock m L A X).transpose b ⟨p, h⟩ 0 else 0) t (fun p => if h : p < m + m then b ⟨p, h⟩ 0 else 0) := by
  set BM : Matrix (Fin (m + m)) (Fin (m + m)) ℝ := Matrix.of fun i j => B i j with hBM
  set U : Matrix (Fin (m + m)) (Fin q) ℝ := crossBlock m L A X with hU
  have hgd : (gram q L X).det ≠ 0 := gram_det fun b hb => (hX 0 b fun j hj => by rw [zero_mul, hb j hj]).2
  have hgu : IsUnit (gram q L X).det := isUnit_iff_ne_zero.2 hgd
  have hBd : BM.det ≠ 0 := quad_det hF hl hB
  have hGd : (gram q L X + U.transpose * byColumns (m + m) F U).det ≠ 0 := small_det hF hX hl hB _ (columns_solve hlu hluF U)
  have key := C39_solves (k := Fin 1) BM U (gram q L X)⁻¹ (gram q L X) U.transpose b (byColumns (m + m) F) (byColumns (m + m) F) dense
    ⟨BM⁻¹, Matrix.nonsing_inv_mul _ (isUnit_iff_ne_zero.2 hBd)⟩ (Matrix.nonsing_inv_mul _ hgu)
    (fun x => columns_solve hlu hluF x) (fun x => columns_solve hlu hluF x) (fun x => hE _ x hGd)
  set z := smwSolve (byColumns (m + m) F) (byColumns (m + m) F) dense U (gram q L X) U.transpose b with hz
  refine ⟨fun a => ((gram q L X)⁻¹ * (U.transpose * z)) a 0, semi_rows hB z _ b ?_ ?_⟩
  · rw [← key, Matrix.add_mul]
    simp only [Matrix.mul_assoc]
    rfl
  · rw [← Matrix.mul_assoc, Matrix.mul_nonsing_inv _ hgu, Matrix.one_mul]

end

/-! ### The program -/
variable {P : Prob ℝ} {data : Dense ℝ} {ids : List Int} {psi : Nat → Nat → Nat → ℝ} {l : List (Trip ℝ)} {q : Nat} {X : Nat → Nat → ℝ}

/-- What the program computes: the residuals are orthogonal to the covariates and balance the penalty. -/
theorem semi_core (h : FitData P data ids psi l) (hX : Identified q P.m ids.length (entry l) X) {lu : Solver ℝ} (hlu : ExactLU (P.m + P.m) lu)
    (hlc : CompleteLU (P.m + P.m) lu) {dense : DenseSolver ℝ q} (hE : ExactDense dense) (junk : Nat → ℝ) :
    ∃ S M : Nat → Nat → ℝ, (∀ u v, pform P.m S u v = P.bilin u v) ∧ (∀ u v, pform P.m M u v = P.l2 u v) ∧ Forms P.m ids.length (entry l) S M ∧
      ∀ lam : ℝ, 0 < lam → ∀ y, ∃ (β : Fin q → ℝ) (f g : Nat → ℝ), semiFit lu dense P data junk ids psi lam X y = .ok (some (β, f, g)) ∧ P.Gap data f g ∧
        (∀ a : Fin q, ∑ j ∈ range ids.length, X j a * (y j - ∑ c : Fin q, X j c * β c - vals P.m (entry l) f j) = 0) ∧
        ∀ v, ∑ j ∈ range ids.length, (y j - ∑ c : Fin q, X j c * β c - vals P.m (entry l) f j) * vals P.m (entry l) v j = -(lam * pform P.m S v g) := by
  obtain ⟨s, e1, e2, _, _, _, hS, hM, hU⟩ := C102_init P h.ok data h.rows h.cols junk
  have hS' : ∀ u v, pform P.m s.stiff u v = P.bilin u v := fun u v => by rw [pform, hS]
  have hM' : ∀ u v, pform P.m s.mass u v = P.l2 u v := fun u v => by rw [pform, hM]
  have hF : Forms P.m ids.length (entry l) s.stiff s.mass :=
    ⟨fun v => by rw [hS']; exact h.coercive v, fun v => by rw [hM']; exact h.mass v, fun u v => by rw [hM', hM', l2_symm], h.located⟩
  have hgd : (gram q ids.length X).det ≠ 0 := gram_det fun b hb => (hX 0 b fun j hj => by rw [zero_mul, hb j hj]).2
  refine ⟨s.stiff, s.mass, hS', hM', hF, fun lam hl y => ?_⟩
  obtain ⟨A, eA, hA⟩ := make_read P.m (fun p q => -∑ j ∈ range ids.length, entry l j p * entry l j q) (fun p q => lam * s.stiff q p)
    (fun p q => lam * s.stiff p q) (fun p q => lam * s.mass p q)
  obtain ⟨F, hFF⟩ := Option.isSome_iff_exists.1 (hlc _ (quad_det hF hl hA))
  set b : Matrix (Fin (P.m + P.m)) (Fin 1) ℝ := Matrix.of fun p _ =>
      if (p : Nat) < P.m then -∑ j ∈ range ids.length, entry l j p * (y j - ∑ a : Fin q, X j a * regress ids.length dense X y a)
      else lam * s.force (p - P.m) with hb
  obtain ⟨t, ht⟩ := smw_solves (dense := dense) hF hX hl hlu hE hA hFF b
  set x : Nat → ℝ := fun p => if h : p < P.m + P.m then smwSolve (byColumns (P.m + P.m) F) (byColumns (P.m + P.m) F) dense
    (crossBlock P.m ids.length (entry l) X) (gram q ids.length X) (crossBlock P.m ids.length (entry l) X).transpose b ⟨p, h⟩ 0 else 0 with hx
  set β := regress ids.length dense X fun j => y j - ∑ p ∈ range P.m, entry l j p * x p with hβ
  -- the regression of the residuals
  have hortho : ∀ a : Fin q, ∑ j ∈ range ids.length, X j a * ∑ c : Fin q, X j c * β c =
      ∑ j ∈ range ids.length, X j a * (y j - vals P.m (entry l) x j) := fun a => regress_eq hE hgd _ a
  have hβe : β = fun a => regress ids.length dense X y a - t a := by
    have hz : (fun a => β a - (regress ids.length dense X y a - t a)) = 0 := by
      have hg0 : ∀ a : Fin q, ∑ c, gram q ids.length X a c * (β c - (regress ids.length dense X y c - t c)) = 0 := by
        intro a
        have r1 := hortho a
        have r2 := regress_eq (L := ids.length) hE hgd y a
        have r3 := ht.part a
        rw [← gram_mul] at r1 r2 r3
        simp only [mul_sub, sum_sub_distrib] at r1 ⊢
        linarith
      by_contra hne
      exact hgd (Matrix.exists_mulVec_eq_zero_iff.1 ⟨_, hne, funext hg0⟩)
    funext a
    have := congrFun hz a
    simp only [Pi.zero_apply] at this
    linarith
  refine ⟨β, x, fun p => x (P.m + p), ?_, fun v => ?_, fun a => ?_, fun v => ?_⟩
  · rw [semiFit, e1, Res.ok_bind, h.eval, Res.ok_bind]
    obtain ⟨sn, s2, s3, s4, s5, s6, s7⟩ := s
    dsimp only at e2
    subst e2
    dsimp only at eA hFF ⊢
    rw [eA, Res.ok_bind, hFF]
  · have hv := semi_second ht v
    have e3 : ∑ p ∈ range P.m, v p * (if h : P.m + p < P.m + P.m then b ⟨P.m + p, h⟩ 0 else 0) = lam * ∑ p ∈ range P.m, v p * s.force (P.m * 0 + p) := by
      rw [mul_sum]
      refine sum_congr rfl fun p hp => ?_
      have hp := mem_range.1 hp
      rw [dif_pos (by omega), hb, of_apply, if_neg (by simp)]
      simp only [Nat.add_sub_cancel_left, Nat.mul_zero, Nat.zero_add]
      ring
    rw [e3, hU 0 (.inl rfl) v] at hv
    have := mul_left_cancel₀ hl.ne' hv
    rw [hS', hM'] at this
    linarith
  · have := hortho a
    simp only [mul_sub, sum_sub_distrib] at this ⊢
    linarith
  · have hv := semi_first ht v
    have e3 : ∑ p ∈ range P.m, v p * (if h : p < P.m + P.m then b ⟨p, h⟩ 0 else 0) =
        -∑ j ∈ range ids.length, (y j - ∑ a : Fin q, X j a * regress ids.length dense X y a) * vals P.m (entry l) v j := by
      have := Splines.normal_rhs P.m ids.length (entry l) (fun j => y j - ∑ a : Fin q, X j a * regress ids.length dense X y a) v
      rw [← this, ← sum_neg_distrib]
      refine sum_congr rfl fun p hp => ?_
      have hp := mem_range.1 hp
      rw [dif_pos (by omega), hb, of_apply, if_pos hp, Splines.normalRhs]
      ring
    rw [e3] at hv
    have e4 : ∀ j, ∑ c : Fin q, X j c * β c = ∑ a : Fin q, X j a * regress ids.length dense X y a - ∑ a : Fin q, X j a * t a := by
      intro j
      rw [hβe, ← sum_sub_distrib]
      exact sum_congr rfl fun a _ => by ring
    have e5 : ∑ j ∈ range ids.length, (y j - ∑ c : Fin q, X j c * β c - vals P.m (entry l) x j) * vals P.m (entry l) v j =
        ∑ j ∈ range ids.length, (y j - ∑ a : Fin q, X j a * regress ids.length dense X y a) * vals P.m (entry l) v j +
        ∑ j ∈ range ids.length, (∑ a : Fin q, X j a * t a - vals P.m (entry l) x j) * vals P.m (entry l) v j := by
      rw [← sum_add_distrib]
      exact sum_congr rfl fun j _ => by rw [e4]; ring
    rw [e5]
    linarith

theorem semi_expand {m L : Nat} {A S M : Nat → Nat → ℝ} {lam : ℝ} {y f g : Nat → ℝ} {β : Fin q → ℝ} (hsym : ∀ u v, pform m M u v = pform m M v u)
    (h0 : ∀ a : Fin q, ∑ j ∈ range L, X j a * (y j - ∑ c : Fin q, X j c * β c - vals m A f j) = 0)
    (h1 : ∀ v, ∑ j ∈ range L, (y j - ∑ c : Fin q, X j c * β c - vals m A f j) * vals m A v j = -(lam * pform m S v g))
    {β' : Fin q → ℝ} {f' g' : Nat → ℝ} (hk : ∀ v, pform m S (fun p => f' p - f p) v + pform m M (fun p => g' p - g p) v = 0) :
    ∑ j ∈ range L, (y j - ∑ c : Fin q, X j c * β' c - vals m A f' j) ^ 2 + lam * pform m M g' g' =
      ∑ j ∈ range L, (y j - ∑ c : Fin q, X j c * β c - vals m A f j) ^ 2 + lam * pform m M g g +
      (∑ j ∈ range L, (∑ c : Fin q, X j c * (β' c - β c) + vals m A (fun p => f' p - f p) j) ^ 2 +
        lam * pform m M (fun p => g' p - g p) fun p => g' p - g p) := by
  have z0 : ∑ j ∈ range L, (y j - ∑ c : Fin q, X j c * β c - vals m A f j) * ∑ c : Fin q, X j c * (β' c - β c) = 0 := by
    rw [← cross_sum]
    exact sum_eq_zero fun a _ => by rw [h0 a, mul_zero]
  have e : ∑ j ∈ range L, (y j - ∑ c : Fin q, X j c * β' c - vals m A f' j) ^ 2 = ∑ j ∈ range L, (y j - ∑ c : Fin q, X j c * β c - vals m A f j) ^ 2 -
      2 * ∑ j ∈ range L, (y j - ∑ c : Fin q, X j c * β c - vals m A f j) * ∑ c : Fin q, X j c * (β' c - β c) -
      2 * ∑ j ∈ range L, (y j - ∑ c : Fin q, X j c * β c - vals m A f j) * vals m A (fun p => f' p - f p) j +
      ∑ j ∈ range L, (∑ c : Fin q, X j c * (β' c - β c) + vals m A (fun p => f' p - f p) j) ^ 2 := by
    rw [mul_sum, mul_sum, ← sum_sub_distrib, ← sum_sub_distrib, ← sum_add_distrib]
    refine sum_congr rfl fun j _ => ?_
    rw [vals_sub]
    simp only [mul_sub, sum_sub_distrib]
    ring
  rw [e, z0, h1]
  have a := hk g
  have b : pform m S (fun p => f' p - f p) g = - pform m M (fun p => g' p - g p) g := by linarith
  rw [b]
  simp only [pform_sub_left, pform_sub_right]
  rw [hsym g g']
  ring

theorem semi_unique {m L : Nat} {A S M : Nat → Nat → ℝ} {lam : ℝ} (h : Forms m L A S M) (hX : Identified q m L A X) (hl : 0 < lam) {w k : Nat → ℝ} {δ : Fin q → ℝ}
    (hk : ∀ v, pform m S w v + pform m M k v = 0)
    (hz : ∑ j ∈ range L, (∑ c : Fin q, X j c * δ c + vals m A w j) ^ 2 + lam * pform m M k k = 0) : (∀ p < m, w p = 0) ∧ (∀ p < m, k p = 0) ∧ δ = 0 := by
  have n1 : 0 ≤ ∑ j ∈ range L, (∑ c : Fin q, X j c * δ c + vals m A w j) ^ 2 := sum_nonneg fun j _ => sq_nonneg _
  have n2 : 0 ≤ lam * pform m M k k := mul_nonneg hl.le (h.mass k).1
  have z2 := (h.mass k).2 ((mul_eq_zero.1 (by linarith : lam * pform m M k k = 0)).resolve_left hl.ne')
  have z3 : pform m M k w = 0 := by
    rw [pform_congr M (u' := fun _ => 0) (v' := w) z2 fun _ _ => rfl]
    simp [pform]
  have z4 := (h.coercive w).2 (by have := hk w; linarith)
  have zr : ∀ j < L, ∑ c : Fin q, X j c * δ c + vals m A w j = 0 := fun j hj =>
    pow_eq_zero_iff two_ne_zero |>.1 ((sum_eq_zero_iff_of_nonneg fun j _ => sq_nonneg _).1
      (by linarith : ∑ j ∈ range L, (∑ c : Fin q, X j c * δ c + vals m A w j) ^ 2 = 0) j (mem_range.2 hj))
  have key : ∀ c : ℝ, (∀ p < m, w p = c) → c = 0 ∧ δ = 0 := by
    intro c hc
    have := hX (-c) δ fun j hj => by
      have e : vals m A w j = c * ∑ p ∈ range m, A j p := by
        rw [vals, mul_sum]
        exact sum_congr rfl fun p hp => by rw [hc p (mem_range.1 hp)]; ring
      have := zr j hj
      rw [e] at this
      linarith
    exact ⟨neg_eq_zero.1 this.1, this.2⟩
  rcases Nat.eq_zero_or_pos m with h0 | h0
  · exact ⟨fun p hp => by omega, z2, (key 0 fun p hp => by omega).2⟩
  · have := key (w 0) fun p hp => z4 p hp 0 h0
    exact ⟨fun p hp => by rw [z4 p hp 0 h0]; exact this.1, z2, this.2⟩

section
variable (h : FitData P data ids psi l) (hX : Identified q P.m ids.length (entry l) X) {lu : Solver ℝ} (hlu : ExactLU (P.m + P.m) lu)
    (hlc : CompleteLU (P.m + P.m) lu) {dense : DenseSolver ℝ q} (hE : ExactDense dense) (junk : Nat → ℝ)
include h hX hlu hlc hE

/-- **C164** (partial: exact factorizations, real arithmetic).  The program succeeds, and of all pairs of coefficients of the covariates and functions
the pair it returns, and no other, has the least sum of squared differences from the data plus `lambda` times the integral of the square of the
function by which it fails to solve the problem. -/
theorem C164_fit_partial (lam : ℝ) (hl : 0 < lam) (y : Nat → ℝ) :
    ∃ (β : Fin q → ℝ) (f g : Nat → ℝ), semiFit lu dense P data junk ids psi lam X y = .ok (some (β, f, g)) ∧ P.Gap data f g ∧
      (∀ f', ∃ g', P.Gap data f' g') ∧ ∀ (β' : Fin q → ℝ) (f' g' : Nat → ℝ), P.Gap data f' g' →
        ∑ j ∈ range ids.length, (y j - ∑ a : Fin q, X j a * β a - ∑ p ∈ range P.m, entry l j p * f p) ^ 2 + lam * P.l2 g g ≤
          ∑ j ∈ range ids.length, (y j - ∑ a : Fin q, X j a * β' a - ∑ p ∈ range P.m, entry l j p * f' p) ^ 2 + lam * P.l2 g' g' ∧
        ((β' ≠ β ∨ ∃ p < P.m, f' p ≠ f p) →
          ∑ j ∈ range ids.length, (y j - ∑ a : Fin q, X j a * β a - ∑ p ∈ range P.m, entry l j p * f p) ^ 2 + lam * P.l2 g g <
            ∑ j ∈ range ids.length, (y j - ∑ a : Fin q, X j a * β' a - ∑ p ∈ range P.m, entry l j p * f' p) ^ 2 + lam * P.l2 g' g') := by
  obtain ⟨S, M, hS, hM, hF, hfit⟩ := semi_core h hX hlu hlc hE junk
  obtain ⟨β, f, g, e, hg, h0, hv⟩ := hfit lam hl y
  refine ⟨β, f, g, e, hg, gap_exists h, fun β' f' g' hg' => ?_⟩
  have hk := gap_sub hS hM hg hg'
  have hx := semi_expand (β' := β') hF.symm h0 hv hk
  rw [hM, hM] at hx
  have n0 : 0 ≤ ∑ j ∈ range ids.length, (∑ c : Fin q, X j c * (β' c - β c) + vals P.m (entry l) (fun p => f' p - f p) j) ^ 2 +
      lam * pform P.m M (fun p => g' p - g p) fun p => g' p - g p :=
    add_nonneg (sum_nonneg fun j _ => sq_nonneg _) (mul_nonneg hl.le (hF.mass _).1)
  simp only [vals] at hx n0
  refine ⟨by linarith, fun hne => ?_⟩
  refine lt_of_le_of_ne (by linarith) fun hz => ?_
  have hu := semi_unique hF hX hl hk (δ := fun c => β' c - β c) (by simp only [vals]; linarith)
  rcases hne with hne | ⟨p, hp, hne⟩
  · exact hne (funext fun a => sub_eq_zero.1 (congrFun hu.2.2 a))
  · exact hne (sub_eq_zero.1 (hu.1 p hp))

/-- **C164**: data which are the values of covariates with some coefficients plus a function that solves the problem are recovered, whatever the
smoothing parameter. -/
theorem C164_exact_partial (lam : ℝ) (hl : 0 < lam) (y f0 : Nat → ℝ) (β0 : Fin q → ℝ)
    (h0 : ∀ v, P.bilin f0 v = P.load (fun c k => data.at' (Quadrature.size P.t * c + k) 0) v)
    (hy : ∀ j < ids.length, y j = ∑ a : Fin q, X j a * β0 a + ∑ p ∈ range P.m, entry l j p * f0 p) :
    ∃ f g, semiFit lu dense P data junk ids psi lam X y = .ok (some (β0, f, g)) ∧ ∀ p < P.m, f p = f0 p ∧ g p = 0 := by
  obtain ⟨S, M, hS, hM, hF, hfit⟩ := semi_core h hX hlu hlc hE junk
  obtain ⟨β, f, g, e, hg, ho, hv⟩ := hfit lam hl y
  have hg0 : P.Gap data f0 fun _ => 0 := fun v => by
    rw [h0, sub_self, ← hM]
    simp [pform]
  have hk := gap_sub hS hM hg hg0
  have hx := semi_expand (β' := β0) hF.symm ho hv hk
  have z1 : ∑ j ∈ range ids.length, (y j - ∑ c : Fin q, X j c * β0 c - vals P.m (entry l) f0 j) ^ 2 = 0 :=
    sum_eq_zero fun j hj => by rw [hy j (mem_range.1 hj), vals]; ring
  have z2 : pform P.m M (fun _ => 0) (fun _ => 0) = 0 := by simp [pform]
  rw [z1, z2, mul_zero, add_zero] at hx
  have n1 : 0 ≤ ∑ j ∈ range ids.length, (y j - ∑ c : Fin q, X j c * β c - vals P.m (entry l) f j) ^ 2 := sum_nonneg fun _ _ => sq_nonneg _
  have n2 := mul_nonneg hl.le (hF.mass g).1
  have n3 : 0 ≤ ∑ j ∈ range ids.length, (∑ c : Fin q, X j c * (β0 c - β c) + vals P.m (entry l) (fun p => f0 p - f p) j) ^ 2 :=
    sum_nonneg fun _ _ => sq_nonneg _
  have n4 := mul_nonneg hl.le (hF.mass fun p => 0 - g p).1
  have hu := semi_unique hF hX hl hk (δ := fun c => β0 c - β c) (by linarith)
  obtain rfl : β0 = β := funext fun a => sub_eq_zero.1 (congrFun hu.2.2 a)
  exact ⟨f, g, e, fun p hp => ⟨(sub_eq_zero.1 (hu.1 p hp)).symm, by have := hu.2.1 p hp; linarith⟩⟩

/-- **C164**: the differences between data and fitted values are orthogonal to the covariates. -/
theorem C164_orthogonal_partial (lam : ℝ) (hl : 0 < lam) (y : Nat → ℝ) :
    ∃ (β : Fin q → ℝ) (f g : Nat → ℝ), semiFit lu dense P data junk ids psi lam X y = .ok (some (β, f, g)) ∧
      ∀ a : Fin q, ∑ j ∈ range ids.length, X j a * (y j - ∑ c : Fin q, X j c * β c - ∑ p ∈ range P.m, entry l j p * f p) = 0 := by
  obtain ⟨S, M, hS, hM, hF, hfit⟩ := semi_core h hX hlu hlc hE junk
  obtain ⟨β, f, g, e, hg, h0, _⟩ := hfit lam hl y
  exact ⟨β, f, g, e, h0⟩

/-- **C164**: adding to the data a combination of the covariates adds its coefficients to those fitted, and leaves the function as it was. -/
theorem C164_equivariant_partial (lam : ℝ) (hl : 0 < lam) (y : Nat → ℝ) (b : Fin q → ℝ) :
    ∃ (β : Fin q → ℝ) (f g f' g' : Nat → ℝ), semiFit lu dense P data junk ids psi lam X y = .ok (some (β, f, g)) ∧
      semiFit lu dense P data junk ids psi lam X (fun j => y j + ∑ a : Fin q, X j a * b a) = .ok (some (fun a => β a + b a, f', g')) ∧
      ∀ p < P.m, f' p = f p ∧ g' p = g p := by
  obtain ⟨S, M, hS, hM, hF, hfit⟩ := semi_core h hX hlu hlc hE junk
  obtain ⟨β, f, g, e, hg, h0, hv⟩ := hfit lam hl y
  obtain ⟨β', f', g', e', hg', h0', hv'⟩ := hfit lam hl fun j => y j + ∑ a : Fin q, X j a * b a
  have hk := gap_sub hS hM hg hg'
  have e4 : ∀ j, ∑ c : Fin q, X j c * (β' c - (β c + b c)) = ∑ c : Fin q, X j c * β' c - ∑ c : Fin q, X j c * β c - ∑ c : Fin q, X j c * b c := by
    intro j
    rw [← sum_sub_distrib, ← sum_sub_distrib]
    exact sum_congr rfl fun a _ => by ring
  have hz : ∑ j ∈ range ids.length, (∑ c : Fin q, X j c * (β' c - (β c + b c)) + vals P.m (entry l) (fun p => f' p - f p) j) ^ 2 +
      lam * pform P.m M (fun p => g' p - g p) (fun p => g' p - g p) = 0 := by
    set δ : Fin q → ℝ := fun c => β' c - (β c + b c) with hδ
    set w : Nat → ℝ := fun p => f' p - f p with hw
    have d1 : ∀ v, ∑ j ∈ range ids.length, (∑ c : Fin q, X j c * δ c + vals P.m (entry l) w j) * vals P.m (entry l) v j =
        lam * pform P.m S v (fun p => g' p - g p) := by
      intro v
      have a1 := hv v
      have a2 := hv' v
      rw [pform_sub_right, mul_sub]
      have : ∑ j ∈ range ids.length, (∑ c : Fin q, X j c * δ c + vals P.m (entry l) w j) * vals P.m (entry l) v j =
          ∑ j ∈ range ids.length, (y j - ∑ c : Fin q, X j c * β c - vals P.m (entry l) f j) * vals P.m (entry l) v j -
          ∑ j ∈ range ids.length, (y j + ∑ a : Fin q, X j a * b a - ∑ c : Fin q, X j c * β' c - vals P.m (entry l) f' j) * vals P.m (entry l) v j := by
        rw [← sum_sub_distrib]
        refine sum_congr rfl fun j _ => ?_
        rw [hδ, e4, hw, vals_sub]
        ring
      rw [this, a1, a2]
      ring
    have d2 : ∑ j ∈ range ids.length, (∑ c : Fin q, X j c * δ c + vals P.m (entry l) w j) * ∑ c : Fin q, X j c * δ c = 0 := by
      rw [← cross_sum]
      refine sum_eq_zero fun a _ => mul_eq_zero_of_right _ ?_
      have a1 := h0 a
      have a2 := h0' a
      have : ∑ j ∈ range ids.length, X j a * (∑ c : Fin q, X j c * δ c + vals P.m (entry l) w j) =
          ∑ j ∈ range ids.length, X j a * (y j - ∑ c : Fin q, X j c * β c - vals P.m (entry l) f j) -
          ∑ j ∈ range ids.length, X j a * (y j + ∑ a : Fin q, X j a * b a - ∑ c : Fin q, X j c * β' c - vals P.m (entry l) f' j) := by
        rw [← sum_sub_distrib]
        refine sum_congr rfl fun j _ => ?_
        rw [hδ, e4, hw, vals_sub]
        ring
      rw [this, a1, a2, sub_self]
    have d3 := hk fun p => g' p - g p
    have d4 : pform P.m S w (fun p => g' p - g p) = -pform P.m M (fun p => g' p - g p) (fun p => g' p - g p) := by
      rw [hw]; linarith
    have d5 := d1 w
    rw [d4] at d5
    have : ∑ j ∈ range ids.length, (∑ c : Fin q, X j c * δ c + vals P.m (entry l) w j) ^ 2 =
        ∑ j ∈ range ids.length, (∑ c : Fin q, X j c * δ c + vals P.m (entry l) w j) * ∑ c : Fin q, X j c * δ c +
        ∑ j ∈ range ids.length, (∑ c : Fin q, X j c * δ c + vals P.m (entry l) w j) * vals P.m (entry l) w j := by
      rw [← sum_add_distrib]
      exact sum_congr rfl fun j _ => by ring
    rw [this, d2, d5]
    ring
  have hu := semi_unique hF hX hl hk hz
  refine ⟨β, f, g, f', g', e, ?_, fun p hp => ⟨sub_eq_zero.1 (hu.1 p hp), sub_eq_zero.1 (hu.2.1 p hp)⟩⟩
  rw [e']
  have : β' = fun a => β a + b a := funext fun a => sub_eq_zero.1 (congrFun hu.2.2 a)
  rw [this]

end

/-- **C164**: with an intercept among the covariates (a combination of them equal to one where a location has a cell, zero elsewhere) and no reaction
term the best pair is never unique: a constant moves from the function to the coefficients without changing the criterion. -/
theorem C164_intercept (h : FitData P data ids psi l) (hc : ∀ v, P.bilin (fun _ => 1) v = 0) (b : Fin q → ℝ)
    (hb : ∀ j < ids.length, ∑ a : Fin q, X j a * b a = ∑ p ∈ range P.m, entry l j p) (lam c : ℝ) (y : Nat → ℝ) (β : Fin q → ℝ) (f g : Nat → ℝ)
    (hg : P.Gap data f g) :
    P.Gap data (fun p => f p + c) g ∧
      ∑ j ∈ range ids.length, (y j - ∑ a : Fin q, X j a * (β a - c * b a) - ∑ p ∈ range P.m, entry l j p * (f p + c)) ^ 2 + lam * P.l2 g g =
        ∑ j ∈ range ids.length, (y j - ∑ a : Fin q, X j a * β a - ∑ p ∈ range P.m, entry l j p * f p) ^ 2 + lam * P.l2 g g := by
  constructor
  · intro v
    obtain ⟨s, _, _, _, _, _, hS, _⟩ := C102_init P h.ok data h.rows h.cols fun _ => 0
    have e : P.bilin (fun p => f p + c) v = P.bilin f v + c * P.bilin (fun _ => 1) v := by
      rw [← hS, ← hS, ← hS, mul_sum, ← sum_add_distrib]
      refine sum_congr rfl fun p _ => ?_
      rw [mul_sum, ← sum_add_distrib]
      exact sum_congr rfl fun p _ => by ring
    rw [e, hc, mul_zero, add_zero]
    exact hg v
  · congr 1
    refine sum_congr rfl fun j hj => ?_
    have e1 : ∑ a : Fin q, X j a * (β a - c * b a) = ∑ a : Fin q, X j a * β a - c * ∑ p ∈ range P.m, entry l j p := by
      rw [← hb j (mem_range.1 hj), mul_sum, ← sum_sub_distrib]
      exact sum_congr rfl fun a _ => by ring
    have e2 : ∑ p ∈ range P.m, entry l j p * (f p + c) = ∑ p ∈ range P.m, entry l j p * f p + c * ∑ p ∈ range P.m, entry l j p := by
      rw [mul_sum, ← sum_add_distrib]
      exact sum_congr rfl fun p _ => by ring
    rw [e1, e2]
    ring

/-! ### Meshes -/
section
variable {d N n nNodes : Nat} {cells : Nat → Nat → Nat} {Y : Nat → Fin N → ℝ}

theorem semi_misfit {β : Fin q → ℝ} {locs : Nat → Fin N → ℝ} {u : Nat → ℝ} {F : (Fin N → ℝ) → ℝ} (y : Nat → ℝ)
    (h : ∀ i < ids.length, ∑ p ∈ range nNodes, entry l i p * u p = if ids[i]? = some (-1) then 0 else F (locs i)) :
    ∑ i ∈ range ids.length, (y i - ∑ a : Fin q, X i a * β a - ∑ p ∈ range nNodes, entry l i p * u p) ^ 2 = semiMisfit ids locs X y β F :=
  sum_congr rfl fun i hi => by rw [h i (mem_range.1 hi)]

theorem mesh_identified {locs : Nat → Fin N → ℝ}
    (hV : ∀ u F, IsP1 (d + 1) n nNodes cells Y u F → ∀ i < ids.length, ∑ q ∈ range nNodes, entry l i q * u q = if ids[i]? = some (-1) then 0 else F (locs i))
    (hX : ∀ (c : ℝ) (b : Fin q → ℝ), (∀ i < ids.length, (if ids[i]? = some (-1) then 0 else c) = ∑ a : Fin q, X i a * b a) → c = 0 ∧ b = 0) :
    Identified q nNodes ids.length (entry l) X := by
  intro c b hb
  refine hX c b fun i hi => ?_
  have h1 := hV (fun _ => 1) (fun _ => 1) ⟨fun c _ => ⟨1, by simp, fun p _ => by simp⟩, fun _ _ => rfl⟩ i hi
  simp only [mul_one] at h1
  rw [← hb i hi, h1]
  split <;> simp

variable (hd : Dims d N) {op : Op ℝ} (hs : FlagRight N op) (hns : NoScalar op) (bNodes : Nat → Bool) (h : GoodMesh (d + 1) n nNodes cells Y)
    (hell : ∀ r, Elliptic N op r) {locs : Nat → Fin N → ℝ} (hL : Located (d + 1) n cells Y ids locs)
    {lu : Solver ℝ} (hlu : ExactLU (nNodes + nNodes) lu) (hlc : CompleteLU (nNodes + nNodes) lu) {dense : DenseSolver ℝ q} (hE : ExactDense dense)
    (hX : ∀ (c : ℝ) (b : Fin q → ℝ), (∀ i < ids.length, (if ids[i]? = some (-1) then 0 else c) = ∑ a : Fin q, X i a * b a) → c = 0 ∧ b = 0)
include hd hs hns h hell hL hlu hlc hE hX

/-- **C164** on connected meshes of intervals, triangles, tetrahedra, surfaces and networks of segments, first order elements, for covariates
independent of the constant at the locations: the fitted function is continuous, linear on each cell, and of all coefficients and all such functions
the fitted ones alone have the least criterion. -/
theorem C164_mesh_partial :
    ∃ P, problem1 d op cells n nNodes Y bNodes = .ok P ∧ ∀ data : Dense ℝ, n * Quadrature.size P.t ≤ data.rows → 0 < data.cols → ∀ junk lam, 0 < lam →
      ∀ y : Nat → ℝ, ∃ (β : Fin q → ℝ) (f g : Nat → ℝ) (F : (Fin N → ℝ) → ℝ),
        semiFit lu dense P data junk ids (psiAt d 1 (d + 1) cells Y locs) lam X y = .ok (some (β, f, g)) ∧
        ContinuousOn F (domain (d + 1) n cells Y) ∧ IsP1 (d + 1) n nNodes cells Y f F ∧ P.Gap data f g ∧
        ∀ (β' : Fin q → ℝ) (f' g' : Nat → ℝ) (F' : (Fin N → ℝ) → ℝ), IsP1 (d + 1) n nNodes cells Y f' F' → P.Gap data f' g' →
          semiMisfit ids locs X y β F + lam * P.l2 g g ≤ semiMisfit ids locs X y β' F' + lam * P.l2 g' g' ∧
          ((β' ≠ β ∨ ∃ p < nNodes, f' p ≠ f p) → semiMisfit ids locs X y β F + lam * P.l2 g g < semiMisfit ids locs X y β' F' + lam * P.l2 g' g') := by
  obtain ⟨P, I, J, l, e, em, _, _, hD, hV, hC⟩ := mesh_fit hd hs hns bNodes h hell hL
  subst em
  refine ⟨P, e, fun data hr hc junk lam hl y => ?_⟩
  obtain ⟨β, f, g, e1, hg, _, hmin⟩ := C164_fit_partial (hD data hr hc) (mesh_identified hV hX) hlu hlc hE junk lam hl y
  obtain ⟨F, f1, f2⟩ := hC f
  refine ⟨β, f, g, F, e1, f1, f2, hg, fun β' f' g' F' hF' hg' => ?_⟩
  have := hmin β' f' g' hg'
  rw [semi_misfit y (hV f F f2), semi_misfit y (hV f' F' hF')] at this
  exact this

/-- **C164** on meshes: without reaction term and forcing, data equal to a combination of the covariates, plus a constant where a location has a cell,
give back the coefficients and the constant. -/
theorem C164_mesh_recovers_partial (hr : NoReaction op) :
    ∃ P, problem1 d op cells n nNodes Y bNodes = .ok P ∧ ∀ data : Dense ℝ, n * Quadrature.size P.t ≤ data.rows → 0 < data.cols →
      (∀ r, data.at' r 0 = 0) → ∀ junk lam, 0 < lam → ∀ (y : Nat → ℝ) (b : Fin q → ℝ) (α : ℝ),
        (∀ i < ids.length, y i = ∑ a : Fin q, X i a * b a + if ids[i]? = some (-1) then 0 else α) →
        ∃ f g, semiFit lu dense P data junk ids (psiAt d 1 (d + 1) cells Y locs) lam X y = .ok (some (b, f, g)) ∧ ∀ p < nNodes, f p = α := by
  obtain ⟨P, I, J, l, e, em, eo, hLa, hD, hV, hC⟩ := mesh_fit hd hs hns bNodes h hell hL
  subst em
  refine ⟨P, e, fun data hrw hc h0 junk lam hl y b α hy => ?_⟩
  have hF : IsP1 (d + 1) n P.m cells Y (fun _ => α) fun _ => α := ⟨fun c _ => ⟨MvPolynomial.C α, by simp, fun p _ => by simp⟩, fun _ _ => rfl⟩
  obtain ⟨f, g, e1, hz⟩ := C164_exact_partial (hD data hrw hc) (mesh_identified hV hX) hlu hlc hE junk lam hl y (fun _ => α) b (fun v => by
    rw [lagrange_const hLa (by rw [eo]; exact hr)]
    simp [Prob.load, h0]) fun i hi => by rw [hV _ _ hF i hi]; exact hy i hi
  exact ⟨f, g, e1, fun p hp => (hz p hp).1⟩

end

/-! ### The hypotheses are met -/

/-- The rod from 0 to `n`, locations 1/2 and 1/3 in the first cell and one outside of the rod, one covariate equal to the number of the location. -/
example (n : Nat) (hn : 0 < n) (lam : ℝ) (hl : 0 < lam) (b α : ℝ) : ∃ (lu : Solver ℝ) (dense : DenseSolver ℝ 1) (P : Prob ℝ) (f g : Nat → ℝ),
    problem1 1 (.neg .lap) lineCells n (n + 1) lineX (fun p => p == 0 || p == n) = .ok P ∧
    semiFit lu dense P ⟨n * Quadrature.size P.t, 1, fun _ _ => 0⟩ (fun _ => 0) [0, -1, 0] (psiAt 1 1 2 lineCells lineX fun i _ => if i = 0 then 1 / 2 else
      if i = 1 then -5 else 1 / 3) lam (fun i _ => (i : ℝ)) (fun i => i * b + if i = 1 then 0 else α) = .ok (some (fun _ => b, f, g)) ∧ ∀ p < n + 1, f p = α := by
  obtain ⟨lu, h1, h2⟩ := exists_exactLU (K := ℝ) (n + 1 + (n + 1))
  have hE : ExactDense (fun M B => M⁻¹ * B : DenseSolver ℝ 1) := fun M B hd => by
    rw [← Matrix.mul_assoc, Matrix.mul_nonsing_inv _ (isUnit_iff_ne_zero.2 hd), Matrix.one_mul]
  obtain ⟨P, e, h⟩ := C164_mesh_recovers_partial (d := 1) (ids := [0, -1, 0]) (X := fun i _ => (i : ℝ)) (by unfold Dims; decide) (op := .neg .lap) (fun _ => trivial) trivial
    (fun p => p == 0 || p == n) (line_good n hn) (fun r => C103_laplacian 1 r) (demo_located n hn) h1 h2 hE (by
      intro c b hb
      have a0 := hb 0 (by simp)
      have a2 := hb 2 (by simp)
      simp at a0 a2
      rw [a0] at a2
      refine ⟨a0, funext fun a => ?_⟩
      rw [Subsingleton.elim a 0]
      simpa using a2.symm) trivial
  obtain ⟨f, g, e1, hz⟩ := h ⟨n * Quadrature.size P.t, 1, fun _ _ => 0⟩ le_rfl (by norm_num) (fun r => by simp [Dense.at']) (fun _ => 0) lam hl
    (fun i => i * b + if i = 1 then 0 else α) (fun _ => b) α (by
      intro i hi
      have : i = 0 ∨ i = 1 ∨ i = 2 := by simp at hi; omega
      rcases this with rfl | rfl | rfl <;> simp)
  exact ⟨lu, _, P, f, g, e, e1, hz⟩

end Fdapde.PDE
