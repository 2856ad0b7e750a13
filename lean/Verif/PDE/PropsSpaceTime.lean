import Verif.PDE.SpaceTimeSpec
import Verif.PDE.PropsRegression
import Verif.LinAlg.PropsKron
import Mathlib.Analysis.Matrix.Order
/- C165: regression in space and time with a separable penalty. -/
set_option linter.unusedSectionVars false
namespace Fdapde.PDE
open Finset FEM LinAlg
open scoped Matrix
open Splines (vals pform vals_sub pform_sub_left pform_sub_right)

/-! ### Kronecker products as forms -/

theorem sum_range_prod (a b : Nat) (f : Nat → ℝ) : ∑ i ∈ range (a * b), f i = ∑ j ∈ range a, ∑ i ∈ range b, f (b * j + i) := by
  induction a with
  | zero => simp
  | succ a ih => rw [Nat.succ_mul, sum_range_add, ih, sum_range_succ]; simp only [Nat.mul_comm a b]

/-- Entry of a Kronecker product whose right operand has `r` rows and `c` columns. -/
def kronEntry (r c : Nat) (X Y : Nat → Nat → ℝ) (i j : Nat) : ℝ := X (i / r) (j / c) * Y (i % r) (j % c)

theorem kronMat_coeff (A B : Mat ℝ) {i j : Nat} (hi : i < A.rows * B.rows) (hj : j < A.cols * B.cols) :
    (kronMat A B).coeff i j = kronEntry B.rows B.cols A.coeff B.coeff i j := by
  simp only [kronMat]
  rw [kronCoeff_total A B i j hi hj]
  rfl

theorem split_index {b j i : Nat} (hi : i < b) : (b * j + i) / b = j ∧ (b * j + i) % b = i :=
  ⟨by rw [Nat.mul_add_div (by omega), Nat.div_eq_of_lt hi, add_zero], by rw [Nat.mul_add_mod, Nat.mod_eq_of_lt hi]⟩

section
variable {mt m : Nat} {X Y : Nat → Nat → ℝ}

theorem kron_pform (u v : Nat → ℝ) : pform (mt * m) (kronEntry m m X Y) u v =
    ∑ a ∈ range mt, ∑ b ∈ range mt, X a b * pform m Y (slice m u b) (slice m v a) := by
  rw [pform, sum_range_prod]
  refine sum_congr rfl fun a _ => ?_
  have : ∀ p ∈ range m, ∑ j ∈ range (mt * m), v (m * a + p) * kronEntry m m X Y (m * a + p) j * u j =
      ∑ b ∈ range mt, X a b * ∑ r ∈ range m, v (m * a + p) * Y p r * u (m * b + r) := by
    intro p hp
    rw [sum_range_prod]
    refine sum_congr rfl fun b _ => ?_
    rw [mul_sum]
    refine sum_congr rfl fun r hr => ?_
    obtain ⟨e1, e2⟩ := split_index (j := a) (mem_range.1 hp)
    obtain ⟨e3, e4⟩ := split_index (j := b) (mem_range.1 hr)
    rw [kronEntry, e1, e2, e3, e4]
    ring
  rw [sum_congr rfl this, sum_comm]
  refine sum_congr rfl fun b _ => ?_
  rw [← mul_sum]
  rfl

theorem kron_vals {L : Nat} {j i : Nat} (hi : i < L) (u : Nat → ℝ) : vals (mt * m) (kronEntry L m X Y) u (L * j + i) =
    vals m Y (atTime mt m (X j) u) i := by
  rw [vals, sum_range_prod]
  have : ∀ a ∈ range mt, ∑ p ∈ range m, kronEntry L m X Y (L * j + i) (m * a + p) * u (m * a + p) =
      ∑ p ∈ range m, Y i p * (X j a * slice m u a p) := by
    intro a _
    refine sum_congr rfl fun p hp => ?_
    obtain ⟨e1, e2⟩ := split_index (j := j) hi
    obtain ⟨e3, e4⟩ := split_index (j := a) (mem_range.1 hp)
    rw [kronEntry, e1, e2, e3, e4, slice]
    ring
  rw [sum_congr rfl this, sum_comm, vals]
  refine sum_congr rfl fun p _ => ?_
  rw [atTime, mul_sum]

end

theorem form_entries {n : Nat} {Q : Nat → Nat → ℝ} (i j : Nat) (hi : i < n) (hj : j < n) :
    pform n Q (fun b => if b = j then 1 else 0) (fun a => if a = i then 1 else 0) = Q i j := by
  rw [pform, sum_eq_single i, sum_eq_single j]
  · simp
  · intro b _ hb; simp [hb]
  · intro h; exact absurd (mem_range.2 hj) h
  · intro a _ ha; exact sum_eq_zero fun b _ => by simp [ha]
  · intro h; exact absurd (mem_range.2 hi) h

theorem form_dot {n : Nat} (Q : Nat → Nat → ℝ) (u : Nat → ℝ) (x : Fin n → ℝ) (hx : ∀ i : Fin n, u i = x i) :
    star x ⬝ᵥ ((Matrix.of fun i j : Fin n => Q i j) *ᵥ x) = pform n Q u u := by
  rw [pform, sum_range, dotProduct]
  refine sum_congr rfl fun i _ => ?_
  rw [sum_range, Matrix.mulVec, dotProduct, mul_sum]
  refine sum_congr rfl fun j _ => ?_
  rw [hx, hx]
  simp only [Pi.star_apply, star_trivial, Matrix.of_apply]
  ring

section
variable {mt m : Nat} {X Y : Nat → Nat → ℝ}

def extend {n : Nat} (x : Fin n → ℝ) (p : Nat) : ℝ := if h : p < n then x ⟨p, h⟩ else 0

theorem extend_val {n : Nat} (x : Fin n → ℝ) (i : Fin n) : extend x i = x i := by simp [extend]

theorem semidef_of (hs : ∀ u v, pform m Y u v = pform m Y v u) (hp : ∀ u, 0 ≤ pform m Y u u) :
    (Matrix.of fun i j : Fin m => Y i j).PosSemidef := by
  refine Matrix.PosSemidef.of_dotProduct_mulVec_nonneg ?_ fun x => ?_
  · ext i j
    rw [Matrix.conjTranspose_apply, Matrix.of_apply, Matrix.of_apply, star_trivial]
    rw [← form_entries (Q := Y) j i j.2 i.2, hs, form_entries i j i.2 j.2]
  · rw [form_dot Y (extend x) x (extend_val x)]; exact hp _

theorem def_of (hs : ∀ u v, pform m Y u v = pform m Y v u) (hp : ∀ u, 0 ≤ pform m Y u u ∧ (pform m Y u u = 0 → ∀ p < m, u p = 0)) :
    (Matrix.of fun i j : Fin m => Y i j).PosDef := by
  refine Matrix.PosDef.of_dotProduct_mulVec_pos (semidef_of hs fun u => (hp u).1).1 fun x hx => ?_
  rw [form_dot Y (extend x) x (extend_val x)]
  refine lt_of_le_of_ne (hp _).1 fun h => hx (funext fun i => ?_)
  rw [← extend_val x i]
  exact (hp _).2 h.symm i i.2

open scoped Kronecker in
theorem kron_dot (u : Nat → ℝ) : star (fun q : Fin mt × Fin m => u (m * q.1 + q.2)) ⬝ᵥ
    (((Matrix.of fun i j : Fin mt => X i j) ⊗ₖ (Matrix.of fun i j : Fin m => Y i j)) *ᵥ fun q : Fin mt × Fin m => u (m * q.1 + q.2)) =
    pform (mt * m) (kronEntry m m X Y) u u := by
  rw [kron_pform, dotProduct, Fintype.sum_prod_type, sum_range]
  refine sum_congr rfl fun a _ => ?_
  have : ∀ p : Fin m, star (fun q : Fin mt × Fin m => u (m * q.1 + q.2)) (a, p) *
      (((Matrix.of fun i j : Fin mt => X i j) ⊗ₖ (Matrix.of fun i j : Fin m => Y i j)) *ᵥ fun q : Fin mt × Fin m => u (m * q.1 + q.2)) (a, p) =
      ∑ b : Fin mt, X a b * ∑ r ∈ range m, u (m * a + p) * Y p r * u (m * b + r) := by
    intro p
    rw [Matrix.mulVec, dotProduct, Fintype.sum_prod_type, mul_sum]
    refine sum_congr rfl fun b _ => ?_
    rw [mul_sum, mul_sum, sum_range]
    refine sum_congr rfl fun r _ => ?_
    simp only [Pi.star_apply, star_trivial, Matrix.kroneckerMap_apply, Matrix.of_apply]
    ring
  rw [sum_congr rfl fun p _ => this p, sum_comm, sum_range]
  refine sum_congr rfl fun b _ => ?_
  rw [← mul_sum, pform, sum_range (n := m)]
  rfl

theorem kron_nonneg (h1 : ∀ u v, pform mt X u v = pform mt X v u) (h2 : ∀ u, 0 ≤ pform mt X u u) (h3 : ∀ u v, pform m Y u v = pform m Y v u)
    (h4 : ∀ u, 0 ≤ pform m Y u u) (u : Nat → ℝ) : 0 ≤ pform (mt * m) (kronEntry m m X Y) u u := by
  rw [← kron_dot]
  exact ((semidef_of h1 h2).kronecker (semidef_of h3 h4)).dotProduct_mulVec_nonneg _

theorem kron_def (h1 : ∀ u v, pform mt X u v = pform mt X v u) (h2 : ∀ u, 0 ≤ pform mt X u u ∧ (pform mt X u u = 0 → ∀ p < mt, u p = 0))
    (h3 : ∀ u v, pform m Y u v = pform m Y v u) (h4 : ∀ u, 0 ≤ pform m Y u u ∧ (pform m Y u u = 0 → ∀ p < m, u p = 0)) (u : Nat → ℝ) :
    0 ≤ pform (mt * m) (kronEntry m m X Y) u u ∧ (pform (mt * m) (kronEntry m m X Y) u u = 0 → ∀ p < mt * m, u p = 0) := by
  refine ⟨kron_nonneg h1 (fun u => (h2 u).1) h3 (fun u => (h4 u).1) u, fun hz p hp => ?_⟩
  rw [← kron_dot] at hz
  by_contra hne
  have hm : 0 < m := Nat.pos_of_ne_zero (by rintro rfl; simp at hp)
  refine absurd hz (ne_of_gt (((def_of h1 h2).kronecker (def_of h3 h4)).dotProduct_mulVec_pos fun h0 => hne ?_))
  have := congrFun h0 (⟨p / m, (Nat.div_lt_iff_lt_mul hm).2 hp⟩, ⟨p % m, Nat.mod_lt _ hm⟩)
  simp only [Nat.div_add_mod, Pi.zero_apply] at this
  exact this

theorem kron_symm (h1 : ∀ u v, pform mt X u v = pform mt X v u) (h3 : ∀ u v, pform m Y u v = pform m Y v u) (u v : Nat → ℝ) :
    pform (mt * m) (kronEntry m m X Y) u v = pform (mt * m) (kronEntry m m X Y) v u := by
  rw [kron_pform, kron_pform, sum_comm]
  refine sum_congr rfl fun a ha => sum_congr rfl fun b hb => ?_
  rw [h3]
  congr 1
  have ha := mem_range.1 ha
  have hb := mem_range.1 hb
  rw [← form_entries (Q := X) b a hb ha, h1, form_entries a b ha hb]

end

/-! ### The system -/
section
variable {m L : Nat} {A S M T : Nat → Nat → ℝ} {lam : ℝ}

/-- The hypotheses on the forms: the mass is positive definite, the additional penalty positive semidefinite, and a function that the first form, the
penalty and the locations do not see is zero. -/
structure FormsT (m L : Nat) (A S M T : Nat → Nat → ℝ) : Prop where
  mass : ∀ v, 0 ≤ pform m M v v ∧ (pform m M v v = 0 → ∀ p < m, v p = 0)
  symm : ∀ u v, pform m M u v = pform m M v u
  pen : ∀ v, 0 ≤ pform m T v v
  penSymm : ∀ u v, pform m T u v = pform m T v u
  null : ∀ w, (∀ v, pform m S w v = 0) → (∀ j < L, vals m A w j = 0) → pform m T w w = 0 → ∀ p < m, w p = 0

theorem blockT_first (f g v : Nat → ℝ) : ∑ p ∈ range m, v p * (∑ q ∈ range m, (-∑ j ∈ range L, A j p * A j q - T p q) * f q +
    ∑ q ∈ range m, lam * S q p * g q) = -∑ j ∈ range L, vals m A f j * vals m A v j - pform m T f v + lam * pform m S v g := by
  have e1 := block_first (m := m) (L := L) (A := A) (S := S) (lam := lam) f g v
  have e2 : pform m T f v = ∑ p ∈ range m, v p * ∑ q ∈ range m, T p q * f q := by
    rw [pform]
    refine sum_congr rfl fun p _ => ?_
    rw [mul_sum]
    exact sum_congr rfl fun q _ => by ring
  have e3 : ∀ p, v p * (∑ q ∈ range m, (-∑ j ∈ range L, A j p * A j q - T p q) * f q + ∑ q ∈ range m, lam * S q p * g q) =
      v p * (∑ q ∈ range m, (-∑ j ∈ range L, A j p * A j q) * f q + ∑ q ∈ range m, lam * S q p * g q) - v p * ∑ q ∈ range m, T p q * f q := by
    intro p
    simp only [sub_mul, sum_sub_distrib]
    ring
  rw [sum_congr rfl fun p _ => e3 p, sum_sub_distrib, e1, ← e2]
  ring

theorem formsT_zero (h : FormsT m L A S M T) (hl : 0 < lam) {w k : Nat → ℝ} (hk : ∀ v, pform m S w v + pform m M k v = 0)
    (hz : ∑ j ∈ range L, vals m A w j * vals m A w j + pform m T w w + lam * pform m M k k = 0) : (∀ p < m, w p = 0) ∧ ∀ p < m, k p = 0 := by
  have n1 : 0 ≤ ∑ j ∈ range L, vals m A w j * vals m A w j := sum_nonneg fun j _ => mul_self_nonneg _
  have n2 : 0 ≤ lam * pform m M k k := mul_nonneg hl.le (h.mass k).1
  have n3 := h.pen w
  have z1 : pform m M k k = 0 := (mul_eq_zero.1 (by linarith : lam * pform m M k k = 0)).resolve_left hl.ne'
  have z2 := (h.mass k).2 z1
  have z3 : ∀ v, pform m M k v = 0 := fun v => by
    rw [pform_congr M (u' := fun _ => 0) (v' := v) z2 fun _ _ => rfl]
    simp [pform]
  refine ⟨h.null w (fun v => by have := hk v; rw [z3] at this; linarith) (fun j hj => ?_) (by linarith), z2⟩
  exact mul_self_eq_zero.1 ((sum_eq_zero_iff_of_nonneg fun j _ => mul_self_nonneg (vals m A w j)).1
    (by linarith : ∑ j ∈ range L, vals m A w j * vals m A w j = 0) j (mem_range.2 hj))

/-- The entries of the system. -/
def sysT (m L : Nat) (A S M T : Nat → Nat → ℝ) (lam : ℝ) : Nat → Nat → ℝ :=
  quadEntry m (fun p q => -∑ j ∈ range L, A j p * A j q - T p q) (fun p q => lam * S q p) (fun p q => lam * S p q) fun p q => lam * M p q

theorem sysT_forms {x b : Nat → ℝ} (hx : ∀ p < m + m, ∑ q ∈ range (m + m), sysT m L A S M T lam p q * x q = b p) (v : Nat → ℝ) :
    -∑ j ∈ range L, vals m A x j * vals m A v j - pform m T x v + lam * pform m S v (fun p => x (m + p)) = ∑ p ∈ range m, v p * b p ∧
    lam * (pform m S x v + pform m M (fun p => x (m + p)) v) = ∑ p ∈ range m, v p * b (m + p) := by
  constructor
  · rw [← blockT_first]
    refine sum_congr rfl fun p hp => ?_
    have e := hx p (by have := mem_range.1 hp; omega)
    rw [sysT, (quad_rows _ _ _ _ x (mem_range.1 hp)).1] at e
    rw [e]
  · rw [← block_second]
    refine sum_congr rfl fun p hp => ?_
    have e := hx (m + p) (by have := mem_range.1 hp; omega)
    rw [sysT, (quad_rows _ _ _ _ x (mem_range.1 hp)).2] at e
    rw [e]

theorem sysT_det (h : FormsT m L A S M T) (hl : 0 < lam) {B : Nat → Nat → ℝ} (hB : ∀ p < m + m, ∀ q < m + m, B p q = sysT m L A S M T lam p q) :
    (Matrix.of fun i j : Fin (m + m) => B i j).det ≠ 0 := by
  intro hd
  obtain ⟨x, hx, hx0⟩ := Matrix.exists_mulVec_eq_zero_iff.2 hd
  have hrow : ∀ p < m + m, ∑ q ∈ range (m + m), sysT m L A S M T lam p q * extend x q = 0 := by
    intro p hp
    have := congrFun hx0 ⟨p, hp⟩
    rw [Matrix.mulVec, dotProduct] at this
    rw [sum_range]
    exact (sum_congr rfl fun q _ => by rw [extend_val, ← hB p hp q q.2]; rfl).trans this
  have v2 : ∀ v, pform m S (extend x) v + pform m M (fun p => extend x (m + p)) v = 0 := by
    intro v
    have := (sysT_forms (b := fun _ => 0) hrow v).2
    simp only [mul_zero, sum_const_zero] at this
    exact (mul_eq_zero.1 this).resolve_left hl.ne'
  have v1 := (sysT_forms (b := fun _ => 0) hrow (extend x)).1
  simp only [mul_zero, sum_const_zero] at v1
  have hz := formsT_zero h hl v2 (by
    have a2 := v2 fun p => extend x (m + p)
    have : pform m S (extend x) (fun p => extend x (m + p)) = - pform m M (fun p => extend x (m + p)) (fun p => extend x (m + p)) := by linarith
    rw [this] at v1
    linarith)
  refine hx (funext fun i => ?_)
  rw [← extend_val x i]
  by_cases hi : (i : Nat) < m
  · exact hz.1 i hi
  · have := hz.2 (i - m) (by omega)
    rwa [Nat.add_sub_cancel' (by omega)] at this

/-- The criterion around the solution. -/
theorem criterionT_expand {y f g : Nat → ℝ} (h : FormsT m L A S M T)
    (h1 : ∀ v, ∑ j ∈ range L, (y j - vals m A f j) * vals m A v j = pform m T f v - lam * pform m S v g)
    {f' g' : Nat → ℝ} (hk : ∀ v, pform m S (fun p => f' p - f p) v + pform m M (fun p => g' p - g p) v = 0) :
    ∑ j ∈ range L, (y j - vals m A f' j) ^ 2 + pform m T f' f' + lam * pform m M g' g' =
      ∑ j ∈ range L, (y j - vals m A f j) ^ 2 + pform m T f f + lam * pform m M g g +
      (∑ j ∈ range L, vals m A (fun p => f' p - f p) j * vals m A (fun p => f' p - f p) j +
        pform m T (fun p => f' p - f p) (fun p => f' p - f p) + lam * pform m M (fun p => g' p - g p) fun p => g' p - g p) := by
  rw [expand_misfit (fun p => f' p - f p) f' fun _ => rfl, h1]
  have a := hk g
  have b : pform m S (fun p => f' p - f p) g = - pform m M (fun p => g' p - g p) g := by linarith
  rw [b]
  simp only [pform_sub_left, pform_sub_right]
  rw [h.symm g g', h.penSymm f' f]
  ring

end
/-! ### Forms in time that are integrals -/

theorem quad_mul (qn qw knots : List ℝ) (c : ℝ) (f : ℝ → ℝ) : Splines.quad qn qw knots (fun z => c * f z) = c * Splines.quad qn qw knots f := by
  simp only [Splines.quad, Splines.span1, mul_sum]
  exact sum_congr rfl fun _ _ => sum_congr rfl fun _ _ => by ring

theorem quad_sum (qn qw knots : List ℝ) (s : Finset Nat) (f : Nat → ℝ → ℝ) :
    Splines.quad qn qw knots (fun z => ∑ a ∈ s, f a z) = ∑ a ∈ s, Splines.quad qn qw knots (f a) := by
  classical
  induction s using Finset.induction_on with
  | empty => simp [Splines.quad, Splines.span1]
  | insert a s ha ih =>
      simp only [sum_insert ha]
      rw [← ih]
      simp only [Splines.quad, Splines.span1, mul_add, sum_add_distrib]

section
variable {mt m : Nat} {Y : Nat → Nat → ℝ}

theorem pform_at (phi psi u v : Nat → ℝ) : pform m Y (atTime mt m phi u) (atTime mt m psi v) =
    ∑ a ∈ range mt, ∑ b ∈ range mt, psi a * phi b * pform m Y (slice m u b) (slice m v a) := by
  have e : ∀ i ∈ range m, ∀ j ∈ range m, atTime mt m psi v i * Y i j * atTime mt m phi u j =
      ∑ a ∈ range mt, ∑ b ∈ range mt, psi a * phi b * (slice m v a i * Y i j * slice m u b j) := by
    intro i _ j _
    rw [atTime, atTime, sum_mul, sum_mul]
    refine sum_congr rfl fun a _ => ?_
    rw [mul_sum]
    exact sum_congr rfl fun b _ => by ring
  rw [pform, sum_congr rfl fun i hi => sum_congr rfl fun j hj => e i hi j hj]
  rw [sum_congr rfl fun i _ => sum_comm, sum_comm]
  refine sum_congr rfl fun a _ => ?_
  rw [sum_congr rfl fun i _ => sum_comm, sum_comm]
  refine sum_congr rfl fun b _ => ?_
  rw [pform, mul_sum]
  exact sum_congr rfl fun i _ => by rw [mul_sum]

/-- The form of a Kronecker product whose left operand is made of integrals. -/
theorem kron_integral {qn qw knots : List ℝ} {X : Nat → Nat → ℝ} {phi : Nat → ℝ → ℝ}
    (hX : ∀ a < mt, ∀ b < mt, X a b = Splines.quad qn qw knots fun z => phi b z * phi a z) (u v : Nat → ℝ) :
    pform (mt * m) (kronEntry m m X Y) u v =
      Splines.quad qn qw knots fun z => pform m Y (atTime mt m (fun a => phi a z) u) (atTime mt m (fun a => phi a z) v) := by
  rw [kron_pform]
  simp only [pform_at]
  rw [quad_sum]
  refine sum_congr rfl fun a ha => ?_
  rw [quad_sum]
  refine sum_congr rfl fun b hb => ?_
  rw [hX a (mem_range.1 ha) b (mem_range.1 hb), mul_comm, ← quad_mul]
  congr 1
  funext z
  ring

/-- A function that the tensor form does not see is, at each index in time, one that the form in space does not see. -/
theorem kron_null {X : Nat → Nat → ℝ} (h2 : ∀ u, 0 ≤ pform mt X u u ∧ (pform mt X u u = 0 → ∀ p < mt, u p = 0)) {w : Nat → ℝ}
    (hw : ∀ v, pform (mt * m) (kronEntry m m X Y) w v = 0) (z : Nat → ℝ) {a : Nat} (ha : a < mt) : pform m Y (slice m w a) z = 0 := by
  set x : Nat → ℝ := fun a => pform m Y (slice m w a) z with hx
  refine (h2 x).2 ?_ a ha
  have := hw fun i => x (i / m) * z (i % m)
  rw [kron_pform] at this
  rw [← this, pform]
  refine sum_congr rfl fun a _ => sum_congr rfl fun b _ => ?_
  have e : pform m Y (slice m w b) (slice m (fun i => x (i / m) * z (i % m)) a) = x a * pform m Y (slice m w b) z := by
    rw [pform, pform, mul_sum]
    refine sum_congr rfl fun p hp => ?_
    rw [mul_sum]
    refine sum_congr rfl fun q _ => ?_
    obtain ⟨e1, e2⟩ := split_index (j := a) (mem_range.1 hp)
    rw [slice, e1, e2]
    ring
  rw [e]
  change x a * X a b * pform m Y (slice m w b) z = _
  ring

end

/-! ### The program -/

/-- Data in time: those of a smoothing problem, with a rule for which the mass matrix of the splines is positive definite: more than `R`
nodes for each span, or the rule of the library with cubic splines on three knots at least. -/
structure TimeData (tol : ℝ) (R : Nat) (knots qn qw times : List ℝ) : Prop where
  smooth : Splines.SmoothData tol R knots qn qw times
  definite : R < min qn.length qw.length ∨ qn = Splines.splineNodes ℝ ∧ qw = Splines.splineWeights ℝ ∧ R = 3 ∧ 3 ≤ knots.length

/-- The matrices in time. -/
theorem time_core {tol : ℝ} {R : Nat} {knots qn qw times : List ℝ} (h : TimeData tol R knots qn qw times) :
    ∃ s s' l, Splines.SpSolver.create R knots = .ok s ∧ s.init tol R qn qw (.neg .bilap) = .ok s' ∧ s'.nDofs R = knots.length + R - 1 ∧
      Splines.evalTriplets tol R s'.basis times = .ok l ∧
      (∀ a < knots.length + R - 1, ∀ j < times.length, Splines.entry l j a = Splines.fD tol R knots 0 a (times.getD j 0)) ∧
      (∀ u v, pform (knots.length + R - 1) s'.stiff u v = Splines.quad qn qw knots fun z => Splines.fS tol R knots 2 u z * Splines.fS tol R knots 2 v z) ∧
      (∀ u v, pform (knots.length + R - 1) s'.mass u v = Splines.quad qn qw knots fun z => Splines.fS tol R knots 0 u z * Splines.fS tol R knots 0 v z) ∧
      (∀ u, 0 ≤ pform (knots.length + R - 1) s'.mass u u ∧ (pform (knots.length + R - 1) s'.mass u u = 0 → ∀ p < knots.length + R - 1, u p = 0)) ∧
      ∀ u : Nat → ℝ, (∀ j < times.length, vals (knots.length + R - 1) (Splines.entry l) u j = 0) → pform (knots.length + R - 1) s'.stiff u u = 0 →
        ∀ i < knots.length + R - 1, u i = 0 := by
  obtain ⟨lu, hl1, hl2⟩ := exists_exactLU (K := ℝ) (knots.length + R - 1)
  obtain ⟨l', S', hV', hP', hs⟩ := Splines.smooth_core h.smooth hl1 hl2
  obtain ⟨hdef, _⟩ := hs 1 one_pos
  have g := h.smooth.good
  have two := g.two
  obtain ⟨s, s', h1, h2, h3, hb, h4⟩ := Splines.solver_forms tol R knots g qn qw h.smooth.inside (.neg .bilap)
  obtain ⟨x1, m1, _⟩ := h.smooth.two
  obtain ⟨t, ht, l, el, hE⟩ := Splines.C85_evaluation_matrix tol R knots (by omega) times (List.ne_nil_of_mem m1)
  rw [Splines.pad_eq R knots (by omega)] at ht
  obtain rfl := Res.ok.inj ht
  have hs := Splines.size_padded R knots two
  have hEnt : ∀ a < knots.length + R - 1, ∀ j < times.length, Splines.entry l j a = Splines.fD tol R knots 0 a (times.getD j 0) := by
    intro i hi j hj
    have e := (hE j i).1 (times.getD j 0) (by rw [List.getD_eq_getElem?_getD, List.getElem?_eq_getElem hj]; rfl) (by omega)
    rw [Splines.basis_value (by omega) hi] at e
    rw [← Res.ok.inj e]
    rfl
  have hP : ∀ u v, pform (knots.length + R - 1) s'.stiff u v = Splines.quad qn qw knots fun z => Splines.fS tol R knots 2 u z * Splines.fS tol R knots 2 v z := by
    intro u v
    have := (h4 u v).1
    rw [h3] at this
    rw [pform, this]
    simp only [Splines.sform, neg_neg]
  have hM : ∀ u v, pform (knots.length + R - 1) s'.mass u v = Splines.quad qn qw knots fun z => Splines.fS tol R knots 0 u z * Splines.fS tol R knots 0 v z := by
    intro u v
    have := (h4 u v).2
    rw [h3] at this
    rw [pform, this]
  refine ⟨s, s', l, h1, h2, h3, by rw [hb, el], hEnt, hP, hM, fun u => ⟨?_, fun hz p hp => ?_⟩, fun u hu hz => ?_⟩
  · rw [hM]; exact (Splines.quad_square_nonneg g.incr h.smooth.positive _).1
  · by_contra hne
    have hd : ∃ r r', Splines.SpSolver.create R knots = .ok r ∧ r.init tol R qn qw (.neg .bilap) = .ok r' ∧ ∀ u : Nat → ℝ, (∃ i < r'.nDofs R, u i ≠ 0) →
        0 < ∑ i ∈ range (r'.nDofs R), ∑ j ∈ range (r'.nDofs R), u i * r'.mass i j * u j := by
      rcases h.definite with hR | ⟨rfl, rfl, rfl, hk⟩
      · exact Splines.C129_mass_definite_partial tol R knots g qn qw h.smooth.inside h.smooth.distinct h.smooth.positive hR _
      · exact Splines.C129_library_partial tol 3 knots g _ (.inr ⟨rfl, hk⟩)
    obtain ⟨r, r', e1, e2, hpos⟩ := hd
    rw [h1] at e1
    obtain rfl := Res.ok.inj e1
    rw [h2] at e2
    obtain rfl := Res.ok.inj e2
    have := hpos u ⟨p, by omega, hne⟩
    rw [h3] at this
    exact absurd hz (ne_of_gt this)
  · refine hdef u ?_
    rw [sum_eq_zero fun j hj => ?_, hP', ← hP, hz]
    · ring
    · have hj := mem_range.1 hj
      have e := hu j hj
      rw [vals, sum_congr rfl fun i hi => by rw [hEnt i (mem_range.1 hi) j hj]] at e
      have e2 : vals (knots.length + R - 1) (Splines.entry l') u j = 0 := by
        refine (hV' u j hj).trans (Eq.trans ?_ e)
        rw [Splines.fS]
        exact sum_congr rfl fun i _ => mul_comm _ _
      rw [e2, mul_zero]

theorem unit_fS {tol : ℝ} {R : Nat} {knots : List ℝ} (k : Nat) {a : Nat} (ha : a < knots.length + R - 1) (z : ℝ) :
    Splines.fS tol R knots k (fun i => if i = a then 1 else 0) z = Splines.fD tol R knots k a z := by
  rw [Splines.fS, sum_eq_single a]
  · simp
  · intro b _ hb; simp [hb]
  · intro h; exact absurd (mem_range.2 ha) h

theorem entries_integral {tol : ℝ} {R : Nat} {knots qn qw : List ℝ} {Q : Nat → Nat → ℝ} {k : Nat}
    (h : ∀ u v, pform (knots.length + R - 1) Q u v = Splines.quad qn qw knots fun z => Splines.fS tol R knots k u z * Splines.fS tol R knots k v z) :
    ∀ a < knots.length + R - 1, ∀ b < knots.length + R - 1, Q a b = Splines.quad qn qw knots fun z => Splines.fD tol R knots k b z * Splines.fD tol R knots k a z := by
  intro a ha b hb
  rw [← form_entries (Q := Q) a b ha hb, h]
  simp only [unit_fS k ha, unit_fS k hb]

theorem quadEntry_congr {n : Nat} {A B C D A' B' C' D' : Nat → Nat → ℝ} (h1 : ∀ p < n, ∀ q < n, A p q = A' p q) (h2 : ∀ p < n, ∀ q < n, B p q = B' p q)
    (h3 : ∀ p < n, ∀ q < n, C p q = C' p q) (h4 : ∀ p < n, ∀ q < n, D p q = D' p q) :
    ∀ p < n + n, ∀ q < n + n, quadEntry n A B C D p q = quadEntry n A' B' C' D' p q := by
  intro p hp q hq
  unfold quadEntry
  split_ifs
  · exact h1 _ (by omega) _ (by omega)
  · exact h2 _ (by omega) _ (by omega)
  · exact h3 _ (by omega) _ (by omega)
  · exact h4 _ (by omega) _ (by omega)

variable {P : Prob ℝ} {data : Dense ℝ} {ids : List Int} {psi : Nat → Nat → Nat → ℝ} {l : List (Trip ℝ)}
  {tol : ℝ} {R : Nat} {knots qn qw times : List ℝ}

/-- What the program computes, in terms of forms. -/
theorem st_core (ht : TimeData tol R knots qn qw times) (h : FitData P data ids psi l) {lu : Solver ℝ}
    (hlu : ExactLU ((knots.length + R - 1) * P.m + (knots.length + R - 1) * P.m) lu)
    (hlc : CompleteLU ((knots.length + R - 1) * P.m + (knots.length + R - 1) * P.m) lu) (junk : Nat → ℝ) :
    ∃ A S M T : Nat → Nat → ℝ,
      (∀ u, ∀ j < times.length, ∀ i < ids.length, vals ((knots.length + R - 1) * P.m) A u (ids.length * j + i) =
        ∑ q ∈ range P.m, entry l i q * atTime (knots.length + R - 1) P.m (fun a => Splines.fD tol R knots 0 a (times.getD j 0)) u q) ∧
      (∀ u v, (∀ a < knots.length + R - 1, ∀ z, P.l2 (slice P.m v a) z = -P.bilin (slice P.m u a) z) →
        ∀ z, pform ((knots.length + R - 1) * P.m) S u z + pform ((knots.length + R - 1) * P.m) M v z = 0) ∧
      (∀ u v, (∀ z, pform ((knots.length + R - 1) * P.m) S u z + pform ((knots.length + R - 1) * P.m) M v z = 0) →
        ∀ a < knots.length + R - 1, ∀ z, P.l2 (slice P.m v a) z = -P.bilin (slice P.m u a) z) ∧
      (∀ u v, pform ((knots.length + R - 1) * P.m) M u v = Splines.quad qn qw knots fun z => P.l2
        (atTime (knots.length + R - 1) P.m (fun a => Splines.fD tol R knots 0 a z) u) (atTime (knots.length + R - 1) P.m (fun a => Splines.fD tol R knots 0 a z) v)) ∧
      (∀ u v, pform ((knots.length + R - 1) * P.m) T u v = Splines.quad qn qw knots fun z => P.l2
        (atTime (knots.length + R - 1) P.m (fun a => Splines.fD tol R knots 2 a z) u) (atTime (knots.length + R - 1) P.m (fun a => Splines.fD tol R knots 2 a z) v)) ∧
      ∀ lamT lamD : ℝ, 0 < lamT → 0 < lamD →
        FormsT ((knots.length + R - 1) * P.m) (times.length * ids.length) A S M (fun p q => lamT * T p q) ∧
        ∀ y, ∃ f g, spaceTimeFit tol R knots qn qw times lu P data junk ids psi lamT lamD y = .ok (some (f, g)) ∧
          (∀ v, pform ((knots.length + R - 1) * P.m) S f v + pform ((knots.length + R - 1) * P.m) M g v = 0) ∧
          ∀ v, ∑ j ∈ range (times.length * ids.length), (y j - vals ((knots.length + R - 1) * P.m) A f j) * vals ((knots.length + R - 1) * P.m) A v j =
            pform ((knots.length + R - 1) * P.m) (fun p q => lamT * T p q) f v - lamD * pform ((knots.length + R - 1) * P.m) S v g := by
  obtain ⟨s0, t, lt, c1, c2, c3, c4, hPhi, hPt, hMt, hMd, hnull⟩ := time_core ht
  obtain ⟨s, e1, e2, _, _, _, hS, hM, _⟩ := C102_init P h.ok data h.rows h.cols junk
  have hS' : ∀ u v, pform P.m s.stiff u v = P.bilin u v := fun u v => by rw [pform, hS]
  have hM' : ∀ u v, pform P.m s.mass u v = P.l2 u v := fun u v => by rw [pform, hM]
  have hMs : ∀ u v, pform P.m s.mass u v = pform P.m s.mass v u := fun u v => by rw [hM', hM', l2_symm]
  have hMp : ∀ u, 0 ≤ pform P.m s.mass u u ∧ (pform P.m s.mass u u = 0 → ∀ p < P.m, u p = 0) := fun u => by rw [hM']; exact h.mass u
  have hMts : ∀ u v, pform (knots.length + R - 1) t.mass u v = pform (knots.length + R - 1) t.mass v u := fun u v => by
    rw [hMt, hMt]; simp only [mul_comm]
  have hPts : ∀ u v, pform (knots.length + R - 1) t.stiff u v = pform (knots.length + R - 1) t.stiff v u := fun u v => by
    rw [hPt, hPt]; simp only [mul_comm]
  have hPtp : ∀ u, 0 ≤ pform (knots.length + R - 1) t.stiff u u := fun u => by
    rw [hPt]; exact (Splines.quad_square_nonneg ht.smooth.good.incr ht.smooth.positive _).1
  generalize hmt : knots.length + R - 1 = mt at *
  have hscale : ∀ (c : ℝ) (Q : Nat → Nat → ℝ) u v, pform (mt * P.m) (fun p q => c * Q p q) u v = c * pform (mt * P.m) Q u v := by
    intro c Q u v
    simp only [pform, mul_sum]
    exact sum_congr rfl fun _ _ => sum_congr rfl fun _ _ => by ring
  refine ⟨kronEntry ids.length P.m (Splines.entry lt) (entry l), kronEntry P.m P.m t.mass s.stiff, kronEntry P.m P.m t.mass s.mass,
    kronEntry P.m P.m t.stiff s.mass, ?_, ?_, ?_, ?_, ?_, fun lamT lamD hlT hlD => ?_⟩
  · intro u j hj i hi
    rw [kron_vals hi, vals]
    refine sum_congr rfl fun q _ => ?_
    congr 1
    exact sum_congr rfl fun a ha => by rw [hPhi a (mem_range.1 ha) j hj]
  · intro u v hg z
    rw [kron_pform, kron_pform, ← sum_add_distrib]
    refine sum_eq_zero fun a _ => ?_
    rw [← sum_add_distrib]
    refine sum_eq_zero fun b hb => ?_
    rw [hS', hM', hg b (mem_range.1 hb)]
    ring
  · intro u v hg a ha z
    have hsum : ∀ w, pform (mt * P.m) (kronEntry P.m P.m t.mass s.stiff) u w + pform (mt * P.m) (kronEntry P.m P.m t.mass s.mass) v w =
        ∑ a ∈ range mt, ∑ b ∈ range mt, t.mass a b * (P.bilin (slice P.m u b) (slice P.m w a) + P.l2 (slice P.m v b) (slice P.m w a)) := by
      intro w
      rw [kron_pform, kron_pform, ← sum_add_distrib]
      refine sum_congr rfl fun a _ => ?_
      rw [← sum_add_distrib]
      exact sum_congr rfl fun b _ => by rw [hS', hM']; ring
    set x : Nat → ℝ := fun b => P.bilin (slice P.m u b) z + P.l2 (slice P.m v b) z with hx
    have hx0 : x a = 0 := by
      refine (hMd x).2 ?_ a ha
      have e := hg fun i => x (i / P.m) * z (i % P.m)
      rw [hsum] at e
      rw [← e, pform]
      refine sum_congr rfl fun a _ => sum_congr rfl fun b _ => ?_
      have es : ∀ Q, pform P.m Q (slice P.m u b) (slice P.m (fun i => x (i / P.m) * z (i % P.m)) a) = x a * pform P.m Q (slice P.m u b) z ∧
          pform P.m Q (slice P.m v b) (slice P.m (fun i => x (i / P.m) * z (i % P.m)) a) = x a * pform P.m Q (slice P.m v b) z := by
        intro Q
        constructor
        all_goals
          rw [pform, pform, mul_sum]
          refine sum_congr rfl fun p hp => ?_
          rw [mul_sum]
          refine sum_congr rfl fun q _ => ?_
          obtain ⟨e1, e2⟩ := split_index (j := a) (mem_range.1 hp)
          rw [slice, e1, e2]
          ring
      rw [← hS', ← hM', (es s.stiff).1, (es s.mass).2, hS', hM']
      change x a * t.mass a b * (P.bilin (slice P.m u b) z + P.l2 (slice P.m v b) z) = _
      ring
    rw [hx] at hx0
    dsimp only at hx0
    linarith
  · intro u v
    rw [kron_integral (entries_integral (by rw [hmt]; exact hMt) |> fun e => by rw [hmt] at e; exact e)]
    simp only [hM']
  · intro u v
    rw [kron_integral (entries_integral (by rw [hmt]; exact hPt) |> fun e => by rw [hmt] at e; exact e)]
    simp only [hM']
  · have hF : FormsT (mt * P.m) (times.length * ids.length) (kronEntry ids.length P.m (Splines.entry lt) (entry l)) (kronEntry P.m P.m t.mass s.stiff)
        (kronEntry P.m P.m t.mass s.mass) (fun p q => lamT * kronEntry P.m P.m t.stiff s.mass p q) := by
      refine ⟨kron_def hMts hMd hMs hMp, kron_symm hMts hMs, fun v => ?_, fun u v => ?_, fun w h1 h2 h3 => ?_⟩
      · rw [hscale]; exact mul_nonneg hlT.le (kron_nonneg hPts hPtp hMs (fun u => (hMp u).1) v)
      · rw [hscale, hscale, kron_symm hPts hMs]
      · rw [hscale] at h3
        have h3 := (mul_eq_zero.1 h3).resolve_left hlT.ne'
        intro r hr
        have hm : 0 < P.m := Nat.pos_of_ne_zero (by intro h0; rw [h0] at hr; simp at hr)
        have hconst : ∀ a < mt, ∀ p < P.m, slice P.m w a p = slice P.m w a 0 := fun a ha p hp =>
          (h.coercive (slice P.m w a)).2 (by rw [← hS']; exact kron_null hMd h1 _ ha) p hp 0 hm
        set c : Nat → ℝ := fun a => slice P.m w a 0 with hc
        have hc0 : ∀ a < mt, c a = 0 := by
          refine hnull c (fun j hj => ?_) ?_
          · obtain ⟨i, hi, hone⟩ := h.located
            have := h2 (ids.length * j + i) (by
              calc ids.length * j + i < ids.length * j + ids.length := by omega
                _ = (j + 1) * ids.length := by ring
                _ ≤ times.length * ids.length := Nat.mul_le_mul_right _ hj)
            rw [kron_vals hi, vals, sum_congr rfl fun p hp => by
              rw [show atTime mt P.m (Splines.entry lt j) w p = vals mt (Splines.entry lt) c j from
                sum_congr rfl fun a ha => by rw [hconst a (mem_range.1 ha) p (mem_range.1 hp)]], ← sum_mul, hone, one_mul] at this
            exact this
          · rw [kron_pform] at h3
            have e : ∀ a ∈ range mt, ∀ b ∈ range mt, t.stiff a b * pform P.m s.mass (slice P.m w b) (slice P.m w a) =
                c a * t.stiff a b * c b * pform P.m s.mass (fun _ => 1) (fun _ => 1) := by
              intro a ha b hb
              rw [pform_congr s.mass (u' := fun _ => c b * 1) (v' := fun _ => c a * 1) (fun p hp => by rw [hconst b (mem_range.1 hb) p hp, mul_one])
                fun p hp => by rw [hconst a (mem_range.1 ha) p hp, mul_one]]
              simp only [pform, mul_sum]
              exact sum_congr rfl fun _ _ => sum_congr rfl fun _ _ => by ring
            rw [sum_congr rfl fun a ha => sum_congr rfl fun b hb => e a ha b hb] at h3
            simp only [← sum_mul] at h3
            rcases mul_eq_zero.1 h3 with h0 | h0
            · exact h0
            · exact absurd ((hMp fun _ => 1).2 h0 0 hm) one_ne_zero
        have ha : r / P.m < mt := (Nat.div_lt_iff_lt_mul hm).2 hr
        have hp := Nat.mod_lt r hm
        have := hconst _ ha _ hp
        rw [slice, Nat.div_add_mod] at this
        rw [this]
        exact hc0 _ ha
    refine ⟨hF, fun y => ?_⟩
    set B := kronMat ⟨times.length, mt, Splines.entry lt⟩ ⟨ids.length, P.m, entry l⟩ with hB
    set T := kronMat ⟨mt, mt, t.stiff⟩ ⟨P.m, P.m, s.mass⟩ with hT
    set S := kronMat ⟨mt, mt, t.mass⟩ ⟨P.m, P.m, s.stiff⟩ with hSS
    set M := kronMat ⟨mt, mt, t.mass⟩ ⟨P.m, P.m, s.mass⟩ with hMM
    have kB : ∀ j < times.length * ids.length, ∀ p < mt * P.m, B.coeff j p = kronEntry ids.length P.m (Splines.entry lt) (entry l) j p :=
      fun j hj p hp => kronMat_coeff _ _ hj hp
    have kT : ∀ p < mt * P.m, ∀ q < mt * P.m, T.coeff p q = kronEntry P.m P.m t.stiff s.mass p q := fun p hp q hq => kronMat_coeff _ _ hp hq
    have kS : ∀ p < mt * P.m, ∀ q < mt * P.m, S.coeff p q = kronEntry P.m P.m t.mass s.stiff p q := fun p hp q hq => kronMat_coeff _ _ hp hq
    have kM : ∀ p < mt * P.m, ∀ q < mt * P.m, M.coeff p q = kronEntry P.m P.m t.mass s.mass p q := fun p hp q hq => kronMat_coeff _ _ hp hq
    obtain ⟨A, eA, hA⟩ := make_read (mt * P.m) (fun p q => -∑ j ∈ range (times.length * ids.length), B.coeff j p * B.coeff j q - lamT * T.coeff p q)
      (fun p q => lamD * S.coeff q p) (fun p q => lamD * S.coeff p q) (fun p q => lamD * M.coeff p q)
    have hA' : ∀ p < mt * P.m + mt * P.m, ∀ q < mt * P.m + mt * P.m, readAll A p q = sysT (mt * P.m) (times.length * ids.length)
        (kronEntry ids.length P.m (Splines.entry lt) (entry l)) (kronEntry P.m P.m t.mass s.stiff) (kronEntry P.m P.m t.mass s.mass)
        (fun p q => lamT * kronEntry P.m P.m t.stiff s.mass p q) lamD p q := by
      intro p hp q hq
      rw [hA p hp q hq, sysT]
      refine quadEntry_congr (fun p hp q hq => ?_) (fun p hp q hq => ?_) (fun p hp q hq => ?_) (fun p hp q hq => ?_) p hp q hq
      · rw [kT p hp q hq, sum_congr rfl fun j hj => by rw [kB j (mem_range.1 hj) p hp, kB j (mem_range.1 hj) q hq]]
      · rw [kS q hq p hp]
      · rw [kS p hp q hq]
      · rw [kM p hp q hq]
    obtain ⟨F, hFF⟩ := Option.isSome_iff_exists.1 (hlc _ (sysT_det hF hlD hA'))
    set b : Nat → ℝ := fun p => if p < mt * P.m then -∑ j ∈ range (times.length * ids.length), B.coeff j p * y j else 0 with hb
    have hx : ∀ p < mt * P.m + mt * P.m, ∑ q ∈ range (mt * P.m + mt * P.m), sysT (mt * P.m) (times.length * ids.length)
        (kronEntry ids.length P.m (Splines.entry lt) (entry l)) (kronEntry P.m P.m t.mass s.stiff) (kronEntry P.m P.m t.mass s.mass)
        (fun p q => lamT * kronEntry P.m P.m t.stiff s.mass p q) lamD p q * F b q = b p := by
      intro p hp
      rw [← hlu _ F hFF b p hp]
      exact sum_congr rfl fun q hq => by rw [hA' p hp q (mem_range.1 hq)]
    refine ⟨F b, fun p => F b (mt * P.m + p), ?_, fun v => ?_, fun v => ?_⟩
    · rw [spaceTimeFit, c1, Res.ok_bind, c2, Res.ok_bind, c4, Res.ok_bind, e1, Res.ok_bind, h.eval, Res.ok_bind]
      simp only [e2, c3]
      rw [← hB, ← hT, ← hSS, ← hMM, show B.rows = times.length * ids.length from rfl, eA, Res.ok_bind, hFF]
    · have e := (sysT_forms hx v).2
      rw [sum_eq_zero fun p hp => by rw [hb]; simp] at e
      exact (mul_eq_zero.1 e).resolve_left hlD.ne'
    · have e := (sysT_forms hx v).1
      have eb : ∑ p ∈ range (mt * P.m), v p * b p = -∑ j ∈ range (times.length * ids.length), y j *
          vals (mt * P.m) (kronEntry ids.length P.m (Splines.entry lt) (entry l)) v j := by
        rw [← Splines.normal_rhs, ← sum_neg_distrib]
        refine sum_congr rfl fun p hp => ?_
        have hp := mem_range.1 hp
        rw [hb]
        dsimp only
        rw [if_pos hp, Splines.normalRhs, sum_congr rfl fun j hj => by rw [kB j (mem_range.1 hj) p hp]]
        ring
      rw [eb] at e
      simp only [sub_mul, sum_sub_distrib]
      linarith

/-! ### Helpers about functions of time -/

theorem quad_zero {qn qw knots : List ℝ} (h0 : 2 ≤ knots.length) {f : ℝ → ℝ}
    (h : ∀ j, j + 1 < knots.length → ∀ k < min qn.length qw.length, f (Splines.node qn knots j k) = 0) : Splines.quad qn qw knots f = 0 := by
  refine sum_eq_zero fun j hj => ?_
  rw [Splines.span1]
  refine mul_eq_zero_of_right _ (sum_eq_zero fun k hk => mul_eq_zero_of_right _ ?_)
  exact h j (by have := mem_range.1 hj; omega) k (mem_range.1 hk)

theorem quad_nonneg {qn qw knots : List ℝ} (hk : knots.Pairwise (· < ·)) (hw : ∀ w ∈ qw, 0 < w) {f : ℝ → ℝ} (h : ∀ z, 0 ≤ f z) :
    0 ≤ Splines.quad qn qw knots f := by
  have := (Splines.quad_square_nonneg hk (qn := qn) hw fun z => Real.sqrt (f z)).1
  simp only [Real.mul_self_sqrt (h _)] at this
  exact this

theorem l2_form (h : FitData P data ids psi l) : ∃ M S : Nat → Nat → ℝ, (∀ u v, pform P.m M u v = P.l2 u v) ∧ ∀ u v, pform P.m S u v = P.bilin u v := by
  obtain ⟨s, _, _, _, _, _, hS, hM, _⟩ := C102_init P h.ok data h.rows h.cols fun _ => 0
  exact ⟨s.mass, s.stiff, fun u v => by rw [pform, hM], fun u v => by rw [pform, hS]⟩

theorem l2_null_left (h : FitData P data ids psi l) {u : Nat → ℝ} (hu : ∀ p < P.m, u p = 0) (v : Nat → ℝ) : P.l2 u v = 0 := by
  obtain ⟨M, _, hM, _⟩ := l2_form h
  rw [← hM, pform_congr M (u' := fun _ => 0) (v' := v) hu fun _ _ => rfl]
  simp [pform]

theorem time_basis (ht : TimeData tol R knots qn qw times) : TimeBasis tol R knots (Splines.tab (knots.length + 2 * R) (Splines.padFn R knots))
    (Splines.fD tol R knots 0) (Splines.fD tol R knots 2) := by
  have two := ht.smooth.good.two
  have hs := Splines.size_padded R knots two
  refine ⟨Splines.pad_eq R knots (by omega), fun a ha x => ⟨?_, ?_⟩⟩
  · rw [Splines.basis_value (by omega) (by omega)]; rfl
  · rw [Splines.derive_eq tol R _ _ x 2 R a (by omega)]; rfl

/-- Values in time of the coefficients of one function in space. -/
theorem atTime_fS {k : Nat} {z : ℝ} {u : Nat → ℝ} {p : Nat} : atTime (knots.length + R - 1) P.m (fun a => Splines.fD tol R knots k a z) u p =
    Splines.fS tol R knots k (fun a => slice P.m u a p) z :=
  sum_congr rfl fun a _ => mul_comm _ _

/-- A function affine in time has no second derivative at the nodes. -/
theorem affine_time (ht : TimeData tol R knots qn qw times) (h : FitData P data ids psi l) {u : Nat → ℝ}
    (hu : ∀ p < P.m, ∃ α β : ℝ, ∀ x, knots.getD 0 0 ≤ x → x ≤ knots.getD (knots.length - 1) 0 →
      atTime (knots.length + R - 1) P.m (fun a => Splines.fD tol R knots 0 a x) u p = α + β * x) (w : ℝ → Nat → ℝ) :
    Splines.quad qn qw knots (fun z => P.l2 (atTime (knots.length + R - 1) P.m (fun a => Splines.fD tol R knots 2 a z) u) (w z)) = 0 := by
  refine quad_zero ht.smooth.good.two fun j hj k hk => l2_null_left h (fun p hp => ?_) _
  obtain ⟨α, β, hab⟩ := hu p hp
  have hm := Splines.node_mem ht.smooth.good.incr ht.smooth.inside hj (k := k) (by omega)
  rw [atTime_fS]
  exact Splines.affine_second ht.smooth.order ht.smooth.good _ (fun x h0 h1 => by rw [← atTime_fS (P := P)]; exact hab x h0 h1) hj hm.1 hm.2

theorem penalties_eq (lamT lamD : ℝ) (mt : Nat) (f g : Nat → ℝ) : P.penalties qn qw knots (Splines.fD tol R knots 0) (Splines.fD tol R knots 2) mt lamT lamD f g =
    lamT * Splines.quad qn qw knots (fun z => P.l2 (atTime mt P.m (fun a => Splines.fD tol R knots 2 a z) f)
      (atTime mt P.m (fun a => Splines.fD tol R knots 2 a z) f)) +
    lamD * Splines.quad qn qw knots fun z => P.l2 (atTime mt P.m (fun a => Splines.fD tol R knots 0 a z) g)
      (atTime mt P.m (fun a => Splines.fD tol R knots 0 a z) g) := rfl

theorem penalties_nonneg (ht : TimeData tol R knots qn qw times) (h : FitData P data ids psi l) {lamT lamD : ℝ} (hT : 0 < lamT) (hD : 0 < lamD)
    (mt : Nat) (f g : Nat → ℝ) : 0 ≤ P.penalties qn qw knots (Splines.fD tol R knots 0) (Splines.fD tol R knots 2) mt lamT lamD f g := by
  rw [penalties_eq]
  exact add_nonneg (mul_nonneg hT.le (quad_nonneg ht.smooth.good.incr ht.smooth.positive fun z =>
    (h.mass (atTime mt P.m (fun a => Splines.fD tol R knots 2 a z) f)).1)) (mul_nonneg hD.le (quad_nonneg ht.smooth.good.incr ht.smooth.positive fun z =>
    (h.mass (atTime mt P.m (fun a => Splines.fD tol R knots 0 a z) g)).1))

/-- Every function has a gap at every index in time. -/
theorem timeGap_exists (h : FitData P data ids psi l) (mt : Nat) (f : Nat → ℝ) : ∃ g, P.TimeGap mt f g := by
  have h0 : FitData P ⟨P.n * Quadrature.size P.t, 1, fun _ _ => 0⟩ ids psi l :=
    ⟨h.ok, h.coercive, h.mass, le_rfl, one_pos, h.eval, h.located⟩
  choose G hG using fun a => gap_exists h0 (slice P.m f a)
  obtain ⟨M, _, hM, _⟩ := l2_form h
  refine ⟨fun i => G (i / P.m) (i % P.m), fun a _ v => ?_⟩
  have e : P.l2 (slice P.m (fun i => G (i / P.m) (i % P.m)) a) v = P.l2 (G a) v := by
    rw [← hM, ← hM]
    refine pform_congr M (fun p hp => ?_) fun _ _ => rfl
    obtain ⟨e1, e2⟩ := split_index (j := a) hp
    rw [slice, e1, e2]
  rw [e, hG a v]
  simp [Prob.load]

section
variable (ht : TimeData tol R knots qn qw times) (h : FitData P data ids psi l) {lu : Solver ℝ}
    (hlu : ExactLU ((knots.length + R - 1) * P.m + (knots.length + R - 1) * P.m) lu)
    (hlc : CompleteLU ((knots.length + R - 1) * P.m + (knots.length + R - 1) * P.m) lu) (junk : Nat → ℝ)
include ht h hlu hlc

theorem st_fit (lamT lamD : ℝ) (hT : 0 < lamT) (hD : 0 < lamD) (y : Nat → ℝ) :
    ∃ f g, spaceTimeFit tol R knots qn qw times lu P data junk ids psi lamT lamD y = .ok (some (f, g)) ∧
      P.TimeGap (knots.length + R - 1) f g ∧ ∀ f' g', P.TimeGap (knots.length + R - 1) f' g' →
        stMisfit (knots.length + R - 1) P.m (Splines.fD tol R knots 0) times ids.length (entry l) y f +
            P.penalties qn qw knots (Splines.fD tol R knots 0) (Splines.fD tol R knots 2) (knots.length + R - 1) lamT lamD f g ≤
          stMisfit (knots.length + R - 1) P.m (Splines.fD tol R knots 0) times ids.length (entry l) y f' +
            P.penalties qn qw knots (Splines.fD tol R knots 0) (Splines.fD tol R knots 2) (knots.length + R - 1) lamT lamD f' g' ∧
        ((∃ p < (knots.length + R - 1) * P.m, f' p ≠ f p) →
          stMisfit (knots.length + R - 1) P.m (Splines.fD tol R knots 0) times ids.length (entry l) y f +
              P.penalties qn qw knots (Splines.fD tol R knots 0) (Splines.fD tol R knots 2) (knots.length + R - 1) lamT lamD f g <
            stMisfit (knots.length + R - 1) P.m (Splines.fD tol R knots 0) times ids.length (entry l) y f' +
              P.penalties qn qw knots (Splines.fD tol R knots 0) (Splines.fD tol R knots 2) (knots.length + R - 1) lamT lamD f' g') := by
  obtain ⟨A, S, M, T, hA, hg1, hg2, hM, hTT, hfit⟩ := st_core ht h hlu hlc junk
  obtain ⟨hF, hfit⟩ := hfit lamT lamD hT hD
  obtain ⟨f, g, e, hk, hv⟩ := hfit y
  refine ⟨f, g, e, hg2 f g hk, fun f' g' hg' => ?_⟩
  have hk' := hg1 f' g' hg'
  have hkd : ∀ v, pform ((knots.length + R - 1) * P.m) S (fun p => f' p - f p) v + pform ((knots.length + R - 1) * P.m) M (fun p => g' p - g p) v = 0 := by
    intro v
    rw [pform_sub_left, pform_sub_left]
    have := hk v
    have := hk' v
    linarith
  have hx := criterionT_expand hF hv hkd
  have hmis : ∀ u, stMisfit (knots.length + R - 1) P.m (Splines.fD tol R knots 0) times ids.length (entry l) y u =
      ∑ j ∈ range (times.length * ids.length), (y j - vals ((knots.length + R - 1) * P.m) A u j) ^ 2 := by
    intro u
    rw [sum_range_prod, stMisfit]
    exact sum_congr rfl fun j hj => sum_congr rfl fun i hi => by rw [hA u j (mem_range.1 hj) i (mem_range.1 hi)]
  have hpen : ∀ u v, P.penalties qn qw knots (Splines.fD tol R knots 0) (Splines.fD tol R knots 2) (knots.length + R - 1) lamT lamD u v =
      pform ((knots.length + R - 1) * P.m) (fun p q => lamT * T p q) u u + lamD * pform ((knots.length + R - 1) * P.m) M v v := by
    intro u v
    rw [penalties_eq, ← hTT, ← hM]
    congr 1
    simp only [pform, mul_sum]
    exact sum_congr rfl fun _ _ => sum_congr rfl fun _ _ => by ring
  simp only [hmis, hpen]
  have n1 : 0 ≤ ∑ j ∈ range (times.length * ids.length), vals ((knots.length + R - 1) * P.m) A (fun p => f' p - f p) j *
    vals ((knots.length + R - 1) * P.m) A (fun p => f' p - f p) j := sum_nonneg fun j _ => mul_self_nonneg _
  have n2 := hF.pen fun p => f' p - f p
  have n3 := mul_nonneg hD.le (hF.mass fun p => g' p - g p).1
  refine ⟨by linarith, fun ⟨p, hp, hne⟩ => lt_of_le_of_ne (by linarith) fun hz => hne ?_⟩
  exact sub_eq_zero.1 ((formsT_zero hF hD hkd (by linarith)).1 p hp)

/-- **C165** (partial: exact factorization, real arithmetic, no forcing).  The program succeeds, and of all functions the one it returns, and no
other, has the least sum of squared differences from the data plus the penalties. -/
theorem C165_fit_partial (lamT lamD : ℝ) (hT : 0 < lamT) (hD : 0 < lamD) (y : Nat → ℝ) :
    ∃ t b b2 f g, TimeBasis tol R knots t b b2 ∧ spaceTimeFit tol R knots qn qw times lu P data junk ids psi lamT lamD y = .ok (some (f, g)) ∧
      P.TimeGap (Splines.size R t) f g ∧ (∀ f', ∃ g', P.TimeGap (Splines.size R t) f' g') ∧ ∀ f' g', P.TimeGap (Splines.size R t) f' g' →
        stMisfit (Splines.size R t) P.m b times ids.length (entry l) y f + P.penalties qn qw knots b b2 (Splines.size R t) lamT lamD f g ≤
          stMisfit (Splines.size R t) P.m b times ids.length (entry l) y f' + P.penalties qn qw knots b b2 (Splines.size R t) lamT lamD f' g' ∧
        ((∃ p < Splines.size R t * P.m, f' p ≠ f p) →
          stMisfit (Splines.size R t) P.m b times ids.length (entry l) y f + P.penalties qn qw knots b b2 (Splines.size R t) lamT lamD f g <
            stMisfit (Splines.size R t) P.m b times ids.length (entry l) y f' + P.penalties qn qw knots b b2 (Splines.size R t) lamT lamD f' g') := by
  obtain ⟨f, g, e, h1, h2⟩ := st_fit ht h hlu hlc junk lamT lamD hT hD y
  refine ⟨_, _, _, f, g, time_basis ht, e, ?_⟩
  rw [Splines.size_padded R knots ht.smooth.good.two]
  exact ⟨h1, timeGap_exists h _, h2⟩

/-- **C165**: data which are the values of a function that solves the problem at every time and is affine in time are fitted by that function,
whatever the two smoothing parameters. -/
theorem C165_exact_partial (lamT lamD : ℝ) (hT : 0 < lamT) (hD : 0 < lamD) :
    ∃ t b b2, TimeBasis tol R knots t b b2 ∧ ∀ y f0 : Nat → ℝ, P.TimeGap (Splines.size R t) f0 (fun _ => 0) →
      (∀ p < P.m, ∃ α β : ℝ, ∀ x, knots.getD 0 0 ≤ x → x ≤ knots.getD (knots.length - 1) 0 → atTime (Splines.size R t) P.m (fun a => b a x) f0 p = α + β * x) →
      (∀ j < times.length, ∀ i < ids.length, y (ids.length * j + i) =
        ∑ q ∈ range P.m, entry l i q * atTime (Splines.size R t) P.m (fun a => b a (times.getD j 0)) f0 q) →
      ∃ f g, spaceTimeFit tol R knots qn qw times lu P data junk ids psi lamT lamD y = .ok (some (f, g)) ∧ ∀ p < Splines.size R t * P.m, f p = f0 p := by
  refine ⟨_, _, _, time_basis ht, ?_⟩
  rw [Splines.size_padded R knots ht.smooth.good.two]
  intro y f0 hg0 haff hy
  obtain ⟨f, g, e, h1, h2⟩ := st_fit ht h hlu hlc junk lamT lamD hT hD y
  refine ⟨f, g, e, fun p hp => ?_⟩
  by_contra hne
  have := (h2 f0 _ hg0).2 ⟨p, hp, Ne.symm hne⟩
  have z1 : stMisfit (knots.length + R - 1) P.m (Splines.fD tol R knots 0) times ids.length (entry l) y f0 = 0 :=
    sum_eq_zero fun j hj => sum_eq_zero fun i hi => by rw [hy j (mem_range.1 hj) i (mem_range.1 hi), sub_self, zero_pow two_ne_zero]
  have z2 : P.penalties qn qw knots (Splines.fD tol R knots 0) (Splines.fD tol R knots 2) (knots.length + R - 1) lamT lamD f0 (fun _ => 0) = 0 := by
    rw [penalties_eq, affine_time ht h haff, quad_zero ht.smooth.good.two fun j _ k _ => l2_null_left h (fun p _ => by simp [atTime, slice]) _]
    ring
  have n1 : 0 ≤ stMisfit (knots.length + R - 1) P.m (Splines.fD tol R knots 0) times ids.length (entry l) y f :=
    sum_nonneg fun _ _ => sum_nonneg fun _ _ => sq_nonneg _
  have n2 := penalties_nonneg ht h hT hD (knots.length + R - 1) f g
  rw [z1, z2] at this
  linarith

omit hlu hlc in
/-- A function constant in space and affine in time. -/
theorem affine_lift (hc : ∀ v, P.bilin (fun _ => 1) v = 0) (α β : ℝ) : ∃ f0 : Nat → ℝ, P.TimeGap (knots.length + R - 1) f0 (fun _ => 0) ∧
    ∀ p < P.m, ∀ x, knots.getD 0 0 ≤ x → x ≤ knots.getD (knots.length - 1) 0 →
      atTime (knots.length + R - 1) P.m (fun a => Splines.fD tol R knots 0 a x) f0 p = α + β * x := by
  obtain ⟨c, _, hx⟩ := Splines.affine_coeffs (tol := tol) ht.smooth.order ht.smooth.good α β
  obtain ⟨M, S, hM, hS⟩ := l2_form h
  have hsl : ∀ a, ∀ p < P.m, slice P.m (fun i => c.getD (i / P.m) 0) a p = c.getD a 0 := fun a p hp => by
    rw [slice, (split_index (j := a) hp).1]
  refine ⟨fun i => c.getD (i / P.m) 0, fun a _ v => ?_, fun p hp x h0 h1 => ?_⟩
  · rw [l2_null_left h (fun p _ => by simp [slice])]
    rw [← hS, pform_congr S (u' := fun _ => c.getD a 0) (v' := v) (hsl a) fun _ _ => rfl]
    have := hc v
    rw [← hS] at this
    have e : pform P.m S (fun _ => c.getD a 0) v = c.getD a 0 * pform P.m S (fun _ => 1) v := by
      simp only [pform, mul_sum]
      exact sum_congr rfl fun _ _ => sum_congr rfl fun _ _ => by ring
    rw [e, this]
    ring
  · rw [atTime_fS, ← hx x h0 h1]
    exact sum_congr rfl fun a _ => by dsimp only; rw [hsl a p hp]

/-- **C165**: when the form does not see constants, the differences between data and fitted values, over all times and over the locations in a
cell, have sum zero, and are orthogonal to the times. -/
theorem C165_residuals_partial (hc : ∀ v, P.bilin (fun _ => 1) v = 0) (lamT lamD : ℝ) (hT : 0 < lamT) (hD : 0 < lamD) (y : Nat → ℝ) :
    ∃ t b b2 f g, TimeBasis tol R knots t b b2 ∧ spaceTimeFit tol R knots qn qw times lu P data junk ids psi lamT lamD y = .ok (some (f, g)) ∧
      ∀ α β : ℝ, ∑ j ∈ range times.length, ∑ i ∈ range ids.length, (α + β * times.getD j 0) * ((y (ids.length * j + i) -
        ∑ q ∈ range P.m, entry l i q * atTime (Splines.size R t) P.m (fun a => b a (times.getD j 0)) f q) * ∑ q ∈ range P.m, entry l i q) = 0 := by
  obtain ⟨A, S, M, T, hA, hg1, hg2, hM, hTT, hfit⟩ := st_core ht h hlu hlc junk
  obtain ⟨hF, hfit⟩ := hfit lamT lamD hT hD
  obtain ⟨f, g, e, hk, hv⟩ := hfit y
  refine ⟨_, _, _, f, g, time_basis ht, e, fun α β => ?_⟩
  rw [Splines.size_padded R knots ht.smooth.good.two]
  obtain ⟨f0, hg0, haff⟩ := affine_lift ht h hc α β
  have h1 := hv f0
  have z1 : pform ((knots.length + R - 1) * P.m) S f0 g = 0 := by
    have := hg1 f0 _ hg0 g
    have z : pform ((knots.length + R - 1) * P.m) M (fun _ => 0) g = 0 := by simp [pform]
    linarith
  have z2 : pform ((knots.length + R - 1) * P.m) (fun p q => lamT * T p q) f f0 = 0 := by
    rw [hF.penSymm]
    have : pform ((knots.length + R - 1) * P.m) (fun p q => lamT * T p q) f0 f = lamT * pform ((knots.length + R - 1) * P.m) T f0 f := by
      simp only [pform, mul_sum]
      exact sum_congr rfl fun _ _ => sum_congr rfl fun _ _ => by ring
    rw [this, hTT, affine_time ht h fun p hp => ⟨α, β, haff p hp⟩]
    ring
  rw [z1, z2, sum_range_prod, mul_zero, sub_zero] at h1
  refine Eq.trans (sum_congr rfl fun j hj => sum_congr rfl fun i hi => ?_) h1
  have hj := mem_range.1 hj
  have hr := Splines.locs_mem ht.smooth hj
  have e2 : ∑ q ∈ range P.m, entry l i q * atTime (knots.length + R - 1) P.m (fun a => Splines.fD tol R knots 0 a (times.getD j 0)) f0 q =
      (α + β * times.getD j 0) * ∑ q ∈ range P.m, entry l i q := by
    rw [mul_sum]
    exact sum_congr rfl fun q hq => by rw [haff q (mem_range.1 hq) _ hr.1 hr.2, mul_comm]
  rw [hA f j hj i (mem_range.1 hi), hA f0 j hj i (mem_range.1 hi), e2]
  ring

end

/-! ### Meshes -/
section
variable {d N n nNodes : Nat} {cells : Nat → Nat → Nat} {X : Nat → Fin N → ℝ}

theorem st_misfit_split {l : List (Trip ℝ)} {ids : List Int} {locs : Nat → Fin N → ℝ} {mt : Nat} {b : Nat → ℝ → ℝ} {f : Nat → ℝ}
    {F : ℝ → (Fin N → ℝ) → ℝ} (y : Nat → ℝ)
    (h : ∀ j < times.length, ∀ i < ids.length, ∑ q ∈ range nNodes, entry l i q * atTime mt nNodes (fun a => b a (times.getD j 0)) f q =
      if ids[i]? = some (-1) then 0 else F (times.getD j 0) (locs i)) :
    stMisfit mt nNodes b times ids.length (entry l) y f =
      ∑ j ∈ range times.length, misfitAt ids locs (fun i => y (ids.length * j + i)) (F (times.getD j 0)) +
      ∑ j ∈ range times.length, ∑ i ∈ range ids.length with ids[i]? = some (-1), y (ids.length * j + i) ^ 2 := by
  rw [stMisfit, ← sum_add_distrib]
  exact sum_congr rfl fun j hj => misfit_split (fun i => y (ids.length * j + i)) (h j (mem_range.1 hj))

variable (ht : TimeData tol R knots qn qw times) (hd : Dims d N) {op : Op ℝ} (hs : FlagRight N op) (hns : NoScalar op) (bNodes : Nat → Bool)
    (h : GoodMesh (d + 1) n nNodes cells X)
    (hell : ∀ r, Elliptic N op r) {ids : List Int} {locs : Nat → Fin N → ℝ} (hL : Located (d + 1) n cells X ids locs)
    {lu : Solver ℝ} (hlu : ExactLU ((knots.length + R - 1) * nNodes + (knots.length + R - 1) * nNodes) lu)
    (hlc : CompleteLU ((knots.length + R - 1) * nNodes + (knots.length + R - 1) * nNodes) lu)
include ht hd hs hns h hell hL hlu hlc

/-- **C165** on connected meshes of intervals, triangles, tetrahedra, surfaces and networks of segments, first order elements: the fitted
function is, at every time, continuous and linear on each cell, and of all such functions it alone has the least criterion. -/
theorem C165_mesh_partial :
    ∃ P, problem1 d op cells n nNodes X bNodes = .ok P ∧ ∀ data : Dense ℝ, n * Quadrature.size P.t ≤ data.rows → 0 < data.cols →
      ∀ junk lamT lamD, 0 < lamT → 0 < lamD → ∀ y : Nat → ℝ, ∃ t b b2 f g, ∃ F : ℝ → (Fin N → ℝ) → ℝ, TimeBasis tol R knots t b b2 ∧
        spaceTimeFit tol R knots qn qw times lu P data junk ids (psiAt d 1 (d + 1) cells X locs) lamT lamD y = .ok (some (f, g)) ∧
        (∀ x, ContinuousOn (F x) (domain (d + 1) n cells X) ∧ IsP1 (d + 1) n nNodes cells X (atTime (Splines.size R t) nNodes (fun a => b a x) f) (F x)) ∧
        P.TimeGap (Splines.size R t) f g ∧
        ∀ (f' g' : Nat → ℝ) (F' : ℝ → (Fin N → ℝ) → ℝ), (∀ x, IsP1 (d + 1) n nNodes cells X (atTime (Splines.size R t) nNodes (fun a => b a x) f') (F' x)) → P.TimeGap (Splines.size R t) f' g' →
          ∑ j ∈ range times.length, misfitAt ids locs (fun i => y (ids.length * j + i)) (F (times.getD j 0)) +
              P.penalties qn qw knots b b2 (Splines.size R t) lamT lamD f g ≤
            ∑ j ∈ range times.length, misfitAt ids locs (fun i => y (ids.length * j + i)) (F' (times.getD j 0)) +
              P.penalties qn qw knots b b2 (Splines.size R t) lamT lamD f' g' ∧
          ((∃ p < Splines.size R t * nNodes, f' p ≠ f p) →
            ∑ j ∈ range times.length, misfitAt ids locs (fun i => y (ids.length * j + i)) (F (times.getD j 0)) +
                P.penalties qn qw knots b b2 (Splines.size R t) lamT lamD f g <
              ∑ j ∈ range times.length, misfitAt ids locs (fun i => y (ids.length * j + i)) (F' (times.getD j 0)) +
                P.penalties qn qw knots b b2 (Splines.size R t) lamT lamD f' g') := by
  obtain ⟨P, I, J, l, e, em, _, _, hD, hV, hC⟩ := mesh_fit hd hs hns bNodes h hell hL
  subst em
  refine ⟨P, e, fun data hr hc junk lamT lamD hT hDD y => ?_⟩
  obtain ⟨t, b, b2, f, g, hb, e1, hg, _, hmin⟩ := C165_fit_partial ht (hD data hr hc) hlu hlc junk lamT lamD hT hDD y
  choose F f1 f2 using fun x => hC (atTime (Splines.size R t) P.m (fun a => b a x) f)
  refine ⟨t, b, b2, f, g, F, hb, e1, fun x => ⟨f1 x, f2 x⟩, hg, fun f' g' F' hF' hg' => ?_⟩
  have := hmin f' g' hg'
  rw [st_misfit_split (F := F) y fun j _ => hV _ _ (f2 _), st_misfit_split (F := F') y fun j _ => hV _ _ (hF' _)] at this
  exact ⟨by linarith [this.1], fun hne => by linarith [this.2 hne]⟩

/-- **C165** on meshes: without reaction term, data `alpha + beta * time`, the same at all locations, are fitted by that function. -/
theorem C165_mesh_lines_partial (hr : NoReaction op) :
    ∃ P, problem1 d op cells n nNodes X bNodes = .ok P ∧ ∀ data : Dense ℝ, n * Quadrature.size P.t ≤ data.rows → 0 < data.cols →
      ∀ junk lamT lamD, 0 < lamT → 0 < lamD → ∀ (y : Nat → ℝ) (α β : ℝ),
        (∀ j < times.length, ∀ i < ids.length, ids[i]? ≠ some (-1) → y (ids.length * j + i) = α + β * times.getD j 0) →
        ∃ t b b2 f g, TimeBasis tol R knots t b b2 ∧
          spaceTimeFit tol R knots qn qw times lu P data junk ids (psiAt d 1 (d + 1) cells X locs) lamT lamD y = .ok (some (f, g)) ∧
          ∀ x, knots.getD 0 0 ≤ x → x ≤ knots.getD (knots.length - 1) 0 → ∀ p < nNodes, atTime (Splines.size R t) nNodes (fun a => b a x) f p = α + β * x := by
  obtain ⟨P, I, J, l, e, em, eo, hLa, hD, hV, hC⟩ := mesh_fit hd hs hns bNodes h hell hL
  subst em
  refine ⟨P, e, fun data hrw hc junk lamT lamD hT hDD y α β hy => ?_⟩
  have hdat := hD data hrw hc
  have hone : ∀ v, P.bilin (fun _ => 1) v = 0 := fun v => lagrange_const hLa (by rw [eo]; exact hr) 1 v
  obtain ⟨f0, hg0, haff⟩ := affine_lift ht hdat hone α β
  obtain ⟨f, g, e1, hg, hmin⟩ := st_fit ht hdat hlu hlc junk lamT lamD hT hDD y
  refine ⟨_, _, _, f, g, time_basis ht, e1, ?_⟩
  rw [Splines.size_padded R knots ht.smooth.good.two]
  have hff : ∀ p < (knots.length + R - 1) * P.m, f p = f0 p := by
    intro p hp
    by_contra hne
    have := (hmin f0 _ hg0).2 ⟨p, hp, Ne.symm hne⟩
    choose F f1 f2 using fun x => hC (atTime (knots.length + R - 1) P.m (fun a => Splines.fD tol R knots 0 a x) f)
    have hV0 : ∀ j < times.length, ∀ i < ids.length, ∑ q ∈ range P.m, entry l i q *
        atTime (knots.length + R - 1) P.m (fun a => Splines.fD tol R knots 0 a (times.getD j 0)) f0 q =
        if ids[i]? = some (-1) then 0 else (fun (x : ℝ) (_ : Fin N → ℝ) => α + β * x) (times.getD j 0) (locs i) := by
      intro j hj i hi
      have hrg := Splines.locs_mem ht.smooth hj
      rw [sum_congr rfl fun q hq => by rw [haff q (mem_range.1 hq) _ hrg.1 hrg.2]]
      have hk : ∀ κ : ℝ, IsP1 (d + 1) n P.m cells X (fun _ => κ) fun _ => κ :=
        fun κ => ⟨fun c _ => ⟨MvPolynomial.C κ, by simp, fun p _ => by simp⟩, fun _ _ => rfl⟩
      exact hV (fun _ => α + β * times.getD j 0) (fun _ => α + β * times.getD j 0) (hk _) i hi
    rw [st_misfit_split (F := F) y fun j _ => hV _ _ (f2 _), st_misfit_split (F := fun x _ => α + β * x) (locs := locs) y hV0] at this
    have z1 : ∑ j ∈ range times.length, misfitAt ids locs (fun i => y (ids.length * j + i)) (fun _ => α + β * times.getD j 0) = 0 :=
      sum_eq_zero fun j hj => sum_eq_zero fun i hi => by
        obtain ⟨h1, h2⟩ := mem_filter.1 hi
        dsimp only
        rw [hy j (mem_range.1 hj) i (mem_range.1 h1) h2, sub_self, zero_pow two_ne_zero]
    have z2 : P.penalties qn qw knots (Splines.fD tol R knots 0) (Splines.fD tol R knots 2) (knots.length + R - 1) lamT lamD f0 (fun _ => 0) = 0 := by
      rw [penalties_eq, affine_time ht hdat fun p hp => ⟨α, β, haff p hp⟩,
        quad_zero ht.smooth.good.two fun j _ k _ => l2_null_left hdat (fun p _ => by simp [atTime, slice]) _]
      ring
    have n1 : 0 ≤ ∑ j ∈ range times.length, misfitAt ids locs (fun i => y (ids.length * j + i)) (F (times.getD j 0)) :=
      sum_nonneg fun _ _ => sum_nonneg fun _ _ => sq_nonneg _
    have n2 := penalties_nonneg ht hdat hT hDD (knots.length + R - 1) f g
    rw [z1, z2] at this
    linarith
  intro x h0 h1 p hp
  rw [← haff p hp x h0 h1]
  refine sum_congr rfl fun a ha => ?_
  rw [slice, slice, hff _ (by
    have := mem_range.1 ha
    calc P.m * a + p < P.m * a + P.m := by omega
      _ = (a + 1) * P.m := by ring
      _ ≤ _ := Nat.mul_le_mul_right _ this)]

/-- **C165** on meshes: without reaction term, the differences between data and fitted values, over all times and the locations in the mesh, have
sum zero and are orthogonal to the times. -/
theorem C165_mesh_residuals_partial (hr : NoReaction op) :
    ∃ P, problem1 d op cells n nNodes X bNodes = .ok P ∧ ∀ data : Dense ℝ, n * Quadrature.size P.t ≤ data.rows → 0 < data.cols →
      ∀ junk lamT lamD, 0 < lamT → 0 < lamD → ∀ y : Nat → ℝ, ∃ t b b2 f g, ∃ F : ℝ → (Fin N → ℝ) → ℝ, TimeBasis tol R knots t b b2 ∧
        spaceTimeFit tol R knots qn qw times lu P data junk ids (psiAt d 1 (d + 1) cells X locs) lamT lamD y = .ok (some (f, g)) ∧
        (∀ x, IsP1 (d + 1) n nNodes cells X (atTime (Splines.size R t) nNodes (fun a => b a x) f) (F x)) ∧
        ∑ j ∈ range times.length, ∑ i ∈ range ids.length with ids[i]? ≠ some (-1), (y (ids.length * j + i) - F (times.getD j 0) (locs i)) = 0 ∧
        ∑ j ∈ range times.length, times.getD j 0 * ∑ i ∈ range ids.length with ids[i]? ≠ some (-1),
          (y (ids.length * j + i) - F (times.getD j 0) (locs i)) = 0 := by
  obtain ⟨P, I, J, l, e, em, eo, hLa, hD, hV, hC⟩ := mesh_fit hd hs hns bNodes h hell hL
  subst em
  refine ⟨P, e, fun data hrw hc junk lamT lamD hT hDD y => ?_⟩
  obtain ⟨t, b, b2, f, g, hb, e1, hz⟩ := C165_residuals_partial ht (hD data hrw hc) hlu hlc junk
    (fun v => lagrange_const hLa (by rw [eo]; exact hr) 1 v) lamT lamD hT hDD y
  choose F f1 f2 using fun x => hC (atTime (Splines.size R t) P.m (fun a => b a x) f)
  refine ⟨t, b, b2, f, g, F, hb, e1, f2, ?_⟩
  have hone : IsP1 (d + 1) n P.m cells X (fun _ => 1) fun _ => 1 := ⟨fun c _ => ⟨1, by simp, fun p _ => by simp⟩, fun _ _ => rfl⟩
  have key : ∀ j, ∑ i ∈ range ids.length, (y (ids.length * j + i) - ∑ q ∈ range P.m, entry l i q *
      atTime (Splines.size R t) P.m (fun a => b a (times.getD j 0)) f q) * ∑ q ∈ range P.m, entry l i q =
      ∑ i ∈ range ids.length with ids[i]? ≠ some (-1), (y (ids.length * j + i) - F (times.getD j 0) (locs i)) := by
    intro j
    rw [sum_filter]
    refine sum_congr rfl fun i hi => ?_
    have h1 := hV _ _ hone i (mem_range.1 hi)
    simp only [mul_one] at h1
    rw [h1, hV _ _ (f2 _) i (mem_range.1 hi)]
    by_cases hm : ids[i]? = some (-1) <;> simp [hm]
  constructor
  · have := hz 1 0
    simp only [zero_mul, add_zero, one_mul] at this
    exact Eq.trans (sum_congr rfl fun j _ => (key j).symm) this
  · have := hz 0 1
    simp only [zero_add, one_mul] at this
    exact Eq.trans (sum_congr rfl fun j _ => by rw [← key, mul_sum]) this

end

/-! ### The hypotheses are met -/

theorem demo_time : TimeData (1 / 10) 3 [0, 1, 3] (Splines.splineNodes ℝ) (Splines.splineWeights ℝ) [1 / 2, 2, 3] :=
  ⟨Splines.demo_smooth, .inr ⟨rfl, rfl, rfl, le_rfl⟩⟩

/-- Cubic splines in time and linear elements on the rod from 0 to `n`; the data 4, 7, 9 at the times 1/2, 2, 3 are fitted by `3 + 2 t`. -/
example (n : Nat) (hn : 0 < n) : ∃ (lu : Solver ℝ) (P : Prob ℝ) (t : List ℝ) (b b2 : Nat → ℝ → ℝ) (f g : Nat → ℝ),
    problem1 1 (.neg .lap) lineCells n (n + 1) lineX (fun p => p == 0 || p == n) = .ok P ∧ TimeBasis (1 / 10) 3 [0, 1, 3] t b b2 ∧
    spaceTimeFit (1 / 10) 3 [0, 1, 3] (Splines.splineNodes ℝ) (Splines.splineWeights ℝ) [1 / 2, 2, 3] lu P ⟨n * Quadrature.size P.t, 1, fun r _ => r⟩
      (fun _ => 0) [0, -1, 0] (psiAt 1 1 2 lineCells lineX fun i _ => if i = 0 then 1 / 2 else if i = 1 then -5 else 1 / 3) 7 8
      (fun r => if r % 3 = 1 then 100 else 3 + 2 * [1 / 2, 2, 3].getD (r / 3) 0) = .ok (some (f, g)) ∧
    ∀ p < n + 1, atTime (Splines.size 3 t) (n + 1) (fun a => b a 1) f p = 5 := by
  obtain ⟨lu, h1, h2⟩ := exists_exactLU (K := ℝ) (([(0 : ℝ), 1, 3].length + 3 - 1) * (n + 1) + ([(0 : ℝ), 1, 3].length + 3 - 1) * (n + 1))
  obtain ⟨P, e, h⟩ := C165_mesh_lines_partial demo_time (d := 1) (by unfold Dims; decide) (op := .neg .lap) (fun _ => trivial) trivial
    (fun p => p == 0 || p == n) (line_good n hn) (fun r => C103_laplacian 1 r) (demo_located n hn) h1 h2 trivial
  obtain ⟨t, b, b2, f, g, hb, e1, hz⟩ := h ⟨n * Quadrature.size P.t, 1, fun r _ => r⟩ le_rfl (by norm_num) (fun _ => 0) 7 8 (by norm_num) (by norm_num)
    (fun r => if r % 3 = 1 then 100 else 3 + 2 * [1 / 2, 2, 3].getD (r / 3) 0) 3 2 (by
      intro j hj i hi hne
      have hi : i < 3 := hi
      have hne1 : i ≠ 1 := by rintro rfl; exact hne rfl
      dsimp only [List.length_cons, List.length_nil]
      rw [if_neg (by omega), show (0 + 1 + 1 + 1) * j + i = 3 * j + i by ring, (split_index (b := 3) (j := j) hi).1])
  refine ⟨lu, P, t, b, b2, f, g, e, hb, e1, fun p hp => ?_⟩
  rw [hz 1 (by norm_num [List.getD]) (by norm_num [List.getD]) p hp]
  norm_num

end Fdapde.PDE
