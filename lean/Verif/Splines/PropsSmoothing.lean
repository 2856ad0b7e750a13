import Verif.Splines.SmoothingSpec
import Verif.Splines.PropsApprox
import Verif.Splines.PropsMass
import Verif.PDE.PropsWellPosed
/- C161: penalized least squares with the matrices of the library. -/
namespace Fdapde.Splines
open Finset PDE
set_option linter.unusedSectionVars false

/-! ### The normal equations -/
section
variable (n m : Nat) (A : Nat → Nat → ℝ) (P : Nat → Nat → ℝ) (lam : ℝ)

/-- Values at the locations. -/
def vals (u : Nat → ℝ) (j : Nat) : ℝ := ∑ i ∈ range n, A j i * u i
/-- The form of the penalty. -/
def pform (u v : Nat → ℝ) : ℝ := ∑ i ∈ range n, ∑ j ∈ range n, v i * P i j * u j

theorem vals_sub (u v : Nat → ℝ) (j : Nat) : vals n A (fun i => u i - v i) j = vals n A u j - vals n A v j := by
  simp only [vals, mul_sub, sum_sub_distrib]

theorem pform_sub_left (u v w : Nat → ℝ) : pform n P (fun i => u i - v i) w = pform n P u w - pform n P v w := by
  simp only [pform, mul_sub, sum_sub_distrib]

theorem pform_sub_right (u v w : Nat → ℝ) : pform n P w (fun i => u i - v i) = pform n P w u - pform n P w v := by
  simp only [pform, sub_mul, sum_sub_distrib]

theorem normal_form (u v : Nat → ℝ) : ∑ p ∈ range n, v p * ∑ q ∈ range n, normalMatrix m A P lam p q * u q =
    ∑ j ∈ range m, vals n A u j * vals n A v j + lam * pform n P u v := by
  have e1 : ∑ j ∈ range m, vals n A u j * vals n A v j = ∑ p ∈ range n, v p * ∑ q ∈ range n, (∑ j ∈ range m, A j p * A j q) * u q := by
    calc ∑ j ∈ range m, vals n A u j * vals n A v j = ∑ j ∈ range m, ∑ p ∈ range n, ∑ q ∈ range n, v p * (A j p * A j q * u q) := by
          refine sum_congr rfl fun j _ => ?_
          rw [mul_comm, vals, vals, sum_mul_sum]
          exact sum_congr rfl fun p _ => sum_congr rfl fun q _ => by ring
      _ = ∑ p ∈ range n, ∑ q ∈ range n, ∑ j ∈ range m, v p * (A j p * A j q * u q) := by
          rw [sum_comm]
          exact sum_congr rfl fun p _ => sum_comm
      _ = _ := by
          refine sum_congr rfl fun p _ => ?_
          rw [mul_sum]
          refine sum_congr rfl fun q _ => ?_
          rw [sum_mul, mul_sum]
  rw [e1, pform, mul_sum, ← sum_add_distrib]
  refine sum_congr rfl fun p _ => ?_
  rw [mul_sum, mul_sum, mul_sum, ← sum_add_distrib]
  exact sum_congr rfl fun q _ => by rw [normalMatrix]; ring

theorem normal_rhs (y v : Nat → ℝ) : ∑ p ∈ range n, v p * normalRhs m A y p = ∑ j ∈ range m, y j * vals n A v j := by
  simp only [normalRhs, vals, mul_sum]
  rw [sum_comm]
  exact sum_congr rfl fun j _ => sum_congr rfl fun p _ => by ring

theorem normal_det (hdef : ∀ u : Nat → ℝ, ∑ j ∈ range m, vals n A u j * vals n A u j + lam * pform n P u u = 0 → ∀ i < n, u i = 0) :
    (Matrix.of fun i j : Fin n => normalMatrix m A P lam i j).det ≠ 0 := by
  intro hd
  obtain ⟨v, hv, hv0⟩ := Matrix.exists_mulVec_eq_zero_iff.2 hd
  set u : Nat → ℝ := fun p => if h : p < n then v ⟨p, h⟩ else 0 with hu
  refine hv (funext fun i => ?_)
  have hui : ∀ i : Fin n, u i = v i := fun i => by rw [hu]; simp
  rw [← hui]
  refine hdef u ?_ i i.2
  rw [← normal_form]
  refine sum_eq_zero fun p hp => mul_eq_zero_of_right _ ?_
  have := congrFun hv0 ⟨p, mem_range.1 hp⟩
  rw [Matrix.mulVec, dotProduct] at this
  rw [sum_range]
  exact (sum_congr rfl fun q _ => by rw [hui]; rfl).trans this

variable {n m A P lam} {y c : Nat → ℝ} (hc : ∀ p < n, ∑ q ∈ range n, normalMatrix m A P lam p q * c q = normalRhs m A y p)
include hc

theorem normal_orth (v : Nat → ℝ) : ∑ j ∈ range m, (y j - vals n A c j) * vals n A v j = lam * pform n P c v := by
  have h := normal_form n m A P lam c v
  rw [sum_congr rfl fun p hp => by rw [hc p (mem_range.1 hp)], normal_rhs] at h
  simp only [sub_mul, sum_sub_distrib]
  linarith

theorem normal_expand (hsym : ∀ u v, pform n P u v = pform n P v u) (c' : Nat → ℝ) :
    ∑ j ∈ range m, (y j - vals n A c' j) ^ 2 + lam * pform n P c' c' = ∑ j ∈ range m, (y j - vals n A c j) ^ 2 + lam * pform n P c c +
      (∑ j ∈ range m, vals n A (fun i => c' i - c i) j * vals n A (fun i => c' i - c i) j +
        lam * pform n P (fun i => c' i - c i) (fun i => c' i - c i)) := by
  have h := normal_orth hc (fun i => c' i - c i)
  have e : ∑ j ∈ range m, (y j - vals n A c' j) ^ 2 = ∑ j ∈ range m, (y j - vals n A c j) ^ 2 -
      2 * ∑ j ∈ range m, (y j - vals n A c j) * vals n A (fun i => c' i - c i) j +
      ∑ j ∈ range m, vals n A (fun i => c' i - c i) j * vals n A (fun i => c' i - c i) j := by
    rw [mul_sum, ← sum_sub_distrib, ← sum_add_distrib]
    exact sum_congr rfl fun j _ => by rw [vals_sub]; ring
  rw [e, h]
  simp only [pform_sub_left, pform_sub_right]
  rw [hsym c' c]
  ring

end

/-! ### The program -/
section
variable {tol : ℝ} {R : Nat} {knots : List ℝ}

theorem fS_sub (k : Nat) (u v : Nat → ℝ) (x : ℝ) : fS tol R knots k (fun i => u i - v i) x = fS tol R knots k u x - fS tol R knots k v x := by
  simp only [fS, sub_mul, sum_sub_distrib]

theorem sum_locs (locs : List ℝ) (f : ℝ → ℝ) : (locs.map f).sum = ∑ j ∈ range locs.length, f (locs.getD j 0) := by
  induction locs with
  | nil => simp
  | cons a l ih =>
      rw [List.map_cons, List.sum_cons, List.length_cons, sum_range_succ', ih, add_comm]
      simp

/-- Data of a smoothing problem: order at least two, increasing knots whose last span is not shorter than the tolerance, a quadrature
rule with positive weights and at least `R - 1` different nodes inside the spans, locations between the first and the last knot, two
of them different. -/
structure SmoothData (tol : ℝ) (R : Nat) (knots qn qw locs : List ℝ) : Prop where
  order : 2 ≤ R
  good : Good tol knots
  inside : ∀ q ∈ qn, -1 < q ∧ q < 1
  distinct : qn.Nodup
  positive : ∀ w ∈ qw, 0 < w
  nodes : R ≤ min qn.length qw.length + 1
  range : ∀ x ∈ locs, knots.getD 0 0 ≤ x ∧ x ≤ knots.getD (knots.length - 1) 0
  two : ∃ x1 ∈ locs, ∃ x2 ∈ locs, x1 ≠ x2

/-- What the program computes, in terms of the functions of the basis. -/
theorem smooth_core {qn qw locs : List ℝ} (h : SmoothData tol R knots qn qw locs) {lu : PDE.Solver ℝ}
    (hlu : ExactLU (knots.length + R - 1) lu) (hlc : CompleteLU (knots.length + R - 1) lu) :
    ∃ (l : List (Nat × Nat × ℝ)) (S : Nat → Nat → ℝ),
      (∀ u : Nat → ℝ, ∀ j < locs.length, vals (knots.length + R - 1) (entry l) u j = fS tol R knots 0 u (locs.getD j 0)) ∧
      (∀ u v : Nat → ℝ, pform (knots.length + R - 1) S u v = quad qn qw knots fun z => fS tol R knots 2 u z * fS tol R knots 2 v z) ∧
      ∀ lam : ℝ, 0 < lam →
      (∀ u : Nat → ℝ, ∑ j ∈ range locs.length, vals (knots.length + R - 1) (entry l) u j * vals (knots.length + R - 1) (entry l) u j +
          lam * pform (knots.length + R - 1) S u u = 0 → ∀ i < knots.length + R - 1, u i = 0) ∧
      ∀ y : Nat → ℝ, ∃ c : List ℝ, c.length = knots.length + R - 1 ∧
        smooth tol R knots qn qw lu locs lam y = .ok (some (tab (knots.length + 2 * R) (padFn R knots), S, c)) ∧
        ∀ p < knots.length + R - 1, ∑ q ∈ range (knots.length + R - 1), normalMatrix locs.length (entry l) S lam p q * c.getD q 0 =
          normalRhs locs.length (entry l) y p := by
  obtain ⟨hR, g, hn, hnd, hw, hm, hx, x1, m1, x2, m2, hne⟩ := h
  have two := g.two
  obtain ⟨s, s', h1, h2, h3, hb, h4⟩ := solver_forms tol R knots g qn qw hn (.neg .bilap)
  obtain ⟨t, ht, l, el, hE⟩ := C85_evaluation_matrix tol R knots (by omega) locs (List.ne_nil_of_mem m1)
  rw [pad_eq R knots (by omega)] at ht
  obtain rfl := Res.ok.inj ht
  have hs := size_padded R knots two
  have hV : ∀ u : Nat → ℝ, ∀ j < locs.length, vals (knots.length + R - 1) (entry l) u j = fS tol R knots 0 u (locs.getD j 0) := by
    intro u j hj
    refine sum_congr rfl fun i hi => ?_
    have hi := mem_range.1 hi
    have e := (hE j i).1 (locs.getD j 0) (by rw [List.getD_eq_getElem?_getD, List.getElem?_eq_getElem hj]; rfl) (by omega)
    rw [basis_value (by omega) hi] at e
    rw [← Res.ok.inj e, mul_comm]
    rfl
  have hP : ∀ u v : Nat → ℝ, pform (knots.length + R - 1) s'.stiff u v = quad qn qw knots fun z => fS tol R knots 2 u z * fS tol R knots 2 v z := by
    intro u v
    have := (h4 u v).1
    rw [h3] at this
    rw [pform, this]
    simp only [sform, neg_neg]
  refine ⟨l, s'.stiff, hV, hP, fun lam hl => ?_⟩
  have hdef : ∀ u : Nat → ℝ, ∑ j ∈ range locs.length, vals (knots.length + R - 1) (entry l) u j * vals (knots.length + R - 1) (entry l) u j +
      lam * pform (knots.length + R - 1) s'.stiff u u = 0 → ∀ i < knots.length + R - 1, u i = 0 := by
    intro u hu i hi
    by_contra h0
    obtain ⟨r, r', e1, e2, h⟩ := C129_smoothing_partial tol R hR knots g qn qw hn hnd hw hm lam hl locs x1 x2 m1 m2 hne (by
      simp only [List.mem_cons, List.not_mem_nil, or_false]
      rintro x (rfl | rfl)
      exacts [hx _ m1, hx _ m2])
    rw [h1] at e1
    obtain rfl := Res.ok.inj e1
    rw [h2] at e2
    obtain rfl := Res.ok.inj e2
    set c : List ℝ := (List.range (knots.length + R - 1)).map u with hcd
    have hg : ∀ i < knots.length + R - 1, c.getD i 0 = u i := fun i hi => getD_map_range _ _ _ hi
    have hcl : c.length = knots.length + R - 1 := by simp [hcd]
    obtain ⟨V, hVx, hpos⟩ := h c (by rw [h3, hcl]) ⟨u i, List.mem_map.2 ⟨i, List.mem_range.2 hi, rfl⟩, h0⟩
    have hV' : ∀ x, V x = fS tol R knots 0 u x := by
      intro x
      have := hVx x
      rw [hb, expansion_values g hcl] at this
      rw [← Res.ok.inj this]
      exact sum_congr rfl fun i hi => by rw [hg i (mem_range.1 hi)]; rfl
    have e3 : (locs.map fun x => V x ^ 2).sum = ∑ j ∈ range locs.length, vals (knots.length + R - 1) (entry l) u j * vals (knots.length + R - 1) (entry l) u j := by
      rw [sum_locs]
      exact sum_congr rfl fun j hj => by rw [hV u j (mem_range.1 hj), hV']; ring
    rw [e3, h3] at hpos
    have e4 : ∑ i ∈ range (knots.length + R - 1), ∑ j ∈ range (knots.length + R - 1), c.getD i 0 * s'.stiff i j * c.getD j 0 =
        pform (knots.length + R - 1) s'.stiff u u :=
      sum_congr rfl fun i hi => sum_congr rfl fun j hj => by rw [hg i (mem_range.1 hi), hg j (mem_range.1 hj)]
    rw [e4, hu] at hpos
    exact lt_irrefl _ hpos
  refine ⟨hdef, fun y => ?_⟩
  obtain ⟨f, hf⟩ := Option.isSome_iff_exists.1 (hlc _ (normal_det _ _ _ _ _ hdef))
  refine ⟨(List.range (s'.nDofs R)).map (f (normalRhs locs.length (entry l) y)), ?_, ?_, fun p hp => ?_⟩
  · rw [List.length_map, List.length_range, h3]
  · rw [smooth, h1, Res.ok_bind, h2, Res.ok_bind, hb, el, Res.ok_bind, hf]
  · rw [← hlu _ f hf (normalRhs locs.length (entry l) y) p hp, h3]
    exact sum_congr rfl fun q hq => by rw [getD_map_range _ _ _ (mem_range.1 hq)]

theorem locs_mem {qn qw locs : List ℝ} (h : SmoothData tol R knots qn qw locs) {j : Nat} (hj : j < locs.length) :
    knots.getD 0 0 ≤ locs.getD j 0 ∧ locs.getD j 0 ≤ knots.getD (knots.length - 1) 0 := by
  refine h.range _ ?_
  rw [List.getD_eq_getElem?_getD, List.getElem?_eq_getElem hj, Option.getD_some]
  exact List.getElem_mem _

theorem pform_symm {n : Nat} {S : Nat → Nat → ℝ} {qn qw : List ℝ}
    (h : ∀ u v : Nat → ℝ, pform n S u v = quad qn qw knots fun z => fS tol R knots 2 u z * fS tol R knots 2 v z) (u v : Nat → ℝ) :
    pform n S u v = pform n S v u := by
  rw [h, h]
  simp only [mul_comm]

theorem pform_nonneg {n : Nat} {S : Nat → Nat → ℝ} {qn qw locs : List ℝ} (hd : SmoothData tol R knots qn qw locs)
    (h : ∀ u v : Nat → ℝ, pform n S u v = quad qn qw knots fun z => fS tol R knots 2 u z * fS tol R knots 2 v z) (u : Nat → ℝ) :
    0 ≤ pform n S u u := by
  rw [h]
  exact (quad_square_nonneg hd.good.incr hd.positive _).1

theorem rough_eq {n : Nat} {S : Nat → Nat → ℝ} {c : List ℝ} (hc : c.length = n) :
    rough S c = pform n S (fun i => c.getD i 0) fun i => c.getD i 0 := by
  rw [rough, hc, pform]

theorem misfit_eq {n : Nat} {l : List (Nat × Nat × ℝ)} {locs : List ℝ}
    (hV : ∀ u : Nat → ℝ, ∀ j < locs.length, vals n (entry l) u j = fS tol R knots 0 u (locs.getD j 0)) (y u : Nat → ℝ) :
    misfit locs y (fS tol R knots 0 u) = ∑ j ∈ Finset.range locs.length, (y j - vals n (entry l) u j) ^ 2 :=
  sum_congr rfl fun j hj => by rw [hV u j (mem_range.1 hj)]

/-- Coefficients of an affine function. -/
theorem affine_coeffs (hR : 2 ≤ R) (g : Good tol knots) (α β : ℝ) : ∃ c : List ℝ, c.length = knots.length + R - 1 ∧
    ∀ x, knots.getD 0 0 ≤ x → x ≤ knots.getD (knots.length - 1) 0 → fS tol R knots 0 (fun i => c.getD i 0) x = α + β * x := by
  have two := g.two
  obtain ⟨t, ht, c, hc, h⟩ := C127_reproduces_partial tol R knots g (Polynomial.C α + Polynomial.C β * Polynomial.X)
    ((Polynomial.natDegree_add_le _ _).trans (max_le (by simp) ((Polynomial.natDegree_C_mul_le _ _).trans (Polynomial.natDegree_X_le.trans (by omega)))))
  rw [pad_eq R knots (by omega)] at ht
  obtain rfl := Res.ok.inj ht
  rw [size_padded R knots two] at hc
  refine ⟨c, hc, fun x h0 h1 => ?_⟩
  have := h x h0 h1
  rw [expansion_values g hc] at this
  have e := Res.ok.inj this
  simp only [Polynomial.eval_add, Polynomial.eval_mul, Polynomial.eval_C, Polynomial.eval_X] at e
  exact e

theorem affine_penalty {n : Nat} {S : Nat → Nat → ℝ} {qn qw locs : List ℝ} (hd : SmoothData tol R knots qn qw locs)
    (h : ∀ u v : Nat → ℝ, pform n S u v = quad qn qw knots fun z => fS tol R knots 2 u z * fS tol R knots 2 v z) {α β : ℝ} {v : Nat → ℝ}
    (hv : ∀ x, knots.getD 0 0 ≤ x → x ≤ knots.getD (knots.length - 1) 0 → fS tol R knots 0 v x = α + β * x) (u : Nat → ℝ) :
    pform n S u v = 0 := by
  rw [h, quad]
  refine sum_eq_zero fun j hj => ?_
  have hj : j + 1 < knots.length := by have := mem_range.1 hj; have := hd.good.two; omega
  rw [span1]
  refine mul_eq_zero_of_right _ (sum_eq_zero fun k hk => mul_eq_zero_of_right _ (mul_eq_zero_of_right _ ?_))
  have hm := node_mem hd.good.incr hd.inside hj (k := k) (by have := mem_range.1 hk; omega)
  exact affine_second hd.order hd.good v hv hj hm.1 hm.2

theorem fit_le {n : Nat} {S : Nat → Nat → ℝ} {qn qw locs : List ℝ} (hd : SmoothData tol R knots qn qw locs) {l : List (Nat × Nat × ℝ)}
    (hV : ∀ u : Nat → ℝ, ∀ j < locs.length, vals n (entry l) u j = fS tol R knots 0 u (locs.getD j 0))
    (hP : ∀ u v : Nat → ℝ, pform n S u v = quad qn qw knots fun z => fS tol R knots 2 u z * fS tol R knots 2 v z) {lam : ℝ} (hl : 0 ≤ lam)
    {y c : Nat → ℝ} (hN : ∀ p < n, ∑ q ∈ Finset.range n, normalMatrix locs.length (entry l) S lam p q * c q = normalRhs locs.length (entry l) y p)
    (c' : Nat → ℝ) :
    misfit locs y (fS tol R knots 0 c) + lam * pform n S c c ≤ misfit locs y (fS tol R knots 0 c') + lam * pform n S c' c' := by
  rw [misfit_eq hV, misfit_eq hV, normal_expand hN (pform_symm hP) c']
  exact le_add_of_nonneg_right (add_nonneg (sum_nonneg fun j _ => mul_self_nonneg _) (mul_nonneg hl (pform_nonneg hd hP _)))

variable {qn qw locs : List ℝ} (h : SmoothData tol R knots qn qw locs) {lu : PDE.Solver ℝ}
  (hlu : ExactLU (knots.length + R - 1) lu) (hlc : CompleteLU (knots.length + R - 1) lu)
include h hlu hlc

/-- **C161** (partial: exact factorization, real arithmetic, last span not shorter than the tolerance).  The program succeeds, and of all
splines the one it returns, and no other, has the least sum of squared differences from the data plus `lambda` times the penalty. -/
theorem C161_fit_partial (lam : ℝ) (hl : 0 < lam) (y : Nat → ℝ) :
    ∃ t S c, smooth tol R knots qn qw lu locs lam y = .ok (some (t, S, c)) ∧ c.length = size R t ∧
      ∃ V : ℝ → ℝ, (∀ x, expansion tol R t c x = .ok (V x)) ∧ ∀ c' : List ℝ, c'.length = size R t →
        ∃ V' : ℝ → ℝ, (∀ x, expansion tol R t c' x = .ok (V' x)) ∧
          misfit locs y V + lam * rough S c ≤ misfit locs y V' + lam * rough S c' ∧
          (c' ≠ c → misfit locs y V + lam * rough S c < misfit locs y V' + lam * rough S c') := by
  obtain ⟨l, S, hV, hP, hs⟩ := smooth_core h hlu hlc
  obtain ⟨hdef, hs⟩ := hs lam hl
  obtain ⟨c, hc, e, hN⟩ := hs y
  have hsz := size_padded R knots h.good.two
  refine ⟨_, _, _, e, by rw [hc, hsz], _, fun x => expansion_values h.good hc x, fun c' hc' => ?_⟩
  rw [hsz] at hc'
  refine ⟨_, fun x => expansion_values h.good hc' x, ?_⟩
  change misfit locs y (fS tol R knots 0 fun i => c.getD i 0) + _ ≤ misfit locs y (fS tol R knots 0 fun i => c'.getD i 0) + _ ∧
    (_ → misfit locs y (fS tol R knots 0 fun i => c.getD i 0) + _ < misfit locs y (fS tol R knots 0 fun i => c'.getD i 0) + _)
  rw [misfit_eq hV, misfit_eq hV, rough_eq hc, rough_eq hc', normal_expand hN (pform_symm hP) fun i => c'.getD i 0]
  set w : Nat → ℝ := fun i => c'.getD i 0 - c.getD i 0 with hw
  have h0 : 0 ≤ ∑ j ∈ Finset.range locs.length, vals (knots.length + R - 1) (entry l) w j * vals (knots.length + R - 1) (entry l) w j +
      lam * pform (knots.length + R - 1) S w w :=
    add_nonneg (sum_nonneg fun j _ => mul_self_nonneg _) (mul_nonneg hl.le (pform_nonneg h hP w))
  refine ⟨by linarith, fun hne => ?_⟩
  refine lt_add_of_pos_right _ (lt_of_le_of_ne h0 fun hz => hne ?_)
  have hw0 := hdef w hz.symm
  refine List.ext_getElem (by rw [hc, hc']) fun i hi hi' => ?_
  have := hw0 i (by omega)
  rw [hw] at this
  simp only [List.getD_eq_getElem?_getD, List.getElem?_eq_getElem hi, List.getElem?_eq_getElem hi', Option.getD_some] at this
  linarith

/-- **C161**: data on a straight line are fitted by that line, whatever the smoothing parameter. -/
theorem C161_lines_partial (lam : ℝ) (hl : 0 < lam) (y : Nat → ℝ) (α β : ℝ) (hy : ∀ j < locs.length, y j = α + β * locs.getD j 0) :
    ∃ t S c, smooth tol R knots qn qw lu locs lam y = .ok (some (t, S, c)) ∧
      ∀ x, knots.getD 0 0 ≤ x → x ≤ knots.getD (knots.length - 1) 0 → expansion tol R t c x = .ok (α + β * x) := by
  obtain ⟨l, S, hV, hP, hs⟩ := smooth_core h hlu hlc
  obtain ⟨hdef, hs⟩ := hs lam hl
  obtain ⟨c, hc, e, hN⟩ := hs y
  obtain ⟨c', hc', hx⟩ := affine_coeffs h.order h.good α β
  refine ⟨_, _, _, e, fun x h0 h1 => ?_⟩
  rw [expansion_values h.good hc]
  change Res.ok (fS tol R knots 0 (fun i => c.getD i 0) x) = _
  rw [← hx x h0 h1]
  congr 1
  have hz := normal_expand hN (pform_symm hP) fun i => c'.getD i 0
  rw [affine_penalty h hP hx, mul_zero, add_zero, sum_eq_zero fun j hj => by
    rw [hV _ j (mem_range.1 hj), hx _ (locs_mem h (mem_range.1 hj)).1 (locs_mem h (mem_range.1 hj)).2, hy j (mem_range.1 hj), sub_self,
      zero_pow two_ne_zero]] at hz
  have n1 : 0 ≤ ∑ j ∈ Finset.range locs.length, (y j - vals (knots.length + R - 1) (entry l) (fun i => c.getD i 0) j) ^ 2 :=
    sum_nonneg fun j _ => sq_nonneg _
  have n2 : 0 ≤ lam * pform (knots.length + R - 1) S (fun i => c.getD i 0) fun i => c.getD i 0 := mul_nonneg hl.le (pform_nonneg h hP _)
  have n3 : ∀ w : Nat → ℝ, 0 ≤ ∑ j ∈ Finset.range locs.length, vals (knots.length + R - 1) (entry l) w j * vals (knots.length + R - 1) (entry l) w j +
      lam * pform (knots.length + R - 1) S w w := fun w =>
    add_nonneg (sum_nonneg fun j _ => mul_self_nonneg _) (mul_nonneg hl.le (pform_nonneg h hP w))
  have hw0 := hdef _ (le_antisymm (by linarith) (n3 fun i => c'.getD i 0 - c.getD i 0))
  refine sum_congr rfl fun i hi => ?_
  have := hw0 i (mem_range.1 hi)
  dsimp only
  rw [sub_eq_zero.1 this]

/-- **C161**: the differences between data and fitted values have sum zero, and are orthogonal to the locations. -/
theorem C161_residuals_partial (lam : ℝ) (hl : 0 < lam) (y : Nat → ℝ) :
    ∃ t S c, smooth tol R knots qn qw lu locs lam y = .ok (some (t, S, c)) ∧ ∃ V : ℝ → ℝ, (∀ x, expansion tol R t c x = .ok (V x)) ∧
      ∑ j ∈ Finset.range locs.length, (y j - V (locs.getD j 0)) = 0 ∧
      ∑ j ∈ Finset.range locs.length, locs.getD j 0 * (y j - V (locs.getD j 0)) = 0 := by
  obtain ⟨l, S, hV, hP, hs⟩ := smooth_core h hlu hlc
  obtain ⟨hdef, hs⟩ := hs lam hl
  obtain ⟨c, hc, e, hN⟩ := hs y
  have key : ∀ α β : ℝ, ∑ j ∈ Finset.range locs.length, (y j - fS tol R knots 0 (fun i => c.getD i 0) (locs.getD j 0)) * (α + β * locs.getD j 0) = 0 := by
    intro α β
    obtain ⟨c', hc', hx⟩ := affine_coeffs h.order h.good α β
    have := normal_orth hN fun i => c'.getD i 0
    rw [affine_penalty h hP hx, mul_zero] at this
    refine Eq.trans (sum_congr rfl fun j hj => ?_) this
    rw [hV (fun i => c.getD i 0) j (mem_range.1 hj), hV (fun i => c'.getD i 0) j (mem_range.1 hj), hx _ (locs_mem h (mem_range.1 hj)).1 (locs_mem h (mem_range.1 hj)).2]
  refine ⟨_, _, _, e, _, fun x => expansion_values h.good hc x, ?_, ?_⟩
  · exact Eq.trans (sum_congr rfl fun j _ => by rw [zero_mul, add_zero, mul_one]; rfl) (key 1 0)
  · exact Eq.trans (sum_congr rfl fun j _ => by rw [zero_add, one_mul, mul_comm]; rfl) (key 0 1)

/-- **C161**: a larger smoothing parameter gives a spline which is not rougher, and not closer to the data. -/
theorem C161_monotone_partial (lam lam' : ℝ) (hl : 0 < lam) (hll : lam < lam') (y : Nat → ℝ) :
    ∃ t S c c', smooth tol R knots qn qw lu locs lam y = .ok (some (t, S, c)) ∧ smooth tol R knots qn qw lu locs lam' y = .ok (some (t, S, c')) ∧
      rough S c' ≤ rough S c ∧ ∃ V V' : ℝ → ℝ, (∀ x, expansion tol R t c x = .ok (V x)) ∧ (∀ x, expansion tol R t c' x = .ok (V' x)) ∧
        misfit locs y V ≤ misfit locs y V' := by
  obtain ⟨l, S, hV, hP, hs⟩ := smooth_core h hlu hlc
  obtain ⟨c, hc, e, hN⟩ := (hs lam hl).2 y
  obtain ⟨c', hc', e', hN'⟩ := (hs lam' (hl.trans hll)).2 y
  have i1 := fit_le h hV hP hl.le hN fun i => c'.getD i 0
  have i2 := fit_le h hV hP (hl.trans hll).le hN' fun i => c.getD i 0
  rw [← rough_eq hc, ← rough_eq hc'] at i1 i2
  have hr : rough S c' ≤ rough S c := by
    have : (lam' - lam) * (rough S c' - rough S c) ≤ 0 := by linarith
    by_contra hh
    push Not at hh
    have := mul_pos (sub_pos.2 hll) (sub_pos.2 hh)
    linarith
  refine ⟨_, _, _, _, e, e', hr, _, _, fun x => expansion_values h.good hc x, fun x => expansion_values h.good hc' x, ?_⟩
  change misfit locs y (fS tol R knots 0 fun i => c.getD i 0) ≤ misfit locs y (fS tol R knots 0 fun i => c'.getD i 0)
  nlinarith

/-- **C161**: the fitted values do not change more than the data: the sum of the squared changes at the locations is not larger. -/
theorem C161_stable_partial (lam : ℝ) (hl : 0 < lam) (y y' : Nat → ℝ) :
    ∃ t S c c', smooth tol R knots qn qw lu locs lam y = .ok (some (t, S, c)) ∧ smooth tol R knots qn qw lu locs lam y' = .ok (some (t, S, c')) ∧
      ∃ V V' : ℝ → ℝ, (∀ x, expansion tol R t c x = .ok (V x)) ∧ (∀ x, expansion tol R t c' x = .ok (V' x)) ∧
        ∑ j ∈ Finset.range locs.length, (V (locs.getD j 0) - V' (locs.getD j 0)) ^ 2 ≤ ∑ j ∈ Finset.range locs.length, (y j - y' j) ^ 2 := by
  obtain ⟨l, S, hV, hP, hs⟩ := smooth_core h hlu hlc
  obtain ⟨c, hc, e, hN⟩ := (hs lam hl).2 y
  obtain ⟨c', hc', e', hN'⟩ := (hs lam hl).2 y'
  refine ⟨_, _, _, _, e, e', _, _, fun x => expansion_values h.good hc x, fun x => expansion_values h.good hc' x, ?_⟩
  set w : Nat → ℝ := fun i => c.getD i 0 - c'.getD i 0 with hw
  have h1 := normal_orth hN w
  have h2 := normal_orth hN' w
  have h3 : lam * pform (knots.length + R - 1) S w w = lam * pform (knots.length + R - 1) S (fun i => c.getD i 0) w -
      lam * pform (knots.length + R - 1) S (fun i => c'.getD i 0) w := by
    rw [← mul_sub, ← pform_sub_left]
  have h4 : 0 ≤ lam * pform (knots.length + R - 1) S w w := mul_nonneg hl.le (pform_nonneg h hP w)
  have h5 : ∑ j ∈ Finset.range locs.length, (y j - y' j - vals (knots.length + R - 1) (entry l) w j) * vals (knots.length + R - 1) (entry l) w j =
      lam * pform (knots.length + R - 1) S w w := by
    rw [h3, ← h1, ← h2, ← sum_sub_distrib]
    refine sum_congr rfl fun j _ => ?_
    rw [show vals (knots.length + R - 1) (entry l) w j = vals (knots.length + R - 1) (entry l) (fun i => c.getD i 0) j -
      vals (knots.length + R - 1) (entry l) (fun i => c'.getD i 0) j from vals_sub _ _ _ _ _]
    ring
  have h6 : ∑ j ∈ Finset.range locs.length, (fS tol R knots 0 (fun i => c.getD i 0) (locs.getD j 0) -
      fS tol R knots 0 (fun i => c'.getD i 0) (locs.getD j 0)) ^ 2 = ∑ j ∈ Finset.range locs.length, vals (knots.length + R - 1) (entry l) w j ^ 2 :=
    sum_congr rfl fun j hj => by rw [hV w j (mem_range.1 hj), hw, fS_sub]
  refine h6.trans_le ?_
  have h7 : ∑ j ∈ Finset.range locs.length, (y j - y' j) ^ 2 = ∑ j ∈ Finset.range locs.length, vals (knots.length + R - 1) (entry l) w j ^ 2 +
      ∑ j ∈ Finset.range locs.length, (y j - y' j - vals (knots.length + R - 1) (entry l) w j) ^ 2 +
      2 * ∑ j ∈ Finset.range locs.length, (y j - y' j - vals (knots.length + R - 1) (entry l) w j) * vals (knots.length + R - 1) (entry l) w j := by
    rw [mul_sum, ← sum_add_distrib, ← sum_add_distrib]
    exact sum_congr rfl fun j _ => by ring
  have h8 : 0 ≤ ∑ j ∈ Finset.range locs.length, (y j - y' j - vals (knots.length + R - 1) (entry l) w j) ^ 2 := sum_nonneg fun _ _ => sq_nonneg _
  linarith

/-- **C161**: accuracy.  When the data are the values of a function with `R + 1` continuous derivatives, the squared errors at the
locations plus `lambda` times the penalty are at most the number of locations times the squared error `E` of approximation of the basis
(C158) plus `lambda` times the length of the interval times the squared bound of the second derivatives. -/
theorem C161_accuracy_partial (hW : ∑ k ∈ Finset.range (min qn.length qw.length), qw.getD k 0 ≤ 2) (lam : ℝ) (hl : 0 < lam) (d hmax M M2 E : ℝ)
    (hd : 0 < d) (hk : ∀ j, j + 1 < knots.length → d ≤ knots.getD (j + 1) 0 - knots.getD j 0 ∧ knots.getD (j + 1) 0 - knots.getD j 0 ≤ hmax)
    (f : ℝ → ℝ) (hf : ContDiff ℝ (R + 1 : ℕ) f)
    (hM : ∀ x ∈ Set.Icc (knots.getD 0 0) (knots.getD (knots.length - 1) 0), |iteratedDeriv (R + 1) f x| ≤ M)
    (hM2 : ∀ x ∈ Set.Icc (knots.getD 0 0) (knots.getD (knots.length - 1) 0), |iteratedDeriv 2 f x| ≤ M2)
    (hE : E = M * ((R + 2) * hmax) ^ (R + 1) / (R + 1).factorial) :
    ∃ t S c, smooth tol R knots qn qw lu locs lam (fun j => f (locs.getD j 0)) = .ok (some (t, S, c)) ∧
      ∃ V : ℝ → ℝ, (∀ x, expansion tol R t c x = .ok (V x)) ∧
        ∑ j ∈ Finset.range locs.length, (f (locs.getD j 0) - V (locs.getD j 0)) ^ 2 + lam * rough S c ≤
          locs.length * E ^ 2 + lam * ((knots.getD (knots.length - 1) 0 - knots.getD 0 0) * (M2 + (2 * R / d) ^ 2 * E) ^ 2) := by
  obtain ⟨l, S, hV, hP, hs⟩ := smooth_core h hlu hlc
  obtain ⟨c, hc, e, hN⟩ := (hs lam hl).2 fun j => f (locs.getD j 0)
  have g := h.good
  have two := g.two
  obtain ⟨t, ht, c', hc', a1, a2⟩ := C158_order_partial tol R knots g hmax M (fun j hj => (hk j hj).2) f hf hM
  rw [pad_eq R knots (by omega)] at ht
  obtain rfl := Res.ok.inj ht
  rw [size_padded R knots two] at hc' a2
  rw [← hE] at a1 a2
  have hle := fit_le h hV hP hl.le hN fun i => c'.getD i 0
  rw [← rough_eq hc] at hle
  refine ⟨_, _, _, e, _, fun x => expansion_values g hc x, le_trans hle ?_⟩
  have hE0 : 0 ≤ E := by
    obtain ⟨_, _, hb⟩ := a1 (knots.getD 0 0) ⟨le_rfl, getD_le g.incr (Nat.zero_le _) (by omega)⟩
    exact (abs_nonneg _).trans hb
  have hM0 : 0 ≤ M2 := (abs_nonneg _).trans (hM2 (knots.getD 0 0) ⟨le_rfl, getD_le g.incr (Nat.zero_le _) (by omega)⟩)
  refine add_le_add ?_ (mul_le_mul_of_nonneg_left ?_ hl.le)
  · refine (sum_le_card_nsmul (Finset.range locs.length) _ (E ^ 2) fun j hj => ?_).trans_eq (by rw [card_range, nsmul_eq_mul])
    obtain ⟨v, hv, hb⟩ := a1 (locs.getD j 0) (locs_mem h (mem_range.1 hj))
    rw [expansion_values g hc'] at hv
    rw [← Res.ok.inj hv] at hb
    rw [← sq_abs, abs_sub_comm]
    exact pow_le_pow_left₀ (abs_nonneg _) hb 2
  · rw [hP, quad]
    set B : ℝ := M2 + (2 * R / d) ^ 2 * E with hB
    have hB0 : 0 ≤ B := by positivity
    have hspan : ∀ j ∈ Finset.range (knots.length - 1), span1 qn qw (knots.getD j 0) (knots.getD (j + 1) 0) (fun z =>
        fS tol R knots 2 (fun i => c'.getD i 0) z * fS tol R knots 2 (fun i => c'.getD i 0) z) ≤ (knots.getD (j + 1) 0 - knots.getD j 0) * B ^ 2 := by
      intro j hj
      have hj : j + 1 < knots.length := by have := mem_range.1 hj; omega
      have hlt := getD_lt g.incr (show j < j + 1 by omega) hj
      have hin : ∑ k ∈ Finset.range (min qn.length qw.length), qw.getD k 0 * (fS tol R knots 2 (fun i => c'.getD i 0) (node qn knots j k) *
          fS tol R knots 2 (fun i => c'.getD i 0) (node qn knots j k)) ≤ 2 * B ^ 2 := by
        calc _ ≤ ∑ k ∈ Finset.range (min qn.length qw.length), qw.getD k 0 * B ^ 2 := by
              refine sum_le_sum fun k hk' => ?_
              have hk' := mem_range.1 hk'
              have hwk : 0 ≤ qw.getD k 0 := by
                rw [List.getD_eq_getElem?_getD, List.getElem?_eq_getElem (by omega), Option.getD_some]
                exact (h.positive _ (List.getElem_mem _)).le
              refine mul_le_mul_of_nonneg_left ?_ hwk
              have hm := node_mem g.incr h.inside hj (k := k) (by omega)
              obtain ⟨v, hv, hb⟩ := a2 2 h.order j hj _ hm.1.le hm.2
              have hv' : ∑ i ∈ Finset.range (knots.length + R - 1), c'.getD i 0 * v i = fS tol R knots 2 (fun i => c'.getD i 0) (node qn knots j k) := by
                refine sum_congr rfl fun i hi => ?_
                have hi := mem_range.1 hi
                have := hv i hi
                rw [derive_eq tol R _ _ _ 2 R i (by omega)] at this
                rw [← Res.ok.inj this]
                rfl
              rw [hv'] at hb
              have h2 := hM2 (node qn knots j k) ⟨(getD_le g.incr (Nat.zero_le j) (by omega)).trans hm.1.le,
                hm.2.le.trans (getD_le g.incr (by omega) (by omega))⟩
              have h3 : (2 * R / (knots.getD (j + 1) 0 - knots.getD j 0)) ^ 2 * E ≤ (2 * R / d) ^ 2 * E := by
                refine mul_le_mul_of_nonneg_right (pow_le_pow_left₀ (by positivity) ?_ 2) hE0
                exact div_le_div_of_nonneg_left (by positivity) hd (hk j hj).1
              have h4 : |fS tol R knots 2 (fun i => c'.getD i 0) (node qn knots j k)| ≤ B := by
                have := abs_sub_abs_le_abs_sub (fS tol R knots 2 (fun i => c'.getD i 0) (node qn knots j k)) (iteratedDeriv 2 f (node qn knots j k))
                rw [hB]
                linarith
              rw [← pow_two, ← sq_abs]
              exact pow_le_pow_left₀ (abs_nonneg _) h4 2
          _ = (∑ k ∈ Finset.range (min qn.length qw.length), qw.getD k 0) * B ^ 2 := by rw [sum_mul]
          _ ≤ _ := mul_le_mul_of_nonneg_right hW (sq_nonneg _)
      calc _ ≤ (knots.getD (j + 1) 0 - knots.getD j 0) / 2 * (2 * B ^ 2) := mul_le_mul_of_nonneg_left hin (by linarith)
        _ = _ := by ring
    refine (sum_le_sum hspan).trans_eq ?_
    rw [← sum_mul, Finset.sum_range_sub (fun j => knots.getD j 0)]

end

/-! ### The hypotheses are met -/

theorem library_weights : ∑ k ∈ Finset.range (min (splineNodes ℝ).length (splineWeights ℝ).length), (splineWeights ℝ).getD k 0 ≤ 2 := by
  rw [library_rule.2.2.2, splineWeights_eq]
  norm_num [Finset.sum_range_succ, List.getD]

/-- Cubic splines on the knots 0, 1, 3 with the rule of the library, and three locations. -/
theorem demo_smooth : SmoothData (1 / 10) 3 [0, 1, 3] (splineNodes ℝ) (splineWeights ℝ) [1 / 2, 2, 3] where
  order := by norm_num
  good := ⟨by simp, by simp [List.pairwise_cons], by norm_num, by norm_num [List.getD]⟩
  inside := library_rule.1
  distinct := library_rule.2.1
  positive := library_rule.2.2.1
  nodes := by rw [library_rule.2.2.2]; omega
  range := by
    simp only [List.mem_cons, List.not_mem_nil, or_false]
    rintro x (rfl | rfl | rfl) <;> norm_num [List.getD]
  two := ⟨1 / 2, by simp, 2, by simp, by norm_num⟩

example : ∃ lu : PDE.Solver ℝ, ∃ t S c, smooth (1 / 10) 3 [0, 1, 3] (splineNodes ℝ) (splineWeights ℝ) lu [1 / 2, 2, 3] 7
    (fun j => [4, 7, 9].getD j 0) = .ok (some (t, S, c)) ∧ expansion (1 / 10) 3 t c 1 = .ok 5 := by
  obtain ⟨lu, h1, h2⟩ := exists_exactLU (K := ℝ) ([(0 : ℝ), 1, 3].length + 3 - 1)
  obtain ⟨t, S, c, e, h⟩ := C161_lines_partial demo_smooth h1 h2 7 (by norm_num) (fun j => [4, 7, 9].getD j 0) 3 2 (by
    intro j hj
    have hj : j < 3 := hj
    rcases (by omega : j = 0 ∨ j = 1 ∨ j = 2) with rfl | rfl | rfl <;> norm_num [List.getD])
  refine ⟨lu, t, S, c, e, ?_⟩
  rw [h 1 (by norm_num [List.getD]) (by norm_num [List.getD])]
  norm_num

/-- The hypotheses of `C161_accuracy_partial`, for the square function. -/
example (lu : PDE.Solver ℝ) (h1 : ExactLU 5 lu) (h2 : CompleteLU 5 lu) := C161_accuracy_partial demo_smooth h1 h2 library_weights 7 (by norm_num) 1 2 0 2 0
  (by norm_num) (by
    intro j hj
    have hj : j + 1 < 3 := hj
    rcases (by omega : j = 0 ∨ j = 1) with rfl | rfl <;> norm_num [List.getD]) (fun x => x ^ 2) (by fun_prop)
  (by intro x _; simp [iteratedDeriv_succ, iteratedDeriv_zero]) (by intro x _; simp [iteratedDeriv_succ, iteratedDeriv_zero]) (by norm_num)

end Fdapde.Splines
