import Verif.Splines.Lemmas
import Mathlib.Algebra.Polynomial.Coeff
import Mathlib.Algebra.Polynomial.BigOperators
import Mathlib.Algebra.Polynomial.Degree.Lemmas
import Mathlib.Tactic.LinearCombination
/- Marsden's identity for the recursion. -/
namespace Fdapde.Splines
open Polynomial
set_option linter.unusedSectionVars false
variable {K : Type} [Field K] [LinearOrder K] [IsStrictOrderedRing K]

/-- Dual polynomial of the i-th function: product of X - t_{i+1}, ..., X - t_{i+R}. -/
noncomputable def dual (t : Nat → K) (R i : Nat) : K[X] := ∏ j ∈ Finset.range R, (X - C (t (i + 1 + j)))

theorem marsden {t z : Nat → K} (ht : Monotone t) {x : K} {μ : Nat} (h : InSpan t z x μ) (m : Nat) (hm : μ < m) :
    ∀ R, R ≤ μ → ∑ i ∈ Finset.range m, C (cdb t z x R i) * dual t R i = (X - C x) ^ R
  | 0, _ => by
    simp only [dual, Finset.range_zero, Finset.prod_empty, mul_one, pow_zero, cdb]
    rw [Finset.sum_eq_single μ (fun j _ hj => by rw [h.z0 j hj, C_0]) (fun hn => absurd (Finset.mem_range.2 hm) hn), h.z1, C_1]
  | R + 1, hR => by
    have ih := marsden ht h m hm R (by omega)
    simp only [cdb, C_add, add_mul, Finset.sum_add_distrib]
    have shift : ∑ i ∈ Finset.range m, C (ca t (R + 1) (i + 1) * (t (i + 1 + (R + 1)) - x) * cdb t z x R (i + 1)) * dual t (R + 1) i =
        ∑ i ∈ Finset.range m, C (ca t (R + 1) i * (t (i + (R + 1)) - x) * cdb t z x R i) * ∏ j ∈ Finset.range (R + 1), (X - C (t (i + j))) := by
      have e1 := Finset.sum_range_succ (fun i => C (ca t (R + 1) i * (t (i + (R + 1)) - x) * cdb t z x R i) *
        ∏ j ∈ Finset.range (R + 1), (X - C (t (i + j)))) m
      have e2 := Finset.sum_range_succ' (fun i => C (ca t (R + 1) i * (t (i + (R + 1)) - x) * cdb t z x R i) *
        ∏ j ∈ Finset.range (R + 1), (X - C (t (i + j)))) m
      rw [cdb_support h R m (Or.inl hm), mul_zero, C_0, zero_mul, add_zero] at e1
      rw [cdb_support h R 0 (Or.inr (by omega)), mul_zero, C_0, zero_mul, add_zero] at e2
      rw [← e1, e2]
      rfl
    rw [shift, ← Finset.sum_add_distrib, pow_succ, ← ih, Finset.sum_mul]
    apply Finset.sum_congr rfl
    intro i _
    by_cases hs : μ < i ∨ i + R < μ
    · rw [cdb_support h R i hs]; simp
    · push Not at hs
      have h1 := ht hs.1
      have h2 := ht (show μ + 1 ≤ i + (R + 1) by omega)
      have hne : t (i + (R + 1)) - t i ≠ 0 := by have := h.lt; intro e; linarith
      have hc : ca t (R + 1) i * (t (i + (R + 1)) - t i) = 1 := by
        unfold ca; rw [if_pos hne]; field_simp
      have hc' : (C (ca t (R + 1) i) : K[X]) * (C (t (i + (R + 1))) - C (t i)) = 1 := by
        rw [← C_sub, ← C_mul, hc, C_1]
      have d1 : dual t (R + 1) i = dual t R i * (X - C (t (i + (R + 1)))) := by
        unfold dual
        rw [Finset.prod_range_succ, show i + 1 + R = i + (R + 1) by omega]
      have d2 : ∏ j ∈ Finset.range (R + 1), (X - C (t (i + j))) = dual t R i * (X - C (t i)) := by
        unfold dual
        rw [Finset.prod_range_succ']
        congr 1
        refine Finset.prod_congr rfl fun j _ => ?_
        rw [show i + (j + 1) = i + 1 + j by omega]
      rw [d1, d2]
      simp only [C_mul, C_sub]
      linear_combination (C (cdb t z x R i) * dual t R i * (X - C x)) * hc'

/-! ### The recursion gives polynomials -/

theorem cdb_poly (t z : Nat → K) : ∀ R i, ∃ p : K[X], p.natDegree ≤ R ∧ ∀ y, cdb t z y R i = p.eval y
  | 0, i => ⟨C (z i), by simp, fun y => by simp [cdb]⟩
  | R + 1, i => by
    obtain ⟨p, hp, h⟩ := cdb_poly t z R i
    obtain ⟨q, hq, h'⟩ := cdb_poly t z R (i + 1)
    refine ⟨C (ca t (R + 1) i) * (X - C (t i)) * p + C (ca t (R + 1) (i + 1)) * (C (t (i + 1 + (R + 1))) - X) * q, ?_, fun y => ?_⟩
    · refine (natDegree_add_le _ _).trans (max_le ?_ ?_)
      · refine natDegree_mul_le.trans ?_
        have : (C (ca t (R + 1) i) * (X - C (t i))).natDegree ≤ 1 := by
          refine (natDegree_C_mul_le _ _).trans ?_
          rw [natDegree_sub_C]; exact natDegree_X_le
        omega
      · refine natDegree_mul_le.trans ?_
        have : (C (ca t (R + 1) (i + 1)) * (C (t (i + 1 + (R + 1))) - X)).natDegree ≤ 1 := by
          refine (natDegree_C_mul_le _ _).trans ?_
          refine (natDegree_sub_le _ _).trans ?_
          simp
        omega
    · rw [cdb, h, h']; simp

theorem cdbD_poly (t z : Nat → K) : ∀ k R i, ∃ p : K[X], p.natDegree ≤ R - k ∧ ∀ y, cdbD t z y k R i = p.eval y
  | 0, R, i => by simpa only [cdbD, Nat.sub_zero] using cdb_poly t z R i
  | k + 1, 0, i => ⟨0, by simp, fun y => by simp [cdbD]⟩
  | k + 1, R + 1, i => by
    obtain ⟨p, hp, h⟩ := cdbD_poly t z k R i
    obtain ⟨q, hq, h'⟩ := cdbD_poly t z k R (i + 1)
    refine ⟨C (((R + 1 : Nat) : K) * ca t (R + 1) i) * p - C (((R + 1 : Nat) : K) * ca t (R + 1) (i + 1)) * q, ?_, fun y => ?_⟩
    · refine (natDegree_sub_le _ _).trans (max_le ?_ ?_)
      · exact (natDegree_C_mul_le _ _).trans (by omega)
      · exact (natDegree_C_mul_le _ _).trans (by omega)
    · rw [cdbD, h, h']; simp

end Fdapde.Splines
