import Verif.PDE.LemmasQuadCell
set_option linter.unusedSectionVars false
/-
Second order elements on triangles of the plane: what the solver computes at the quadrature nodes.
-/
namespace Fdapde.PDE
open Fdapde.Quadrature MeasureTheory Matrix Fdapde.Geometry Fdapde.FEM

variable {S : Simplex 2 2}

theorem q2_eval (hS : S.Nondeg) (w : Fin 6 → ℝ) (y : Fin 2 → ℝ) : q2 S w (S.toCell y) = ∑ i, w i * MvPolynomial.eval y (quad i) := by
  simp only [q2, bary_toCell hS]
  rw [Fin.sum_univ_six]
  have e0 : MvPolynomial.eval y (quad 0) = _ := congrArg (MvPolynomial.eval y) (show quad 0 = lam 2 0 * (2 * lam 2 0 - 1) from rfl)
  have e1 : MvPolynomial.eval y (quad 1) = _ := congrArg (MvPolynomial.eval y) (show quad 1 = lam 2 1 * (2 * lam 2 1 - 1) from rfl)
  have e2 : MvPolynomial.eval y (quad 2) = _ := congrArg (MvPolynomial.eval y) (show quad 2 = lam 2 2 * (2 * lam 2 2 - 1) from rfl)
  have e3 : MvPolynomial.eval y (quad 3) = _ := congrArg (MvPolynomial.eval y) (show quad 3 = 4 * lam 2 0 * lam 2 1 from rfl)
  have e4 : MvPolynomial.eval y (quad 4) = _ := congrArg (MvPolynomial.eval y) (show quad 4 = 4 * lam 2 0 * lam 2 2 from rfl)
  have e5 : MvPolynomial.eval y (quad 5) = _ := congrArg (MvPolynomial.eval y) (show quad 5 = 4 * lam 2 1 * lam 2 2 from rfl)
  rw [e0, e1, e2, e3, e4, e5]
  simp only [map_mul, map_sub, map_ofNat, map_one, lam_two]
  ring

/-- Derivatives of the reference functions at the point (a, b). -/
def dquad (a b : ℚ) (w i : Nat) : ℚ :=
  match i with
  | 0 => 1 - 4 * (1 - (a + b))
  | 1 => if w = 0 then 4 * a - 1 else 0
  | 2 => if w = 0 then 0 else 4 * b - 1
  | 3 => if w = 0 then 4 * (1 - (a + b) - a) else -(4 * a)
  | 4 => if w = 0 then -(4 * b) else 4 * (1 - (a + b) - b)
  | _ => if w = 0 then 4 * b else 4 * a

theorem second_gra : ∀ k < 6, ∀ w < 2, ∀ i < 6,
    FEM.look (FEM.litGra 2 2) (2 * k + w) i = dquad (FEM.look (FEM.ruleNodes 2 2) k 0) (FEM.look (FEM.ruleNodes 2 2) k 1) w i := by
  decide +kernel

variable {n : Nat} {op : Op ℝ} {cells : Nat → Nat → Nat} {X : Nat → Vec 2} {dofs : (Nat → Nat → Option Nat) × (Nat → Bool) × Nat}

/-- The problem of second order on a mesh. -/
noncomputable abbrev prob2 (op : Op ℝ) (cells : Nat → Nat → Nat) (n : Nat) (X : Nat → Vec 2) (dofs : (Nat → Nat → Option Nat) × (Nat → Bool) × Nat) : Prob ℝ :=
  meshProb 2 2 6 rule2_6 op cells n X dofs

/-- Values of a function at the nodes of a cell. -/
def loc (D : Nat → Nat → Nat) (v : Nat → ℝ) (c : Nat) (i : Fin 6) : ℝ := v (D c i)

theorem value_q2 {c : Nat} (hS : (cellOf 2 cells X c).Nondeg) (v : Nat → ℝ) (k : Nat) :
    feValue 6 ((prob2 op cells n X dofs).dofs c) v (fun i => (prob2 op cells n X dofs).psi i (node ℝ rule2_6 k)) =
      q2 (cellOf 2 cells X c) (loc (prob2 op cells n X dofs).dofs v c) (qpt (cellOf 2 cells X c) k) := by
  rw [qpt, q2_eval hS, feValue, Finset.sum_range]
  refine Finset.sum_congr rfl fun i _ => ?_
  congr 1
  show basisAt 2 2 6 i _ = _
  rw [basisAt, dif_pos i.2, basis2]

theorem grad_g2 {c : Nat} (hS : (cellOf 2 cells X c).Nondeg) (v : Nat → ℝ) {k : Nat} (hk : k < 6) (z : Fin 2) :
    feGrad 6 ((prob2 op cells n X dofs).dofs c) v (fun i => (prob2 op cells n X dofs).grad c i (node ℝ rule2_6 k)) z =
      g2 (cellOf 2 cells X c) (loc (prob2 op cells n X dofs).dofs v c) (qpt (cellOf 2 cells X c) k) z := by
  set S := cellOf 2 cells X c with hSd
  have hr : ∀ i : Fin 6, ∀ w < 2, refGrad ℝ 2 2 6 i (node ℝ rule2_6 k) w =
      ((dquad (FEM.look (FEM.ruleNodes 2 2) k 0) (FEM.look (FEM.ruleNodes 2 2) k 1) w i : ℚ) : ℝ) := by
    intro i w hw
    rw [refGrad_node supported22 (t := rule2_6) rfl k hk w hw, second_gra k hk w hw i i.2]
  have hn : ∀ z : Nat, node ℝ rule2_6 k z = ((FEM.look (FEM.ruleNodes 2 2) k z : ℚ) : ℝ) := fun z => by
    rw [(rule_node (K := ℝ) supported22 (t := rule2_6) rfl).2 k]
  have hg : ∀ i : Fin 6, (prob2 op cells n X dofs).grad c i (node ℝ rule2_6 k) z =
      ((dquad (FEM.look (FEM.ruleNodes 2 2) k 0) (FEM.look (FEM.ruleNodes 2 2) k 1) 0 i : ℚ) : ℝ) * dLam S 1 z +
      ((dquad (FEM.look (FEM.ruleNodes 2 2) k 0) (FEM.look (FEM.ruleNodes 2 2) k 1) 1 i : ℚ) : ℝ) * dLam S 2 z := by
    intro i
    show gradAt 2 2 6 S i _ z = _
    rw [gradAt, dif_pos i.2, Finset.sum_range_succ, Finset.sum_range_one, hr _ 0 (by norm_num), hr _ 1 (by norm_num), invAt, dif_pos ⟨by norm_num, z.2⟩, invAt,
      dif_pos ⟨by norm_num, z.2⟩]
    rfl
  rw [feGrad, Finset.sum_range]
  simp only [hg]
  have hb := fun v => bary_toCell hS (fun z : Fin 2 => node ℝ rule2_6 k z) v
  have b0 : S.bary (qpt S k) 0 = 1 - (node ℝ rule2_6 k 0 + node ℝ rule2_6 k 1) := hb 0
  have b1 : S.bary (qpt S k) 1 = node ℝ rule2_6 k 0 := hb 1
  have b2 : S.bary (qpt S k) 2 = node ℝ rule2_6 k 1 := hb 2
  have hd := dLam_sum3 (S := S) z
  have hd0 : dLam S 0 z = -dLam S 1 z - dLam S 2 z := by linarith
  rw [hn, hn] at b0
  rw [hn] at b1 b2
  rw [g2, b0, b1, b2, hd0, Fin.sum_univ_six]
  generalize FEM.look (FEM.ruleNodes 2 2) k 0 = a
  generalize FEM.look (FEM.ruleNodes 2 2) k 1 = b
  show v _ * _ + v _ * _ + v _ * _ + v _ * _ + v _ * _ + v _ * _ = v _ * _ + v _ * _ + v _ * _ + v _ * _ + v _ * _ + v _ * _
  simp only [dquad, Fin.val_zero, Fin.val_one, Fin.isValue, if_true, if_false, one_ne_zero, show ((2 : Fin 6) : Nat) = 2 from rfl, show ((3 : Fin 6) : Nat) = 3 from rfl,
    show ((4 : Fin 6) : Nat) = 4 from rfl, show ((5 : Fin 6) : Nat) = 5 from rfl]
  push_cast
  ring

end Fdapde.PDE
