import Verif.PDE.RegressionSpec
import Verif.LinAlg.Model
import Mathlib.LinearAlgebra.Matrix.NonsingularInverse
/-
Spatial regression with covariates: the program of a user, on top of the finite element solver, the evaluation of the basis, the block
matrices and the Sherman-Morrison-Woodbury solver of the library, and the criterion it is meant to minimize.
-/
namespace Fdapde.PDE
open Finset FEM
variable {K : Type} [Field K] {q : Nat}

/-- A solver of dense systems with `q` unknowns, as Eigen's: a matrix and a right-hand side. -/
abbrev DenseSolver (K : Type) (q : Nat) := Matrix (Fin q) (Fin q) K → Matrix (Fin q) (Fin 1) K → Matrix (Fin q) (Fin 1) K

/-- It solves every non-singular system. -/
def ExactDense (dense : DenseSolver K q) : Prop := ∀ M B, M.det ≠ 0 → M * dense M B = B

/-- It solves every non-singular system up to a relative residual of `ε` in each equation. -/
def BackwardDense (ε : ℝ) (dense : DenseSolver ℝ q) : Prop :=
  ∀ M B, M.det ≠ 0 → ∀ a, |∑ c, M a c * dense M B c 0 - B a 0| ≤ ε * (∑ c, |M a c| * |dense M B c 0| + |B a 0|)

/-- A factorization applied to each column of a matrix. -/
def byColumns (n : Nat) {k : Nat} (F : (Nat → K) → Nat → K) (B : Matrix (Fin n) (Fin k) K) : Matrix (Fin n) (Fin k) K :=
  Matrix.of fun i a => F (fun p => if h : p < n then B ⟨p, h⟩ a else 0) i

/-- `X' * X`, for `L` rows of `X`. -/
def gram (q L : Nat) (X : Nat → Nat → K) : Matrix (Fin q) (Fin q) K := Matrix.of fun a c => ∑ j ∈ range L, X j a * X j c

/-- The coefficients of the linear regression of `r` on the covariates: `(X' * X).solve(X' * r)`. -/
def regress (L : Nat) (dense : DenseSolver K q) (X : Nat → Nat → K) (r : Nat → K) (a : Fin q) : K :=
  dense (gram q L X) (Matrix.of fun a _ => ∑ j ∈ range L, X j a * r j) a 0

/-- `Psi' * X` above a block of zeros. -/
def crossBlock (m L : Nat) (Psi X : Nat → Nat → K) : Matrix (Fin (m + m)) (Fin q) K :=
  Matrix.of fun p a => if (p : Nat) < m then ∑ j ∈ range L, Psi j p * X j a else 0

/-- A program of a user: as `spatialFit`, with covariates `X` (a row per location, `q` columns).  The system with the matrix
`[[-Psi' Q Psi, lambda R1'], [lambda R1, lambda R0]]`, `Q` the projection on the orthogonal of the covariates, is solved with the formula of
Sherman, Morrison and Woodbury, and the coefficients of the covariates are the regression of what the function leaves. -/
def semiFit (lu : Solver K) (dense : DenseSolver K q) (P : Prob K) (data : Dense K) (junk : Nat → K) (ids : List Int)
    (psi : Nat → Nat → Nat → K) (lam : K) (X : Nat → Nat → K) (y : Nat → K) : Res (Option ((Fin q → K) × (Nat → K) × (Nat → K))) := do
  let s ← P.init data junk
  let l ← pointEval P.n P.nb P.dofs ids psi
  let A ← LinAlg.SB.make 2 2 [
    ⟨s.n, s.n, fun p q => -∑ j ∈ range ids.length, entry l j p * entry l j q⟩, ⟨s.n, s.n, fun p q => lam * s.stiff q p⟩,
    ⟨s.n, s.n, fun p q => lam * s.stiff p q⟩, ⟨s.n, s.n, fun p q => lam * s.mass p q⟩]
  match lu (readAll A) with
  | none => .ok none
  | some F =>
    let c := regress ids.length dense X y
    let Qy := fun j => y j - ∑ a : Fin q, X j a * c a
    let U := crossBlock s.n ids.length (entry l) X
    let b : Matrix (Fin (s.n + s.n)) (Fin 1) K := Matrix.of fun p _ =>
      if (p : Nat) < s.n then -∑ j ∈ range ids.length, entry l j p * Qy j else lam * s.force (p - s.n)
    let x := LinAlg.smwSolve (byColumns (s.n + s.n) F) (byColumns (s.n + s.n) F) dense U (gram q ids.length X) U.transpose b
    let u := fun p => if h : p < s.n + s.n then x ⟨p, h⟩ 0 else 0
    let beta := regress ids.length dense X fun j => y j - ∑ p ∈ range s.n, entry l j p * u p
    .ok (some (beta, u, fun p => u (s.n + p)))

/-- The covariates and the constant function are linearly independent at the locations. -/
def Identified (q m L : Nat) (Psi X : Nat → Nat → ℝ) : Prop :=
  ∀ (c : ℝ) (b : Fin q → ℝ), (∀ j < L, c * ∑ p ∈ range m, Psi j p = ∑ a : Fin q, X j a * b a) → c = 0 ∧ b = 0

/-- Sum of the squared differences between the data and the values of the model: covariates and, where a location has a cell, `F`. -/
noncomputable def semiMisfit {N : Nat} (ids : List Int) (locs : Nat → Fin N → ℝ) (X : Nat → Nat → ℝ) (y : Nat → ℝ) (b : Fin q → ℝ)
    (F : (Fin N → ℝ) → ℝ) : ℝ :=
  ∑ i ∈ range ids.length, (y i - ∑ a : Fin q, X i a * b a - if ids[i]? = some (-1) then 0 else F (locs i)) ^ 2

end Fdapde.PDE
