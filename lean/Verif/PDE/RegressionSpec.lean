import Verif.PDE.InitSpec
import Verif.FEM.SpaceSpec
import Verif.FEM.Space
import Verif.FEM.Eval
import Verif.LinAlg.BlockModel
/-
Spatial regression with the penalty of a differential problem: the program of a user, on top of the finite element solver, the evaluation
of the basis at locations and the block matrices of the library, and the criterion it is meant to minimize.
-/
namespace Fdapde.PDE
open Finset FEM
variable {K : Type} [Field K]

/-- The coefficients of a 2 x 2 block matrix, as a factorization reads them. -/
def readAll (A : LinAlg.SB K) (p q : Nat) : K :=
  match A.read 2 p q with
  | .ok v => v
  | _ => 0

/-- A program of a user: the problem is initialised, the basis is evaluated at the locations (cells `ids`, values `psi`), the matrix
`[[-Psi' Psi, lambda R1'], [lambda R1, lambda R0]]` is made of its blocks (`R1` the stiffness matrix, `R0` the mass matrix) and the system
with right-hand side `[-Psi' y, lambda u]` (`u` the discretized forcing) is solved.  Returns the two halves of the solution, if the
factorization succeeds. -/
def spatialFit (lu : Solver K) (P : Prob K) (data : Dense K) (junk : Nat → K) (ids : List Int) (psi : Nat → Nat → Nat → K) (lam : K)
    (y : Nat → K) : Res (Option ((Nat → K) × (Nat → K))) := do
  let s ← P.init data junk
  let l ← pointEval P.n P.nb P.dofs ids psi
  let A ← LinAlg.SB.make 2 2 [
    ⟨s.n, s.n, fun p q => -∑ j ∈ range ids.length, entry l j p * entry l j q⟩, ⟨s.n, s.n, fun p q => lam * s.stiff q p⟩,
    ⟨s.n, s.n, fun p q => lam * s.stiff p q⟩, ⟨s.n, s.n, fun p q => lam * s.mass p q⟩]
  match lu (readAll A) with
  | none => .ok none
  | some F =>
    let x := F fun p => if p < s.n then -∑ j ∈ range ids.length, entry l j p * y j else lam * s.force (p - s.n)
    .ok (some (x, fun p => x (s.n + p)))

/-- `g` is the function by which `f` fails to solve the problem: (g, v) = (u, v) - a(f, v) for every function `v`. -/
def Prob.Gap (P : Prob K) (data : Dense K) (f g : Nat → K) : Prop :=
  ∀ v, P.l2 g v = P.load (fun c k => data.at' (Quadrature.size P.t * c + k) 0) v - P.bilin f v

variable {N : Nat}

/-- `F` is a polynomial of degree at most one on each cell, with values `u` at the nodes. -/
def IsP1 (nn n nNodes : Nat) (cells : Nat → Nat → Nat) (X : Nat → Fin N → ℝ) (u : Nat → ℝ) (F : (Fin N → ℝ) → ℝ) : Prop :=
  (∀ c < n, ∃ q : MvPolynomial (Fin N) ℝ, q.totalDegree ≤ 1 ∧ ∀ p ∈ region nn cells X c, F p = MvPolynomial.eval p q) ∧
    ∀ p < nNodes, F (X p) = u p

/-- Sum of the squared differences between the data and the values of `F`, over the locations that have a cell. -/
noncomputable def misfitAt (ids : List Int) (locs : Nat → Fin N → ℝ) (y : Nat → ℝ) (F : (Fin N → ℝ) → ℝ) : ℝ :=
  ∑ i ∈ range ids.length with ids[i]? ≠ some (-1), (y i - F (locs i)) ^ 2

/-- Each location has a cell that contains it, or none (`-1`), and one at least has a cell. -/
structure Located (nn n : Nat) (cells : Nat → Nat → Nat) (X : Nat → Fin N → ℝ) (ids : List Int) (locs : Nat → Fin N → ℝ) : Prop where
  cell : ∀ (i : Nat) (id : Int), ids[i]? = some id → id = -1 ∨ ∃ c < n, id = (c : Int) ∧ locs i ∈ region nn cells X c
  one : ∃ (i : Nat) (id : Int), ids[i]? = some id ∧ id ≠ -1

end Fdapde.PDE
