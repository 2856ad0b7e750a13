import Mathlib.LinearAlgebra.Matrix.Determinant.Basic
import Mathlib.Data.Nat.Factorial.Basic
import Verif.PDE.WellPosedSpec
/-
First-order elements on a mesh given by its nodes, conformity of the mesh, and the exact solutions of the patch test.
-/
namespace Fdapde.PDE
open Fdapde.Quadrature Matrix
variable {K : Type} [Field K] [LinearOrder K]

/-- First-order elements on the mesh with nodes `X`: dof `p` is the node with coordinates `X p`, the Jacobian of a cell has
the edges from its first node in the columns, and the measure is the volume of the simplex. -/
structure Prob.OnNodes (P : Prob K) (X : Nat → Nat → K) (I : Nat → Nat → Nat → K) : Prop where
  lagrange : P.Lagrange P.N 1 I fun c z w => X (P.dofs c (w + 1)) z - X (P.dofs c 0) z
  measure : ∀ c < P.n, P.measure c =
    |(of fun z w : Fin P.N => X (P.dofs c (w + 1)) z - X (P.dofs c 0) z).det| / (P.N.factorial : K)

/-- Nodes of the facet opposite to local node `i`. -/
def Prob.facet (P : Prob K) (c i : Nat) : Finset Nat := ((Finset.range P.nb).erase i).image (P.dofs c)

/-- A facet with a node off the boundary belongs to exactly two cells, on opposite sides of it: every affine function
`a·x + b` that is zero on the facet has values of opposite sign at the two opposite nodes. -/
def Prob.Conforming (P : Prob K) (X : Nat → Nat → K) : Prop :=
  ∀ c < P.n, ∀ i < P.nb, (∃ p ∈ P.facet c i, P.bd p = false) →
    ∃ c' < P.n, ∃ i' < P.nb, c' ≠ c ∧ P.facet c' i' = P.facet c i ∧
      (∀ d < P.n, ∀ j < P.nb, P.facet d j = P.facet c i → d = c ∨ d = c') ∧
      ∀ (a : Nat → K) (b : K), (∀ p ∈ P.facet c i, dot P.N a (X p) + b = 0) →
        (dot P.N a (X (P.dofs c i)) + b) * (dot P.N a (X (P.dofs c' i')) + b) ≤ 0

/-- Point of cell `c` with reference coordinates `x`. -/
def cellPoint (N : Nat) (X : Nat → Nat → K) (d : Nat → Nat) (x : Nat → K) (z : Nat) : K :=
  X (d 0) z + ∑ w ∈ Finset.range N, (X (d (w + 1)) z - X (d 0) z) * x w

end Fdapde.PDE
