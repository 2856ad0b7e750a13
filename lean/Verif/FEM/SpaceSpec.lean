import Mathlib.Analysis.Convex.Combination
import Mathlib.LinearAlgebra.AffineSpace.Independent
import Mathlib.Analysis.Real.Sqrt
/-
Meshes as subsets of the space.
-/
namespace Fdapde.FEM
variable {N : Nat}

/-- Region of cell `c`: the convex hull of its `nn` nodes. -/
def region (nn : Nat) (cells : Nat → Nat → Nat) (X : Nat → Fin N → ℝ) (c : Nat) : Set (Fin N → ℝ) :=
  convexHull ℝ {x | ∃ v < nn, x = X (cells c v)}

/-- The domain: the union of the cells. -/
def domain (nn n : Nat) (cells : Nat → Nat → Nat) (X : Nat → Fin N → ℝ) : Set (Fin N → ℝ) := ⋃ c ∈ {c | c < n}, region nn cells X c

/-- Two cells meet in the convex hull of the nodes they have in common (nothing, a vertex, an edge, a face or all). -/
def Conforming (nn n : Nat) (cells : Nat → Nat → Nat) (X : Nat → Fin N → ℝ) : Prop :=
  ∀ c < n, ∀ c' < n, region nn cells X c ∩ region nn cells X c' ⊆
    convexHull ℝ {x | ∃ v < nn, ∃ w < nn, cells c v = cells c' w ∧ x = X (cells c v)}

/-- The cells are proper simplices: their nodes are affinely independent. -/
def Proper (nn n : Nat) (cells : Nat → Nat → Nat) (X : Nat → Fin N → ℝ) : Prop :=
  ∀ c < n, AffineIndependent ℝ fun v : Fin nn => X (cells c v)

end Fdapde.FEM
