import Verif.FEM.SpaceSpec
import Mathlib.Topology.Connected.Basic
import Mathlib.Topology.Algebra.Module.FiniteDimension
/-
Meshes: every node in a cell, cells proper, different, meeting in common faces, connected domain, and markers of the boundary.
-/
namespace Fdapde.PDE
open Fdapde.FEM
variable {N : Nat}

/-- A mesh of `n` cells with `nn` nodes each, among `nNodes` nodes with coordinates `X`. -/
structure GoodMesh (nn n nNodes : Nat) (cells : Nat → Nat → Nat) (X : Nat → Fin N → ℝ) : Prop where
  nodes : ∀ c < n, ∀ v < nn, cells c v < nNodes
  used : ∀ p < nNodes, ∃ c < n, ∃ v < nn, cells c v = p
  proper : Proper nn n cells X
  conforming : Conforming nn n cells X
  /-- No two cells have the same nodes. -/
  distinct : ∀ c < n, ∀ c' < n, (∀ v < nn, ∃ w < nn, cells c' w = cells c v) → c = c'
  connected : IsPreconnected (domain nn n cells X)

/-- The nodes of a facet that is in one cell only are marked. -/
def MarksBoundary (nn n : Nat) (cells : Nat → Nat → Nat) (bNodes : Nat → Bool) : Prop :=
  ∀ c < n, ∀ i < nn, (∀ c' < n, (∀ w < nn, w ≠ i → ∃ v < nn, cells c' v = cells c w) → c' = c) →
    ∀ w < nn, w ≠ i → bNodes (cells c w) = true

/-- The pairs of local and embedding dimension of the library. -/
def Dims (d N : Nat) : Prop := (d, N) ∈ [(1, 1), (2, 2), (3, 3), (1, 2), (2, 3)]

/-- Point of cell `c` with reference coordinates `x`. -/
noncomputable def meshPoint (cells : Nat → Nat → Nat) (X : Nat → Fin N → ℝ) (c : Nat) (x : Fin N → ℝ) : Fin N → ℝ :=
  X (cells c 0) + ∑ w : Fin N, x w • (X (cells c (w + 1)) - X (cells c 0))

end Fdapde.PDE
