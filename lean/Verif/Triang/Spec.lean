import Mathlib.Order.Defs.LinearOrder
/- Specification of facets, incidence and neighbourhood in a table of cells. -/
namespace Fdapde.Triang

/-- `x` is a vertex of cell `c`. -/
def Vertex (cells : Nat → Nat → Nat) (nn c x : Nat) : Prop := ∃ w < nn, cells c w = x

/-- `k` lists in increasing order the vertices of cell `c` other than its `v`-th. -/
def IsFacet (cells : Nat → Nat → Nat) (nn c v : Nat) (k : List Nat) : Prop :=
  k.Pairwise (· < ·) ∧ ∀ x, x ∈ k ↔ ∃ w < nn, w ≠ v ∧ cells c w = x

/-- All nodes of `k` are vertices of cell `c`. -/
def Contains (cells : Nat → Nat → Nat) (nn c : Nat) (k : List Nat) : Prop := ∀ x ∈ k, Vertex cells nn c x

/-- The facet of `c` opposite to its `v`-th vertex is also in cell `d`. -/
def Shares (cells : Nat → Nat → Nat) (nn c v d : Nat) : Prop :=
  ∀ w < nn, w ≠ v → Vertex cells nn d (cells c w)

/-- A mesh: cells have distinct vertices and every facet is in at most two cells. -/
structure Manifold (cells : Nat → Nat → Nat) (nn n : Nat) : Prop where
  distinct : ∀ c < n, ∀ v < nn, ∀ w < nn, cells c v = cells c w → v = w
  two : ∀ c < n, ∀ v < nn, ∀ d < n, ∀ d' < n, d ≠ c → d' ≠ c →
    Shares cells nn c v d → Shares cells nn c v d' → d = d'

end Fdapde.Triang
