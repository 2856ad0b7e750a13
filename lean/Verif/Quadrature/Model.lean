import Verif.Quadrature.Tables
import Verif.Common.Loop
import Mathlib.Algebra.Field.Basic
/-
Model of the integrators, utils/integration/integrator.h.  `K` is the field of scalars, `P` the type of points of the
physical space; a cell enters through its number `id`, the affine map `phi` from the reference simplex
(`p ↦ e.J() * p + e.node(0)`) and its measure.  Rounding is not modelled.
-/
namespace Fdapde.Quadrature
variable {K P : Type} [Field K]

/-- iq-th node of a table as a point with coordinates in `K`. -/
def node (K : Type) [Field K] (t : Table) (iq z : Nat) : K := (((t.nodes.getD iq []).getD z 0 : ℚ) : K)

/-- iq-th weight of a table. -/
def weight (K : Type) [Field K] (t : Table) (iq : Nat) : K := ((t.weights.getD iq 0 : ℚ) : K)

/-- Number of nodes of a table (`num_nodes`). -/
def size (t : Table) : Nat := t.nodes.length

/-- integrator.h:45-51 : accumulation over the quadrature nodes of the values `g iq` of the integrand. -/
def accum (t : Table) (g : Nat → K) : K := (List.range (size t)).foldl (fun v iq => v + g iq * weight K t iq) 0

/-- integrator.h:44-60, callable branch : integral of `f` over a cell. -/
def integrateCell (t : Table) (phi : (Nat → K) → P) (measure : K) (f : P → K) : K :=
  accum t (fun iq => f (phi (node K t iq))) * measure

/-- integrator.h:52-56, 58-59 : fallback branch, the field is given by its values at the quadrature nodes of the mesh. -/
def integrateCellVec (t : Table) (id : Nat) (measure : K) (f : Nat → K) : K :=
  accum t (fun iq => f (size t * id + iq)) * measure

/-- integrator.h:62-69 : integral over a mesh with cells `0, ..., n - 1`. -/
def integrateMesh (n : Nat) (cell : Nat → K) : K := (List.range n).foldl (fun v id => v + cell id) 0

/-- integrator.h:73-90, field branch : integral of `f` times a function `Phi` on the reference simplex. -/
def integrateBasis (t : Table) (phi : (Nat → K) → P) (measure : K) (f : P → K) (Phi : (Nat → K) → K) : K :=
  accum t (fun iq => f (phi (node K t iq)) * Phi (node K t iq)) * measure

/-- integrator.h:83-87 : discretised branch. -/
def integrateBasisVec (t : Table) (id : Nat) (measure : K) (f : Nat → K) (Phi : (Nat → K) → K) : K :=
  accum t (fun iq => f (size t * id + iq) * Phi (node K t iq)) * measure

/-- integrator.h:92-106 : integral of a weak form.  `f k p` is the value at `p` of the form after `f.forward(k)`; without
space-varying coefficients the form does not depend on `k`. -/
def integrateWeak (t : Table) (id : Nat) (measure : K) (f : Nat → (Nat → K) → K) : K :=
  accum t (fun iq => f (size t * id + iq) (node K t iq)) * measure

/-- integrator.h:109-121 : quadrature nodes of a mesh with `n` cells; row `num_nodes * id + iq` is written.  Rows outside
of the matrix are undefined behaviour; `none` are the entries not yet written. -/
def quadratureNodes (t : Table) (n : Nat) (phi : Nat → (Nat → K) → P) : Res (List (Option P)) :=
  foldRes (fun (m : List (Option P)) id =>
    foldRes (fun (m : List (Option P)) iq =>
      if size t * id + iq < m.length then .ok (m.set (size t * id + iq) (some (phi id (node K t iq)))) else .ub)
      m (List.range (size t)))
    (List.replicate (n * size t) none) (List.range n)

/-- integrator.h:134-143 : rule on `[-1, 1]` mapped to `[a, b]`, for splines. -/
def integrateInterval (t : Table) (a b : K) (f : K → K) : K :=
  (b - a) / 2 * accum t (fun iq => f ((b - a) / 2 * node K t iq 0 + (b + a) / 2))

end Fdapde.Quadrature
