import Mathlib.Algebra.BigOperators.Group.Finset.Basic
import Mathlib.Algebra.Field.Basic
/-
Model of differential operators: pde/differential_expressions.h and finite_elements/operators/*.h.  Coefficients are
functions of the index forwarded by the integrator (constant functions for constant coefficients); `N` is the embedding
dimension.  The weak form is evaluated at one quadrature node: `bi`, `bj` are the values of psi_i, psi_j there and
`gi`, `gj` the products of the transposed inverse of J with their gradients.
-/
namespace Fdapde.PDE
variable {K : Type} [Field K]

/-- Expression trees of differential operators.  `add`, `sub` are `DifferentialBinOp` nodes with `std::plus`, `std::minus`
(differential_expressions.h:95-96), `smul` is the one with `std::multiplies` and a scalar on the left (114-118), `scalar` a
`DifferentialScalar` (99-112), `neg` a `DifferentialNegateOp` (121-135). -/
inductive Op (K : Type) : Type
  | dT
  | lap
  | diff (D : Nat → Nat → Nat → K)
  | adv (b : Nat → Nat → K)
  | react (c : Nat → K)
  | scalar (x : K)
  | add (a b : Op K)
  | sub (a b : Op K)
  | smul (x : K) (a : Op K)
  | neg (a : Op K)

/-- Weak forms: dt.h:34-36, laplacian.h:37-44, diffusion.h:48-55, advection.h:49-56, reaction.h:47-53,
differential_expressions.h:66-68, 107-109, 130-132. -/
def weak (N : Nat) : Op K → Nat → K → K → (Nat → K) → (Nat → K) → K
  | .dT, _, _, _, _, _ => 0
  | .lap, _, _, _, gi, gj => -∑ z ∈ Finset.range N, gi z * gj z
  | .diff D, r, _, _, gi, gj => -∑ z ∈ Finset.range N, gi z * ∑ k ∈ Finset.range N, D r z k * gj k
  | .adv b, r, bi, _, _, gj => bi * ∑ z ∈ Finset.range N, gj z * b r z
  | .react c, r, bi, bj, _, _ => c r * bi * bj
  | .scalar x, _, _, _, _, _ => x
  | .add a b, r, bi, bj, gi, gj => weak N a r bi bj gi gj + weak N b r bi bj gi gj
  | .sub a b, r, bi, bj, gi, gj => weak N a r bi bj gi gj - weak N b r bi bj gi gj
  | .smul x a, r, bi, bj, gi, gj => x * weak N a r bi bj gi gj
  | .neg a, r, bi, bj, gi, gj => -weak N a r bi bj gi gj

/-- The `is_symmetric` flags: dt.h:31, laplacian.h:33, diffusion.h:42, advection.h:43, reaction.h:41,
differential_expressions.h:72, 111, 134. -/
def isSymmetric : Op K → Bool
  | .dT => true
  | .lap => true
  | .diff _ => true
  | .adv _ => false
  | .react _ => true
  | .scalar _ => true
  | .add a b => isSymmetric a && isSymmetric b
  | .sub a b => isSymmetric a && isSymmetric b
  | .smul _ a => true && isSymmetric a
  | .neg a => isSymmetric a

/-- `has_instance_of<dT, decltype(get_operator_type())>` : traits.h:57-66, differential_expressions.h:45, 69, 110, 133.
Also `is_parabolic`, differential_operators.h:44-47. -/
def hasDT : Op K → Bool
  | .dT => true
  | .add a b => hasDT a || hasDT b
  | .sub a b => hasDT a || hasDT b
  | .smul _ a => hasDT a
  | .neg a => hasDT a
  | _ => false

/-- `is_instance_of<OP, dT>`. -/
def isDT : Op K → Bool
  | .dT => true
  | _ => false

/-- `is_instance_of<OP, DifferentialBinOp>`. -/
def isBin : Op K → Bool
  | .add _ _ => true
  | .sub _ _ => true
  | .smul _ _ => true
  | _ => false

/-- differential_expressions.h:76-93 : `remove_operator<dT>()`; `none` if the call does not compile: only binary nodes have
the method, and `std::multiplies` cannot be applied to a `DifferentialScalar` and an operator. -/
def removeDT : Op K → Option (Op K)
  | .add a b =>
    if !hasDT (.add a b) then some (.add a b)
    else if isDT a then some b
    else if isDT b then some a
    else if isBin a && !isBin b then (removeDT a).map fun a' => .add a' b
    else if !isBin a && isBin b then (removeDT b).map fun b' => .add a b'
    else (removeDT a).bind fun a' => (removeDT b).map fun b' => .add a' b'
  | .sub a b =>
    if !hasDT (.sub a b) then some (.sub a b)
    else if isDT a then some b
    else if isDT b then some a
    else if isBin a && !isBin b then (removeDT a).map fun a' => .sub a' b
    else if !isBin a && isBin b then (removeDT b).map fun b' => .sub a b'
    else (removeDT a).bind fun a' => (removeDT b).map fun b' => .sub a' b'
  | .smul x a =>
    if !hasDT (.smul x a) then some (.smul x a)
    else if isDT a then some (.scalar x)
    else none
  | _ => none

end Fdapde.PDE
