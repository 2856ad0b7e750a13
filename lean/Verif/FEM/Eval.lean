import Verif.Common.Loop
import Mathlib.Algebra.Field.Basic
/-
Model of the evaluation of finite element bases, finite_elements/basis/lagrangian_basis.h:186-283.  The mesh enters through
the table of dofs `dofs c h` (lagrangian_basis.h:94-136), the cell containing each location (`ids`, -1 for a point outside)
and the values `psi c h i` of the h-th function of cell c at the i-th location (`psi_h(e.invJ() * (p_i - e.node(0)))`).
-/
namespace Fdapde.FEM
variable {K : Type} [Field K]

abbrev Trip (K : Type) := Nat × Nat × K

/-- `setFromTriplets` : repeated entries add up. -/
def entry (l : List (Trip K)) (i j : Nat) : K := ((l.filter fun p => p.1 = i ∧ p.2.1 = j).map fun p => p.2.2).sum

/-- lagrangian_basis.h:215-228 : triplets of the pointwise evaluation matrix; `nb` basis functions per cell, `nc` cells. -/
def pointRow (nc nb : Nat) (dofs : Nat → Nat → Nat) (ids : List Int) (psi : Nat → Nat → Nat → K) (acc : List (Trip K)) (i : Nat) :
    Res (List (Trip K)) :=
  match ids[i]? with
  | none => .ub
  | some id =>
    if id ≠ -1 then
      if 0 ≤ id ∧ id.toNat < nc then
        .ok ((List.range nb).foldl (fun acc h => acc ++ [(i, dofs id.toNat h, psi id.toNat h i)]) acc)
      else .ub
    else .ok acc

/-- lagrangian_basis.h:203-235 : `pointwise_evaluation`; throws if there are no locations. -/
def pointEval (nc nb : Nat) (dofs : Nat → Nat → Nat) (ids : List Int) (psi : Nat → Nat → Nat → K) : Res (List (Trip K)) :=
  if ids.length = 0 then .throws else foldRes (pointRow nc nb dofs ids psi) [] (List.range ids.length)

/-- lagrangian_basis.h:186-200 : basis expansion at the i-th location.  `nodes c` are the node ids of cell c (as many as
vertices); the code uses them in place of the dofs.  `c` has one coefficient per dof. -/
def expandAt (nc nb : Nat) (nodes : Nat → List Nat) (ids : List Int) (psi : Nat → Nat → Nat → K) (c : List K) (i : Nat) : Res K :=
  match ids[i]? with
  | none => .ub
  | some id =>
    if 0 ≤ id ∧ id.toNat < nc then
      foldRes (fun v h =>
        match (nodes id.toNat)[h]? with
        | none => .ub
        | some d => match c[d]? with
          | none => .ub
          | some x => .ok (v + x * psi id.toNat h i)) 0 (List.range nb)
    else .ub

/-- lagrangian_basis.h:186-200 : `operator()(c, locs)`; throws on a coefficient vector of the wrong size. -/
def expand (nc nb size : Nat) (nodes : Nat → List Nat) (ids : List Int) (psi : Nat → Nat → Nat → K) (c : List K) : Res (List K) :=
  if c.length = size then
    foldRes (fun acc i => (fun v => acc ++ [v]) <$> expandAt nc nb nodes ids psi c i) [] (List.range ids.length)
  else .throws

/-- lagrangian_basis.h:256-273 : scan of the cells for subdomain `k`: triplets added, number of them, measure.
`inc k l` is `locs(k, l) == 1`, `int l h` the integral of the h-th function of cell `l`, `meas l` the measure. -/
def arealScan (nc nb : Nat) (dofs : Nat → Nat → Nat) (inc : Nat → Nat → Bool) (int : Nat → Nat → K) (meas : Nat → K) (k : Nat)
    (acc : List (Trip K)) : List (Trip K) × Nat × K :=
  (List.range nc).foldl (fun s l =>
    if inc k l then
      let t := (List.range nb).foldl (fun (t : List (Trip K) × Nat) h => (t.1 ++ [(k, dofs l h, int l h)], t.2 + 1)) (s.1, s.2.1)
      (t.1, t.2, s.2.2 + meas l)
    else s) (acc, 0, 0)

/-- lagrangian_basis.h:253-278 : state `(triplets, D, tail)`. -/
def arealStep (nc nb : Nat) (dofs : Nat → Nat → Nat) (inc : Nat → Nat → Bool) (int : Nat → Nat → K) (meas : Nat → K)
    (s : List (Trip K) × List K × Nat) (k : Nat) : List (Trip K) × List K × Nat :=
  let (l, head, d) := arealScan nc nb dofs inc int meas k s.1
  let l := (List.range head).foldl (fun l j => l.modify (s.2.2 + j) fun t => (t.1, t.2.1, t.2.2 / d)) l
  (l, s.2.1 ++ [d], s.2.2 + head)

/-- lagrangian_basis.h:237-283 : `areal_evaluation` with `ns` subdomains. -/
def arealEval (ns nc nb : Nat) (dofs : Nat → Nat → Nat) (inc : Nat → Nat → Bool) (int : Nat → Nat → K) (meas : Nat → K) :
    List (Trip K) × List K × Nat :=
  (List.range ns).foldl (arealStep nc nb dofs inc int meas) ([], [], 0)

end Fdapde.FEM
