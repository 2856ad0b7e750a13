import Verif.Triang.Iter
import Verif.Triang.Model
/-
Model of `Triangulation<3,3>::surface`, fdaPDE/geometry/triangulation.h:445-470.

The matrix `nodes` copies rows of the 3D mesh, so it is represented by the list of the ids of the copied rows (in the
code it has as many columns as nodes per face, three, which is also the dimension of the space).  The matrices are
allocated without initialisation and read entirely by the constructor of the surface mesh: a row that is never written
makes the call undefined.  The column `boundary` copies the markers of the nodes and is not represented.
-/
namespace Fdapde.Triang

/-- `node_map`, the rows of `nodes` and `cells` written so far. -/
structure SSt where
  ids : List Nat
  nmap : Nat → Option Nat
  rows : List (List Nat)

/-- triangulation.h:455-466 : one node of a face; writing past the last row of `nodes` (`nbn` rows) is undefined. -/
def surfNode (nbn : Nat) (acc : SSt × List Nat) (x : Nat) : Res (SSt × List Nat) :=
  match acc.1.nmap x with
  | some q => .ok (acc.1, acc.2 ++ [q])
  | none =>
    if acc.1.ids.length < nbn then
      .ok ({ acc.1 with ids := acc.1.ids ++ [x], nmap := fun y => if y = x then some acc.1.ids.length else acc.1.nmap y },
        acc.2 ++ [acc.1.ids.length])
    else .ub

/-- triangulation.h:452-468 : one face; writing past the last row of `cells` (`nbf` rows) is undefined. -/
def surfFace (nbn nbf : Nat) (facets : List Key) (s : SSt) (h : Nat) : Res SSt :=
  match facets[h]? with
  | none => .ub
  | some f =>
    if s.rows.length < nbf then
      (fun r : SSt × List Nat => { r.1 with rows := r.1.rows ++ [r.2] }) <$> foldRes (surfNode nbn) (s, []) f
    else .ub

/-- triangulation.h:445-470 : ids of the rows of `nodes` and rows of `cells`; `nbn` is `n_boundary_nodes()`. -/
def surface (facets : List Key) (markers : List Bool) (nbn : Nat) : Res (List Nat × List (List Nat)) :=
  match entities3 (fun h => markers.getD h false) facets.length with
  | none => .ub
  | some visited =>
    foldRes (surfFace nbn (markers.count true) facets) ⟨[], fun _ => none, []⟩ visited >>= fun s =>
      if s.rows.length = markers.count true ∧ s.ids.length = nbn then .ok (s.ids, s.rows) else .ub

end Fdapde.Triang
