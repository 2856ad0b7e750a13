import Verif.PDE.Init
import Verif.Float.Sum
/-
The assembly of a differential problem in double precision: operators/*.h, utils/integration/integrator.h, fem_assembler.h and fem_solver_base.h with
every operation rounded.  `S` adds up lists in an order that Eigen chooses (dot and matrix products, repeated triplets).  The problem `P` holds the
values computed before the assembly: measures, reference basis and transformed gradients at the quadrature nodes.
-/
namespace Fdapde.PDE
open Fdapde.Quadrature Fdapde.FEM Fdapde.Fp
noncomputable section

/-- Weak forms, as `weak`: dt.h:34-36, laplacian.h:37-44, diffusion.h:48-55, advection.h:49-56, reaction.h:47-53,
differential_expressions.h:66-68, 107-109, 130-132. -/
def weakR (r : Rounding) (S : List ℝ → ℝ) (N : Nat) : Op ℝ → Nat → ℝ → ℝ → (Nat → ℝ) → (Nat → ℝ) → ℝ
  | .dT, _, _, _, _, _ => 0
  | .lap, _, _, _, gi, gj => -S ((List.range N).map fun z => r.rnd (gi z * gj z))
  | .diff D, k, _, _, gi, gj =>
    -S ((List.range N).map fun z => r.rnd (gi z * S ((List.range N).map fun w => r.rnd (D k z w * gj w))))
  | .adv b, k, bi, _, _, gj => r.rnd (bi * S ((List.range N).map fun z => r.rnd (gj z * b k z)))
  | .react c, k, bi, bj, _, _ => r.rnd (r.rnd (c k * bi) * bj)
  | .scalar x, _, _, _, _, _ => x
  | .add a b, k, bi, bj, gi, gj => r.rnd (weakR r S N a k bi bj gi gj + weakR r S N b k bi bj gi gj)
  | .sub a b, k, bi, bj, gi, gj => r.rnd (weakR r S N a k bi bj gi gj - weakR r S N b k bi bj gi gj)
  | .smul x a, k, bi, bj, gi, gj => r.rnd (x * weakR r S N a k bi bj gi gj)
  | .neg a, k, bi, bj, gi, gj => -weakR r S N a k bi bj gi gj

/-- integrator.h:78-88, 96-104 : the loop over the quadrature nodes; the weights of the table are rounded when they are stored. -/
def accumR (r : Rounding) (t : Table) (g : Nat → ℝ) : ℝ :=
  (List.range (size t)).foldl (fun v iq => r.rnd (v + r.rnd (g iq * r.rnd (weight ℝ t iq)))) 0

/-- integrator.h:92-106 : integral of the weak form of the pair `i, j` over cell `c`. -/
def locR (r : Rounding) (S : List ℝ → ℝ) (P : Prob ℝ) (op : Op ℝ) (c i j : Nat) : ℝ :=
  r.rnd (accumR r P.t (fun iq => weakR r S P.N op (size P.t * c + iq) (P.psi i (node ℝ P.t iq)) (P.psi j (node ℝ P.t iq))
    (P.grad c i (node ℝ P.t iq)) (P.grad c j (node ℝ P.t iq))) * P.measure c)

/-- integrator.h:73-90, discretised branch : integral of the forcing times basis function `i` over cell `c`. -/
def frcR (r : Rounding) (P : Prob ℝ) (f : Nat → ℝ) (c i : Nat) : ℝ :=
  r.rnd (accumR r P.t (fun iq => r.rnd (f (size P.t * c + iq) * P.psi i (node ℝ P.t iq))) * P.measure c)

/-- `setFromTriplets` : the triplets of an entry are added up. -/
def entryR (S : List ℝ → ℝ) (l : List (Trip ℝ)) (i j : Nat) : ℝ := S ((l.filter fun p => p.1 = i ∧ p.2.1 = j).map fun p => p.2.2)

/-- fem_assembler.h:52-121 : `discretize_operator`. -/
def discretizeOperatorR (S : List ℝ → ℝ) (sym : Bool) (n nb N : Nat) (dofs : Nat → Nat → Nat) (loc : Nat → Nat → Nat → ℝ) :
    Res (Nat → Nat → ℝ) :=
  (fun l p q => if sym then (if q ≤ p then entryR S l p q else entryR S l q p) else entryR S l p q) <$> opTriplets sym n nb N dofs loc

/-- fem_assembler.h:122-136 : `discretize_forcing`. -/
def discretizeForcingR (r : Rounding) (n nb N : Nat) (dofs : Nat → Nat → Nat) (frc : Nat → Nat → ℝ) : Res (List ℝ) :=
  foldRes (fun v c => foldRes (fun (v : List ℝ) i =>
    if dofs c i < v.length then .ok (v.modify (dofs c i) fun x => r.rnd (x + frc c i)) else .ub) v (List.range nb))
    (List.replicate N 0) (List.range n)

/-- fem_solver_base.h:123 : forcing of the first column of the data. -/
def Prob.forceColR (r : Rounding) (P : Prob ℝ) (data : Dense ℝ) (i : Nat) : Res (List ℝ) :=
  if i < data.cols ∧ P.n * size P.t ≤ data.rows then
    discretizeForcingR r P.n P.nb P.m P.dofs (frcR r P fun k => data.at' k i)
  else .ub

/-- fem_solver_base.h:120-130 : `Prob.force`. -/
def Prob.forceR (r : Rounding) (P : Prob ℝ) (data : Dense ℝ) (junk : Nat → ℝ) : Res (Nat → ℝ) :=
  P.forceColR r data 0 >>= fun v =>
    if hasDT P.op then
      foldRes (fun f i => putBlock P.m i f <$> P.forceColR r data i) (putBlock P.m 0 junk v) (List.range' 1 (data.cols - 1))
    else .ok (putBlock P.m 0 junk v)

/-- fem_solver_base.h:107-139 : `init` for a forcing given by its values. -/
def Prob.initR (r : Rounding) (S : List ℝ → ℝ) (P : Prob ℝ) (data : Dense ℝ) (junk : Nat → ℝ) : Res (Sys ℝ) :=
  discretizeOperatorR S (isSymmetric P.op) P.n P.nb P.m P.dofs (locR r S P P.op) >>= fun A =>
    P.forceR r data junk >>= fun f =>
      discretizeOperatorR S (isSymmetric (.react (fun _ => 1) : Op ℝ)) P.n P.nb P.m P.dofs (locR r S P (.react fun _ => 1)) >>= fun M =>
        .ok ⟨P.m, P.bd, A, M, f, P.m * data.cols, true⟩

end
end Fdapde.PDE
