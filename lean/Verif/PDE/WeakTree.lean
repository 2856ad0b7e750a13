import Verif.Fields.Expr
import Verif.PDE.Assembly
/-
Model of the weak forms as the code writes them: `integrate` turns a differential operator into one field expression over the
buffers of the assembler, which is evaluated for all cells and pairs of functions.  finite_elements/operators/*.h,
pde/differential_expressions.h, utils/integration/integrator.h:92-106 and finite_elements/fem_assembler.h:52-121.
-/
namespace Fdapde.PDE
open Fdapde.Fields (Exp Shape forward eval)
open Fdapde.Quadrature Fdapde.FEM
variable {K : Type} [Field K]

/-- fem_assembler.h:65-72 : the buffers `mem_buffer` points to: psi_i, psi_j, their gradients on the reference element and the
transpose of the inverse of J, `M` the local and `N` the embedding dimension.  The coefficients `f` of line 69 are not used by any
operator and are left out. -/
structure Buf (K : Type) (N M : Nat) where
  psiI : (Nat → K) → K
  psiJ : (Nat → K) → K
  nabI : Fin M → (Nat → K) → K
  nabJ : Fin M → (Nat → K) → K
  invJT : Fin N → Fin M → K

/-- What the nodes of a weak form read when they are called: the buffers and the point. -/
abbrev At (K : Type) (N M : Nat) := Buf K N M × (Nat → K)

/-- A coefficient inside of a weak form: it does not look at the buffers, and it is called with the point the weak form is called
with (`lift` copies the tree, replacing the argument of the leaves). -/
def lift {P Q : Type} (g : Q → P) : {s : Shape} → Exp K P s → Exp K Q s
  | _, .const c => .const c
  | _, .fn f => .fn fun p => f (g p)
  | _, .disc d v => .disc d v
  | _, .bin op a b => .bin op (lift g a) (lift g b)
  | _, .un f a => .un f (lift g a)
  | _, .neg a => .neg (lift g a)
  | _, .dot a b => .dot (lift g a) (lift g b)
  | _, .vconst v => .vconst v
  | _, .vscal c => .vscal c
  | _, .vfield f => .vfield fun j p => f j (g p)
  | _, .vdisc d off => .vdisc d off
  | _, .vbin op a b => .vbin op (lift g a) (lift g b)
  | _, .vneg a => .vneg (lift g a)
  | _, .mulVec a v => .mulVec (lift g a) (lift g v)
  | _, .row a i => .row (lift g a) i
  | _, .col a j => .col (lift g a) j
  | _, .mconst v => .mconst v
  | _, .mscal c => .mscal c
  | _, .mfield f => .mfield fun i j p => f i j (g p)
  | _, .mdisc d off => .mdisc d off
  | _, .mbin op a b => .mbin op (lift g a) (lift g b)
  | _, .mneg a => .mneg (lift g a)

/-- Operators with the coefficients they are constructed with: a constant (`diffC`, `advC`, `reactC`) or any field expression
(`diffF`, `advF`, `reactF`), see the assertions diffusion.h:31-33, advection.h:32-34, reaction.h:30-32.  `add`, `sub`, `smul`, `neg` are the
nodes of differential_expressions.h:95-96, 114-118, 121-135. -/
inductive WOp (K : Type) (N : Nat) : Type
  | dT
  | lap
  | diffC (D : Fin N → Fin N → K)
  | diffF (D : Exp K (Nat → K) (.mat N N))
  | advC (b : Fin N → K)
  | advF (b : Exp K (Nat → K) (.vec N))
  | reactC (c : K)
  | reactF (c : Exp K (Nat → K) .sc)
  | add (a b : WOp K N)
  | sub (a b : WOp K N)
  | smul (x : K) (a : WOp K N)
  | neg (a : WOp K N)

variable {N M : Nat}

/-- `invJ * nabla_psi_i`. -/
def gradI : Exp K (At K N M) (.vec N) := .mulVec (.mfield fun i j p => p.1.invJT i j) (.vfield fun j p => p.1.nabI j p.2)

/-- `invJ * nabla_psi_j`. -/
def gradJ : Exp K (At K N M) (.vec N) := .mulVec (.mfield fun i j p => p.1.invJT i j) (.vfield fun j p => p.1.nabJ j p.2)

/-- The pointer to psi_i. -/
def valI : Exp K (At K N M) .sc := .fn fun p => p.1.psiI p.2

/-- The pointer to psi_j. -/
def valJ : Exp K (At K N M) .sc := .fn fun p => p.1.psiJ p.2

/-- `integrate(mem_buffer)`: dt.h:34-36, laplacian.h:37-44, diffusion.h:48-55, advection.h:49-56, reaction.h:47-53,
differential_expressions.h:66-68, 107-109, 130-132. -/
def WOp.integrate : WOp K N → Exp K (At K N M) .sc
  | .dT => .const 0
  | .lap => .neg (.dot gradI gradJ)
  | .diffC D => .neg (.dot gradI (.mulVec (.mconst D) gradJ))
  | .diffF D => .neg (.dot gradI (.mulVec (lift Prod.snd D) gradJ))
  | .advC b => .bin .mul valI (.dot gradJ (.vconst b))
  | .advF b => .bin .mul valI (.dot gradJ (lift Prod.snd b))
  | .reactC c => .bin .mul (.bin .mul (.const c) valI) valJ
  | .reactF c => .bin .mul (.bin .mul (lift Prod.snd c) valI) valJ
  | .add a b => .bin .add a.integrate b.integrate
  | .sub a b => .bin .sub a.integrate b.integrate
  | .smul x a => .bin .mul (.const x) a.integrate
  | .neg a => .neg a.integrate

/-- The flags `is_space_varying`: dt.h:30, laplacian.h:32, diffusion.h:41, advection.h:42, reaction.h:40,
differential_expressions.h:71, 111, 134. -/
def WOp.varying : WOp K N → Bool
  | .dT => false
  | .lap => false
  | .diffC _ => false
  | .diffF _ => true
  | .advC _ => false
  | .advF _ => true
  | .reactC _ => false
  | .reactF _ => true
  | .add a b => a.varying || b.varying
  | .sub a b => a.varying || b.varying
  | .smul _ a => false || a.varying
  | .neg a => a.varying

/-- The flags `is_symmetric`: the lines after the ones of `varying`. -/
def WOp.symmetric : WOp K N → Bool
  | .dT => true
  | .lap => true
  | .diffC _ => true
  | .diffF _ => true
  | .advC _ => false
  | .advF _ => false
  | .reactC _ => true
  | .reactF _ => true
  | .add a b => a.symmetric && b.symmetric
  | .sub a b => a.symmetric && b.symmetric
  | .smul _ a => true && a.symmetric
  | .neg a => a.symmetric

/-- integrator.h:98-101 : the index is forwarded only to space-varying forms. -/
def fwd (sv : Bool) (r : Nat) {s : Shape} {P : Type} (f : Exp K P s) : Res (Exp K P s) := if sv then forward r f else .ok f

/-- integrator.h:96-103 : one node; the state is the accumulated value and the (mutable) weak form. -/
def quadStep (t : Table) (sv : Bool) (id : Nat) (b : Buf K N M) (s : K × Exp K (At K N M) .sc) (iq : Nat) :
    Res (K × Exp K (At K N M) .sc) :=
  fwd sv (size t * id + iq) s.2 >>= fun f =>
    eval f () (b, node K t iq) >>= fun x => .ok (s.1 + x * weight K t iq, f)

/-- integrator.h:93-106 : `integrate_weak_form`. -/
def integrateTree (t : Table) (sv : Bool) (id : Nat) (measure : K) (b : Buf K N M) (f : Exp K (At K N M) .sc) :
    Res (K × Exp K (At K N M) .sc) :=
  (fun s => (s.1 * measure, s.2)) <$> foldRes (quadStep t sv id b) (0, f) (List.range (size t))

/-- fem_assembler.h:98-102, 105-106 : integration and new triplet.  Dofs outside of the matrix as in `pairStep`. -/
def pushPair (t : Table) (sv : Bool) (N' : Nat) (dofs : Nat → Nat → Nat) (measure : Nat → K) (c i j : Nat) (b : Buf K N M)
    (s : List (Trip K) × Exp K (At K N M) .sc) : Res (List (Trip K) × Exp K (At K N M) .sc) :=
  integrateTree t sv c (measure c) b s.2 >>= fun x =>
    if dofs c i < N' ∧ dofs c j < N' then .ok (s.1 ++ [(dofs c i, dofs c j, x.1)], x.2) else .ub

/-- fem_assembler.h:92-108 : the body for the pair `(i, j)`. -/
def pairTree (t : Table) (sym sv : Bool) (N' : Nat) (dofs : Nat → Nat → Nat) (measure : Nat → K) (buf : Nat → Nat → Nat → Buf K N M)
    (c i : Nat) (s : List (Trip K) × Exp K (At K N M) .sc) (j : Nat) : Res (List (Trip K) × Exp K (At K N M) .sc) :=
  if sym then
    if dofs c i ≥ dofs c j then pushPair t sv N' dofs measure c i j (buf c i j) s else .ok s
  else pushPair t sv N' dofs measure c i j (buf c i j) s

/-- fem_assembler.h:80, 89-93 : content of the buffers for cell `c` and the pair `(i, j)`. -/
def bufAt (psi : Nat → (Nat → K) → K) (nab : Nat → Fin M → (Nat → K) → K) (invJT : Nat → Fin N → Fin M → K) (c i j : Nat) : Buf K N M :=
  ⟨psi i, psi j, nab i, nab j, invJT c⟩

/-- fem_assembler.h:52-121 : `discretize_operator`; the weak form is built once (line 75) and carried through the loops. -/
def assembleTree (t : Table) (op : WOp K N) (n nb N' : Nat) (dofs : Nat → Nat → Nat) (measure : Nat → K)
    (psi : Nat → (Nat → K) → K) (nab : Nat → Fin M → (Nat → K) → K) (invJT : Nat → Fin N → Fin M → K) : Res (Nat → Nat → K) :=
  (fun s p q => if op.symmetric then (if q ≤ p then entry s.1 p q else entry s.1 q p) else entry s.1 p q) <$>
    foldRes (fun s c => foldRes (fun s i =>
        foldRes (pairTree t op.symmetric op.varying N' dofs measure (bufAt psi nab invJT) c i) s (List.range nb)) s (List.range nb))
      ([], op.integrate) (List.range n)

end Fdapde.PDE
