import Verif.BinMtx.AliasModel
import Verif.BinMtx.Spec
/-
Specification of programs with named binary matrices: an assignment replaces a matrix with the value its right-hand side has before the
assignment.
-/
namespace Fdapde.BinMtx

/-- The matrices named in an expression. -/
def Src.Mentions (x : Nat) : Src → Prop
  | .var y => y = x
  | .not e => e.Mentions x
  | .bin _ a b => a.Mentions x ∨ b.Mentions x
  | .block e _ _ _ _ => e.Mentions x
  | .rep e _ _ => e.Mentions x
  | .resh e _ _ => e.Mentions x

/-- Expressions without blocks and repetitions: `~`, `&`, `|`, `^`, `reshaped` and `vector_view` of matrices. -/
def Src.Plain : Src → Prop
  | .var _ => True
  | .not e => e.Plain
  | .bin _ a b => a.Plain ∧ b.Plain
  | .block _ _ _ _ _ => False
  | .rep _ _ _ => False
  | .resh e _ _ => e.Plain

/-- Statements which do not read what they are overwriting, or do it through plain expressions only. -/
def Stmt.Safe : Stmt → Prop
  | .set _ _ _ => True
  | .clear _ _ _ => True
  | .assign x e => e.Plain ∨ ¬ e.Mentions x
  | .block x _ _ _ _ e => ¬ e.Mentions x

/-- Meaning of a statement: the right-hand side is evaluated before anything is written. -/
def Stmt.ref (env : Env) : Stmt → Res Env
  | .set x i j => (fun m => env.upd x m) <$> (env x).set i j
  | .clear x i j => (fun m => env.upd x m) <$> (env x).clear i j
  | .assign x e => (e.xpr env).build >>= fun v => (fun m => env.upd x m) <$> BMat.ofXpr v
  | .block x r0 c0 h w e =>
    if r0 + h ≤ (env x).rows ∧ c0 + w ≤ (env x).cols then
      (e.xpr env).build >>= fun v => (fun m => env.upd x m) <$> BMat.assignBlock (env x) r0 c0 h w v
    else .throws

/-- Boolean matrices: shape and coefficients. -/
structure Tab where
  rows : Nat
  cols : Nat
  at' : Nat → Nat → Bool

/-- Shape and coefficients of an expression of Boolean matrices; no value if the shapes do not fit. -/
def Src.val (t : Nat → Tab) : Src → Option Tab
  | .var x => some (t x)
  | .not e => (e.val t).map fun a => ⟨a.rows, a.cols, fun i j => !a.at' i j⟩
  | .bin op a b => (a.val t).bind fun u => (b.val t).bind fun v =>
    if u.rows = v.rows ∧ u.cols = v.cols then
      some ⟨u.rows, u.cols, fun i j => match op with
        | .and => u.at' i j && v.at' i j
        | .or => u.at' i j || v.at' i j
        | .xor => u.at' i j != v.at' i j⟩
    else none
  | .block e r0 c0 h w => (e.val t).bind fun a =>
    if r0 + h ≤ a.rows ∧ c0 + w ≤ a.cols then some ⟨h, w, fun i j => a.at' (r0 + i) (c0 + j)⟩ else none
  | .rep e m n => (e.val t).map fun a => ⟨a.rows * m, a.cols * n, fun i j => a.at' (i % a.rows) (j % a.cols)⟩
  | .resh e r c => (e.val t).bind fun a =>
    if r * c = a.rows * a.cols then some ⟨r, c, fun i j => a.at' ((i * c + j) / a.cols) ((i * c + j) % a.cols)⟩ else none

/-- All blocks of an expression can be copied (`blockAligned`). -/
def Src.Aligned : Src → Prop
  | .var _ => True
  | .not e => e.Aligned
  | .bin _ a b => a.Aligned ∧ b.Aligned
  | .block e _ _ h w => e.Aligned ∧ blockAligned h w
  | .rep e _ _ => e.Aligned
  | .resh e _ _ => e.Aligned

/-- Replace a Boolean matrix. -/
def updTab (t : Nat → Tab) (x : Nat) (a : Tab) : Nat → Tab := fun y => if y = x then a else t y

/-- Meaning of a statement on Boolean matrices, for coefficients and whole matrices; no value where the code throws. -/
def Stmt.val (t : Nat → Tab) : Stmt → Option (Nat → Tab)
  | .set x i j => if i < (t x).rows ∧ j < (t x).cols then
      some (updTab t x { t x with at' := fun a b => if a = i ∧ b = j then true else (t x).at' a b }) else none
  | .clear x i j => if i < (t x).rows ∧ j < (t x).cols then
      some (updTab t x { t x with at' := fun a b => if a = i ∧ b = j then false else (t x).at' a b }) else none
  | .assign x e => (e.val t).map fun a => updTab t x a
  | .block _ _ _ _ _ _ => none

/-- Meaning of a program on Boolean matrices. -/
def valStmts : (Nat → Tab) → List Stmt → Option (Nat → Tab)
  | t, [] => some t
  | t, s :: p => (s.val t).bind fun t' => valStmts t' p

/-- The matrices of the program are the Boolean matrices `t`. -/
def Shows (env : Env) (t : Nat → Tab) : Prop := ∀ x, (env x).WF ∧ Represents (env x) (t x).rows (t x).cols (t x).at'

/-- Assignments of whole matrices which do not read what they are overwriting except through plain expressions, and whose blocks can be
copied; settings and clearings of coefficients. -/
def Stmt.Whole : Stmt → Prop
  | .set _ _ _ => True
  | .clear _ _ _ => True
  | .assign x e => (e.Plain ∨ ¬ e.Mentions x) ∧ e.Aligned
  | .block _ _ _ _ _ _ => False

end Fdapde.BinMtx
