import Verif.BinMtx.Model
/-
Specification of binary matrices, independent of packs and masks.
-/
namespace Fdapde.BinMtx

/-- A well-formed `BinaryMatrix`: the storage has the number of packs required by its shape.  All
constructors establish it (see `Props.lean`). -/
def BMat.WF (m : BMat) : Prop := m.nbp = packs (m.rows * m.cols) ∧ m.data.length = m.nbp

/-- `m` represents the Boolean matrix `f` of shape `r × c`: reading any in-range coefficient
through the public access operator returns `f i j`. -/
def Represents (m : BMat) (r c : Nat) (f : Nat → Nat → Bool) : Prop :=
  m.rows = r ∧ m.cols = c ∧ ∀ i j, i < r → j < c → m.read i j = .ok (f i j)

/-- A write operation of the public API, with (non-negative) indices. -/
inductive Write where
  | set (i j : Nat)
  | clear (i j : Nat)
  deriving Repr, DecidableEq

/-- Running a history of writes on the model: calls that throw leave the matrix as it is (the
caller catches), the list of "did it throw" answers is collected.  `none` if undefined behaviour
was met. -/
def runWrites : BMat → List Write → Option (BMat × List Bool)
  | m, [] => some (m, [])
  | m, w :: ws =>
    match (match w with
      | .set i j => m.set i j
      | .clear i j => m.clear i j) with
    | .ok m' => (runWrites m' ws).map fun (x, l) => (x, false :: l)
    | .throws => (runWrites m ws).map fun (x, l) => (x, true :: l)
    | .ub => none

/-- Abstract effect of a history on an `r × c` Boolean matrix: last write wins, writes out of
range are ignored. -/
def specWrites (r c : Nat) : (Nat → Nat → Bool) → List Write → (Nat → Nat → Bool)
  | f, [] => f
  | f, .set i j :: ws =>
    specWrites r c (fun a b => if i < r ∧ j < c ∧ a = i ∧ b = j then true else f a b) ws
  | f, .clear i j :: ws =>
    specWrites r c (fun a b => if i < r ∧ j < c ∧ a = i ∧ b = j then false else f a b) ws

/-- Abstract answers: a write throws exactly when an index is too large. -/
def specThrows (r c : Nat) : List Write → List Bool
  | [] => []
  | .set i j :: ws => (!(decide (i < r) && decide (j < c))) :: specThrows r c ws
  | .clear i j :: ws => (!(decide (i < r) && decide (j < c))) :: specThrows r c ws

/-- All leaves of an expression are well-formed matrices. -/
def Xpr.LeavesWF : Xpr → Prop
  | .mat m => m.WF
  | .not e => e.LeavesWF
  | .bin _ a b => a.LeavesWF ∧ b.LeavesWF
  | .block e _ _ _ _ => e.LeavesWF
  | .rep e _ _ => e.LeavesWF
  | .resh e _ _ => e.LeavesWF

/-- Pointwise meaning of an expression. -/
def Xpr.den : Xpr → Nat → Nat → Bool
  | .mat m, i, j => m.read i j == .ok true
  | .not e, i, j => !e.den i j
  | .bin .and a b, i, j => a.den i j && b.den i j
  | .bin .or a b, i, j => a.den i j || b.den i j
  | .bin .xor a b, i, j => a.den i j != b.den i j
  | .block e r0 c0 _ _, i, j => e.den (r0 + i) (c0 + j)
  | .rep e _ _, i, j => e.den (i % e.rows) (j % e.cols)
  | .resh e _ c, i, j => e.den ((i * c + j) / e.cols) ((i * c + j) % e.cols)

/-- The block `h × w` is narrow enough, or aligned enough, for its `bitpack` to be right: its size
is an `int`, and every pack after the first starts at the beginning of a block row whose width is a
power of two, or starts inside a row and does not wrap around it. -/
def blockAligned (h w : Nat) : Prop :=
  0 < w ∧ h * w < 2 ^ 31 ∧ ∀ k, 1 ≤ k → k * 64 < h * w →
    ((k * 64) % w = 0 ∧ ∃ p, w = 2 ^ p) ∨
      ((k * 64) % w ≠ 0 ∧ (k * 64) % w + min 64 (h * w - k * 64) ≤ w)

/-- All blocks in an expression are aligned in the sense above. -/
def Xpr.BlocksAligned : Xpr → Prop
  | .mat _ => True
  | .not e => e.BlocksAligned
  | .bin _ a b => a.BlocksAligned ∧ b.BlocksAligned
  | .block e _ _ h w => e.BlocksAligned ∧ blockAligned h w
  | .rep e _ _ => e.BlocksAligned
  | .resh e _ _ => e.BlocksAligned

/-- Expressions built only from matrices with `~`, `&`, `|`, `^`. -/
def Xpr.Bitwise : Xpr → Prop
  | .mat _ => True
  | .not e => e.Bitwise
  | .bin _ a b => a.Bitwise ∧ b.Bitwise
  | _ => False

end Fdapde.BinMtx
