import Verif.IO.Binary

/-! # Binary encodings: specification -/

namespace Fdapde.IO

/-- The `n` bytes of a number, least significant first. -/
def le : Nat → Nat → List Byte
  | 0, _ => []
  | n + 1, v => UInt8.ofNat v :: le n (v / 256)

/-- The `n` bytes of a number, most significant first. -/
def be (n v : Nat) : List Byte := (le n v).reverse

/-- The bit pattern of a signed number in two's complement. -/
def pattern (w : Nat) (v : Int) : Nat := (v % 2 ^ w).toNat

/-- Encodings of the types read. -/
def i32be (v : Int) : List Byte := be 4 (pattern 32 v)
def i32le (v : Int) : List Byte := le 4 (pattern 32 v)
def i16le (v : Int) : List Byte := le 2 (pattern 16 v)
def i8le (v : Int) : List Byte := le 1 (pattern 8 v)
def f64le (d : BitVec 64) : List Byte := le 8 d.toNat

/-- The range of `w`-bit signed integers. -/
def Fits (w : Nat) (v : Int) : Prop := -2 ^ (w - 1) ≤ v ∧ v < 2 ^ (w - 1)

/-- `p` decodes `bytes` into `a`: wherever the bytes stand in the buffer, started on them it returns `a` and stops right behind. -/
def Decodes {α : Type} (p : Rd α) (bytes : List Byte) (a : α) : Prop :=
  ∀ pre post : List Byte, p (pre ++ bytes ++ post) pre.length = .ok (a, pre.length + bytes.length)

end Fdapde.IO
