import Verif.Common.Res
import Verif.Common.Loop

/-!
# Reading binary data

Model of the two `read` functions of `fdaPDE/utils/IO/shp_reader.h` and a small reader monad for the code which calls them.  The host is
little-endian: an object of type `T` is the number whose base 256 digits are its bytes, least significant first.  `int32_t`, `int16_t`,
`int8_t` are in two's complement; a `double` is kept as its 64-bit pattern.  The temporary buffers of `read` are never freed (a memory
leak); this is not modelled.
-/

namespace Fdapde.IO

abbrev Byte := UInt8

/-- `char* result = new char[n]; for (j = 0; j < n; ++j) result[n - j - 1] = buff[head + j]` (shp_reader.h:37-38): the bytes of `result`.
Access outside of the buffer is undefined behaviour. -/
def bytesBig (n : Nat) (buf : List Byte) (head : Nat) : Res (List Byte) :=
  foldRes (fun (r : List Byte) j =>
    (fun b => r.set (n - j - 1) b) <$> Res.ofOptionUB buf[head + j]?) (List.replicate n 0) (List.range n)

/-- `for (j = 0; j < n; ++j) result[n - j - 1] = buff[head + (n - j - 1)]` (shp_reader.h:43-44). -/
def bytesLittle (n : Nat) (buf : List Byte) (head : Nat) : Res (List Byte) :=
  foldRes (fun (r : List Byte) j =>
    (fun b => r.set (n - j - 1) b) <$> Res.ofOptionUB buf[head + (n - j - 1)]?) (List.replicate n 0) (List.range n)

/-- The number stored in memory by the given bytes, on a little-endian host (`*reinterpret_cast<T*>(result)`). -/
def memValue : List Byte → Nat
  | [] => 0
  | b :: bs => b.toNat + 256 * memValue bs

/-- Code which reads from the buffer `buff_` and moves `head_`. -/
def Rd (α : Type) := List Byte → Nat → Res (α × Nat)

instance : Monad Rd where
  pure a := fun _ head => .ok (a, head)
  bind p f := fun buf head =>
    match p buf head with
    | .ok (a, head) => f a buf head
    | .throws => .throws
    | .ub => .ub

/-- An exception. -/
def Rd.throw {α : Type} : Rd α := fun _ _ => .throws

/-- Undefined behaviour. -/
def Rd.undefined {α : Type} : Rd α := fun _ _ => .ub

/-- `skip` (shp_reader.h:49, 262). -/
def skip (n : Nat) : Rd Unit := fun _ head => .ok ((), head + n)

/-- `read<T>(buff_, head_, BigEndian)` (shp_reader.h:36-41) for `sizeof(T) = n`, as a number below `256 ^ n`. -/
def readBig (n : Nat) : Rd Nat := fun buf head => (fun r => (memValue r, head + n)) <$> bytesBig n buf head

/-- `read<T>(buff_, head_, LittleEndian)` (shp_reader.h:42-47). -/
def readLittle (n : Nat) : Rd Nat := fun buf head => (fun r => (memValue r, head + n)) <$> bytesLittle n buf head

/-- The signed integer with the given pattern of `w` bits. -/
def signed (w v : Nat) : Int := (BitVec.ofNat w v).toInt

/-- `read<std::int32_t>(.., BigEndian)`. -/
def readI32Big : Rd Int := do
  let v ← readBig 4
  return signed 32 v

/-- `read<std::int32_t>(.., LittleEndian)`. -/
def readI32 : Rd Int := do
  let v ← readLittle 4
  return signed 32 v

/-- `read<std::int16_t>(.., LittleEndian)`. -/
def readI16 : Rd Int := do
  let v ← readLittle 2
  return signed 16 v

/-- `read<std::int8_t>(.., LittleEndian)`. -/
def readI8 : Rd Int := do
  let v ← readLittle 1
  return signed 8 v

/-- `read<double>(.., LittleEndian)`, as its bit pattern. -/
def readF64 : Rd (BitVec 64) := do
  let v ← readLittle 8
  return BitVec.ofNat 64 v

/-- `for (i = 0; i < n; ++i) v[i] = read...` : `n` reads in order. -/
def many {α : Type} (p : Rd α) : Nat → Rd (List α)
  | 0 => pure []
  | n + 1 => do
    let a ← p
    let as ← many p n
    return a :: as

end Fdapde.IO
