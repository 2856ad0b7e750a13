import Verif.IO.BinaryLemmas

/-! # Properties of the binary reads (C74) -/

namespace Fdapde.IO

/-- **C74.** Reading `n` bytes as little-endian decodes the little-endian encoding of every number which fits, wherever it stands in the
buffer, and advances by `n`. -/
theorem C74_little (n v : Nat) (h : v < 256 ^ n) : Decodes (readLittle n) (le n v) v := by
  have := decodes_little (le n v)
  rwa [le_length, memValue_le, Nat.mod_eq_of_lt h] at this

/-- **C74.** The same for big-endian. -/
theorem C74_big (n v : Nat) (h : v < 256 ^ n) : Decodes (readBig n) (be n v) v := by
  have := decodes_big (be n v)
  rwa [be_length, be, List.reverse_reverse, memValue_le, Nat.mod_eq_of_lt h] at this

/-- **C74.** The signed types used by the readers, in two's complement, and the bits of a `double`. -/
theorem C74_typed :
    (∀ v, Fits 32 v → Decodes readI32Big (i32be v) v) ∧ (∀ v, Fits 32 v → Decodes readI32 (i32le v) v) ∧
    (∀ v, Fits 16 v → Decodes readI16 (i16le v) v) ∧ (∀ v, Fits 8 v → Decodes readI8 (i8le v) v) ∧
    (∀ d, Decodes readF64 (f64le d) d) :=
  ⟨decodes_i32big, decodes_i32, decodes_i16, decodes_i8, decodes_f64⟩

theorem foldRes_ub_append {α σ : Type} (f : σ → α → Res σ) (s : σ) (xs : List α) (x : α) (h : ∀ s, f s x = .ub)
    (hx : ∀ y ∈ xs, ∀ s, f s y = .ub ∨ ∃ t, f s y = .ok t) : foldRes f s (xs ++ [x]) = .ub := by
  induction xs generalizing s with
  | nil => rw [List.nil_append, foldRes_cons, h]; rfl
  | cons y ys ih =>
      rw [List.cons_append, foldRes_cons]
      rcases hx y (by simp) s with e | ⟨t, e⟩
      · rw [e]; rfl
      · rw [e, Res.ok_bind]
        exact ih t fun z hz => hx z (by simp [hz])

/-- A read which would go past the end of the buffer is undefined behaviour: `read` has no check. -/
theorem C74_no_bound_check (n : Nat) (buf : List Byte) (head : Nat) (h : buf.length < head + n) (hn : 0 < n) : readBig n buf head = .ub := by
  unfold readBig bytesBig
  obtain ⟨k, rfl⟩ := Nat.exists_eq_succ_of_ne_zero hn.ne'
  rw [List.range_succ, foldRes_ub_append]
  · rfl
  · intro s
    rw [List.getElem?_eq_none (by omega)]
    rfl
  · intro y _ s
    cases hb : buf[head + y]? with
    | none => left; rfl
    | some b => right; exact ⟨_, rfl⟩

example : i32be 9994 = [0, 0, 0x27, 0x0A] ∧ Fits 32 9994 := ⟨by decide +kernel, by unfold Fits; norm_num⟩
example : i32le (-240) = [0x10, 0xFF, 0xFF, 0xFF] ∧ Fits 32 (-240) := ⟨by decide +kernel, by unfold Fits; norm_num⟩
example : i8le (-128) = [0x80] ∧ Fits 8 (-128) := ⟨by decide +kernel, by unfold Fits; norm_num⟩
example : readI32Big [9, 0, 0, 0x27, 0x0A, 7] 1 = .ok (9994, 5) := by decide +kernel
example : be 4 9994 = [0, 0, 0x27, 0x0A] := by decide +kernel

end Fdapde.IO
