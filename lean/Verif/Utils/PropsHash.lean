import Verif.Utils.Hash
/-
Property C114: the hash functions of pairs, arrays and matrices.
-/
namespace Fdapde.Utils

/-- The elements of a matrix read row by row. -/
def rowMajor {α : Type} (rows cols : Nat) (m : Nat → Nat → α) : List α :=
  (List.range rows).flatMap fun i => (List.range cols).map fun j => m i j

theorem hashCombine_inj (h : BitVec 64) : Function.Injective (hashCombine h) := by
  intro x y hxy
  unfold hashCombine at hxy
  have h1 : h ^^^ (h ^^^ (x + 0x9e3779b9#64 + (h <<< 6) + (h >>> 2))) =
      h ^^^ (h ^^^ (y + 0x9e3779b9#64 + (h <<< 6) + (h >>> 2))) := by rw [hxy]
  rw [← BitVec.xor_assoc, ← BitVec.xor_assoc, BitVec.xor_self, BitVec.zero_xor, BitVec.zero_xor] at h1
  exact BitVec.add_left_inj _ |>.1 (BitVec.add_left_inj _ |>.1 (BitVec.add_left_inj _ |>.1 h1))

/-- **C114.** The hash of a matrix is that of the range of its elements row by row, the hash of a
pair is that of the range of its two elements, and the hash of an array is that of its elements in order: they depend on
nothing else, so that equal keys have equal hashes. -/
theorem C114_ranges {α : Type} (h : α → BitVec 64) (rows cols : Nat) (m : Nat → Nat → α) (x y : α) {n : Nat}
    (a : Fin n → α) :
    matrixHash h rows cols m = rangeHash h (rowMajor rows cols m) ∧ pairHash h h (x, y) = rangeHash h [x, y] ∧
    arrayHash h a = rangeHash h (List.ofFn a) := by
  refine ⟨?_, rfl, rfl⟩
  unfold matrixHash rangeHash rowMajor
  rw [List.foldl_flatMap]
  congr 1
  funext hash i
  rw [List.foldl_map]

/-- **C114.** Equal matrices have equal hashes: only the coefficients in range count. -/
theorem C114_equal {α : Type} (h : α → BitVec 64) (rows cols : Nat) (m m' : Nat → Nat → α)
    (he : ∀ i j, i < rows → j < cols → m i j = m' i j) : matrixHash h rows cols m = matrixHash h rows cols m' := by
  rw [(C114_ranges h rows cols m (m 0 0) (m 0 0) (fun i : Fin 0 => i.elim0)).1,
    (C114_ranges h rows cols m' (m 0 0) (m 0 0) (fun i : Fin 0 => i.elim0)).1]
  congr 1
  unfold rowMajor
  simp only [List.flatMap_def]
  congr 1
  refine List.map_congr_left fun i hi => List.map_congr_left fun j hj => ?_
  exact he i j (List.mem_range.1 hi) (List.mem_range.1 hj)

/-- **C114.** If the elements are hashed without collisions — as integers are — two ranges of the same length
that differ only in their last element never collide. -/
theorem C114_last {α : Type} (h : α → BitVec 64) (hi : Function.Injective h) (xs : List α) (x y : α) :
    rangeHash h (xs ++ [x]) = rangeHash h (xs ++ [y]) ↔ x = y := by
  constructor
  · intro e
    unfold rangeHash at e
    rw [List.foldl_append, List.foldl_append] at e
    exact hi (hashCombine_inj _ e)
  · rintro rfl; rfl

/-- **C114.** In particular pairs with the same first element never collide. -/
theorem C114_pairs {α β : Type} (h1 : α → BitVec 64) (h2 : β → BitVec 64) (hi : Function.Injective h2) (x : α) (y z : β) :
    pairHash h1 h2 (x, y) = pairHash h1 h2 (x, z) ↔ y = z :=
  ⟨fun e => hi (hashCombine_inj _ e), fun e => by rw [e]⟩

/-- The order of the elements counts. -/
example : rangeHash (fun n : Nat => BitVec.ofNat 64 n) [1, 2] ≠ rangeHash (fun n : Nat => BitVec.ofNat 64 n) [2, 1] := by decide
example : Function.Injective (fun b : BitVec 64 => b) := fun _ _ h => h

end Fdapde.Utils
