import Verif.Utils.SparseLU

/-! # Properties of the `SparseLU` wrapper (C90) -/

namespace Fdapde.Utils

variable {M V : Type}

/-- What ties the memory to the history. -/
def Tied (lu : M → Option (V → V)) (m : LuMem M) (h : Nat → List M) : Prop :=
  ∀ v, ((m.var v).solver.bind fun p => m.heap[p]?) = (h v).head? ∧ ((m.var v).solver = none ↔ h v = []) ∧
    (m.var v).computed = (h v).any fun A => (lu A).isSome

theorem run_tied (lu : M → Option (V → V)) (ops : List (LuOp M)) : Tied lu (LuMem.run lu ops) (lineage ops) := by
  unfold LuMem.run lineage
  have base : Tied lu (LuMem.init : LuMem M) (fun _ => []) := by
    intro v
    simp [LuMem.init]
  revert base
  generalize (LuMem.init : LuMem M) = m
  generalize (fun _ => [] : Nat → List M) = h
  induction ops generalizing m h with
  | nil => exact id
  | cons op ops ih =>
      intro ht
      rw [List.foldl_cons, List.foldl_cons]
      apply ih
      cases op with
      | compute v A =>
          intro w
          by_cases hw : w = v
          · subst hw
            obtain ⟨h1, h2, h3⟩ := ht w
            by_cases hA : (lu A).isSome
            · simp [LuMem.step, hA]
            · simp only [Bool.not_eq_true] at hA
              simp [LuMem.step, hA, h3]
          · obtain ⟨h1, h2, h3⟩ := ht w
            simp only [LuMem.step, if_neg hw]
            refine ⟨?_, h2, h3⟩
            cases hs : (m.var w).solver with
            | none =>
                rw [hs] at h1
                simpa using h1
            | some p =>
                rw [hs] at h1 h2
                simp only [Option.bind_some] at h1 ⊢
                have hne : h w ≠ [] := by
                  intro h0
                  exact absurd (h2.mpr h0) (by simp)
                obtain ⟨B, hB⟩ : ∃ B, (h w).head? = some B := by
                  cases hh : h w with
                  | nil => exact absurd hh hne
                  | cons x xs => exact ⟨x, rfl⟩
                rw [hB] at h1 ⊢
                have hlt : p < m.heap.length := by
                  rcases Nat.lt_or_ge p m.heap.length with hlt | hge
                  · exact hlt
                  · rw [List.getElem?_eq_none hge] at h1
                    exact absurd h1 (by simp)
                rw [List.getElem?_append_left hlt, h1]
      | copy d s =>
          intro w
          by_cases hw : w = d
          · subst hw
            simpa [LuMem.step] using ht s
          · simpa [LuMem.step, hw] using ht w
      | reset d =>
          intro w
          by_cases hw : w = d
          · subst hw
            simp [LuMem.step]
          · simpa [LuMem.step, hw] using ht w

/-- **C90.** After any program, `v.solve(b)` solves with the matrix most recently factorized into `v` or into the variable `v` was copied from; it is
undefined if there is none, or if its factorization failed.  In particular factorizing again one copy leaves the other ones unchanged. -/
theorem C90_solve (lu : M → Option (V → V)) (ops : List (LuOp M)) (v : Nat) (b : V) :
    (LuMem.run lu ops).solve lu v b =
      match (lineage ops v).head? with
      | none => .ub
      | some A => match lu A with
        | none => .ub
        | some f => .ok (f b) := by
  obtain ⟨h1, h2, _⟩ := run_tied lu ops v
  unfold LuMem.solve
  cases hs : ((LuMem.run lu ops).var v).solver with
  | none =>
      rw [hs] at h2
      rw [h2.mp rfl]
      rfl
  | some p =>
      rw [hs] at h1
      simp only [Option.bind_some] at h1
      simp only [Res.ofOptionUB_some, Res.ok_bind, h1]
      cases hh : (lineage ops v).head? with
      | none => rfl
      | some A =>
          simp only [Res.ofOptionUB_some, Res.ok_bind]
          cases lu A with
          | none => rfl
          | some f => rfl

/-- **C90.** `info()` reports the result of the most recent factorization. -/
theorem C90_info (lu : M → Option (V → V)) (ops : List (LuOp M)) (v : Nat) :
    (LuMem.run lu ops).info lu v =
      match (lineage ops v).head? with
      | none => .ub
      | some A => .ok (lu A).isSome := by
  obtain ⟨h1, h2, _⟩ := run_tied lu ops v
  unfold LuMem.info
  cases hs : ((LuMem.run lu ops).var v).solver with
  | none =>
      rw [hs] at h2
      rw [h2.mp rfl]
      rfl
  | some p =>
      rw [hs] at h1
      simp only [Option.bind_some] at h1
      simp only [Res.ofOptionUB_some, Res.ok_bind, h1]
      cases hh : (lineage ops v).head? with
      | none => rfl
      | some A => rfl

/-- **C90, partial.** The conversion to `bool` tells whether `solve` is defined, provided no factorization of the history failed after one that
succeeded.  Missing: that case, in which it is false (`C90_bug_stale_flag`). -/
theorem C90_bool_partial (lu : M → Option (V → V)) (ops : List (LuOp M)) (v : Nat)
    (hist : ∀ A, (lineage ops v).head? = some A → lu A = none → ∀ B ∈ lineage ops v, lu B = none) (b : V) :
    (LuMem.run lu ops).toBool v = true ↔ (LuMem.run lu ops).solve lu v b ≠ .ub := by
  rw [C90_solve]
  obtain ⟨_, _, h3⟩ := run_tied lu ops v
  unfold LuMem.toBool
  rw [h3]
  cases hh : lineage ops v with
  | nil => simp
  | cons A l =>
      rw [hh] at hist
      simp only [List.head?_cons]
      cases hA : lu A with
      | none =>
          have := hist A rfl hA
          simp only [List.any_eq_true, ne_eq, not_true_eq_false, iff_false]
          rintro ⟨B, hB, h⟩
          rw [this B hB] at h
          exact absurd h (by simp)
      | some f => simp [hA]

/-- **C90, defect.** A failed `compute` does not reset the flag: after factorizing an invertible matrix and then a singular one the wrapper still
converts to `true`, and solving with it is undefined. -/
theorem C90_bug_stale_flag : ∃ (lu : Int → Option (Int → Int)) (ops : List (LuOp Int)),
    (LuMem.run lu ops).toBool 0 = true ∧ (LuMem.run lu ops).solve lu 0 1 = .ub ∧ (LuMem.run lu ops).info lu 0 = .ok false :=
  ⟨fun A => if A = 0 then none else some fun b => b / A, [.compute 0 2, .compute 0 0], by decide, by decide, by decide⟩

example :
    let lu : Int → Option (Int → Int) := fun A => if A = 0 then none else some fun b => b / A
    let ops := [LuOp.compute 0 2, .copy 1 0, .compute 0 4]
    (LuMem.run lu ops).solve lu 0 8 = .ok 2 ∧ (LuMem.run lu ops).solve lu 1 8 = .ok 4 ∧ (LuMem.run lu ops).solve lu 2 8 = .ub ∧
      (∀ A, (lineage ops 0).head? = some A → lu A = none → ∀ B ∈ lineage ops 0, lu B = none) := by
  refine ⟨by decide, by decide, by decide, ?_⟩
  intro A hA h
  have : A = 4 := by
    have : (lineage [LuOp.compute 0 2, .copy 1 0, .compute 0 4] 0).head? = some (4 : Int) := rfl
    rw [this] at hA
    exact (Option.some.inj hA).symm
  subst this
  exact absurd h (by simp)

end Fdapde.Utils
