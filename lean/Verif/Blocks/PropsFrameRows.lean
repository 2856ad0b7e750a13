import Verif.Blocks.PropsFrame
/- C28: block frames constructed with a number of rows. -/
namespace Fdapde.Blocks

variable {V : Type}

theorem runRows_inv {n : Nat} {h : List (Op V)} {f : Frame V} (hr : runRows n h = .ok f) : FrameInv h f := by
  refine foldRes_ok_inv Frame.step FrameInv (fun done o s s' hi hs => frameInv_step done o s s' hi hs) h _ f ?_ hr
  constructor <;> simp [Frame.ofRows, order, present, lastBlock, flag]

/-- What a step does to the number of rows and to the blocks of a frame which has rows. -/
theorem step_rows {n : Nat} (hn : n ≠ 0) (o : Op V) (f g : Frame V) (hf : f.rows = n)
    (hb : ∀ T k b, f.data T k = some b → b.rows = n) (hs : f.step o = .ok g) :
    g.rows = n ∧ ∀ T k b, g.data T k = some b → b.rows = n := by
  cases o with
  | insert T k b d =>
    simp only [Frame.step, Frame.insert] at hs
    by_cases hc : f.rows = 0 ∨ b.rows = f.rows
    · rw [if_pos hc] at hs
      have hd : g.data = (fun t x => if t = T ∧ x = k then some b else f.data t x) ∧
          g.rows = if f.rows = 0 then b.rows else f.rows := by
        split_ifs at hs <;> simp at hs <;> subst hs <;> simp_all
      refine ⟨by rw [hd.2, if_neg (by omega), hf], fun t x c hcx => ?_⟩
      rw [hd.1] at hcx
      simp only at hcx
      by_cases htx : t = T ∧ x = k
      · rw [if_pos htx] at hcx
        simp at hcx; subst hcx
        rcases hc with h0 | h0
        · omega
        · rw [h0, hf]
      · rw [if_neg htx] at hcx
        exact hb t x c hcx
    · rw [if_neg hc] at hs; simp at hs
  | remove T k =>
    simp only [Frame.step, Frame.remove] at hs
    split_ifs at hs with hk
    simp at hs; subst hs
    refine ⟨hf, fun t x c hcx => ?_⟩
    simp only at hcx
    split_ifs at hcx with h1
    exact hb t x c hcx
  | clear k =>
    simp only [Frame.step, Frame.clearDirty] at hs
    split_ifs at hs <;> simp at hs <;> subst hs <;> exact ⟨hf, hb⟩

/-- C28: a frame constructed with a number `n > 0` of rows reports `n` rows after every history of insertions, removals and clearings of
flags, and every block it stores has `n` rows: blocks of another size, also those without rows, are never accepted. -/
theorem C28_given_rows (n : Nat) (hn : n ≠ 0) (h : List (Op V)) (f : Frame V) (hr : runRows n h = .ok f) :
    f.rows = n ∧ (∀ T k b, f.get T k = .ok b → b.rows = n) ∧
    ∀ T k b d, (f.insert T k b d = .throws ↔ b.rows ≠ n) ∧ f.insert T k b d ≠ .ub := by
  have hi := runRows_inv hr
  have hrow : f.rows = n ∧ ∀ T k b, f.data T k = some b → b.rows = n :=
    foldRes_ok_inv (Frame.step (V := V)) (fun _ f => f.rows = n ∧ ∀ T k b, f.data T k = some b → b.rows = n)
      (fun _ o s s' hi hs => step_rows hn o s s' hi.1 hi.2 hs) h _ f ⟨rfl, fun T k b hb => by simp [Frame.ofRows] at hb⟩ hr
  refine ⟨hrow.1, fun T k b hg => ?_, fun T k b d => ?_⟩
  · unfold Frame.get at hg
    split_ifs at hg
    cases hd : f.data T k with
    | none => rw [hd] at hg; simp at hg
    | some c =>
      rw [hd] at hg
      simp at hg; subst hg
      exact hrow.2 T k c hd
  · unfold Frame.insert
    rw [hrow.1]
    by_cases hc : b.rows = n
    · rw [if_pos (Or.inr hc)]
      by_cases hb : f.hasBlock k = true
      · have hm : k ∈ f.columns := by simpa [Frame.hasBlock] using hb
        have hlt := List.idxOf_lt_length_of_mem hm
        simp only [hb, Bool.not_true, Bool.false_eq_true, if_false, hi.dlen, hlt, if_true]
        exact ⟨⟨by simp, fun h => absurd hc h⟩, by simp⟩
      · have hb' : f.hasBlock k = false := by simpa using hb
        simp only [hb', Bool.not_false, if_true]
        exact ⟨⟨by simp, fun h => absurd hc h⟩, by simp⟩
    · rw [if_neg (by rintro (h | h) <;> contradiction)]
      exact ⟨⟨fun _ => hc, fun _ => rfl⟩, by simp⟩

/-- C28: in a frame constructed with a number of rows, `get` returns the block most recently inserted, `has_block` tells whether the last
operation on the key was an insertion, the columns are the keys in order of insertion and the flags are those of the last operation. -/
theorem C28_given_content (n : Nat) (h : List (Op V)) (f : Frame V) (hr : runRows n h = .ok f) :
    (∀ T k, f.get T k = if present k h then (match lastBlock T k h with | some b => .ok b | none => .throws) else .throws) ∧
    (∀ k, f.hasBlock k = present k h) ∧ f.columns = order h ∧ ∀ k, f.isDirty k = .ok (flag k h) := by
  have hi := runRows_inv hr
  have hb : ∀ k, f.hasBlock k = present k h := fun k => by
    rw [Bool.eq_iff_iff, ← hi.mem]; simp [Frame.hasBlock]
  refine ⟨fun T k => ?_, hb, hi.cols, fun k => ?_⟩
  · unfold Frame.get
    rw [hb, hi.data]
    cases present k h with
    | false => rfl
    | true => simp only [Bool.not_true, Bool.false_eq_true, if_false, if_true]; cases lastBlock T k h <;> rfl
  · unfold Frame.isDirty
    by_cases hm : k ∈ f.columns
    · have : f.hasBlock k = true := by simpa [Frame.hasBlock] using hm
      simp only [this, Bool.not_true, Bool.false_eq_true, if_false]
      rw [hi.dirty _ k (idxOf_spec hm)]; rfl
    · have : f.hasBlock k = false := by simpa [Frame.hasBlock] using hm
      simp only [this, Bool.not_false, if_true]
      rw [hi.flagAbs k hm]

/-- C28: a history of insertions of blocks with the given number of rows always succeeds. -/
theorem C28_given_callable (n : Nat) (hn : n ≠ 0) (h : List (Nat × String × Block V × Bool)) (hh : ∀ w ∈ h, w.2.2.1.rows = n) :
    ∃ f, runRows n (h.map fun w => Op.insert w.1 w.2.1 w.2.2.1 w.2.2.2) = .ok f := by
  induction h using List.reverseRecOn with
  | nil => exact ⟨_, rfl⟩
  | append_singleton l w ih =>
    obtain ⟨f, hf⟩ := ih (fun v hv => hh v (by simp [hv]))
    have hg := (C28_given_rows n hn _ f hf).2.2 w.1 w.2.1 w.2.2.1 w.2.2.2
    unfold runRows at hf ⊢
    rw [List.map_append, foldRes_append, hf, Res.ok_bind]
    simp only [List.map_cons, List.map_nil, foldRes_cons, Frame.step]
    cases hc : f.insert w.1 w.2.1 w.2.2.1 w.2.2.2 with
    | ok g => exact ⟨g, rfl⟩
    | throws => exact absurd (hh w (by simp)) (hg.1.mp hc)
    | ub => exact absurd hc hg.2

/-- A frame of two rows: a block of two rows is accepted, blocks of one row and without rows are not. -/
example : (∃ f, runRows 2 [.insert 0 "x" ⟨1, [[1], [(2 : Int)]]⟩ true, .clear "x"] = .ok f ∧ f.get 0 "x" = .ok ⟨1, [[1], [2]]⟩ ∧ f.rows = 2) ∧
    runRows 2 [.insert 0 "x" ⟨1, [[(1 : Int)]]⟩ true] = .throws ∧
    runRows 2 [.insert 0 "x" (⟨1, []⟩ : Block Int) true] = .throws :=
  ⟨⟨_, rfl, by decide, rfl⟩, rfl, rfl⟩

end Fdapde.Blocks
