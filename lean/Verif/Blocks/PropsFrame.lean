import Verif.Blocks.Model
import Mathlib.Data.List.Nodup
import Mathlib.Data.List.Induction
import Mathlib.Data.List.Perm.Basic
import Mathlib.Tactic.SplitIfs
/- C28-C30: block frames. -/
namespace Fdapde.Blocks

variable {V : Type}

/-! ### Specification of a history -/

/-- Block most recently inserted under `k` with type `T` (none if removed since). -/
def lastBlock (T : Nat) (k : String) (h : List (Op V)) : Option (Block V) :=
  h.foldl (fun acc o => match o with
    | .insert T' k' b _ => if T' = T ∧ k' = k then some b else acc
    | .remove T' k' => if T' = T ∧ k' = k then none else acc
    | .clear _ => acc) none

/-- The last operation on key `k`, of whatever type, was an insertion. -/
def present (k : String) (h : List (Op V)) : Bool :=
  h.foldl (fun acc o => match o with
    | .insert _ k' _ _ => if k' = k then true else acc
    | .remove _ k' => if k' = k then false else acc
    | .clear _ => acc) false

/-- Flag given at the last insertion of `k`, false if cleared or removed since. -/
def flag (k : String) (h : List (Op V)) : Bool :=
  h.foldl (fun acc o => match o with
    | .insert _ k' _ d => if k' = k then d else acc
    | .remove _ k' => if k' = k then false else acc
    | .clear k' => if k' = k then false else acc) false

/-- Keys in order of insertion. -/
def order (h : List (Op V)) : List String :=
  h.foldl (fun acc o => match o with
    | .insert _ k _ _ => if k ∈ acc then acc else acc ++ [k]
    | .remove _ k => acc.filter (fun x => x ≠ k)
    | .clear _ => acc) []

theorem lastBlock_snoc (T k) (h : List (Op V)) (o) : lastBlock T k (h ++ [o]) = (match o with
    | .insert T' k' b _ => if T' = T ∧ k' = k then some b else lastBlock T k h
    | .remove T' k' => if T' = T ∧ k' = k then none else lastBlock T k h
    | .clear _ => lastBlock T k h) := by
  simp only [lastBlock, List.foldl_append, List.foldl_cons, List.foldl_nil] <;> (cases o <;> rfl)
theorem present_snoc (k) (h : List (Op V)) (o) : present k (h ++ [o]) = (match o with
    | .insert _ k' _ _ => if k' = k then true else present k h
    | .remove _ k' => if k' = k then false else present k h
    | .clear _ => present k h) := by
  simp only [present, List.foldl_append, List.foldl_cons, List.foldl_nil] <;> (cases o <;> rfl)
theorem flag_snoc (k) (h : List (Op V)) (o) : flag k (h ++ [o]) = (match o with
    | .insert _ k' _ d => if k' = k then d else flag k h
    | .remove _ k' => if k' = k then false else flag k h
    | .clear k' => if k' = k then false else flag k h) := by
  simp only [flag, List.foldl_append, List.foldl_cons, List.foldl_nil] <;> (cases o <;> rfl)
theorem order_snoc (h : List (Op V)) (o) : order (h ++ [o]) = (match o with
    | .insert _ k _ _ => if k ∈ order h then order h else order h ++ [k]
    | .remove _ k => (order h).filter (fun x => x ≠ k)
    | .clear _ => order h) := by
  simp only [order, List.foldl_append, List.foldl_cons, List.foldl_nil] <;> (cases o <;> rfl)

/-! ### Invariant -/

structure FrameInv (h : List (Op V)) (f : Frame V) : Prop where
  nodup : f.columns.Nodup
  cols : f.columns = order h
  mem : ∀ k, k ∈ f.columns ↔ present k h = true
  data : ∀ T k, f.data T k = lastBlock T k h
  dlen : f.dirty.length = f.columns.length
  dirty : ∀ (i : Nat) k, f.columns[i]? = some k → f.dirty[i]? = some (flag k h)
  flagAbs : ∀ k, k ∉ f.columns → flag k h = false

theorem idxOf_spec {l : List String} {k : String} (h : k ∈ l) : l[l.idxOf k]? = some k := by
  have h1 := List.idxOf_lt_length_of_mem h
  rw [List.getElem?_eq_getElem h1]
  exact congrArg some (List.getElem_idxOf h1)

theorem frameInv_step (h : List (Op V)) (o : Op V) (f g : Frame V) (hi : FrameInv h f) (hs : f.step o = .ok g) :
    FrameInv (h ++ [o]) g := by
  cases o with
  | insert T k b d =>
    simp only [Frame.step, Frame.insert] at hs
    by_cases hr : f.rows = 0 ∨ b.rows = f.rows
    · rw [if_pos hr] at hs
      have hdata : ∀ t x, (if t = T ∧ x = k then some b else f.data t x) = lastBlock t x (h ++ [Op.insert T k b d]) := by
        intro t x
        rw [lastBlock_snoc, hi.data]
        simp only [eq_comm (a := T), eq_comm (a := k)]
      by_cases hb : f.hasBlock k = true
      · have hm : k ∈ f.columns := by simpa [Frame.hasBlock] using hb
        have hlt := List.idxOf_lt_length_of_mem hm
        simp only [hb, Bool.not_true, Bool.false_eq_true, if_false] at hs
        rw [if_pos (by rw [hi.dlen]; exact hlt)] at hs
        simp only [Res.ok.injEq] at hs
        subst hs
        refine ⟨hi.nodup, ?_, ?_, hdata, by simp [hi.dlen], ?_, ?_⟩
        · simp only [order_snoc, ← hi.cols, if_pos hm]
        · intro x
          simp only [present_snoc]
          by_cases hx : k = x
          · subst hx; simp [hm]
          · rw [if_neg hx]; exact hi.mem x
        · intro i x hx
          simp only [flag_snoc]
          simp only at hx
          by_cases hkx : k = x
          · subst hkx
            rw [if_pos rfl]
            have : i = f.columns.idxOf k :=
              (List.getElem?_inj (List.getElem?_eq_some_iff.1 hx).1 hi.nodup).1 (by rw [hx, idxOf_spec hm])
            subst this
            rw [List.getElem?_set_self (by rw [hi.dlen]; exact hlt)]
          · rw [if_neg hkx, List.getElem?_set_ne]
            · exact hi.dirty i x hx
            · rintro rfl
              rw [idxOf_spec hm] at hx
              exact hkx (by simpa using hx)
        · intro x hx
          simp only [flag_snoc]
          rw [if_neg]
          · exact hi.flagAbs x hx
          · rintro rfl; exact hx hm
      · have hb' : f.hasBlock k = false := by simpa using hb
        have hm : k ∉ f.columns := by simpa [Frame.hasBlock] using hb
        simp only [hb', Bool.not_false, if_true] at hs
        simp only [Res.ok.injEq] at hs
        subst hs
        refine ⟨?_, ?_, ?_, hdata, by simp [hi.dlen], ?_, ?_⟩
        · simp only
          rw [List.nodup_append]
          refine ⟨hi.nodup, by simp, ?_⟩
          intro a ha b hb
          simp at hb
          rintro rfl
          exact hm (hb ▸ ha)
        · simp only [order_snoc, ← hi.cols, if_neg hm]
        · intro x
          simp only [present_snoc, List.mem_append, List.mem_singleton]
          by_cases hx : k = x
          · subst hx; simp
          · rw [if_neg hx, hi.mem]; simp [Ne.symm hx]
        · intro i x hx
          simp only [flag_snoc]
          simp only at hx ⊢
          by_cases hlt : i < f.columns.length
          · rw [List.getElem?_append_left hlt] at hx
            rw [List.getElem?_append_left (by rw [hi.dlen]; exact hlt), if_neg]
            · exact hi.dirty i x hx
            · rintro rfl; exact hm (List.mem_of_getElem? hx)
          · have hlen := (List.getElem?_eq_some_iff.1 hx).1
            simp at hlen
            have : i = f.columns.length := by omega
            subst this
            simp at hx
            rw [if_pos hx, ← hi.dlen]
            simp
        · intro x hx
          simp at hx
          simp only [flag_snoc]
          rw [if_neg (fun h => hx.2 h.symm)]
          exact hi.flagAbs x hx.1
    · rw [if_neg hr] at hs; simp at hs
  | remove T k =>
    simp only [Frame.step, Frame.remove] at hs
    by_cases hb : f.hasBlock k = true
    · have hm : k ∈ f.columns := by simpa [Frame.hasBlock] using hb
      have hlt := List.idxOf_lt_length_of_mem hm
      rw [if_pos hb] at hs
      simp only [Res.ok.injEq] at hs
      subst hs
      have hcf : f.columns.eraseIdx (f.columns.idxOf k) = f.columns.filter (fun x => decide (x ≠ k)) := by
        rw [List.eraseIdx_idxOf_eq_erase, hi.nodup.erase_eq_filter]
        apply List.filter_congr
        intro x _
        by_cases hx : x = k <;> simp [hx]
      have hflag : ∀ x, flag x (h ++ [Op.remove T k]) = if k = x then false else flag x h := fun x => flag_snoc _ _ _
      refine ⟨?_, ?_, ?_, ?_, ?_, ?_, ?_⟩
      · simp only [hcf]; exact hi.nodup.filter _
      · simp only [order_snoc, ← hi.cols, hcf]
      · intro x
        simp only [present_snoc, hcf]
        by_cases hx : k = x
        · subst hx; simp
        · rw [if_neg hx, ← hi.mem]; simp [Ne.symm hx]
      · intro t x
        simp only [lastBlock_snoc, hi.data, eq_comm (a := T), eq_comm (a := k)]
      · simp only [List.length_eraseIdx, hi.dlen]
      · intro i x hx
        simp only at hx ⊢
        rw [hflag]
        have hxm : x ∈ f.columns.filter (fun x => decide (x ≠ k)) := by rw [← hcf]; exact List.mem_of_getElem? hx
        simp at hxm
        rw [if_neg (fun h => hxm.2 h.symm)]
        rw [List.getElem?_eraseIdx] at hx ⊢
        by_cases hil : i < f.columns.idxOf k
        · rw [if_pos hil] at hx ⊢
          exact hi.dirty i x hx
        · rw [if_neg hil] at hx ⊢
          exact hi.dirty (i + 1) x hx
      · intro x hx
        rw [hflag]
        by_cases hkx : k = x
        · rw [if_pos hkx]
        · rw [if_neg hkx]
          apply hi.flagAbs
          simp only [hcf] at hx
          intro hmem
          exact hx (by simp [hmem, Ne.symm hkx])
    · rw [if_neg hb] at hs; simp at hs
  | clear k =>
    simp only [Frame.step, Frame.clearDirty] at hs
    have hflag : ∀ x, flag x (h ++ [Op.clear k]) = if k = x then false else flag x h := fun x => flag_snoc _ _ _
    have hlb : ∀ T x, lastBlock T x (h ++ [Op.clear k]) = lastBlock T x h := fun T x => lastBlock_snoc _ _ _ _
    have hpr : ∀ x, present x (h ++ [Op.clear k]) = present x h := fun x => present_snoc _ _ _
    have hor : order (h ++ [Op.clear k]) = order h := order_snoc _ _
    by_cases hb : f.hasBlock k = true
    · have hm : k ∈ f.columns := by simpa [Frame.hasBlock] using hb
      have hlt := List.idxOf_lt_length_of_mem hm
      simp only [hb, Bool.not_true, Bool.false_eq_true, if_false] at hs
      rw [if_pos (by rw [hi.dlen]; exact hlt)] at hs
      simp only [Res.ok.injEq] at hs
      subst hs
      refine ⟨hi.nodup, by rw [hor]; exact hi.cols, fun x => by rw [hpr]; exact hi.mem x, fun T x => by rw [hlb]; exact hi.data T x,
        by simp [hi.dlen], ?_, ?_⟩
      · intro i x hx
        rw [hflag]
        simp only at hx ⊢
        by_cases hkx : k = x
        · subst hkx
          rw [if_pos rfl]
          have : i = f.columns.idxOf k :=
            (List.getElem?_inj (List.getElem?_eq_some_iff.1 hx).1 hi.nodup).1 (by rw [hx, idxOf_spec hm])
          subst this
          rw [List.getElem?_set_self (by rw [hi.dlen]; exact hlt)]
        · rw [if_neg hkx, List.getElem?_set_ne]
          · exact hi.dirty i x hx
          · rintro rfl
            rw [idxOf_spec hm] at hx
            exact hkx (by simpa using hx)
      · intro x hx
        rw [hflag, hi.flagAbs x hx]; simp
    · have hb' : f.hasBlock k = false := by simpa using hb
      have hm : k ∉ f.columns := by simpa [Frame.hasBlock] using hb
      simp only [hb', Bool.not_false, if_true] at hs
      simp only [Res.ok.injEq] at hs
      subst hs
      refine ⟨hi.nodup, by rw [hor]; exact hi.cols, fun x => by rw [hpr]; exact hi.mem x, fun T x => by rw [hlb]; exact hi.data T x,
        hi.dlen, ?_, ?_⟩
      · intro i x hx
        rw [hflag, if_neg]
        · exact hi.dirty i x hx
        · rintro rfl; exact hm (List.mem_of_getElem? hx)
      · intro x hx
        rw [hflag, hi.flagAbs x hx]; simp

theorem run_inv {h : List (Op V)} {f : Frame V} (hr : run h = .ok f) : FrameInv h f := by
  refine foldRes_ok_inv Frame.step FrameInv (fun done o s s' hi hs => frameInv_step done o s s' hi hs) h _ f ?_ hr
  constructor <;> simp [Frame.empty, order, present, lastBlock, flag]

/-- C28: after any history, `get<T>(key)` returns the block most recently inserted under `key` with
type `T`, and throws if the key is absent (or was never inserted with that type). -/
theorem C28_get (h : List (Op V)) (f : Frame V) (hr : run h = .ok f) (T : Nat) (k : String) :
    f.get T k = if present k h then (match lastBlock T k h with | some b => .ok b | none => .throws) else .throws := by
  have hi := run_inv hr
  unfold Frame.get
  have hb : f.hasBlock k = present k h := by
    rw [Bool.eq_iff_iff, ← hi.mem]; simp [Frame.hasBlock]
  rw [hb, hi.data]
  cases present k h with
  | false => rfl
  | true => simp only [Bool.not_true, Bool.false_eq_true, if_false, if_true]; cases lastBlock T k h <;> rfl

/-- C28: `has_block` is true exactly for the keys whose last operation was an insertion, and the
column list contains each of them once, in insertion order. -/
theorem C28_columns (h : List (Op V)) (f : Frame V) (hr : run h = .ok f) :
    (∀ k, f.hasBlock k = present k h) ∧ f.columns.Nodup ∧ f.columns = order h ∧
    (∀ k, k ∈ f.columns ↔ present k h = true) := by
  have hi := run_inv hr
  refine ⟨fun k => ?_, hi.nodup, hi.cols, hi.mem⟩
  rw [Bool.eq_iff_iff, ← hi.mem]; simp [Frame.hasBlock]

/-- C28: the dirty flag of a block is the one given at its last insertion unless cleared since, and
`dirty_cols` lists the keys with the flag set. -/
theorem C28_dirty (h : List (Op V)) (f : Frame V) (hr : run h = .ok f) :
    (∀ k, f.isDirty k = .ok (flag k h)) ∧ f.dirtyCols = .ok (f.columns.filter fun k => flag k h) := by
  have hi := run_inv hr
  constructor
  · intro k
    unfold Frame.isDirty
    by_cases hm : k ∈ f.columns
    · have : f.hasBlock k = true := by simpa [Frame.hasBlock] using hm
      simp only [this, Bool.not_true, Bool.false_eq_true, if_false]
      rw [hi.dirty _ k (idxOf_spec hm)]; rfl
    · have : f.hasBlock k = false := by simpa [Frame.hasBlock] using hm
      simp only [this, Bool.not_false, if_true]
      rw [hi.flagAbs k hm]
  · unfold Frame.dirtyCols
    have hgen : ∀ n, n ≤ f.columns.length → foldRes f.dirtyStep [] (List.range n) = .ok ((f.columns.take n).filter fun k => flag k h) := by
      intro n
      induction n with
      | zero => intro _; simp
      | succ n ih =>
        intro hn
        rw [List.range_succ, foldRes_append, ih (by omega)]
        have hlt : n < f.columns.length := by omega
        have hd := hi.dirty n _ (List.getElem?_eq_getElem hlt)
        rw [Res.ok_bind, foldRes_cons, Frame.dirtyStep, hd, List.take_add_one, List.filter_append, List.getElem?_eq_getElem hlt]
        cases hf : flag f.columns[n] h <;> simp [hf]
    rw [hi.dlen, hgen _ (Nat.le_refl _), List.take_length]

/-- C28: insertion throws exactly when the frame has rows and the block has a different number of rows;
it is never undefined on a frame reached by a history. -/
theorem C28_insert_throws (h : List (Op V)) (f : Frame V) (hr : run h = .ok f) (T : Nat) (k : String) (b : Block V) (d : Bool) :
    (f.insert T k b d = .throws ↔ f.rows ≠ 0 ∧ b.rows ≠ f.rows) ∧ f.insert T k b d ≠ .ub := by
  have hi := run_inv hr
  unfold Frame.insert
  by_cases hc : f.rows = 0 ∨ b.rows = f.rows
  · rw [if_pos hc]
    have hne : ¬ (f.rows ≠ 0 ∧ b.rows ≠ f.rows) := by rintro ⟨a, b⟩; rcases hc with h | h <;> contradiction
    by_cases hb : f.hasBlock k = true
    · have hm : k ∈ f.columns := by simpa [Frame.hasBlock] using hb
      have hlt := List.idxOf_lt_length_of_mem hm
      simp only [hb, Bool.not_true, Bool.false_eq_true, if_false, hi.dlen, hlt, if_true]
      exact ⟨⟨by simp, fun h => absurd h hne⟩, by simp⟩
    · have hb' : f.hasBlock k = false := by simpa using hb
      simp only [hb', Bool.not_false, if_true]
      exact ⟨⟨by simp, fun h => absurd h hne⟩, by simp⟩
  · rw [if_neg hc]
    push Not at hc
    exact ⟨⟨fun _ => hc, fun _ => rfl⟩, by simp⟩

/-- C28 (proved part): if no block without rows is inserted, all stored blocks have the number of rows
reported by `rows()`.  Missing: histories inserting blocks without rows. -/
theorem C28_rows_partial (h : List (Op V)) (f : Frame V) (hr : run h = .ok f)
    (hpos : ∀ T k b d, Op.insert T k b d ∈ h → 0 < b.rows) :
    ∀ T k b, f.data T k = some b → b.rows = f.rows := by
  have key : (∀ T k b, f.data T k = some b → b.rows = f.rows ∧ f.rows ≠ 0) := by
    have := foldRes_ok_inv (Frame.step (V := V)) (fun done f => (∀ T k b d, Op.insert T k b d ∈ done → 0 < b.rows) →
      ∀ T k b, f.data T k = some b → b.rows = f.rows ∧ f.rows ≠ 0) ?_ h _ f ?_ hr
    · exact this hpos
    · intro done o s s' hi hs hp
      have hi := hi (fun T k b d hm => hp T k b d (by simp [hm]))
      cases o with
      | insert T k b d =>
        have hb := hp T k b d (by simp)
        simp only [Frame.step, Frame.insert] at hs
        by_cases hc : s.rows = 0 ∨ b.rows = s.rows
        · rw [if_pos hc] at hs
          have hd : s'.data = (fun t x => if t = T ∧ x = k then some b else s.data t x) ∧
              s'.rows = if s.rows = 0 then b.rows else s.rows := by
            split_ifs at hs <;> simp at hs <;> subst hs <;> simp_all
          intro t x c hcx
          rw [hd.1] at hcx
          rw [hd.2]
          simp only at hcx
          by_cases htx : t = T ∧ x = k
          · rw [if_pos htx] at hcx
            simp at hcx; subst hcx
            split_ifs with h0
            · exact ⟨rfl, by omega⟩
            · exact ⟨hc.resolve_left h0, h0⟩
          · rw [if_neg htx] at hcx
            obtain ⟨a1, a2⟩ := hi t x c hcx
            rw [if_neg a2]; exact ⟨a1, a2⟩
        · rw [if_neg hc] at hs; simp at hs
      | remove T k =>
        simp only [Frame.step, Frame.remove] at hs
        split_ifs at hs with hb
        simp at hs; subst hs
        intro t x c hcx
        simp only at hcx
        split_ifs at hcx with h1
        exact hi t x c hcx
      | clear k =>
        simp only [Frame.step, Frame.clearDirty] at hs
        split_ifs at hs <;> simp at hs <;> subst hs <;> exact hi
    · intro _ T k b hb; simp [Frame.empty] at hb
  intro T k b hb
  exact (key T k b hb).1

/-- C28: `stack` inserts, for an `n x m` block, the `n*m` rows obtained by putting its columns one after
the other. -/
theorem C28_stack (b : Block V) (hb : ∀ r ∈ b.data, r.length = b.cols) (i r : Nat) (hi : i < b.cols) (hr : r < b.rows) :
    (stacked b).rows = b.rows * b.cols ∧
    ∃ row x, b.data[r]? = some row ∧ row[i]? = some x ∧ (stacked b).data[i * b.rows + r]? = some [x] := by
  have hlen : ∀ m, ((List.range m).flatMap fun i => b.data.map fun r => (r[i]?).toList).length = m * b.rows := by
    intro m
    induction m with
    | zero => simp
    | succ m ih => rw [List.range_succ, List.flatMap_append, List.length_append, ih]; simp [Block.rows, Nat.add_mul]
  constructor
  · simp only [Block.rows, stacked]
    have := hlen b.cols
    simp only [Block.rows] at this
    rw [this, Nat.mul_comm]
  · have hrow : r < b.data.length := hr
    have hl := hb b.data[r] (List.getElem_mem hrow)
    refine ⟨b.data[r], b.data[r][i]'(by omega), List.getElem?_eq_getElem hrow, List.getElem?_eq_getElem (by omega), ?_⟩
    simp only [stacked]
    have hsplit : List.range b.cols = List.range i ++ (i :: List.range' (i + 1) (b.cols - (i + 1))) := by
      have := List.range'_append_1 (s := 0) (m := i) (n := b.cols - i)
      rw [Nat.zero_add] at this
      rw [List.range_eq_range', List.range_eq_range', ← List.range'_succ, show b.cols - (i + 1) + 1 = b.cols - i by omega, this]
      congr 1; omega
    rw [hsplit, List.flatMap_append, List.getElem?_append_right (by rw [hlen]; omega), hlen,
      show i * b.rows + r - i * b.rows = r by omega, List.flatMap_cons,
      List.getElem?_append_left (by simpa using hrow), List.getElem?_map, List.getElem?_eq_getElem hrow]
    simp only [Option.map_some]
    rw [List.getElem?_eq_getElem (by omega)]
    rfl

theorem stacked_rows (b : Block V) : (stacked b).rows = b.rows * b.cols := by
  simp only [Block.rows, stacked]
  have : ∀ m, ((List.range m).flatMap fun i => b.data.map fun r => (r[i]?).toList).length = b.data.length * m := by
    intro m
    induction m with
    | zero => simp
    | succ m ih => rw [List.range_succ, List.flatMap_append, List.length_append, ih]; simp [Nat.mul_add]
  exact this _

/-- C28: on a frame reached by any history, `stack` throws when the frame holds rows and the number of entries of the block
differs from it; otherwise the stacked block is what `get` returns afterwards, the key is marked dirty, and the other keys
read as before. -/
theorem C28_stack_get (h : List (Op V)) (f : Frame V) (hr : run h = .ok f) (T : Nat) (k : String) (b : Block V) :
    (f.rows ≠ 0 ∧ b.rows * b.cols ≠ f.rows → f.stack T k b = .throws) ∧
    (f.rows = 0 ∨ b.rows * b.cols = f.rows → ∃ f', f.stack T k b = .ok f' ∧
      f'.rows = b.rows * b.cols ∧ f'.get T k = .ok (stacked b) ∧ f'.isDirty k = .ok true ∧
      ∀ T' k', k' ≠ k → f'.get T' k' = f.get T' k') := by
  have hs := stacked_rows b
  have hi := C28_insert_throws h f hr T k (stacked b) true
  rw [hs] at hi
  refine ⟨fun hc => hi.1.2 hc, fun hc => ?_⟩
  have hd := run_inv hr
  rw [Frame.stack, Frame.insert, hs, if_pos hc]
  have hrw : (if f.rows = 0 then b.rows * b.cols else f.rows) = b.rows * b.cols := by
    split_ifs with h0
    · rfl
    · exact (hc.resolve_left h0).symm
  rw [hrw]
  by_cases hb : f.hasBlock k = true
  · have hm : k ∈ f.columns := by simpa [Frame.hasBlock] using hb
    have hlt := List.idxOf_lt_length_of_mem hm
    simp only [hb, Bool.not_true, Bool.false_eq_true, if_false, hd.dlen, hlt, if_true]
    refine ⟨_, rfl, rfl, ?_, ?_, fun T' k' hk => ?_⟩
    · simp [Frame.get, Frame.hasBlock, hm]
    · simp [Frame.isDirty, Frame.hasBlock, hm, hd.dlen, hlt]
    · simp [Frame.get, Frame.hasBlock, hk]
  · have hb' : f.hasBlock k = false := by simpa using hb
    have hm : k ∉ f.columns := by simpa [Frame.hasBlock] using hb
    simp only [hb', Bool.not_false, if_true]
    refine ⟨_, rfl, rfl, ?_, ?_, fun T' k' hk => ?_⟩
    · simp [Frame.get, Frame.hasBlock]
    · simp [Frame.isDirty, Frame.hasBlock, List.idxOf_append, hm, hd.dlen]
    · simp [Frame.get, Frame.hasBlock, hk]

example : (∃ f : Frame Int, run [.insert 0 "a" ⟨1, [[1], [2], [3], [4]]⟩ false] = .ok f ∧ f.rows = 4) ∧
    (⟨2, [[1, 2], [3, 4]]⟩ : Block Int).rows * 2 = 4 := ⟨⟨_, rfl, rfl⟩, rfl⟩

/-- C28 (finding): a key inserted as one type and removed as another disappears from the column list
while its data stays stored: column list and storage disagree. -/
theorem C28_bug_remove_other_type :
    (fun f : Frame Int => (f.hasBlock "k", (f.data 0 "k").isSome)) <$>
      run [.insert 0 "k" ⟨1, [[7]]⟩ true, .remove 1 "k"] = Res.ok (false, true) := by decide

/-- C28 (finding): after inserting a block without rows, blocks with different numbers of rows are
accepted. -/
theorem C28_bug_zero_rows :
    (fun f : Frame Int => ((f.data 0 "a").map Block.rows, (f.data 0 "b").map Block.rows)) <$>
      run [.insert 0 "a" ⟨1, []⟩ true, .insert 0 "b" ⟨1, [[1], [2]]⟩ true] = Res.ok (some 0, some 2) := by decide

/-- C28 (finding): removing an absent key is undefined (it erases the end iterator). -/
theorem C28_bug_remove_absent (f : Frame V) (T : Nat) (k : String) (h : k ∉ f.columns) : f.remove T k = .ub := by
  have : f.hasBlock k = false := by simpa [Frame.hasBlock] using h
  simp [Frame.remove, this]

/-- C28 (finding): `col(key, idx)` fails for every index: it throws for every existing column (the
assertion is reversed) and is undefined beyond. -/
theorem C28_bug_col (f : Frame V) (T : Nat) (k : String) (b : Block V) (hb : f.get T k = .ok b) (idx : Nat) :
    f.col T k idx = if idx ≤ b.cols then .throws else .ub := by
  simp only [Frame.col, hb, Res.ok_bind]
  split_ifs <;> first | rfl | omega

example : ∃ f, run [.insert 0 "x" ⟨1, [[1], [(2 : Int)]]⟩ true, .insert 1 "y" ⟨1, [[3], [4]]⟩ false, .insert 0 "x" ⟨1, [[5], [6]]⟩ true] = .ok f ∧
    f.get 0 "x" = .ok ⟨1, [[5], [6]]⟩ ∧ f.columns = ["x", "y"] ∧ f.isDirty "y" = .ok false := by
  refine ⟨_, rfl, ?_, ?_, ?_⟩ <;> decide

/-! ### C29 -/

section Unique
variable {R : Type} [DecidableEq R]

/-- First occurrences in order, defined by the list only. -/
def firsts (l : List R) : List R := l.foldl (fun acc r => if r ∈ acc then acc else acc ++ [r]) []

theorem firsts_snoc (l : List R) (r : R) : firsts (l ++ [r]) = if r ∈ firsts l then firsts l else firsts l ++ [r] := by
  simp only [firsts, List.foldl_append, List.foldl_cons, List.foldl_nil]
  congr

theorem firsts_nodup (l : List R) : (firsts l).Nodup ∧ ∀ r, r ∈ firsts l ↔ r ∈ l := by
  induction l using List.reverseRecOn with
  | nil => simp [firsts]
  | append_singleton l x ih =>
    rw [firsts_snoc]
    split_ifs with h
    · refine ⟨ih.1, fun r => ?_⟩
      rw [ih.2, List.mem_append, List.mem_singleton]
      constructor
      · exact Or.inl
      · rintro (h1 | rfl)
        · exact h1
        · exact (ih.2 _).1 h
    · constructor
      · rw [List.nodup_append]
        refine ⟨ih.1, by simp, ?_⟩
        intro a ha b hb
        simp at hb
        rintro rfl
        exact h (hb ▸ ha)
      · intro r
        rw [List.mem_append, ih.2, List.mem_append]

theorem firsts_order (l : List R) : (firsts l).Pairwise (fun a b => l.idxOf a < l.idxOf b) := by
  induction l using List.reverseRecOn with
  | nil => simp [firsts]
  | append_singleton l x ih =>
    have hmem := (firsts_nodup l).2
    have himp : (firsts l).Pairwise (fun a b => (l ++ [x]).idxOf a < (l ++ [x]).idxOf b) := by
      refine List.Pairwise.imp_of_mem ?_ ih
      intro a b ha hb hab
      rw [List.idxOf_append_of_mem ((hmem a).1 ha), List.idxOf_append_of_mem ((hmem b).1 hb)]
      exact hab
    rw [firsts_snoc]
    split_ifs with h
    · exact himp
    · rw [List.pairwise_append]
      refine ⟨himp, by simp, ?_⟩
      intro a ha b hb
      simp at hb; subst hb
      have hx : b ∉ l := fun hh => h ((hmem b).2 hh)
      rw [List.idxOf_append_of_mem ((hmem a).1 ha), List.idxOf_append_of_notMem hx]
      have := List.idxOf_lt_length_of_mem ((hmem a).1 ha)
      omega

theorem uniqueFold (l : List R) :
    let s := l.foldl uniqueStep ⟨[], fun _ => none, 0⟩
    s.uniques = (firsts l).reverse ∧ s.i = (firsts l).length ∧
      ∀ r j, s.rowMap r = some j ↔ (firsts l)[j]? = some r := by
  induction l using List.reverseRecOn with
  | nil => simp [firsts]
  | append_singleton l x ih =>
    simp only [List.foldl_append, List.foldl_cons, List.foldl_nil] at ih ⊢
    obtain ⟨h1, h2, h3⟩ := ih
    generalize hs : l.foldl uniqueStep ⟨[], fun _ => none, 0⟩ = s at h1 h2 h3
    have hc : s.uniques.contains x = decide (x ∈ firsts l) := by rw [h1]; simp
    rw [firsts_snoc]
    unfold uniqueStep
    by_cases h : x ∈ firsts l
    · simp only [hc, h, decide_true, if_true]
      exact ⟨h1, h2, h3⟩
    · simp only [hc, h, decide_false, Bool.false_eq_true, if_false]
      refine ⟨by simp [h1], by simp [h2], ?_⟩
      intro r j
      by_cases hrx : r = x
      · subst hrx
        simp only [if_true]
        constructor
        · intro hj
          simp at hj
          subst hj
          rw [h2]; simp
        · intro hj
          by_cases hlt : j < (firsts l).length
          · rw [List.getElem?_append_left hlt] at hj
            exact absurd (List.mem_of_getElem? hj) h
          · have := (List.getElem?_eq_some_iff.1 hj).1
            simp at this
            rw [h2]; congr 1; omega
      · rw [if_neg hrx, h3]
        by_cases hlt : j < (firsts l).length
        · rw [List.getElem?_append_left hlt]
        · rw [List.getElem?_eq_none (by omega : (firsts l).length ≤ j)]
          simp
          intro hj
          have := (List.getElem?_eq_some_iff.1 hj).1
          simp at this
          have hjl : j = (firsts l).length := by omega
          subst hjl
          simp at hj
          exact hrx hj.symm

/-- C29: whatever the iteration order of the hash set, `extract_unique` returns the distinct rows of the
block, every row of the result is written, and rows are in order of first occurrence. -/
theorem C29_unique (rows : List R) (order : List R → List R) (ho : ∀ l, (order l).Perm l) :
    ∃ u : List R, uniqueRows rows order = .ok (u.map some) ∧ u.Nodup ∧ (∀ r, r ∈ u ↔ r ∈ rows) ∧
      u.Pairwise (fun a b => rows.idxOf a < rows.idxOf b) := by
  refine ⟨firsts rows, ?_, (firsts_nodup rows).1, (firsts_nodup rows).2, firsts_order rows⟩
  obtain ⟨h1, h2, h3⟩ := uniqueFold rows
  unfold uniqueRows
  simp only
  generalize rows.foldl uniqueStep ⟨[], fun _ => none, 0⟩ = s at h1 h2 h3
  have hp : (order s.uniques).Perm (firsts rows) := (ho _).trans (by rw [h1]; exact List.reverse_perm _)
  have hnd := (firsts_nodup rows).1
  have hlen : s.uniques.length = (firsts rows).length := by rw [h1]; simp
  unfold uniqueFill
  have := foldRes_inv (uniqueWrite s.rowMap)
    (fun done (acc : List (Option R)) => acc.length = (firsts rows).length ∧
      ∀ (j : Nat) r, (firsts rows)[j]? = some r → r ∈ done → acc[j]? = some (some r)) (order s.uniques) ?_
      (List.replicate s.uniques.length none) ⟨by simp [hlen], by simp⟩
  · obtain ⟨acc, ha, hl, hw⟩ := this
    rw [ha]
    congr 1
    apply List.ext_getElem?
    intro j
    by_cases hj : j < (firsts rows).length
    · have := hw j _ (List.getElem?_eq_getElem hj) (hp.mem_iff.2 (List.getElem_mem hj))
      rw [this, List.getElem?_map, List.getElem?_eq_getElem hj]; rfl
    · rw [List.getElem?_eq_none (by omega), List.getElem?_eq_none (by simp; omega)]
  · rintro done r rest acc hl ⟨ha, hw⟩
    have hr : r ∈ firsts rows := hp.mem_iff.1 (by rw [hl]; simp)
    obtain ⟨j, hj, hjr⟩ := List.getElem_of_mem hr
    have hjr' : (firsts rows)[j]? = some r := by rw [List.getElem?_eq_getElem hj, hjr]
    rw [uniqueWrite, (h3 r j).2 hjr']
    simp only
    rw [if_pos (by omega)]
    refine ⟨_, rfl, by simp [ha], ?_⟩
    intro j' r' hj' hr'
    by_cases hjj : j' = j
    · subst hjj
      rw [hjr'] at hj'
      simp at hj'; subst hj'
      rw [List.getElem?_set_self (by omega)]
    · rw [List.getElem?_set_ne (fun h => hjj h.symm)]
      refine hw j' r' hj' ?_
      simp at hr'
      rcases hr' with h | rfl
      · exact h
      · exact absurd ((List.getElem?_inj (List.getElem?_eq_some_iff.1 hj').1 hnd).1 (by rw [hj', hjr'])) hjj

example : uniqueRows [3, 1, 3, 2, (1 : Int)] id = .ok [some 3, some 1, some 2] := by decide

end Unique

/-! ### C30 -/

theorem rowsAt_spec (b : Block V) (idx : List Int) (hi : ∀ i ∈ idx, 0 ≤ i ∧ i < b.rows) :
    ∃ d, rowsAt b idx = .ok d ∧ d.length = idx.length ∧
      ∀ (p : Nat) (i : Int), idx[p]? = some i → ∃ r, d[p]? = some r ∧ b.data[i.toNat]? = some r := by
  unfold rowsAt
  have := foldRes_inv (fun acc i => (fun r => acc ++ [r]) <$> rowAt b i)
    (fun done (acc : List (List V)) => acc.length = done.length ∧
      ∀ (p : Nat) (i : Int), done[p]? = some i → ∃ r, acc[p]? = some r ∧ b.data[i.toNat]? = some r) idx ?_ [] (by simp)
  · exact this
  · rintro done i rest acc hl ⟨h1, h2⟩
    obtain ⟨hi1, hi2⟩ := hi i (by rw [hl]; simp)
    have hlt : i.toNat < b.data.length := by simp only [Block.rows] at hi2; omega
    refine ⟨acc ++ [b.data[i.toNat]], ?_, by simp [h1], ?_⟩
    · simp only [rowAt]
      rw [if_neg (by omega), List.getElem?_eq_getElem hlt]; rfl
    · intro p j hp
      by_cases hpl : p < done.length
      · rw [List.getElem?_append_left hpl] at hp
        rw [List.getElem?_append_left (by omega)]
        exact h2 p j hp
      · have := (List.getElem?_eq_some_iff.1 hp).1
        simp at this
        have hpe : p = done.length := by omega
        subst hpe
        simp at hp; subst hp
        refine ⟨b.data[i.toNat], ?_, List.getElem?_eq_getElem hlt⟩
        rw [← h1]; simp

/-- The rows a view asks for. -/
def View.indexes : View → List Int
  | .row i => [i]
  | .range b e => (List.range (e - b + 1).toNat).map fun (t : Nat) => b + (t : Int)
  | .sparse idx => idx

/-- C30: a view returns, for every block, exactly the requested rows in the requested order.  Range
views include both ends. -/
theorem C30_view_rows (f : Frame V) (T : Nat) (k : String) (b : Block V) (hb : f.get T k = .ok b) (v : View)
    (hin : ∀ i ∈ v.indexes, 0 ≤ i ∧ i < b.rows) (hne : v.indexes ≠ []) :
    ∃ d, v.get f T k = .ok ⟨b.cols, d⟩ ∧ d.length = v.indexes.length ∧
      ∀ (p : Nat) (i : Int), v.indexes[p]? = some i → ∃ r, d[p]? = some r ∧ b.data[i.toNat]? = some r := by
  have hk : f.hasBlock k = true ∧ f.data T k = some b := by
    unfold Frame.get at hb
    cases h : f.hasBlock k with
    | false => simp [h] at hb
    | true =>
      simp only [h, Bool.not_true, Bool.false_eq_true, if_false] at hb
      refine ⟨rfl, ?_⟩
      cases hd : f.data T k with
      | none => simp [hd] at hb
      | some c => simp [hd] at hb; rw [hb]
  unfold View.get
  simp only [hk.1, hk.2, Bool.not_true, Bool.false_eq_true, if_false]
  cases v with
  | row i =>
    obtain ⟨h1, h2⟩ := hin i (by simp [View.indexes])
    have hlt : i.toNat < b.data.length := by simp only [Block.rows] at h2; omega
    refine ⟨[b.data[i.toNat]], ?_, rfl, ?_⟩
    · simp only [rowAt]
      rw [if_neg (by omega), List.getElem?_eq_getElem hlt]; rfl
    · intro p j hp
      simp only [View.indexes] at hp
      rcases p with _ | p
      · simp at hp; subst hp
        exact ⟨_, rfl, List.getElem?_eq_getElem hlt⟩
      · simp at hp
  | range s e =>
    have hse : s ≤ e := by
      by_contra hc
      apply hne
      simp only [View.indexes]
      rw [show (e - s + 1).toNat = 0 by omega]; rfl
    have h1 := hin s (by
      simp only [View.indexes, List.mem_map, List.mem_range]
      exact ⟨0, by omega, by simp⟩)
    have h2 := hin e (by
      simp only [View.indexes, List.mem_map, List.mem_range]
      exact ⟨(e - s).toNat, by omega, by omega⟩)
    simp only
    rw [if_pos ⟨by omega, by omega, by omega⟩]
    simp only [Block.rows] at h1 h2
    refine ⟨_, rfl, ?_, ?_⟩
    · simp [View.indexes]; omega
    · intro p i hp
      simp only [View.indexes] at hp
      rw [List.getElem?_map] at hp
      have hpl : p < (e - s + 1).toNat := by
        by_contra hc
        rw [List.getElem?_eq_none (by simp; omega)] at hp
        simp at hp
      rw [List.getElem?_range hpl] at hp
      simp at hp
      subst hp
      have hlt : s.toNat + p < b.data.length := by omega
      refine ⟨b.data[s.toNat + p], ?_, ?_⟩
      · rw [List.getElem?_take, if_pos hpl, List.getElem?_drop, List.getElem?_eq_getElem hlt]
      · rw [show (s + (p : Int)).toNat = s.toNat + p by omega, List.getElem?_eq_getElem hlt]
  | sparse idx =>
    obtain ⟨d, hd1, hd2, hd3⟩ := rowsAt_spec b idx hin
    exact ⟨d, by simp [hd1], hd2, hd3⟩

/-- C30: `head(end)` asks for rows `0..end` (both included) and `tail(begin)` for rows `begin..rows-1`. -/
theorem C30_head_tail (f : Frame V) (b e : Nat) (hb : b ≤ f.rows) :
    (f.headView e).indexes = (List.range (e + 1)).map (fun (t : Nat) => (t : Int)) ∧
    (f.tailView b).indexes = (List.range (f.rows - b)).map (fun (t : Nat) => (b : Int) + (t : Int)) := by
  constructor
  · simp only [Frame.headView, View.indexes]
    rw [show ((e : Int) - 0 + 1).toNat = e + 1 by omega]
    simp
  · simp only [Frame.tailView, View.indexes]
    rw [show ((f.rows : Int) - 1 - (b : Int) + 1).toNat = f.rows - b by omega]

/-- C30: extracting a view gives a frame holding, for every block, the rows of the view; the order in
which the hash maps are traversed does not matter. -/
theorem C30_extract (f : Frame V) (v : View) (keys : List (Nat × String))
    (hall : ∀ T k, (T, k) ∈ keys ↔ f.data T k ≠ none)
    (hcol : ∀ T k, f.data T k ≠ none → k ∈ f.columns)
    (hrows : ∀ T k b, f.data T k = some b → b.rows = f.rows)
    (hin : ∀ i ∈ v.indexes, 0 ≤ i ∧ i < f.rows) (hne : v.indexes ≠ []) :
    ∃ g, v.extract f keys = .ok g ∧ ∀ T k, g.get T k = v.get f T k ∨ (f.data T k = none ∧ g.get T k = .throws) := by
  have hget : ∀ T k b, f.data T k = some b → f.get T k = .ok b := by
    intro T k b hb
    have : f.hasBlock k = true := by simpa [Frame.hasBlock] using hcol T k (by simp [hb])
    simp [Frame.get, this, hb]
  have hview : ∀ T k, f.data T k ≠ none → ∃ c, v.get f T k = .ok c ∧ c.rows = v.indexes.length := by
    intro T k hd
    obtain ⟨b, hb⟩ := Option.ne_none_iff_exists'.1 hd
    obtain ⟨d, h1, h2, _⟩ := C30_view_rows f T k b (hget T k b hb) v (fun i hi => by rw [hrows T k b hb]; exact hin i hi) hne
    exact ⟨_, h1, h2⟩
  have hpos : 0 < v.indexes.length := List.length_pos_of_ne_nil hne
  have := foldRes_inv (fun (g : Frame V) (p : Nat × String) => do
      let b ← v.get f p.1 p.2
      g.insert p.1 p.2 b true)
    (fun done g => (g.rows = 0 ∨ g.rows = v.indexes.length) ∧ g.dirty.length = g.columns.length ∧
      (∀ T k, (T, k) ∈ done → ∃ c, v.get f T k = .ok c ∧ g.data T k = some c ∧ k ∈ g.columns) ∧
      (∀ T k, (T, k) ∉ done → g.data T k = none)) keys ?_ Frame.empty ?_
  · obtain ⟨g, hg, _, _, h3, h4⟩ := this
    refine ⟨g, hg, ?_⟩
    intro T k
    by_cases hd : f.data T k = none
    · right
      have := h4 T k (fun h => ((hall T k).1 h) hd)
      refine ⟨hd, ?_⟩
      unfold Frame.get
      rw [this]
      split_ifs <;> rfl
    · left
      obtain ⟨c, hc1, hc2, hc3⟩ := h3 T k ((hall T k).2 hd)
      have : g.hasBlock k = true := by simpa [Frame.hasBlock] using hc3
      rw [hc1]
      simp [Frame.get, this, hc2]
  · rintro done ⟨T, k⟩ rest g hl ⟨h1, h2, h3, h4⟩
    have hd := (hall T k).1 (by rw [hl]; simp)
    obtain ⟨c, hc1, hc2⟩ := hview T k hd
    have hrow : g.rows = 0 ∨ c.rows = g.rows := by rcases h1 with h | h <;> omega
    have hrow' : (if g.rows = 0 then c.rows else g.rows) = v.indexes.length := by split_ifs <;> omega
    simp only [hc1, Res.ok_bind, Frame.insert]
    rw [if_pos hrow]
    by_cases hb : g.hasBlock k = true
    · have hm : k ∈ g.columns := by simpa [Frame.hasBlock] using hb
      have hlt := List.idxOf_lt_length_of_mem hm
      simp only [hb, Bool.not_true, Bool.false_eq_true, if_false]
      rw [if_pos (by omega)]
      refine ⟨_, rfl, Or.inr hrow', by simp [h2], ?_, ?_⟩
      · intro T' k' hm'
        simp only
        by_cases heq : T' = T ∧ k' = k
        · rw [if_pos heq, heq.1, heq.2]
          exact ⟨c, hc1, rfl, hm⟩
        · rw [if_neg heq]
          apply h3
          simp at hm'
          exact hm'.resolve_right heq
      · intro T' k' hm'
        simp at hm'
        simp only
        rw [if_neg (fun h => hm'.2 h.1 h.2)]
        exact h4 T' k' hm'.1
    · have hb' : g.hasBlock k = false := by simpa using hb
      simp only [hb', Bool.not_false, if_true]
      refine ⟨_, rfl, Or.inr hrow', by simp [h2], ?_, ?_⟩
      · intro T' k' hm'
        simp only
        by_cases heq : T' = T ∧ k' = k
        · rw [if_pos heq, heq.1, heq.2]
          exact ⟨c, hc1, rfl, by simp⟩
        · rw [if_neg heq]
          simp at hm'
          obtain ⟨c', x1, x2, x3⟩ := h3 T' k' (hm'.resolve_right heq)
          exact ⟨c', x1, x2, by simp [x3]⟩
      · intro T' k' hm'
        simp at hm'
        simp only
        rw [if_neg (fun h => hm'.2 h.1 h.2)]
        exact h4 T' k' hm'.1
  · simp [Frame.empty]

example : (View.sparse [2, 0]).get (⟨fun _ k => if k = "x" then some ⟨1, [[1], [2], [(3 : Int)]]⟩ else none, ["x"], 3, [true]⟩ : Frame Int) 0 "x" =
    .ok ⟨1, [[3], [1]]⟩ := by decide

/-! ### Views of several blocks -/

theorem get_of_view {f : Frame V} {v : View} {T : Nat} {k : String} {g : Block V} (h : v.get f T k = .ok g) :
    ∃ b, f.get T k = .ok b ∧ b.cols = g.cols := by
  unfold View.get at h
  unfold Frame.get
  cases hk : f.hasBlock k with
  | false => simp [hk] at h
  | true =>
    simp only [hk, Bool.not_true, Bool.false_eq_true, if_false] at h ⊢
    cases hd : f.data T k with
    | none => simp [hd] at h
    | some b =>
      refine ⟨b, rfl, ?_⟩
      rw [hd] at h
      cases v with
      | row i =>
        obtain ⟨r, _, e⟩ := Res.map_eq_ok.1 h
        rw [← e]
      | range s e =>
        dsimp only at h
        split_ifs at h
        rw [← Res.ok.inj h]
      | sparse idx =>
        obtain ⟨r, _, e⟩ := Res.map_eq_ok.1 h
        rw [← e]

theorem multiCols_ok {f : Frame V} {v : View} {T : Nat} : ∀ {keys : List String} {gs : List (Block V)} (c : Nat),
    List.Forall₂ (fun k g => v.get f T k = .ok g) keys gs →
    foldRes (fun c k => (fun b => c + b.cols) <$> f.get T k) c keys = .ok (c + (gs.map Block.cols).sum)
  | _, _, c, .nil => by simp
  | _, _, c, .cons (a := k) (b := g) (l₁ := ks) (l₂ := gs) h hs => by
    obtain ⟨b, hb, hc⟩ := get_of_view h
    rw [foldRes_cons, hb, Res.map_ok, Res.ok_bind, multiCols_ok _ hs, hc, List.map_cons, List.sum_cons, Nat.add_assoc]

theorem multi_loop {f : Frame V} {v : View} {T : Nat} (n : Nat) : ∀ {keys : List String} {gs : List (Block V)}
    (m : List (List (Option V))) (i : Nat), m.length = n → (∀ r ∈ m, r.length = i + (gs.map Block.cols).sum) →
    List.Forall₂ (fun k g => v.get f T k = .ok g ∧ g.rows = n ∧ ∀ r ∈ g.data, r.length = g.cols) keys gs →
    ∃ m', foldRes (v.multiStep f T) (m, i) keys = .ok (m', i + (gs.map Block.cols).sum) ∧ m'.length = n ∧
      ∀ p, p < n → ∃ r, m[p]? = some r ∧ m'[p]? = some (r.take i ++ (gs.flatMap fun g => (g.data[p]?).getD []).map some)
  | [], [], m, i, hn, hr, .nil => by
    refine ⟨m, by simp, hn, fun p hp => ⟨m[p], List.getElem?_eq_getElem (by omega), ?_⟩⟩
    have := hr m[p] (List.getElem_mem _)
    simp only [List.map_nil, List.sum_nil, Nat.add_zero] at this
    rw [List.getElem?_eq_getElem (by omega)]
    simp [← this]
  | k :: ks, g :: gs, m, i, hn, hr, .cons h hs => by
    obtain ⟨hv, hrows, hw⟩ := h
    obtain ⟨b, hb, hc⟩ := get_of_view hv
    have hlen : g.data.length = n := hrows
    simp only [List.map_cons, List.sum_cons] at hr
    set m1 := List.zipWith (fun r n => r.take i ++ n.map some ++ r.drop (i + g.cols)) m g.data with hm1
    have h1 : setMiddleCols m i g.cols g = .ok m1 := by
      unfold setMiddleCols
      rw [if_pos ⟨rfl, by rw [hrows, hn], fun r hmem => by rw [hr r hmem]; omega⟩]
    have hg1 : ∀ p (hp : p < n), m1[p]? = some ((m[p]'(by omega)).take i ++ (g.data[p]'(by omega)).map some ++
        (m[p]'(by omega)).drop (i + g.cols)) := by
      intro p hp
      rw [hm1, List.getElem?_zipWith, List.getElem?_eq_getElem (by omega), List.getElem?_eq_getElem (by omega)]
    have hl1 : m1.length = n := by rw [hm1, List.length_zipWith, hn, hlen, Nat.min_self]
    have hr1 : ∀ r ∈ m1, r.length = i + g.cols + (gs.map Block.cols).sum := by
      intro r hmem
      obtain ⟨p, hp, rfl⟩ := List.getElem_of_mem hmem
      have e := hg1 p (by omega)
      rw [List.getElem?_eq_getElem hp] at e
      rw [Option.some.inj e]
      have a1 := hr (m[p]'(by omega)) (List.getElem_mem _)
      have a2 := hw (g.data[p]'(by omega)) (List.getElem_mem _)
      simp only [List.length_append, List.length_take, List.length_map, List.length_drop, a1, a2]
      omega
    obtain ⟨m', e, hl', hp'⟩ := multi_loop n m1 (i + g.cols) hl1 hr1 hs
    refine ⟨m', ?_, hl', fun p hp => ?_⟩
    · rw [foldRes_cons]
      have : v.multiStep f T (m, i) k = .ok (m1, i + g.cols) := by
        unfold View.multiStep
        rw [hb, Res.ok_bind, hv, Res.ok_bind, hc, h1, Res.ok_bind]
      rw [this, Res.ok_bind, e, List.map_cons, List.sum_cons, Nat.add_assoc]
    · obtain ⟨r, hr', hm'⟩ := hp' p hp
      rw [hg1 p hp] at hr'
      refine ⟨m[p]'(by omega), List.getElem?_eq_getElem (by omega), ?_⟩
      rw [hm', ← Option.some.inj hr']
      have a1 := hr (m[p]'(by omega)) (List.getElem_mem _)
      have a2 := hw (g.data[p]'(by omega)) (List.getElem_mem _)
      have hA : ((m[p]'(by omega)).take i ++ (g.data[p]'(by omega)).map some).length = i + g.cols := by
        simp only [List.length_append, List.length_take, List.length_map, a1, a2]; omega
      rw [List.take_append_of_le_length (by omega), List.take_of_length_le (by omega), List.flatMap_cons,
        List.getElem?_eq_getElem (by omega : p < g.data.length), Option.getD_some, List.map_append, List.append_assoc]

/-- C30: `get<T>(k1, k2, ...)` of a view puts the rows selected in every block side by side, in the order of the keys; every
coefficient of the result is assigned. -/
theorem C30_view_multi (f : Frame V) (v : View) (T : Nat) (keys : List String) (gs : List (Block V)) (n : Nat) (hn : v.nRows = n)
    (h : List.Forall₂ (fun k g => v.get f T k = .ok g ∧ g.rows = n ∧ ∀ r ∈ g.data, r.length = g.cols) keys gs) :
    ∃ m, v.getMulti f T keys = .ok ((gs.map Block.cols).sum, m) ∧ m.length = n ∧
      ∀ p, p < n → m[p]? = some ((gs.flatMap fun g => (g.data[p]?).getD []).map some) := by
  have h1 := multiCols_ok (f := f) (v := v) (T := T) 0 (h.imp fun _ _ hh => hh.1)
  obtain ⟨m', e, hl, hp⟩ := multi_loop n (List.replicate n (List.replicate (gs.map Block.cols).sum none)) 0
    (by simp) (fun r hr => by rw [List.eq_of_mem_replicate hr]; simp) h
  refine ⟨m', ?_, hl, fun p hpn => ?_⟩
  · unfold View.getMulti View.multiCols
    rw [h1, Res.ok_bind, if_neg (by omega), Nat.zero_add, hn, Int.toNat_natCast, e, Res.ok_bind]
  · obtain ⟨r, _, hr⟩ := hp p hpn
    simpa using hr

/-- C30: the hypotheses hold for every frame whose blocks have the rows requested: the blocks are those of the views on one key. -/
theorem C30_view_multi_callable (f : Frame V) (v : View) (T : Nat) (keys : List String) (hne : v.indexes ≠ [])
    (h : ∀ k ∈ keys, ∃ b, f.get T k = .ok b ∧ (∀ r ∈ b.data, r.length = b.cols) ∧ ∀ i ∈ v.indexes, 0 ≤ i ∧ i < b.rows) :
    v.nRows = v.indexes.length ∧ ∃ gs, List.Forall₂ (fun k g => v.get f T k = .ok g ∧ g.rows = v.indexes.length ∧
      ∀ r ∈ g.data, r.length = g.cols) keys gs := by
  constructor
  · cases v with
    | row i => rfl
    | range b e =>
      simp only [View.nRows, View.indexes, List.length_map, List.length_range]
      have : (List.range (e - b + 1).toNat) ≠ [] := by
        intro hh; apply hne; simp [View.indexes, hh]
      have : (e - b + 1).toNat ≠ 0 := by rintro hh; rw [hh] at this; exact this rfl
      omega
    | sparse idx => rfl
  · induction keys with
    | nil => exact ⟨[], .nil⟩
    | cons k ks ih =>
      obtain ⟨gs, hgs⟩ := ih fun k hk => h k (List.mem_cons_of_mem _ hk)
      obtain ⟨b, hb, hw, hin⟩ := h k List.mem_cons_self
      obtain ⟨d, h1, h2, h3⟩ := C30_view_rows f T k b hb v hin hne
      refine ⟨⟨b.cols, d⟩ :: gs, .cons ⟨h1, h2, fun r hr => ?_⟩ hgs⟩
      obtain ⟨p, hp, rfl⟩ := List.getElem_of_mem hr
      have hp' : p < v.indexes.length := by rw [← h2]; exact hp
      obtain ⟨r, e1, e2⟩ := h3 p _ (List.getElem?_eq_getElem hp')
      rw [List.getElem?_eq_getElem hp] at e1
      rw [Option.some.inj e1]
      exact hw r (List.mem_of_getElem? e2)

/-- Two blocks of two and one columns, seen through a sparse view and a range. -/
def demoFrame : Res (Frame Nat) := run [.insert 0 "a" ⟨2, [[1, 2], [3, 4], [5, 6]]⟩ true, .insert 0 "b" ⟨1, [[7], [8], [9]]⟩ true]

example : (demoFrame >>= fun f => (View.sparse [2, 0]).getMulti f 0 ["a", "b"]) =
    .ok (3, [[some 5, some 6, some 9], [some 1, some 2, some 7]]) := by decide +kernel
example : (demoFrame >>= fun f => (View.range 1 2).getMulti f 0 ["b", "a"]) =
    .ok (3, [[some 8, some 3, some 4], [some 9, some 5, some 6]]) := by decide +kernel

/-- C30: shuffling rearranges the rows of every block with one and the same rearrangement, whatever
rearrangement the random generator gives; no row is lost or duplicated and no block is lost. -/
theorem C30_shuffle (f : Frame V) (shuf : List Int → List Int) (hs : ∀ l, (shuf l).Perm l)
    (keys : List (Nat × String))
    (hall : ∀ T k, (T, k) ∈ keys ↔ f.data T k ≠ none)
    (hcol : ∀ T k, f.data T k ≠ none → k ∈ f.columns)
    (hrows : ∀ T k b, f.data T k = some b → b.rows = f.rows) (hpos : 0 < f.rows) :
    ∃ (g : Frame V) (σ : List Nat), f.shuffle shuf keys = .ok g ∧ σ.Perm (List.range f.rows) ∧
      (∀ T k, f.data T k = none → g.get T k = .throws) ∧
      ∀ T k b, f.data T k = some b → ∃ d, g.get T k = .ok ⟨b.cols, d⟩ ∧ d.Perm b.data ∧
        ∀ p i : Nat, σ[p]? = some i → d[p]? = b.data[i]? := by
  have hp := hs ((List.range f.rows).map fun (i : Nat) => (i : Int))
  generalize hL : shuf ((List.range f.rows).map fun (i : Nat) => (i : Int)) = L at hp
  have hmem : ∀ i ∈ L, 0 ≤ i ∧ i < (f.rows : Int) := by
    intro i hi
    have := hp.mem_iff.1 hi
    simp only [List.mem_map, List.mem_range] at this
    obtain ⟨a, ha, rfl⟩ := this
    omega
  have hlen : L.length = f.rows := by rw [hp.length_eq]; simp
  have hne : L ≠ [] := by rintro rfl; simp at hlen; omega
  have hσ : (L.map Int.toNat).Perm (List.range f.rows) := by
    have := hp.map Int.toNat
    rw [List.map_map, show (Int.toNat ∘ fun (i : Nat) => (i : Int)) = id from funext fun i => by simp,
      List.map_id] at this
    exact this
  obtain ⟨g, h1, h2⟩ := C30_extract f (.sparse L) keys hall hcol hrows hmem hne
  refine ⟨g, L.map Int.toNat, ?_, hσ, ?_, ?_⟩
  · unfold Frame.shuffle; rw [hL]; exact h1
  · intro T k hd
    rcases h2 T k with h | h
    · rw [h]; unfold View.get; rw [hd]; split_ifs <;> rfl
    · exact h.2
  · intro T k b hb
    have hget : f.get T k = .ok b := by
      have : f.hasBlock k = true := by simpa [Frame.hasBlock] using hcol T k (by simp [hb])
      simp [Frame.get, this, hb]
    obtain ⟨d, hd1, hd2, hd3⟩ := C30_view_rows f T k b hget (.sparse L)
      (fun i hi => by rw [hrows T k b hb]; exact hmem i hi) hne
    have hidx : ∀ p i : Nat, (L.map Int.toNat)[p]? = some i → d[p]? = b.data[i]? := by
      intro p i hpi
      rw [List.getElem?_map] at hpi
      obtain ⟨j, hj, rfl⟩ := Option.map_eq_some_iff.1 hpi
      obtain ⟨r, hr1, hr2⟩ := hd3 p j hj
      rw [hr1, hr2]
    refine ⟨d, ?_, ?_, hidx⟩
    · rcases h2 T k with h | h
      · rw [h, hd1]
      · rw [hb] at h; exact absurd h.1 (by simp)
    · have hbl : b.data.length = f.rows := hrows T k b hb
      have e1 : d.map some = (L.map Int.toNat).map (fun i => b.data[i]?) := by
        apply List.ext_getElem?
        intro p
        by_cases hpl : p < L.length
        · have hpm : p < (L.map Int.toNat).length := by simpa using hpl
          rw [List.getElem?_map, List.getElem?_map, List.getElem?_eq_getElem hpm]
          have hpd : p < d.length := by rw [hd2]; exact hpl
          have := hidx p _ (List.getElem?_eq_getElem hpm)
          rw [List.getElem?_eq_getElem hpd] at this ⊢
          simp only [Option.map_some]
          rw [this]
        · have hpd : d.length ≤ p := by rw [hd2]; exact Nat.le_of_not_lt hpl
          rw [List.getElem?_eq_none (by simpa using hpd), List.getElem?_eq_none (by simpa using hpl)]
      have e2 : (List.range f.rows).map (fun i => b.data[i]?) = b.data.map some := by
        apply List.ext_getElem?
        intro p
        by_cases hpl : p < f.rows
        · rw [List.getElem?_map, List.getElem?_range hpl, List.getElem?_map]
          rw [List.getElem?_eq_getElem (by omega : p < b.data.length)]
          simp
        · rw [List.getElem?_eq_none (by simpa using hpl), List.getElem?_eq_none (by simpa [hbl] using hpl)]
      have e3 : (d.map some).Perm (b.data.map some) := by
        rw [e1, ← e2]; exact hσ.map _
      exact (List.map_perm_map_iff (fun _ _ h => Option.some.inj h)).1 e3

example : (demoFrame >>= fun f => f.shuffle List.reverse [(0, "b"), (0, "a")] >>= fun g => g.get 0 "a") =
    .ok ⟨2, [[5, 6], [3, 4], [1, 2]]⟩ := by decide +kernel

end Fdapde.Blocks
