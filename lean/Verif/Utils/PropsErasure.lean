import Verif.Utils.ErasureLemmas
import Verif.Utils.PropsTypeLists
import Mathlib.Tactic.Linarith
import Mathlib.Tactic.NormNum

/-! # Properties of type erasure (C78, C79, C80) -/

namespace Fdapde.Utils

variable {V : Type}

/-! ## Ownership -/

/-- **C78.** Any history of constructions, copies, moves, assignments, destructions and calls on heap-stored objects, in which no variable is
assigned to itself, runs without double deletes and without access to deleted objects; every variable shows the value it has under value
semantics (in particular a copy is equal to, and separate from, its source); every object which is not deleted is held by exactly one
variable.  Partial: self-assignment is excluded (see `C78_bug_self_assignment`). -/
theorem C78_histories_partial (ops : List (Op V)) (h : LegalHistory (fun _ => none) ops) :
    ∃ w, runOps World.empty ops = .ok w ∧
      (∀ x, w.view x = (effects (fun _ => none) ops x).map (Option.map some)) ∧
      ∀ p, w.Live p → ∃! x, w.Holds x p := by
  obtain ⟨w, e, hi⟩ := run_ok ops World.empty _ inv_start h
  refine ⟨w, e, ?_, ?_⟩
  · intro x
    unfold World.view
    cases hv : w.vars x with
    | none => rw [hi.dead x hv]; rfl
    | some s =>
        obtain ⟨o, ho, hs⟩ := hi.alive x s hv
        rw [ho]
        unfold SlotOk at hs
        cases hp : s.ptr with
        | none =>
            rw [hp] at hs
            dsimp only at hs
            subst hs
            simp [hp]
        | some p =>
            rw [hp] at hs
            obtain ⟨_, v, h1, h2⟩ := hs
            subst h2
            simp [hp, h1]
  · intro p hp
    obtain ⟨x, hx⟩ := hi.owned p hp
    exact ⟨x, hx, fun y hy => hi.unique y x p hy hx⟩

/-- **C78.** Once all the variables are destroyed every object ever allocated is deleted (and, since a second delete is undefined behaviour in
the model, it was deleted exactly once). -/
theorem C78_no_leak_partial (ops : List (Op V)) (h : LegalHistory (fun _ => none) ops) (hend : ∀ x, effects (fun _ => none) ops x = none) :
    ∃ w, runOps World.empty ops = .ok w ∧ ∀ p, p < w.heap.length → w.heap[p]? = some none := by
  obtain ⟨w, e, hi⟩ := run_ok ops World.empty _ inv_start h
  refine ⟨w, e, fun p hp => ?_⟩
  rw [List.getElem?_eq_getElem hp]
  cases hv : w.heap[p] with
  | none => rfl
  | some v =>
      obtain ⟨x, s, hx, _⟩ := hi.owned p ⟨v, by rw [List.getElem?_eq_getElem hp, hv]⟩
      obtain ⟨o, ho, _⟩ := hi.alive x s hx
      rw [hend x] at ho
      cases ho

/-- Assigning a variable to itself deletes the object and then copies it: undefined behaviour. -/
theorem C78_bug_self_assignment (x : Nat) (v : V) : runOps World.empty [.make x v, .copyAssign x x] = .ub := by
  simp [runOps, foldRes, Op.exec, World.empty, World.setVar, World.slot, release, delCell, cloneSlot, Res.ofOptionUB]

/-- Moving a variable onto itself leaves it with a pointer to the deleted object: its destructor deletes it again. -/
theorem C78_bug_self_move (x : Nat) (v : V) : runOps World.empty [.make x v, .moveAssign x x, .destroy x] = .ub := by
  simp [runOps, foldRes, Op.exec, World.empty, World.setVar, World.slot, release, delCell, Res.ofOptionUB]

/-- A history which copies, changes the copy, moves and assigns. -/
def demoOps : List (Op Nat) :=
  [.make 0 7, .copyCtor 1 0, .modify 1 (· + 1), .default 2, .moveAssign 2 1, .copyAssign 1 0, .assign 0 20, .moveCtor 3 2, .destroy 0]

example : LegalHistory (fun _ => none) demoOps := by
  simp [demoOps, LegalHistory, Op.Legal, Op.effect, Vals.set]
example : effects (fun _ => none) demoOps 3 = some (some 8) ∧ effects (fun _ => none) demoOps 1 = some (some 7) ∧
    effects (fun _ => none) demoOps 2 = some none ∧ effects (fun _ => none) demoOps 0 = none := by
  simp [demoOps, effects, Op.effect, Vals.set]

/-! ## Dispatch -/

variable {F : Type}

theorem initVtable_eq (n : Nat) (fs : List F) (pre : List (Option F)) (hne : fs ≠ []) (hn : n = pre.length) :
    initVtable n fs (pre ++ List.replicate fs.length none) = some (pre ++ fs.map some) := by
  induction fs generalizing n pre with
  | nil => exact absurd rfl hne
  | cons f fs ih =>
      have hs : (pre ++ List.replicate (f :: fs).length none).set n (some f) = (pre ++ [some f]) ++ List.replicate fs.length none := by
        rw [hn, List.set_append_right _ _ (Nat.le_refl _), Nat.sub_self, List.length_cons, List.replicate_succ, List.set_cons_zero,
          List.append_assoc, List.singleton_append]
      have hlt : n < (pre ++ List.replicate (f :: fs).length none).length := by simp [hn]
      cases fs with
      | nil =>
          rw [initVtable, if_pos hlt, hs]
          simp
      | cons g gs =>
          rw [initVtable, if_pos hlt, hs, ih (n + 1) (pre ++ [some f]) (by simp) (by simp [hn])]
          simp

theorem lookup_setOffset (t : Offsets) (key k : Nat) (v : Int) : (setOffset t key v).lookup k = if k = key then some v else t.lookup k := by
  induction t with
  | nil =>
      by_cases h : k = key
      · subst h; simp [setOffset]
      · have h' : (k == key) = false := by simpa using h
        simp only [setOffset, List.lookup, h', if_neg h]
  | cons x t ih =>
      obtain ⟨k', v'⟩ := x
      unfold setOffset
      by_cases hk : k' = key
      · subst hk
        rw [if_pos rfl]
        by_cases h : k = k'
        · subst h; simp [List.lookup]
        · have h' : (k == k') = false := by simpa using h
          simp only [List.lookup, h', if_neg h]
      · rw [if_neg hk]
        by_cases h : k = k'
        · subst h
          rw [if_neg hk]
          simp [List.lookup]
        · have h' : (k == k') = false := by simpa using h
          simp only [List.lookup, h', ih]

/-- Number of functions listed before the `j`-th interface. -/
def before (is : List (Interface F)) (j : Nat) : Nat := ((is.take j).map fun i => i.fns.length).sum

theorem loadOffsets_other (is : List (Interface F)) (t : Offsets) (b : Int) (k : Nat) (h : k ∉ is.map Interface.id) :
    ((is.foldl (fun (s : Offsets × Int) i => (setOffset s.1 i.id s.2, s.2 + i.fns.length)) (t, b)).1).lookup k = t.lookup k := by
  induction is generalizing t b with
  | nil => rfl
  | cons i is ih =>
      simp only [List.map_cons, List.mem_cons, not_or] at h
      rw [List.foldl_cons, ih _ _ h.2, lookup_setOffset, if_neg h.1]

theorem loadOffsets_eq (is : List (Interface F)) (t : Offsets) (b : Int) (hu : (is.map Interface.id).Nodup) (j : Nat) (hj : j < is.length) :
    ((is.foldl (fun (s : Offsets × Int) i => (setOffset s.1 i.id s.2, s.2 + i.fns.length)) (t, b)).1).lookup is[j].id = some (b + before is j) := by
  induction is generalizing t b j with
  | nil => simp at hj
  | cons i is ih =>
      simp only [List.map_cons, List.nodup_cons] at hu
      rw [List.foldl_cons]
      cases j with
      | zero =>
          simp only [List.getElem_cons_zero]
          rw [loadOffsets_other _ _ _ _ hu.1, lookup_setOffset, if_pos rfl]
          simp [before]
      | succ j =>
          simp only [List.getElem_cons_succ]
          rw [ih _ _ hu.2 j (by simpa using hj)]
          simp only [before, List.take_succ_cons, List.map_cons, List.sum_cons]
          push_cast
          congr 1
          ring

theorem flatten_getElem (is : List (Interface F)) (j : Nat) (hj : j < is.length) (k : Nat) (hk : k < is[j].fns.length) :
    (is.map Interface.fns).flatten[before is j + k]? = some is[j].fns[k] := by
  induction is generalizing j with
  | nil => simp at hj
  | cons i is ih =>
      cases j with
      | zero =>
          simp only [List.getElem_cons_zero] at hk ⊢
          rw [List.map_cons, List.flatten_cons, List.getElem?_append_left (by simpa [before] using hk)]
          simp [before, List.getElem?_eq_getElem hk]
      | succ j =>
          simp only [List.getElem_cons_succ] at hk ⊢
          have e : before (i :: is) (j + 1) + k = i.fns.length + (before is j + k) := by
            simp only [before, List.take_succ_cons, List.map_cons, List.sum_cons]
            omega
          rw [List.map_cons, List.flatten_cons, e, List.getElem?_append_right (by omega), Nat.add_sub_cancel_left,
            ih j (by simpa using hj) hk]

theorem before_le (is : List (Interface F)) (j : Nat) (hj : j < is.length) :
    before is j + is[j].fns.length ≤ (is.map fun i => i.fns.length).sum := by
  induction is generalizing j with
  | nil => simp at hj
  | cons i is ih =>
      cases j with
      | zero => simp [before]
      | succ j =>
          have := ih j (by simpa using hj)
          simp only [before, List.take_succ_cons, List.map_cons, List.sum_cons, List.getElem_cons_succ] at *
          omega

theorem toShort_eq (n : Nat) (h : n < 2 ^ 15) : toShort (n : Int) = n := by
  unfold toShort
  rw [BitVec.toInt_ofInt]
  apply Int.bmod_eq_of_le
  · norm_num at h ⊢
  · norm_num at h ⊢
    omega

/-- **C79.** For every list of different interfaces with at least one and at most `2 ^ 15` methods in total, construction succeeds, and calling
the `k`-th method of the `j`-th interface calls the `k`-th function listed by that interface on the held object. -/
theorem C79_dispatch (is : List (Interface F)) (hu : (is.map Interface.id).Nodup) (v : V)
    (hpos : (is.map fun i => i.fns.length).sum ≠ 0) (hmax : (is.map fun i => i.fns.length).sum ≤ 2 ^ 15) :
    ∃ e, Erased.make is v = some e ∧ ∀ j (hj : j < is.length) k (hk : k < is[j].fns.length), e.call is[j].id k = .ok (is[j].fns[k], v) := by
  have hne : is.map Interface.fns ≠ [] := by
    intro h
    apply hpos
    have : is = [] := by simpa using h
    subst this
    rfl
  have hlen : (is.map Interface.fns).flatten.length = (is.map fun i => i.fns.length).sum := by
    rw [List.length_flatten, List.map_map]
    rfl
  have hfne : (is.map Interface.fns).flatten ≠ [] := by
    intro h
    rw [h] at hlen
    exact hpos hlen.symm
  have hi := initVtable_eq 0 (is.map Interface.fns).flatten [] hfne rfl
  rw [List.nil_append, List.nil_append, hlen] at hi
  refine ⟨⟨⟨some ((is.map Interface.fns).flatten.map some), some (is.map fun i => i.fns.length).sum, (loadOffsets is []).1⟩, some v⟩, ?_, ?_⟩
  · unfold Erased.make vtableInit
    rw [C81_merge _ hne]
    simp only [Option.bind_eq_bind, Option.bind_some, hi]
    rfl
  · intro j hj k hk
    have hb := before_le is j hj
    unfold Erased.call invokeFn
    dsimp only
    unfold loadOffsets
    rw [loadOffsets_eq is [] 0 hu j hj]
    dsimp only
    have e1 : (0 : Int) + (before is j : Int) + (k : Int) = ((before is j + k : Nat) : Int) := by push_cast; ring
    rw [e1, toShort_eq _ (by omega), if_neg (by omega), Int.toNat_natCast, List.getElem?_map, flatten_getElem is j hj k hk]
    rfl

theorem toShort_neg (n : Nat) (h : 2 ^ 15 ≤ n) (h' : n < 2 ^ 16) : toShort (n : Int) < 0 := by
  unfold toShort
  rw [BitVec.toInt_ofInt, Int.bmod_def]
  norm_num at h h' ⊢
  split <;> omega

/-- Beyond `2 ^ 15` methods the offset wraps around: the object can be made, but calling a method that comes after `2 ^ 15` others (and
before `2 ^ 16`) indexes the table at a negative position: undefined behaviour. -/
theorem C79_bug_many_methods (is : List (Interface F)) (hu : (is.map Interface.id).Nodup) (v : V) (j : Nat) (hj : j < is.length) (k : Nat)
    (hk : k < is[j].fns.length) (h1 : 2 ^ 15 ≤ ((is.take j).map fun i => i.fns.length).sum + k)
    (h2 : ((is.take j).map fun i => i.fns.length).sum + k < 2 ^ 16) :
    ∃ e, Erased.make is v = some e ∧ e.call is[j].id k = .ub := by
  have hpos : (is.map fun i => i.fns.length).sum ≠ 0 := by
    have := before_le is j hj
    omega
  have hne : is.map Interface.fns ≠ [] := by
    intro h
    apply hpos
    have : is = [] := by simpa using h
    subst this
    rfl
  have hlen : (is.map Interface.fns).flatten.length = (is.map fun i => i.fns.length).sum := by
    rw [List.length_flatten, List.map_map]
    rfl
  have hfne : (is.map Interface.fns).flatten ≠ [] := by
    intro h
    rw [h] at hlen
    exact hpos hlen.symm
  have hi := initVtable_eq 0 (is.map Interface.fns).flatten [] hfne rfl
  rw [List.nil_append, List.nil_append, hlen] at hi
  refine ⟨⟨⟨some ((is.map Interface.fns).flatten.map some), some (is.map fun i => i.fns.length).sum, (loadOffsets is []).1⟩, some v⟩, ?_, ?_⟩
  · unfold Erased.make vtableInit
    rw [C81_merge _ hne]
    simp only [Option.bind_eq_bind, Option.bind_some, hi]
    rfl
  · unfold Erased.call invokeFn
    dsimp only
    unfold loadOffsets
    rw [loadOffsets_eq is [] 0 hu j hj]
    dsimp only
    have e1 : (0 : Int) + (before is j : Int) + (k : Int) = ((before is j + k : Nat) : Int) := by push_cast; ring
    have e2 : toShort ((before is j + k : Nat) : Int) < 0 := toShort_neg _ h1 h2
    rw [e1, if_pos e2]

example (m x y : Nat) (hm : m = 2 ^ 15) : let is : List (Interface Nat) := [⟨1, List.replicate m x⟩, ⟨2, [y]⟩]
    (is.map Interface.id).Nodup ∧ ((is.take 1).map fun i => i.fns.length).sum + 0 = 2 ^ 15 := by
  refine ⟨by simp, ?_⟩
  simp only [List.take_succ_cons, List.take_zero, List.map_cons, List.map_nil, List.sum_cons, List.sum_nil, List.length_replicate, hm]
  rfl

/-- An interface the object does not implement throws (`std::out_of_range`). -/
theorem C79_unknown_interface (is : List (Interface F)) (v : V) (e : Erased F V) (h : Erased.make is v = some e) (id k : Nat)
    (hid : id ∉ is.map Interface.id) : e.call id k = .throws := by
  unfold Erased.make at h
  cases hv : vtableInit is [] with
  | none => rw [hv] at h; cases h
  | some hd =>
      rw [hv] at h
      simp only [Option.map_some, Option.some.injEq] at h
      subst h
      have ho : hd.offsets = (loadOffsets is []).1 := by
        unfold vtableInit at hv
        simp only [Option.bind_eq_bind] at hv
        cases hm : mergeLists (is.map Interface.fns) with
        | none => rw [hm] at hv; cases hv
        | some fns =>
            rw [hm] at hv
            simp only [Option.bind_some] at hv
            cases hi : initVtable 0 fns (List.replicate (is.map fun i => i.fns.length).sum none) with
            | none => rw [hi] at hv; cases hv
            | some vt =>
                rw [hi] at hv
                simp only [Option.bind_some, pure, Option.some.injEq] at hv
                rw [← hv]
      unfold Erased.call invokeFn
      dsimp only
      rw [ho]
      unfold loadOffsets
      rw [loadOffsets_other is [] 0 id hid]
      rfl

/-- Three interfaces with two, no and one methods. -/
def demoInterfaces : List (Interface Char) := [⟨10, ['a', 'b']⟩, ⟨20, []⟩, ⟨30, ['c']⟩]

example : (demoInterfaces.map Interface.id).Nodup ∧ (demoInterfaces.map fun i => i.fns.length).sum = 3 := by decide

/-! ## Copies and moves of the wrapper -/

theorem copyCtor_make (is : List (Interface F)) (v : V) (e : Erased F V) (h : Erased.make is v = some e) :
    ∃ vt n, e.handler.vtable = some vt ∧ e.handler.size = some n ∧ vt.length = n ∧ e.data = some v := by
  unfold Erased.make at h
  cases hv : vtableInit is [] with
  | none => rw [hv] at h; cases h
  | some hd =>
      rw [hv] at h
      simp only [Option.map_some, Option.some.injEq] at h
      subst h
      unfold vtableInit at hv
      simp only [Option.bind_eq_bind] at hv
      cases hm : mergeLists (is.map Interface.fns) with
      | none => rw [hm] at hv; cases hv
      | some fns =>
          rw [hm] at hv
          simp only [Option.bind_some] at hv
          cases hi : initVtable 0 fns (List.replicate (is.map fun i => i.fns.length).sum none) with
          | none => rw [hi] at hv; cases hv
          | some vt =>
              rw [hi] at hv
              simp only [Option.bind_some, pure, Option.some.injEq] at hv
              subst hv
              refine ⟨vt, _, rfl, rfl, ?_, rfl⟩
              have key : ∀ (fs : List F) (n : Nat) (l r : List (Option F)), initVtable n fs l = some r → r.length = l.length := by
                intro fs
                induction fs with
                | nil => intro n l r h; cases h
                | cons f fs ih =>
                    intro n l r h
                    cases fs with
                    | nil =>
                        rw [initVtable] at h
                        split at h
                        · cases h; simp
                        · cases h
                    | cons g gs =>
                        rw [initVtable] at h
                        split at h
                        · have := ih _ _ _ h; simpa using this
                        · cases h
              rw [key _ _ _ _ hi, List.length_replicate]

/-- **C80.** Partial: an empty wrapper converts to false, a wrapper made from an object with methods converts to true; copies and moves of the
latter succeed, convert to true, hold the object and call the same functions; the moved-from wrapper holds no object.  Missing: the
moved-from wrapper does not convert to false (`C80_bug_moved_from`). -/
theorem C80_wrapper_partial (is : List (Interface F)) (v : V) (e : Erased F V) (h : Erased.make is v = some e)
    (hpos : (is.map fun i => i.fns.length).sum ≠ 0) :
    (Erased.default : Erased F V).handler.toBool = .ok false ∧ e.handler.toBool = .ok true ∧
      (∃ c, e.copyCtor = .ok c ∧ c.handler.toBool = .ok true ∧ ∀ id k, c.call id k = e.call id k) ∧
      (∃ c r, e.moveCtor = .ok (c, r) ∧ c.handler.toBool = .ok true ∧ (∀ id k, c.call id k = e.call id k) ∧ r.data = none) := by
  obtain ⟨vt, n, h1, h2, h3, h4⟩ := copyCtor_make is v e h
  have hn : n ≠ 0 := by
    have : n = (is.map fun i => i.fns.length).sum := by
      unfold Erased.make at h
      cases hv : vtableInit is [] with
      | none => rw [hv] at h; cases h
      | some hd =>
          rw [hv] at h
          simp only [Option.map_some, Option.some.injEq] at h
          subst h
          unfold vtableInit at hv
          simp only [Option.bind_eq_bind] at hv
          cases hm : mergeLists (is.map Interface.fns) with
          | none => rw [hm] at hv; cases hv
          | some fns =>
              rw [hm] at hv
              simp only [Option.bind_some] at hv
              cases hi : initVtable 0 fns (List.replicate (is.map fun i => i.fns.length).sum none) with
              | none => rw [hi] at hv; cases hv
              | some vt =>
                  rw [hi] at hv
                  simp only [Option.bind_some, pure, Option.some.injEq] at hv
                  subst hv
                  simp only [Option.some.injEq] at h2
                  exact h2.symm
    rw [this]
    exact hpos
  have hc : e.handler.copyCtor = .ok e.handler := by
    obtain ⟨⟨vt', n', off⟩, d⟩ := e
    simp only at h1 h2
    subst h1 h2
    unfold Handler.copyCtor vtableCopy
    simp only [h3, Nat.le_refl, if_true, Res.map_ok]
    rw [List.take_of_length_le (by omega)]
  have hb : e.handler.toBool = .ok true := by
    unfold Handler.toBool
    rw [h2]
    simp [hn]
  refine ⟨rfl, hb, ⟨⟨e.handler, e.data⟩, ?_, hb, fun _ _ => rfl⟩, ⟨⟨e.handler, e.data⟩, ⟨e.handler, none⟩, ?_, hb, fun _ _ => rfl, rfl⟩⟩
  · unfold Erased.copyCtor
    rw [hc]
    rfl
  · unfold Erased.moveCtor
    rw [hc]
    rfl

/-- A moved-from wrapper still converts to true, although it holds no object: the move constructor of `erase` copies the table of functions
(`vtable_handler(other)` with a named rvalue reference), and calling a method on the moved-from wrapper passes a null object. -/
theorem C80_bug_moved_from (is : List (Interface F)) (hu : (is.map Interface.id).Nodup) (v : V)
    (hpos : (is.map fun i => i.fns.length).sum ≠ 0) (hmax : (is.map fun i => i.fns.length).sum ≤ 2 ^ 15) :
    ∃ e c r, Erased.make is v = some e ∧ e.moveCtor = .ok (c, r) ∧ r.handler.toBool = .ok true ∧ r.data = none ∧
      ∀ j (hj : j < is.length) k (_ : k < is[j].fns.length), r.call is[j].id k = .ub := by
  obtain ⟨e, he, hcall⟩ := C79_dispatch is hu v hpos hmax
  obtain ⟨_, hb, _, c, r, hm, _, _, hr⟩ := C80_wrapper_partial is v e he hpos
  have hrh : r.handler = e.handler := by
    unfold Erased.moveCtor at hm
    cases hcc : e.handler.copyCtor with
    | ok h' => rw [hcc, Res.map_ok] at hm; simp only [Res.ok.injEq, Prod.mk.injEq] at hm; rw [← hm.2]
    | throws => rw [hcc] at hm; cases hm
    | ub => rw [hcc] at hm; cases hm
  refine ⟨e, c, r, he, hm, by rw [hrh]; exact hb, hr, fun j hj k hk => ?_⟩
  have h1 := hcall j hj k hk
  unfold Erased.call at h1 ⊢
  rw [hrh, hr]
  cases hi : invokeFn e.handler is[j].id k with
  | ok f => rfl
  | throws => rw [hi] at h1; cases h1
  | ub => rfl

/-- Copying or moving an empty wrapper leaves the size of the copy uninitialised: converting the copy to `bool` reads it. -/
theorem C80_bug_copy_of_empty : ∃ c : Erased F V, Erased.copyCtor Erased.default = .ok c ∧ c.handler.toBool = .ub :=
  ⟨⟨⟨none, none, []⟩, none⟩, rfl, rfl⟩

/-- **C80.** Assigning an empty wrapper, or one without methods, gives a wrapper that converts to false, assigning any other one a
wrapper that converts to true. -/
theorem C80_assign (e c r : Erased F V) (b : Bool) (hb : e.handler.toBool = .ok b) (h : e.moveAssign = .ok (c, r)) :
    c.handler.toBool = .ok b ∧ c.data = e.data ∧ r.data = none := by
  unfold Erased.moveAssign Handler.copyAssign vtableCopy at h
  unfold Handler.toBool at hb ⊢
  cases hs : e.handler.size with
  | none => rw [hs] at hb; cases hb
  | some n =>
      rw [hs] at hb h
      cases hv : e.handler.vtable with
      | none =>
          rw [hv] at h
          dsimp only at h
          split at h
          · rename_i hn; subst hn; cases h; exact ⟨hb, rfl, rfl⟩
          · cases h
      | some vt =>
          rw [hv] at h
          dsimp only at h
          split at h
          · cases h; exact ⟨hb, rfl, rfl⟩
          · cases h

example : ∃ c r, (Erased.default : Erased Nat Nat).moveAssign = .ok (c, r) ∧ c.handler.toBool = .ok false := ⟨_, _, rfl, rfl⟩

end Fdapde.Utils
