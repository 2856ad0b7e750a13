import Verif.BinTree.LemmasHeap4
/- Property C144: programs on several trees, at the level of pointers. -/
namespace Fdapde.BinTree
variable {α : Type}
open Tree

theorem start_inv : TInv (TWorld.start : TWorld α) (fun _ => none) :=
  ⟨fun _ => rfl, by simp, by simp, by intro a c h; simp [TWorld.start] at h⟩

theorem vals_set {A : Nat → Option (ATree α)} (v : Nat) (t : Option (ATree α)) :
    (fun u => (setA A v t u).map valueOf) = TVals.set (fun u => (A u).map valueOf) v (t.map valueOf) := by
  funext u
  simp only [setA, TVals.set]
  split <;> rfl

theorem exec_legal {w : TWorld α} {A : Nat → Option (ATree α)} (hw : TInv w A) (op : TOp α)
    (hl : op.Legal fun v => (A v).map valueOf) :
    ∃ w' A', w.exec op = .ok w' ∧ TInv w' A' ∧ (fun v => (A' v).map valueOf) = op.effect fun v => (A v).map valueOf := by
  have hsome : ∀ {v : Nat} {b : BT α}, (A v).map valueOf = some b → ∃ t, A v = some t ∧ valueOf t = b := by
    intro v b h
    cases ht : A v with
    | none => rw [ht] at h; simp at h
    | some t => rw [ht] at h; exact ⟨t, rfl, by simpa using h⟩
  have hnone : ∀ {v : Nat}, (A v).map valueOf = none → A v = none := by
    intro v h
    cases ht : A v with
    | none => rfl
    | some t => rw [ht] at h; simp at h
  cases op with
  | make v =>
    have hv := hnone hl
    obtain ⟨e1, e2⟩ := step_fresh hw hv
    exact ⟨_, _, e1, e2, vals_set v _⟩
  | makeRoot v x =>
    have hv := hnone hl
    have h1 : w.vars v = none := by rw [hw.vars, hv]; rfl
    refine ⟨_, _, ?_, step_single hw hv x, vals_set v _⟩
    simp only [TWorld.exec, TWorld.fresh, h1]
    rfl
  | push lt v x =>
    obtain ⟨b, hb⟩ := hl
    obtain ⟨t, hv, rfl⟩ := hsome hb
    obtain ⟨h', t', e1, e2, e3⟩ := step_push hw hv lt x
    refine ⟨_, _, ?_, e3, ?_⟩
    · simp only [TWorld.exec, TWorld.on, var_eq hw hv, Res.ok_bind, e1, Res.pure_eq]
    · rw [vals_set, TOp.effect, hv]
      simp [e2]
  | pushAt v p left x =>
    obtain ⟨b, hb, hp⟩ := hl
    obtain ⟨t, hv, rfl⟩ := hsome hb
    obtain ⟨h', t', e1, e2, e3⟩ := step_pushAt hw hv p left x hp
    refine ⟨_, _, ?_, e3, ?_⟩
    · simp only [TWorld.exec, TWorld.on, var_eq hw hv, Res.ok_bind, e1, Res.pure_eq]
    · rw [vals_set, TOp.effect, hv]
      simp [e2]
  | copyCtor d s =>
    obtain ⟨hd, b, hb, hne⟩ := hl
    have hd := hnone hd
    obtain ⟨S, hs, rfl⟩ := hsome hb
    have hds : d ≠ s := by rintro rfl; rw [hd] at hs; cases hs
    obtain ⟨e1, e2⟩ := step_fresh hw hd
    have hnn : S.isNil = false := by
      cases S with
      | nil => exact absurd rfl hne
      | node => rfl
    obtain ⟨w', D, e3, e4, e5⟩ := step_clone e2 hds (t := nil) (by simp [setA]) (S := S) (by simp [setA, Ne.symm hds, hs]) hnn
    refine ⟨w', _, ?_, e5, ?_⟩
    · simp only [TWorld.exec, e1, Res.bind]; exact e3
    · rw [vals_set, TOp.effect, hs, Option.map_some, e4, vals_set]
      funext u
      simp only [TVals.set, Option.map_some]
      split <;> rfl
  | copyAssign d s =>
    obtain ⟨hds, ⟨b', hb'⟩, b, hb, hne⟩ := hl
    obtain ⟨t, hd, -⟩ := hsome hb'
    obtain ⟨S, hs, rfl⟩ := hsome hb
    have hnn : S.isNil = false := by
      cases S with
      | nil => exact absurd rfl hne
      | node => rfl
    obtain ⟨w', D, e3, e4, e5⟩ := step_clone hw hds hd hs hnn
    refine ⟨w', _, e3, e5, ?_⟩
    rw [vals_set, TOp.effect, hs, Option.map_some, e4, Option.map_some]
  | moveCtor d s =>
    obtain ⟨hd, b, hb⟩ := hl
    have hd := hnone hd
    obtain ⟨S, hs, rfl⟩ := hsome hb
    have hds : d ≠ s := by rintro rfl; rw [hd] at hs; cases hs
    obtain ⟨e1, e2⟩ := step_fresh hw hd
    obtain ⟨w', D, e3, e4, e5⟩ := step_move e2 hds (t := nil) (by simp [setA]) (S := S) (by simp [setA, Ne.symm hds, hs])
    refine ⟨w', _, ?_, e5, ?_⟩
    · simp only [TWorld.exec, e1, Res.bind]; exact e3
    · rw [vals_set, vals_set, vals_set, TOp.effect, hs, Option.map_some, Option.map_some, Option.map_some, e4]
      funext u
      simp only [TVals.set, Option.map_some]
      split
      · rfl
      · split <;> rfl
  | moveAssign d s =>
    obtain ⟨⟨b', hb'⟩, b, hb⟩ := hl
    obtain ⟨t, hd, -⟩ := hsome hb'
    obtain ⟨S, hs, rfl⟩ := hsome hb
    by_cases hds : d = s
    · subst hds
      obtain ⟨w', e1, e2⟩ := step_self_move hw hd
      refine ⟨w', _, e1, e2, ?_⟩
      rw [vals_set, TOp.effect]
      funext u
      simp only [TVals.set, Option.map_some]
      split <;> rfl
    · obtain ⟨w', D, e3, e4, e5⟩ := step_move hw hds hd hs
      refine ⟨w', _, e3, e5, ?_⟩
      rw [vals_set, vals_set, TOp.effect, hs, Option.map_some, e4, Option.map_some]
      rfl
  | clear v =>
    obtain ⟨b, hb⟩ := hl
    obtain ⟨t, hv, rfl⟩ := hsome hb
    obtain ⟨h', e1, e2⟩ := step_clear hw hv
    refine ⟨_, _, ?_, e2, vals_set v _⟩
    simp only [TWorld.exec, TWorld.on, var_eq hw hv, Res.ok_bind, e1, Res.pure_eq]
  | destroy v =>
    obtain ⟨b, hb⟩ := hl
    obtain ⟨t, hv, rfl⟩ := hsome hb
    obtain ⟨h', e1, e2⟩ := step_clear hw hv
    have e3 := step_destroy e2 (v := v) (by simp [setA])
    refine ⟨_, _, ?_, e3, ?_⟩
    · simp only [TWorld.exec, TWorld.on, var_eq hw hv, Res.ok_bind, e1, Res.pure_eq, Res.bind]
    · rw [vals_set, vals_set, TOp.effect]
      funext u
      simp only [TVals.set]
      split <;> rfl

theorem run_legal (ops : List (TOp α)) : ∀ {w : TWorld α} {A : Nat → Option (ATree α)}, TInv w A →
    TVals.LegalProgram (fun v => (A v).map valueOf) ops →
    ∃ w' A', w.run ops = .ok w' ∧ TInv w' A' ∧ (fun v => (A' v).map valueOf) = TVals.after (fun v => (A v).map valueOf) ops := by
  induction ops with
  | nil => intro w A hw _; exact ⟨w, A, rfl, hw, rfl⟩
  | cons op ops ih =>
    intro w A hw hl
    obtain ⟨w1, A1, e1, hw1, e2⟩ := exec_legal hw op hl.1
    obtain ⟨w', A', e3, hw', e4⟩ := ih hw1 (by rw [e2]; exact hl.2)
    refine ⟨w', A', ?_, hw', by rw [e4, e2]; rfl⟩
    simp only [TWorld.run, e1, Res.bind]
    exact e3

/-- **C144.** Every program that creates, fills, copies, moves, clears and destroys any number of trees runs without reading or
deleting a deleted node; afterwards every variable points to the tree that it holds under value semantics — a copy equals its source and
does not change with it, a moved-from tree is empty — with the right counter, and every node that is not deleted belongs to exactly one
tree, where it is reached in exactly one way.  Partial: the source of a copy is not empty (`C144_bug_copy_empty`) and is not the
destination (`C144_bug_self_assign`). -/
theorem C144_histories_partial (ops : List (TOp α)) (h : TVals.LegalProgram (fun _ => none) ops) :
    ∃ w, TWorld.start.run ops = .ok w ∧
      (∀ v, TVals.after (fun _ => none) ops v = none → w.vars v = none) ∧
      (∀ v t, TVals.after (fun _ => none) ops v = some t →
        ∃ x, w.vars v = some x ∧ Points w.mem x.root t.root ∧ x.n = t.root.size) ∧
      ∀ a c, w.mem[a]? = some (some c) →
        ∃! q : Nat × Path, ∃ x, w.vars q.1 = some x ∧ navigate w.mem x.root q.2 = .ok (some a) := by
  obtain ⟨w, A, e1, hw, e2⟩ := run_legal ops start_inv h
  have e3 : ∀ v, TVals.after (fun _ => none) ops v = (A v).map valueOf := fun v => (congrFun e2 v).symm
  refine ⟨w, e1, ?_, ?_, ?_⟩
  · intro v hv
    rw [e3] at hv
    rw [hw.vars]
    cases hA : A v with
    | none => rfl
    | some t => rw [hA] at hv; simp at hv
  · intro v t hv
    rw [e3] at hv
    cases hA : A v with
    | none => rw [hA] at hv; simp at hv
    | some T =>
      rw [hA] at hv
      simp only [Option.map_some, Option.some.injEq] at hv
      subst hv
      refine ⟨treeVar T, by rw [hw.vars, hA]; rfl, rep_points T (hw.rep v T hA).1, ?_⟩
      simp [treeVar, valueOf, strip_size]
  · intro a c hc
    obtain ⟨v, T, hv, ha⟩ := hw.live a c hc
    obtain ⟨p, l, x, d, r, hp, hx⟩ := sub_of_mem T ha
    obtain ⟨hr, hn, -⟩ := hw.rep v T hv
    refine ⟨(v, p), ⟨treeVar T, by rw [hw.vars, hv]; rfl, ?_⟩, ?_⟩
    · have := navigate_rep T hr p (by rw [hp]; rfl)
      rw [hp, addr_node, hx] at this
      exact this
    · rintro ⟨u, q⟩ ⟨y, hy, hq⟩
      rw [hw.vars] at hy
      cases hu : A u with
      | none => rw [hu] at hy; simp at hy
      | some U =>
        rw [hu] at hy
        simp only [Option.map_some, Option.some.injEq] at hy
        subst hy
        obtain ⟨l', x', d', r', hq', hx'⟩ := navigate_inv U (hw.rep u U hu).1 q a hq
        have huv : u = v := by
          by_contra hne
          refine hw.disj u v U T hne hu hv a ?_ ha
          rw [← hx']
          exact mem_of_sub U q hq'
        subst huv
        rw [hv] at hu
        injection hu with hu
        subst hu
        rw [path_unique T hn q p hq' hp (hx'.trans hx.symm)]

/-- **C144.** When all the variables are destroyed every node is deleted (once: a second `delete` is undefined behaviour in the model). -/
theorem C144_no_leak_partial (ops : List (TOp α)) (h : TVals.LegalProgram (fun _ => none) ops)
    (hend : ∀ v, TVals.after (fun _ => none) ops v = none) :
    ∃ w, TWorld.start.run ops = .ok w ∧ ∀ (a : Nat) (c : Cell α), w.mem[a]? ≠ some (some c) := by
  obtain ⟨w, e1, e2, -, e3⟩ := C144_histories_partial ops h
  refine ⟨w, e1, fun a c hc => ?_⟩
  obtain ⟨q, ⟨x, hx, -⟩, -⟩ := e3 a c hc
  rw [e2 _ (hend _)] at hx
  cases hx

/-- A program that meets the hypotheses: a tree is built, copied, changed, moved; the copy keeps its value. -/
def sampleProgram : List (TOp Nat) :=
  [.makeRoot 0 5, .push (fun a b => decide (a < b)) 0 3, .push (fun a b => decide (a < b)) 0 8, .copyCtor 1 0,
    .pushAt 0 [true] false 4, .make 2, .moveAssign 2 0, .copyAssign 0 1]

example : TVals.LegalProgram (fun _ => none) sampleProgram ∧
    TVals.after (fun _ => none) sampleProgram 1 = some ⟨.node (.node .nil 3 1 .nil) 5 0 (.node .nil 8 1 .nil), 3⟩ ∧
    TVals.after (fun _ => none) sampleProgram 2 = some ⟨.node (.node .nil 3 1 (.node .nil 4 2 .nil)) 5 0 (.node .nil 8 1 .nil), 4⟩ ∧
    TVals.after (fun _ => none) sampleProgram 0 = TVals.after (fun _ => none) sampleProgram 1 := by
  refine ⟨⟨rfl, ⟨_, rfl⟩, ⟨_, rfl⟩, ⟨rfl, _, rfl, ?_⟩, ⟨_, rfl, ?_⟩, rfl, ⟨⟨_, rfl⟩, _, rfl⟩, ⟨by decide, ⟨_, rfl⟩, _, rfl, ?_⟩, trivial⟩,
    rfl, rfl, rfl⟩
  all_goals intro h; cases h

example : TVals.LegalProgram (fun _ => none) (sampleProgram ++ [.destroy 0, .destroy 1, .destroy 2]) ∧
    ∀ v, TVals.after (fun _ => none) (sampleProgram ++ [.destroy 0, .destroy 1, .destroy 2]) v = none := by
  refine ⟨⟨rfl, ⟨_, rfl⟩, ⟨_, rfl⟩, ⟨rfl, _, rfl, ?_⟩, ⟨_, rfl, ?_⟩, rfl, ⟨⟨_, rfl⟩, _, rfl⟩, ⟨by decide, ⟨_, rfl⟩, _, rfl, ?_⟩,
    ⟨_, rfl⟩, ⟨_, rfl⟩, ⟨_, rfl⟩, trivial⟩, ?_⟩
  · intro h; cases h
  · intro h; cases h
  · intro h; cases h
  · intro v
    rcases (by omega : v = 0 ∨ v = 1 ∨ v = 2 ∨ 3 ≤ v) with rfl | rfl | rfl | hv
    · rfl
    · rfl
    · rfl
    · have h0 : v ≠ 0 := by omega
      have h1 : v ≠ 1 := by omega
      have h2 : v ≠ 2 := by omega
      simp [sampleProgram, TVals.after, TOp.effect, TVals.set, h0, h1, h2]

/-- Assigning a tree to itself deletes all its nodes and then reads its null root: undefined behaviour, for every tree that is not empty. -/
theorem C144_bug_self_assign (ops : List (TOp α)) (h : TVals.LegalProgram (fun _ => none) ops) (v : Nat) (t : BT α)
    (hv : TVals.after (fun _ => none) ops v = some t) (hne : t.root ≠ .nil) :
    TWorld.start.run (ops ++ [.copyAssign v v]) = .ub := by
  obtain ⟨w, A, e1, hw, e2⟩ := run_legal ops start_inv h
  have e3 : (A v).map valueOf = some t := (congrFun e2 v).trans hv
  have hrun : ∀ (l : List (TOp α)) (w0 w1 : TWorld α) (op : TOp α), w0.run l = .ok w1 → w0.run (l ++ [op]) = w1.exec op := by
    intro l
    induction l with
    | nil =>
      intro w0 w1 op h
      simp only [TWorld.run, Res.ok.injEq] at h
      subst h
      simp only [List.nil_append, TWorld.run]
      cases w0.exec op <;> rfl
    | cons o l ih =>
      intro w0 w1 op h
      simp only [List.cons_append, TWorld.run] at h ⊢
      cases ho : w0.exec o with
      | ok w2 => rw [ho] at h; simp only [Res.bind] at h ⊢; exact ih w2 w1 op h
      | throws => rw [ho] at h; simp [Res.bind] at h
      | ub => rw [ho] at h; simp [Res.bind] at h
  rw [hrun ops _ w _ e1]
  cases hA : A v with
  | none => rw [hA] at e3; simp at e3
  | some T =>
    rw [hA] at e3
    simp only [Option.map_some, Option.some.injEq] at e3
    subst e3
    obtain ⟨h', g1, g2⟩ := step_clear hw hA
    have hvn := var_eq g2 (v := v) (t := nil) (by simp [setA])
    have hnz : (treeVar T).n ≠ 0 := by
      cases T with
      | nil => exact absurd rfl hne
      | node => simp [treeVar, size]
    simp only [TWorld.exec, cloneTree, var_eq hw hA, Res.ok_bind, if_neg hnz, g1, hvn]
    rfl

/-- Copying an empty tree throws, so that an empty tree cannot be returned or stored by value. -/
theorem C144_bug_copy_empty : (TWorld.start : TWorld α).run [.make 0, .copyCtor 1 0] = .throws := rfl

/-- After a move the children of the root have a parent pointer to the deleted root of the source. -/
theorem C144_bug_parent (x y : α) : ∃ (w : TWorld α) (c d : Cell α) (a b : Nat),
    TWorld.start.run [.makeRoot 0 x, .pushAt 0 [] true y, .moveCtor 1 0] = .ok w ∧ w.vars 1 = some ⟨some a, 2⟩ ∧
      w.mem[a]? = some (some c) ∧ c.l = some b ∧ w.mem[b]? = some (some d) ∧ d.parent ≠ some a ∧ w.mem.get d.parent = .ub :=
  ⟨_, _, _, 2, 1, rfl, rfl, rfl, rfl, rfl, by simp [TWorld.start], rfl⟩

end Fdapde.BinTree
