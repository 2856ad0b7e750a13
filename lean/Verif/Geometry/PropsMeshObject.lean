import Verif.Geometry.PropsSearch
import Verif.Geometry.MeshObjectSpec
import Verif.FEM.PropsSpace
/-
Property C124: requests of point location made on mesh objects that are copied, assigned, moved and destroyed.
-/
namespace Fdapde.Geometry
open KDTree BinTree
variable {M P Q A : Type}

/-! ### Histories -/

/-- The relation between the objects and their values kept by careful programs. -/
structure Sim (h : Heap M) (v : Values M) (s : Source) : Prop where
  dead : ∀ x, h x = none ↔ v x = none
  val : ∀ x o, h x = some o → v x = some o.mesh
  src : ∀ x o m, h x = some o → o.mesh = some m → s x = o.pol.map (fun p => p.home)
  noSrc : ∀ x, (∀ m, v x ≠ some (some m)) → s x = none
  pol : ∀ x o m p, h x = some o → o.mesh = some m → o.pol = some p → p.built = some m ∧ v p.home = some (some m)

theorem Sim.empty : Sim (fun _ => none : Heap M) (fun _ => none) (fun _ => none) where
  dead := by simp
  val := by simp
  src := by simp
  noSrc := by simp
  pol := by simp

theorem Sim.live {h : Heap M} {v : Values M} {s : Source} (S : Sim h v s) {x : Nat} {m : M} (hv : v x = some (some m)) :
    ∃ p, h x = some ⟨some m, p⟩ := by
  cases ho : h x with
  | none => rw [(S.dead x).1 ho] at hv; cases hv
  | some o =>
    have := S.val x o ho
    rw [hv] at this
    obtain ⟨a, b⟩ := o
    simp only [Option.some.injEq] at this
    exact ⟨b, by rw [this]⟩

theorem Sim.exists {h : Heap M} {v : Values M} {s : Source} (S : Sim h v s) {x : Nat} (hv : v x ≠ Option.none) : ∃ o, h x = some o := by
  cases ho : h x with
  | none => exact absurd ((S.dead x).1 ho) hv
  | some o => exact ⟨o, rfl⟩

/-- The policy of an object with a value can be copied. -/
theorem Sim.copyPolicy {h : Heap M} {v : Values M} {s : Source} (S : Sim h v s) {x : Nat} {m : M} {p : Option (Policy M)}
    (ho : h x = some ⟨some m, p⟩) : copyPolicy p = .ok p := by
  cases p with
  | none => rfl
  | some p =>
    have := (S.pol x _ m p ho rfl rfl).1
    obtain ⟨b, a⟩ := p
    simp only at this
    subst this
    rfl

/-- Changing one object keeps the relation, if the new content is right and no other object refers to it. -/
theorem Sim.update {h : Heap M} {v : Values M} {s : Source} (S : Sim h v s) (x : Nat) (o : Option (Obj M)) (t : Option Nat)
    (hx : Unshared s x ∨ ∃ m, v x = some (some m) ∧ ∃ p, o = some ⟨some m, p⟩)
    (h1 : ∀ o', o = some o' → ∀ m, o'.mesh = some m → t = o'.pol.map fun p => p.home)
    (h2 : (∀ m p, o ≠ some ⟨some m, p⟩) → t = none)
    (h3 : ∀ o' m p, o = some o' → o'.mesh = some m → o'.pol = some p → p.built = some m ∧ (p.home = x ∨ v p.home = some (some m))) :
    Sim (h.set x o) (v.set x (o.map fun o' => o'.mesh)) (s.set x t) where
  dead y := by
    by_cases e : y = x
    · subst e
      simp only [Heap.set, Values.set, if_true]
      cases o <;> simp
    · simpa only [Heap.set, Values.set, if_neg e] using S.dead y
  val y o' ho := by
    by_cases e : y = x
    · subst e
      simp only [Heap.set, Values.set, if_true] at ho ⊢
      rw [ho]; rfl
    · simp only [Heap.set, Values.set, if_neg e] at ho ⊢
      exact S.val y o' ho
  src y o' m ho hm := by
    by_cases e : y = x
    · subst e
      simp only [Heap.set, Source.set, if_true] at ho ⊢
      exact h1 o' ho m hm
    · simp only [Heap.set, Source.set, if_neg e] at ho ⊢
      exact S.src y o' m ho hm
  noSrc y hy := by
    by_cases e : y = x
    · subst e
      simp only [Values.set, Source.set, if_true] at hy ⊢
      exact h2 fun m p hp => hy m (by rw [hp]; rfl)
    · simp only [Values.set, Source.set, if_neg e] at hy ⊢
      exact S.noSrc y hy
  pol y o' m p ho hm hp := by
    by_cases e : y = x
    · subst e
      simp only [Heap.set, if_true] at ho
      obtain ⟨a, b⟩ := h3 o' m p ho hm hp
      refine ⟨a, ?_⟩
      simp only [Values.set]
      by_cases e2 : p.home = y
      · rw [if_pos e2, ho]
        simp [hm]
      · rw [if_neg e2]
        exact b.resolve_left e2
    · simp only [Heap.set, if_neg e] at ho
      obtain ⟨a, b⟩ := S.pol y o' m p ho hm hp
      refine ⟨a, ?_⟩
      simp only [Values.set]
      by_cases e2 : p.home = x
      · rw [if_pos e2]
        rcases hx with hx | ⟨m', hv, p', ho'⟩
        · exfalso
          apply hx y e
          rw [S.src y o' m ho hm, hp]
          simp [e2]
        · rw [e2, hv] at b
          rw [ho', ← b]
          rfl
      · rw [if_neg e2]
        exact b

/-- What a request returns when it is made on an object with its own search structure. -/
def Right (point : M → Q → Res P) (search : M → M → P → Res A) (mq : M × Q) (a : A) : Prop :=
  ∃ p, point mq.1 mq.2 = .ok p ∧ search mq.1 mq.1 p = .ok a

theorem dead_unshared {h : Heap M} {v : Values M} {s : Source} (S : Sim h v s) {x : Nat} (hv : ∀ m, v x ≠ some (some m)) : Unshared s x := by
  intro z _ hz
  by_cases hm : ∃ m, v z = some (some m)
  · obtain ⟨m, hm⟩ := hm
    obtain ⟨p, ho⟩ := S.live hm
    have h1 := S.src z _ m ho rfl
    rw [hz] at h1
    cases p with
    | none => simp at h1
    | some p =>
      simp only [Option.map_some, Option.some.injEq] at h1
      have := (S.pol z _ m p ho rfl rfl).2
      rw [← h1] at this
      exact hv m this
  · push Not at hm
    rw [S.noSrc z hm] at hz
    cases hz

/-- One step of a careful program. -/
theorem step_sim (point : M → Q → Res P) (search : M → M → P → Res A) {h : Heap M} {v : Values M} {s : Source} (S : Sim h v s) (op : MOp M Q)
    (hu : Usable v op) (hc : Careful s op) (hg : ∀ mq ∈ question v op, ∃ a, Right point search mq a) :
    ∃ h' a, op.exec point search h = .ok (h', a) ∧ Sim h' (valueStep v op) (sourceStep s op) ∧
      List.Forall₂ (Right point search) (question v op) a.toList := by
  cases op with
  | construct x m =>
    have hx : h x = none := (S.dead x).2 hu
    refine ⟨h.set x (some ⟨some m, none⟩), none, ?_, ?_, .nil⟩
    · simp [MOp.exec, Heap.fresh, hx]
    · have := S.update x (some ⟨some m, none⟩) none (.inl (dead_unshared S (by rw [hu]; simp)))
        (fun o' ho m' hm => by cases ho; rfl) (fun _ => rfl) (fun o' m' p ho hm hp => by cases ho; cases hp)
      exact this
  | copy x y =>
    obtain ⟨hx, m, hy⟩ := hu
    obtain ⟨p, ho⟩ := S.live hy
    have hd : h x = none := (S.dead x).2 hx
    refine ⟨h.set x (some ⟨some m, p⟩), none, ?_, ?_, .nil⟩
    · simp [MOp.exec, Heap.get, Heap.fresh, hd, ho, Res.ofOptionUB, S.copyPolicy ho]
    · have := S.update x (some ⟨some m, p⟩) (s y) (.inl (dead_unshared S (by rw [hx]; simp)))
        (fun o' ho' m' hm => by cases ho'; exact S.src y _ m ho rfl) (fun hn => absurd rfl (hn m p))
        (fun o' m' q ho' hm hq => by
          cases ho'; cases hm
          obtain ⟨a, b⟩ := S.pol y _ m q ho rfl hq
          exact ⟨a, .inr b⟩)
      simp only [Option.map_some] at this
      rw [← hy] at this
      exact this
  | assign x y =>
    obtain ⟨hx, m, hy⟩ := hu
    obtain ⟨hc1, hc3⟩ := hc
    obtain ⟨p, ho⟩ := S.live hy
    obtain ⟨o', ho'⟩ := S.exists hx
    have hp : assignPolicy x y p = .ok p := by
      unfold assignPolicy
      by_cases e : x = y
      · subst e
        have h1 := S.src x _ m ho rfl
        rw [hc3 rfl] at h1
        cases p with
        | none => simp [selfPolicy]
        | some p => simp at h1
      · rw [if_neg e, S.copyPolicy ho]
    refine ⟨h.set x (some ⟨some m, p⟩), none, ?_, ?_, .nil⟩
    · simp [MOp.exec, Heap.get, ho, ho', Res.ofOptionUB, hp]
    · have := S.update x (some ⟨some m, p⟩) (s y) (.inl hc1)
        (fun o' ho' m' hm => by cases ho'; exact S.src y _ m ho rfl) (fun hn => absurd rfl (hn m p))
        (fun o' m' q ho' hm hq => by
          cases ho'; cases hm
          obtain ⟨a, b⟩ := S.pol y _ m q ho rfl hq
          exact ⟨a, .inr b⟩)
      simp only [Option.map_some] at this
      rw [← hy] at this
      exact this
  | move x y =>
    obtain ⟨hx, m, hy⟩ := hu
    obtain ⟨hc1, hc2⟩ := hc
    obtain ⟨p, ho⟩ := S.live hy
    have hd : h x = none := (S.dead x).2 hx
    have hxy : y ≠ x := by rintro rfl; rw [hx] at hy; cases hy
    refine ⟨(h.set x (some ⟨some m, p⟩)).set y (some (emptied ⟨some m, p⟩)), none, ?_, ?_, .nil⟩
    · simp [MOp.exec, Heap.get, Heap.fresh, hd, ho, Res.ofOptionUB]
    · have S1 := S.update x (some ⟨some m, p⟩) (s y) (.inl (dead_unshared S (by rw [hx]; simp)))
        (fun o' ho' m' hm => by cases ho'; exact S.src y _ m ho rfl) (fun hn => absurd rfl (hn m p))
        (fun o' m' q ho' hm hq => by
          cases ho'; cases hm
          obtain ⟨a, b⟩ := S.pol y _ m q ho rfl hq
          exact ⟨a, .inr b⟩)
      have S2 := S1.update y (some (emptied ⟨some m, p⟩)) none (.inl (by
          intro z hz
          simp only [Source.set]
          by_cases e : z = x
          · rw [if_pos e]; exact hc2
          · rw [if_neg e]; exact hc1 z hz))
        (fun o' ho' m' hm => by cases ho'; simp [emptied] at hm) (fun _ => rfl)
        (fun o' m' q ho' hm hq => by cases ho'; simp [emptied] at hm)
      simp only [Option.map_some] at S2
      rw [← hy] at S2
      exact S2
  | moveAssign x y =>
    obtain ⟨hne, hx, m, hy⟩ := hu
    obtain ⟨hc0, hc1, hc2⟩ := hc
    obtain ⟨p, ho⟩ := S.live hy
    obtain ⟨o', ho'⟩ := S.exists hx
    refine ⟨(h.set x (some ⟨some m, p⟩)).set y (some (emptied ⟨some m, p⟩)), none, ?_, ?_, .nil⟩
    · simp [MOp.exec, Heap.get, ho, ho', Res.ofOptionUB, hne]
    · have S1 := S.update x (some ⟨some m, p⟩) (s y) (.inl hc0)
        (fun o' ho' m' hm => by cases ho'; exact S.src y _ m ho rfl) (fun hn => absurd rfl (hn m p))
        (fun o' m' q ho' hm hq => by
          cases ho'; cases hm
          obtain ⟨a, b⟩ := S.pol y _ m q ho rfl hq
          exact ⟨a, .inr b⟩)
      have S2 := S1.update y (some (emptied ⟨some m, p⟩)) none (.inl (by
          intro z hz
          simp only [Source.set]
          by_cases e : z = x
          · rw [if_pos e]; exact hc2
          · rw [if_neg e]; exact hc1 z hz))
        (fun o' ho' m' hm => by cases ho'; simp [emptied] at hm) (fun _ => rfl)
        (fun o' m' q ho' hm hq => by cases ho'; simp [emptied] at hm)
      simp only [Option.map_some] at S2
      rw [← hy] at S2
      exact S2
  | destroy x =>
    obtain ⟨o', ho'⟩ := S.exists hu
    refine ⟨h.set x none, none, ?_, ?_, .nil⟩
    · simp [MOp.exec, Heap.get, ho', Res.ofOptionUB]
    · exact S.update x none none (.inl hc) (fun o' ho' => by cases ho') (fun _ => rfl) (fun o' m' q ho' => by cases ho')
  | ask x q =>
    obtain ⟨m, hv⟩ := hu
    obtain ⟨p, ho⟩ := S.live hv
    have hq : question v (.ask x q : MOp M Q) = [(m, q)] := by simp [question, hv]
    obtain ⟨a, pt, hpt, ha⟩ := hg (m, q) (by rw [hq]; simp)
    have he : (ensure x m p).built = some m ∧ ((ensure x m p).home = x ∨ v (ensure x m p).home = some (some m)) := by
      cases p with
      | none => exact ⟨rfl, .inl rfl⟩
      | some p =>
        obtain ⟨a, b⟩ := S.pol x _ m p ho rfl rfl
        exact ⟨a, .inr b⟩
    have S1 := S.update x (some ⟨some m, some (ensure x m p)⟩) (some ((s x).getD x)) (.inr ⟨m, hv, _, rfl⟩)
      (fun o' ho' m' hm => by
        cases ho'
        rw [S.src x _ m ho rfl]
        cases p <;> rfl) (fun hn => absurd rfl (hn m _))
      (fun o' m' r ho' hm hr => by
        cases ho'; cases hm; cases hr
        exact he)
    have hset : (v.set x (Option.map (fun o' : Obj M => o'.mesh) (some ⟨some m, some (ensure x m p)⟩))) = v := by
      funext y
      simp only [Values.set, Option.map_some]
      by_cases e : y = x
      · rw [if_pos e, e, hv]
      · rw [if_neg e]
    refine ⟨h.set x (some ⟨some m, some (ensure x m p)⟩), some a, ?_, ?_, ?_⟩
    · have hh : ∃ pp, (h.set x (some ⟨some m, some (ensure x m p)⟩)) (ensure x m p).home = some ⟨some m, pp⟩ := by
        simp only [Heap.set]
        by_cases e : (ensure x m p).home = x
        · exact ⟨_, by rw [if_pos e]⟩
        · rw [if_neg e]
          exact S.live (he.2.resolve_left e)
      obtain ⟨pp, hh⟩ := hh
      have hans : (ensure x m p).answer search (h.set x (some ⟨some m, some (ensure x m p)⟩)) pt = .ok a := by
        rw [Policy.answer, he.1, Heap.get, hh]
        exact ha
      have hpt' : point m q = .ok pt := hpt
      simp [MOp.exec, Heap.get, ho, Res.ofOptionUB, hpt', hans]
    · rw [hset] at S1
      exact S1
    · rw [hq]
      exact .cons ⟨pt, hpt, ha⟩ .nil

theorem forall₂_append {α β : Type} {R : α → β → Prop} {l l' : List α} {r r' : List β} (h : List.Forall₂ R l r) (h' : List.Forall₂ R l' r') :
    List.Forall₂ R (l ++ l') (r ++ r') := by
  induction h with
  | nil => exact h'
  | cons a _ ih => exact .cons a ih

theorem run_sim (point : M → Q → Res P) (search : M → M → P → Res A) (ops : List (MOp M Q)) :
    ∀ (h : Heap M) (v : Values M) (s : Source) (acc : List A), Sim h v s → UsableAll v ops → CarefulAll s ops →
      (∀ mq ∈ questions v ops, ∃ a, Right point search mq a) →
      ∃ h' l, foldRes (fun (s : Heap M × List A) op => do
        let r ← MOp.exec point search s.1 op
        return (r.1, s.2 ++ r.2.toList)) (h, acc) ops = .ok (h', acc ++ l) ∧ List.Forall₂ (Right point search) (questions v ops) l := by
  induction ops with
  | nil => intro h v s acc _ _ _ _; exact ⟨h, [], by simp, .nil⟩
  | cons op ops ih =>
    intro h v s acc S hu hc hg
    obtain ⟨h', a, e1, S', hr⟩ := step_sim point search S op hu.1 hc.1 (fun mq hm => hg mq (by simp [questions, hm]))
    obtain ⟨h'', l, e2, hr'⟩ := ih h' _ _ (acc ++ a.toList) S' hu.2 hc.2 (fun mq hm => hg mq (by simp [questions, hm]))
    refine ⟨h'', a.toList ++ l, ?_, forall₂_append hr hr'⟩
    rw [foldRes_cons, e1]
    show foldRes _ (h', acc ++ a.toList) ops = _
    rw [e2, List.append_assoc]

/-- **C124 (partial).** In every program that creates, copies, assigns, moves and destroys meshes and asks them for locations, each request is
answered as a new mesh with the value of the object would answer it, provided the program is careful: an object that has been asked is
neither moved from nor, while copies of it are used, changed or destroyed.  Missing: programs that are not (`C124_bug_*`). -/
theorem C124_history_partial (point : M → Q → Res P) (search : M → M → P → Res A) (ops : List (MOp M Q)) (hu : UsableAll (fun _ => none) ops)
    (hc : CarefulAll (fun _ => none) ops) (hg : ∀ mq ∈ questions (fun _ => none) ops, ∃ a, Right point search mq a) :
    ∃ h l, runOps point search ops = .ok (h, l) ∧ List.Forall₂ (Right point search) (questions (fun _ => none) ops) l := by
  obtain ⟨h, l, e, r⟩ := run_sim point search ops _ _ _ [] Sim.empty hu hc hg
  exact ⟨h, l, e, r⟩

/-! ### What goes wrong otherwise -/

theorem ask_first (point : M → Q → Res P) (search : M → M → P → Res A) (m : M) (q : Q) (p : P) (a : A) (hp : point m q = .ok p)
    (ha : search m m p = .ok a) (h : Heap M) (x : Nat) (hx : h x = some ⟨some m, none⟩) :
    MOp.exec point search h (.ask x q) = .ok (h.set x (some ⟨some m, some ⟨some m, x⟩⟩), some a) := by
  simp [MOp.exec, Heap.get, hx, Res.ofOptionUB, hp, ensure, Policy.answer, Heap.set, ha]

/-- Bug: a copy of a mesh that has been asked for a location refers to the original: once the original is destroyed (a mesh returned by value, an
element of a `std::vector` that has grown) a request made on the copy reads freed memory. -/
theorem C124_bug_copy (point : M → Q → Res P) (search : M → M → P → Res A) (m : M) (q : Q) (p : P) (a : A) (hp : point m q = .ok p)
    (ha : search m m p = .ok a) :
    let ops : List (MOp M Q) := [.construct 0 m, .ask 0 q, .copy 1 0, .destroy 0, .ask 1 q]
    UsableAll (fun _ => none) ops ∧ runOps point search ops = .ub := by
  refine ⟨?_, ?_⟩
  · simp [UsableAll, Usable, valueStep, Values.set]
  · simp [runOps, foldRes_cons, MOp.exec, Heap.fresh, Heap.get, Res.ofOptionUB, hp, ensure, Policy.answer, Heap.set, ha, copyPolicy]

/-- Bug: a mesh that has been asked for a location and is then moved (returned by value, element of a `std::vector` that grows) refers to the object it
was moved from, whose matrices are empty: a request made on it reads them out of range. -/
theorem C124_bug_move (point : M → Q → Res P) (search : M → M → P → Res A) (m : M) (q : Q) (p : P) (a : A) (hp : point m q = .ok p)
    (ha : search m m p = .ok a) :
    let ops : List (MOp M Q) := [.construct 0 m, .ask 0 q, .move 1 0, .ask 1 q]
    UsableAll (fun _ => none) ops ∧ runOps point search ops = .ub := by
  refine ⟨?_, ?_⟩
  · simp [UsableAll, Usable, valueStep, Values.set]
  · simp [runOps, foldRes_cons, MOp.exec, Heap.fresh, Heap.get, Res.ofOptionUB, hp, ensure, Policy.answer, Heap.set, ha, emptied]

/-- Bug: assigning a mesh that has been asked for a location to itself is undefined. -/
theorem C124_bug_self_assign (point : M → Q → Res P) (search : M → M → P → Res A) (m : M) (q : Q) (p : P) (a : A) (hp : point m q = .ok p)
    (ha : search m m p = .ok a) :
    let ops : List (MOp M Q) := [.construct 0 m, .ask 0 q, .assign 0 0]
    UsableAll (fun _ => none) ops ∧ runOps point search ops = .ub := by
  refine ⟨?_, ?_⟩
  · simp [UsableAll, Usable, valueStep, Values.set]
  · simp [runOps, foldRes_cons, MOp.exec, Heap.fresh, Heap.get, Res.ofOptionUB, hp, ensure, Policy.answer, Heap.set, ha, assignPolicy, selfPolicy]

/-- Without the copy of an asked mesh being used, all is well: the hypotheses of the theorem are met by a program that copies, asks the copy and
the original, then destroys the copy and moves a mesh not yet asked. -/
example (m m' : M) (q : Q) : let ops : List (MOp M Q) := [.construct 0 m, .ask 0 q, .copy 1 0, .ask 1 q, .destroy 1, .construct 2 m', .move 3 2,
      .ask 3 q, .assign 0 3, .ask 0 q]
    UsableAll (fun _ => none) ops ∧ CarefulAll (fun _ => none) ops ∧ questions (fun _ => none) ops = [(m, q), (m, q), (m', q), (m', q)] := by
  refine ⟨?_, ?_, ?_⟩
  · simp [UsableAll, Usable, valueStep, Values.set]
  · simp only [CarefulAll, Careful, sourceStep, Source.set, Unshared]
    simp
    refine ⟨?_, ?_, ?_⟩ <;> intro z _ <;> split_ifs <;> simp_all
  · simp [questions, question, valueStep, Values.set]

/-! ### Triangulations -/

section
variable {N : Nat}
open FEM Triang

theorem foldl_min (f : Nat → ℝ) (l : List Nat) (a : ℝ) : l.foldl (fun a i => min a (f i)) a ≤ a ∧ ∀ i ∈ l, l.foldl (fun a i => min a (f i)) a ≤ f i := by
  induction l generalizing a with
  | nil => simp
  | cons x l ih =>
    obtain ⟨h1, h2⟩ := ih (min a (f x))
    rw [List.foldl_cons]
    refine ⟨h1.trans (min_le_left _ _), fun i hi => ?_⟩
    rcases List.mem_cons.1 hi with rfl | hi
    · exact h1.trans (min_le_right _ _)
    · exact h2 i hi

theorem foldl_max (f : Nat → ℝ) (l : List Nat) (a : ℝ) : a ≤ l.foldl (fun a i => max a (f i)) a ∧ ∀ i ∈ l, f i ≤ l.foldl (fun a i => max a (f i)) a := by
  induction l generalizing a with
  | nil => simp
  | cons x l ih =>
    obtain ⟨h1, h2⟩ := ih (max a (f x))
    rw [List.foldl_cons]
    refine ⟨(le_max_left _ _).trans h1, fun i hi => ?_⟩
    rcases List.mem_cons.1 hi with rfl | hi
    · exact (le_max_right _ _).trans h1
    · exact h2 i hi

theorem valid_nondeg {m : TMesh N N} (hm : m.Valid) (c : Nat) (hc : c < m.n) : (m.view.cell c).Nondeg := hm.2.2 c hc

theorem region_eq (m : TMesh N N) (c : Nat) : convexHull ℝ (Set.range (m.view.cell c).coords) = region (N + 1) m.cells m.X c := by
  unfold region
  congr 1
  ext x
  constructor
  · rintro ⟨v, rfl⟩
    exact ⟨v, v.2, rfl⟩
  · rintro ⟨v, hv, rfl⟩
    exact ⟨⟨v, hv⟩, rfl⟩

/-- A triangulation with a proper cell is not flat, and its range contains its nodes. -/
theorem valid_ok {m : TMesh N N} (hm : m.Valid) : m.view.Ok where
  pos := hm.1
  nodes i hi v k := by
    have hv := hm.2.1 i hi v v.2
    exact ⟨(foldl_min (fun i => m.X i k) _ _).2 _ (List.mem_range.2 hv), (foldl_max (fun i => m.X i k) _ _).2 _ (List.mem_range.2 hv)⟩
  flat k := by
    by_contra hcon
    have hle : m.view.hi k ≤ m.view.lo k := not_lt.1 hcon
    have hnode : ∀ v, (m.view.cell 0).coords v k = m.view.lo k := by
      intro v
      have hv := hm.2.1 0 hm.1 v v.2
      have h1 := (foldl_min (fun i => m.X i k) _ (m.X 0 k)).2 _ (List.mem_range.2 hv)
      have h2 := (foldl_max (fun i => m.X i k) _ (m.X 0 k)).2 _ (List.mem_range.2 hv)
      exact le_antisymm (h2.trans hle) h1
    have h := congrFun (C42_reconstruct_full (valid_nondeg hm 0 hm.1) (fun _ => m.view.lo k + 1)) k
    rw [Finset.sum_apply] at h
    simp only [Pi.smul_apply, smul_eq_mul, hnode] at h
    rw [← Finset.sum_mul, C42_sum_one] at h
    linarith

theorem mixedQuery_self (b h : SMesh N N) (hl : h.lo = b.lo) (p : Vec N) : mixedQuery b h p = b.query p := by
  unfold mixedQuery SMesh.query SMesh.scale
  rw [hl]

/-- The candidates when the range of the mesh at the stored address is that of the mesh the tree was built from. -/
theorem mixedCandidates_eq {nth ord} {b h : SMesh N N} (hl : h.lo = b.lo) {p : Vec N} {l : List Nat} (hb : b.candidates nth ord p = some (.ok l)) :
    (mixedCandidates nth ord b h p).getD .ub = .ok l := by
  unfold SMesh.candidates at hb
  unfold mixedCandidates
  rw [mixedQuery_self b h hl]
  cases h1 : build nth b.data (2 * N) b.n with
  | none => rw [h1] at hb; cases hb
  | some r =>
    rw [h1] at hb
    cases r with
    | throws => simp at hb
    | ub => simp at hb
    | ok t =>
      simp only at hb
      cases h2 : rangeSearch b.data (2 * N) (b.query p) t b.n with
      | none => rw [h2] at hb; cases hb
      | some r =>
        rw [h2] at hb
        cases r with
        | throws => simp at hb
        | ub => simp at hb
        | ok l' =>
          simp only [Option.some.injEq, Res.ok.injEq] at hb
          simp [h2, hb]

theorem firstHit_eq (h : SMesh N N) (eps : ℝ) (p : Vec N) (l : List Nat) (hl : ∀ i ∈ l, i < h.n) : firstHit h eps p l = .ok (scanFirst (h.hit eps p) l) := by
  induction l with
  | nil => rfl
  | cons x l ih =>
    rw [firstHit, tryCell, if_pos (hl x (by simp)), Res.ok_bind, scanFirst, ih fun i hi => hl i (by simp [hi])]
    split_ifs <;> rfl

theorem allHits_eq (h : SMesh N N) (eps : ℝ) (p : Vec N) (l : List Nat) (hl : ∀ i ∈ l, i < h.n) : allHits h eps p l = .ok (l.filter (h.hit eps p)) := by
  unfold allHits
  obtain ⟨s, hs, is⟩ := foldRes_inv (fun (acc : List Nat) id => do
      let b ← tryCell h eps p id
      return if b then acc ++ [id] else acc) (fun done (acc : List Nat) => acc = done.filter (h.hit eps p)) l
    (by
      intro done i rest acc hd hacc
      have hi : i < h.n := hl i (by rw [hd]; simp)
      refine ⟨_, by rw [tryCell, if_pos hi, Res.ok_bind]; rfl, ?_⟩
      rw [List.filter_append, hacc]
      by_cases e : h.hit eps p i = true
      · simp [e]
      · simp [e]) [] rfl
  rw [hs, is]

theorem self_locate {m : TMesh N N} (hm : m.Valid) (hN : 0 < N) {nth} (hnth : NthContract nth) {ord : List Nat → List Nat} (hord : ∀ l, (ord l).Perm l)
    (p : Vec N) : ∃ i : Int, mixedLocate nth ord 0 m.view m.view p = .ok i ∧
      ((i = -1 ∧ p ∉ domain (N + 1) m.n m.cells m.X) ∨ ∃ c < m.n, i = (c : Int) ∧ p ∈ region (N + 1) m.cells m.X c) := by
  obtain ⟨l, h1, _, h3⟩ := candidates_spec m.view (valid_ok hm) hN nth hnth ord hord p
  have hlt : ∀ i ∈ l, i < m.view.n := fun i hi => ((h3 i).1 hi).1
  have e : mixedLocate nth ord 0 m.view m.view p = .ok (scanFirst (m.view.hit 0 p) l) := by
    rw [mixedLocate, mixedCandidates_eq rfl h1, Res.ok_bind, firstHit_eq _ _ _ _ hlt]
  refine ⟨_, e, ?_⟩
  have e' : m.view.locate nth ord 0 p = some (.ok (scanFirst (m.view.hit 0 p) l)) := by simp only [SMesh.locate, h1]
  rcases C48_locate_exact m.view (valid_ok hm) hN (fun i hi => valid_nondeg hm i hi) nth hnth ord hord p with ⟨h4, h5⟩ | ⟨i, hi, h4, h5⟩
  · left
    rw [e'] at h4
    refine ⟨Res.ok.inj (Option.some.inj h4), fun hd => ?_⟩
    unfold domain at hd
    simp only [Set.mem_iUnion] at hd
    obtain ⟨c, hc, hd⟩ := hd
    exact h5 c hc (by rw [region_eq]; exact hd)
  · right
    rw [e'] at h4
    exact ⟨i, hi, Res.ok.inj (Option.some.inj h4), by rw [← region_eq]; exact h5⟩

/-- In a conforming triangulation the cells that contain a vertex are those that have it as vertex. -/
theorem vertex_cells {m : TMesh N N} (hm : m.Valid) (hf : Conforming (N + 1) m.n m.cells m.X) {id : Nat} (hid : ∃ c < m.n, ∃ v < N + 1, m.cells c v = id)
    (c : Nat) (hc : c < m.n) : m.X id ∈ region (N + 1) m.cells m.X c ↔ ∃ v < N + 1, m.cells c v = id := by
  constructor
  · intro h
    obtain ⟨c', hc', v, hv, rfl⟩ := hid
    by_contra hcon
    push Not at hcon
    have h' : m.X (m.cells c' v) ∈ region (N + 1) m.cells m.X c' := subset_convexHull ℝ _ ⟨v, hv, rfl⟩
    have e := congrFun (wt_same hm.2.2 hf hc hc' h h') (m.cells c' v)
    rw [wt_other _ hcon, show m.cells c' v = m.cells c' (⟨v, hv⟩ : Fin (N + 1)) from rfl, wt_node hm.2.2 hc'] at e
    have := congrFun (C42_vertex (S := cellOf N m.cells m.X c') (hm.2.2 c' hc') ⟨v, hv⟩) ⟨v, hv⟩
    rw [Pi.single_eq_same] at this
    change 0 = (cellOf N m.cells m.X c').bary (m.X (m.cells c' v)) ⟨v, hv⟩ at e
    change (cellOf N m.cells m.X c').bary (m.X (m.cells c' v)) ⟨v, hv⟩ = 1 at this
    rw [this] at e
    norm_num at e
  · rintro ⟨v, hv, rfl⟩
    exact subset_convexHull ℝ _ ⟨v, hv, rfl⟩

theorem self_patch {m : TMesh N N} (hm : m.Valid) (hN : 0 < N) {nth} (hnth : NthContract nth) {ord : List Nat → List Nat} (hord : ∀ l, (ord l).Perm l)
    (p : Vec N) : ∃ l, mixedAll nth ord 0 m.view m.view p = .ok l ∧ l.Nodup ∧ ∀ c, c ∈ l ↔ c < m.n ∧ p ∈ region (N + 1) m.cells m.X c := by
  obtain ⟨l, h1, _, h3⟩ := candidates_spec m.view (valid_ok hm) hN nth hnth ord hord p
  have hlt : ∀ i ∈ l, i < m.view.n := fun i hi => ((h3 i).1 hi).1
  have e : mixedAll nth ord 0 m.view m.view p = .ok (l.filter (m.view.hit 0 p)) := by
    rw [mixedAll, mixedCandidates_eq rfl h1, Res.ok_bind, allHits_eq _ _ _ _ hlt]
  obtain ⟨l', h4, h5, h6⟩ := C48_all_locate_exact m.view (valid_ok hm) hN (fun i hi => valid_nondeg hm i hi) nth hnth ord hord p
  have e' : m.view.allLocate nth ord 0 p = some (.ok (l.filter (m.view.hit 0 p))) := by simp only [SMesh.allLocate, h1, scanAll_eq, List.nil_append]
  rw [e'] at h4
  have := Res.ok.inj (Option.some.inj h4)
  refine ⟨_, e, this ▸ h5, fun c => ?_⟩
  rw [this, h6 c, region_eq]
  rfl

/-- A mesh which is the only one of the program answers all sensible requests correctly. -/
theorem self_answer {m : TMesh N N} (hm : m.Valid) (hN : 0 < N) {nth} (hnth : NthContract nth) {ord : List Nat → List Nat} (hord : ∀ l, (ord l).Perm l)
    (q : Query N) (hq : m.Sensible q) : ∃ p a, pointOf m q = .ok p ∧ treeAnswer nth ord 0 m m p = .ok a ∧ m.Correct q a := by
  cases q with
  | locate ps =>
    suffices ∀ acc : List Int, ∃ l, foldRes (fun (acc : List Int) p => do
        let i ← mixedLocate nth ord 0 m.view m.view p
        return acc ++ [i]) acc ps = .ok (acc ++ l) ∧ m.Correct (.locate ps) (.ids l) by
      obtain ⟨l, e, hl⟩ := this []
      exact ⟨.each ps, .ids l, rfl, by rw [treeAnswer, e]; rfl, hl⟩
    induction ps with
    | nil => intro acc; exact ⟨[], by simp, .nil⟩
    | cons p ps ih =>
      intro acc
      obtain ⟨i, e, hi⟩ := self_locate hm hN hnth hord p
      obtain ⟨l, e', hl⟩ := ih trivial (acc ++ [i])
      refine ⟨i :: l, ?_, .cons hi hl⟩
      rw [foldRes_cons, e, Res.ok_bind]
      show foldRes _ (acc ++ [i]) ps = _
      rw [e', List.append_assoc]
      rfl
  | patch id =>
    obtain ⟨hf, hid⟩ := hq
    obtain ⟨l, e, h1, h2⟩ := self_patch hm hN hnth hord (m.X id)
    have hlt : id < m.nNodes := by
      obtain ⟨c, hc, v, hv, rfl⟩ := hid
      exact hm.2.1 c hc v hv
    refine ⟨.one (m.X id), .cells l, by rw [pointOf, if_pos hlt], by rw [treeAnswer, e]; rfl, h1, fun c => ?_⟩
    rw [h2]
    exact and_congr_right fun hc => vertex_cells hm hf hid c hc

/-- **C124 (triangulations, partial).** In every careful program whose requests are made on proper triangulations, every `locate` answers for each point
the number of a cell of that mesh which contains it, or -1 if there is none, and every `node_patch` answers with the cells of that mesh with that
vertex.  Any tie-breaking in the construction of the tree, any iteration order of the hash set, zero tolerance.
Missing: programs that are not careful (`C124_bug_*`). -/
theorem C124_locate_partial (hN : 0 < N) (nth) (hnth : NthContract nth) (ord : List Nat → List Nat) (hord : ∀ l, (ord l).Perm l)
    (ops : List (MOp (TMesh N N) (Query N))) (hu : UsableAll (fun _ => none) ops) (hc : CarefulAll (fun _ => none) ops)
    (hg : ∀ mq ∈ questions (fun _ => none) ops, mq.1.Valid ∧ mq.1.Sensible mq.2) :
    ∃ h l, runOps pointOf (treeAnswer nth ord 0) ops = .ok (h, l) ∧
      List.Forall₂ (fun mq a => mq.1.Correct mq.2 a) (questions (fun _ => none) ops) l := by
  obtain ⟨h, l, e, hr⟩ := C124_history_partial pointOf (treeAnswer nth ord 0) ops hu hc (fun mq hm => by
    obtain ⟨p, a, h1, h2, _⟩ := self_answer (hg mq hm).1 hN hnth hord mq.2 (hg mq hm).2
    exact ⟨a, p, h1, h2⟩)
  refine ⟨h, l, e, ?_⟩
  clear e hu hc
  generalize questions (fun _ => none) ops = qs at hg hr
  induction hr with
  | nil => exact .nil
  | cons hr _ ih =>
    refine .cons ?_ (ih fun mq hm => hg mq (List.mem_cons_of_mem _ hm))
    obtain ⟨h1, h2⟩ := hg _ List.mem_cons_self
    obtain ⟨p, e1, e2⟩ := hr
    obtain ⟨p', a', e3, e4, h3⟩ := self_answer h1 hN hnth hord _ h2
    rw [e1] at e3
    obtain rfl := Res.ok.inj e3
    rw [e2] at e4
    obtain rfl := Res.ok.inj e4
    exact h3

/-! ### A square -/

/-- The unit square cut along a diagonal. -/
noncomputable def squareMesh : TMesh 2 2 := ⟨4, squareX, 2, demo2⟩
/-- The same square, the two triangles listed in the other order. -/
noncomputable def swappedMesh : TMesh 2 2 := ⟨4, squareX, 2, fun c => demo2 (1 - c)⟩

theorem square_valid : squareMesh.Valid := ⟨by decide, square_lt, square_proper⟩
theorem swapped_valid : swappedMesh.Valid :=
  ⟨by decide, fun c _ => square_lt (1 - c) (by omega), fun c _ => square_proper (1 - c) (by omega)⟩

/-- The hypotheses are met by the program that builds both meshes, locates a point and asks for the patch of a node, and copies. -/
example (nth) (hnth : NthContract nth) (p : Vec 2) :=
  C124_locate_partial (N := 2) (by decide) nth hnth id (fun l => .refl l)
    [.construct 0 squareMesh, .ask 0 (.locate [p]), .ask 0 (.patch 1), .copy 1 0, .ask 1 (.locate [p])]
    (by simp [UsableAll, Usable, valueStep, Values.set])
    (by simp [CarefulAll, Careful])
    (by
      have hs : squareMesh.Sensible (.patch 1) := ⟨square_conforming, 0, by decide, 1, by decide, rfl⟩
      have hl : squareMesh.Sensible (.locate [p]) := trivial
      simp [questions, question, valueStep, Values.set, square_valid, hs, hl])

theorem lower_mem : (![1 / 4, 1 / 4] : Vec 2) ∈ region 3 demo2 squareX 0 := by
  have h0 : squareX 0 ∈ region 3 demo2 squareX 0 := subset_convexHull ℝ _ ⟨0, by decide, rfl⟩
  have h1 : squareX 1 ∈ region 3 demo2 squareX 0 := subset_convexHull ℝ _ ⟨1, by decide, rfl⟩
  have h2 : squareX 2 ∈ region 3 demo2 squareX 0 := subset_convexHull ℝ _ ⟨2, by decide, rfl⟩
  have h3 := (convex_convexHull ℝ _) h1 h2 (by norm_num : (0 : ℝ) ≤ 1 / 2) (by norm_num : (0 : ℝ) ≤ 1 / 2) (by norm_num)
  have h4 := (convex_convexHull ℝ _) h0 h3 (by norm_num : (0 : ℝ) ≤ 1 / 2) (by norm_num : (0 : ℝ) ≤ 1 / 2) (by norm_num)
  refine (congrArg (· ∈ region 3 demo2 squareX 0) ?_).mpr h4
  funext k
  fin_cases k <;> norm_num [squareX, Fin.ofNat]

theorem upper_ge : ∀ p ∈ region 3 demo2 squareX 1, 1 ≤ p 0 + p 1 := by
  intro p hp
  refine convexHull_min (t := {p : Fin 2 → ℝ | 1 ≤ p 0 + p 1}) ?_ ?_ hp
  · rintro x ⟨v, hv, rfl⟩
    show 1 ≤ squareX (demo2 1 v) 0 + squareX (demo2 1 v) 1
    rcases (by omega : v = 0 ∨ v = 1 ∨ v = 2) with rfl | rfl | rfl <;> norm_num [demo2, squareX, Fin.ofNat]
  · intro x hx y hy a b ha hb hab
    have hx : 1 ≤ x 0 + x 1 := hx
    have hy : 1 ≤ y 0 + y 1 := hy
    show 1 ≤ a * x 0 + b * y 0 + (a * x 1 + b * y 1)
    nlinarith

theorem upper_not_mem : (![1 / 4, 1 / 4] : Vec 2) ∉ region 3 demo2 squareX 1 := by
  intro h
  have := upper_ge _ h
  norm_num at this

/-- The square answers correctly for `(1/4, 1/4)` only with its cell 0. -/
theorem square_correct (i : Int) : squareMesh.Correct (.locate [![1 / 4, 1 / 4]]) (.ids [i]) ↔ i = 0 := by
  constructor
  · intro h
    cases h with
    | cons h _ =>
      rcases h with ⟨_, h⟩ | ⟨c, hc, rfl, h⟩
      · exact absurd (Set.mem_biUnion (x := 0) (by decide) lower_mem) h
      · have hc : c < 2 := hc
        rcases (by omega : c = 0 ∨ c = 1) with rfl | rfl
        · rfl
        · exact absurd h upper_not_mem
  · rintro rfl
    exact .cons (.inr ⟨0, by decide, rfl, lower_mem⟩) .nil

/-- With the tree of the square and the cells of the swapped square, cell 0 is not found. -/
theorem mixed_ne (nth) (hnth : NthContract nth) (ord : List Nat → List Nat) (hord : ∀ l, (ord l).Perm l) :
    ∃ i : Int, mixedLocate nth ord 0 squareMesh.view swappedMesh.view ![1 / 4, 1 / 4] = .ok i ∧ i ≠ 0 := by
  obtain ⟨l, h1, _, h3⟩ := candidates_spec squareMesh.view (valid_ok square_valid) (by decide) nth hnth ord hord ![1 / 4, 1 / 4]
  have hlt : ∀ i ∈ l, i < swappedMesh.view.n := fun i hi => ((h3 i).1 hi).1
  refine ⟨_, by rw [mixedLocate, mixedCandidates_eq (b := squareMesh.view) (h := swappedMesh.view) rfl h1, Res.ok_bind, firstHit_eq _ _ _ _ hlt], fun h => ?_⟩
  rcases scanFirst_spec (swappedMesh.view.hit 0 ![1 / 4, 1 / 4]) l with ⟨e, _⟩ | ⟨i, hi, hh, e⟩
  · rw [e] at h; cases h
  · rw [e] at h
    obtain rfl : i = 0 := by exact_mod_cast h
    have hout : (![1 / 4, 1 / 4] : Vec 2) ∉ convexHull ℝ (Set.range (swappedMesh.view.cell 0).coords) := by
      rw [region_eq]
      exact upper_not_mem
    have := (C43_outside (valid_nondeg swapped_valid 0 (by decide)) _).2 hout
    unfold SMesh.hit at hh
    rw [this] at hh
    simp at hh

/-- Bug: a mesh that was asked for a location, then copied and assigned another mesh, makes its copy answer for the new mesh: after the assignment of
the square with its two triangles in the other order, the copy of the square reports its lower triangle's points outside of that triangle. -/
theorem C124_bug_reassigned (nth) (hnth : NthContract nth) (ord : List Nat → List Nat) (hord : ∀ l, (ord l).Perm l) :
    let q : Query 2 := .locate [![1 / 4, 1 / 4]]
    let ops : List (MOp (TMesh 2 2) (Query 2)) :=
      [.construct 0 squareMesh, .ask 0 q, .copy 1 0, .construct 2 swappedMesh, .assign 0 2, .ask 1 q]
    UsableAll (fun _ => none) ops ∧ squareMesh.Valid ∧
      ∃ i, Prod.snd <$> runOps pointOf (treeAnswer nth ord 0) ops = .ok [.ids [0], .ids [i]] ∧ squareMesh.Correct q (.ids [0]) ∧
        ¬ squareMesh.Correct q (.ids [i]) := by
  intro q ops
  have e1 : treeAnswer nth ord 0 squareMesh squareMesh (.each [![1 / 4, 1 / 4]]) = .ok (.ids [0]) := by
    obtain ⟨p, a, e, e', h⟩ := self_answer square_valid (by decide) hnth hord q trivial
    obtain rfl := Res.ok.inj e
    rw [e']
    cases a with
    | cells _ => cases h
    | ids l =>
      have h0 := h
      cases h with
      | cons _ h2 =>
        cases h2
        rw [(square_correct _).1 h0]
  obtain ⟨i, e2, hi⟩ := mixed_ne nth hnth ord hord
  have e2 : treeAnswer nth ord 0 squareMesh swappedMesh (.each [![1 / 4, 1 / 4]]) = .ok (.ids [i]) := by
    rw [treeAnswer, foldRes_cons, e2]
    rfl
  have hp : ∀ m : TMesh 2 2, pointOf m q = .ok (.each [![1 / 4, 1 / 4]]) := fun _ => rfl
  refine ⟨by simp [ops, UsableAll, Usable, valueStep, Values.set], square_valid, ?_⟩
  refine ⟨i, ?_, (square_correct 0).2 rfl, fun h => hi ((square_correct i).1 h)⟩
  generalize (Pts.each [![1 / 4, 1 / 4]] : Pts 2) = P at e1 e2 hp
  simp [ops, runOps, foldRes_cons, MOp.exec, Heap.fresh, Heap.get, Res.ofOptionUB, hp, ensure, Policy.answer, Heap.set, e1, e2, assignPolicy, copyPolicy]

/-- Likewise for `node_patch`: the copy of the square does not list the only triangle of the node 0 in the patch of that node. -/
theorem C124_bug_patch (nth) (hnth : NthContract nth) (ord : List Nat → List Nat) (hord : ∀ l, (ord l).Perm l) :
    let q : Query 2 := .patch 0
    let ops : List (MOp (TMesh 2 2) (Query 2)) :=
      [.construct 0 squareMesh, .ask 0 q, .copy 1 0, .construct 2 swappedMesh, .assign 0 2, .ask 1 q]
    ∃ l l', Prod.snd <$> runOps pointOf (treeAnswer nth ord 0) ops = .ok [.cells l, .cells l'] ∧ squareMesh.Correct q (.cells l) ∧
      0 ∉ l' ∧ ¬ squareMesh.Correct q (.cells l') := by
  intro q ops
  have hs : squareMesh.Sensible q := ⟨square_conforming, 0, by decide, 0, by decide, rfl⟩
  obtain ⟨p, a, e, e1, hc⟩ := self_answer square_valid (by decide) hnth hord q hs
  have hp : ∀ m : TMesh 2 2, m.nNodes = 4 → m.X = squareX → pointOf m q = .ok (.one (squareX 0)) := fun m h1 h2 => by
    simp only [q, pointOf, h1, h2]; rfl
  rw [hp _ rfl rfl] at e
  obtain rfl := Res.ok.inj e
  obtain ⟨l, h1, _, h3⟩ := candidates_spec squareMesh.view (valid_ok square_valid) (by decide) nth hnth ord hord (squareX 0)
  have hlt : ∀ i ∈ l, i < swappedMesh.view.n := fun i hi => ((h3 i).1 hi).1
  have e2 : treeAnswer nth ord 0 squareMesh swappedMesh (.one (squareX 0)) = .ok (.cells (l.filter (swappedMesh.view.hit 0 (squareX 0)))) := by
    rw [treeAnswer, mixedAll, mixedCandidates_eq (b := squareMesh.view) (h := swappedMesh.view) rfl h1, Res.ok_bind, allHits_eq _ _ _ _ hlt]
    rfl
  have hn : 0 ∉ l.filter (swappedMesh.view.hit 0 (squareX 0)) := by
    intro h
    have hh := (List.mem_filter.1 h).2
    have hout : squareX 0 ∉ convexHull ℝ (Set.range (swappedMesh.view.cell 0).coords) := by
      rw [region_eq]
      intro h
      have := upper_ge _ h
      norm_num [squareX, Fin.ofNat] at this
    have := (C43_outside (valid_nondeg swapped_valid 0 (by decide)) _).2 hout
    unfold SMesh.hit at hh
    rw [this] at hh
    simp at hh
  cases a with
  | ids _ => cases hc
  | cells l0 =>
    refine ⟨l0, _, ?_, hc, hn, fun h => hn ((h.2 0).2 ⟨by decide, 0, by decide, rfl⟩)⟩
    have hp1 := hp squareMesh rfl rfl
    generalize (Pts.one (squareX 0) : Pts 2) = P at e1 e2 hp1
    simp [ops, runOps, foldRes_cons, MOp.exec, Heap.fresh, Heap.get, Res.ofOptionUB, hp1, ensure, Policy.answer, Heap.set, e1, e2, assignPolicy, copyPolicy]

end

end Fdapde.Geometry
