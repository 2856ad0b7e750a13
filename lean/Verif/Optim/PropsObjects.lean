import Verif.Optim.LemmasObjects
import Mathlib.Algebra.Order.Ring.Rat
/-!
# C156: optimizers as objects of a program
-/
namespace Fdapde.Optim.Objects
open Fdapde Optim

variable {K : Type} [Field K] [LinearOrder K] {n : Nat}

/-- **C156**, calls: what `optimize` finds depends on parameters, callbacks, objective and start only, not on what was done with the object before. -/
theorem C156_fresh (P : Platform K n) (x : Obj K n) (p : Params K) (hp : x.params = some p) (o : Objective K n) (x0 : Vec K n) :
    (x.optimize P o x0).map (fun r => (fun r => (r.1.optimum, r.1.value, r.1.nIter, r.2)) <$> r) =
      (fresh P o x.alg x.cbs p x0).map fun r => .ok (some r.optimum, some r.value, r.nIter, r.optimum) := by
  have h := runAlg_blank P o x.alg x.cbs p x0 x.members blank
  have := congrArg (fun q => q.map fun r : Result K n => (Res.ok (some r.optimum, some r.value, r.nIter, r.optimum))) h
  simp only [Obj.optimize, hp, fresh]
  simpa [Option.map_map, Function.comp_def] using this

/-- The run of the model of C65. -/
theorem C156_model (P : Platform K n) (o : Objective K n) (cbs : List (Search K)) (p : Params K) (x0 : Vec K n) (s : St K n Unit) :
    fresh P o .gd cbs p x0 = gdOptimize (envOf P o cbs) P.huge p.maxIter p.tol p.step x0 s ∧
    fresh P o .newton cbs p x0 = newtonOptimize (envOf P o cbs) P.huge p.maxIter p.tol p.step x0 s ∧
    fresh P o .bfgs cbs p x0 = bfgsOptimize (envOf P o cbs) p.maxIter p.tol p.step x0 s := by
  have key : ∀ a : Option (St K n Unit × Vec K n),
      (a.map fun r => (r.1, ({ optimum := r.2, value := o.obj r.2, nIter := r.1.nIter } : Result K n))).map Prod.snd = finish (envOf P o cbs) a := by
    intro a
    cases a <;> rfl
  refine ⟨?_, ?_, ?_⟩
  · rw [fresh, runAlg_blank P o _ cbs p x0 blank s]
    exact key _
  · rw [fresh, runAlg_blank P o _ cbs p x0 blank s]
    exact key _
  · rw [fresh, runAlg_blank P o _ cbs p x0 blank s, bfgsOptimize, runAlg]
    simp only
    by_cases h : (envOf P o cbs).grad x0 = 0
    · rw [if_pos h, if_pos h]
      rfl
    · rw [if_neg h, if_neg h]
      exact key _

/-- **C156**, what the library does: every program sees what it would see with objects that are parameters and the result of their last call, where a copy has no
result and an assignment does not transfer it. -/
theorem C156_ledger (P : Platform K n) (cs : List (Stmt K n)) : run (library P) World.empty cs = run (ledger P) World.empty cs := by
  refine run_rel (R := fun a b => a.alg = b.alg ∧ a.params = b.params ∧ a.cbs = b.cbs ∧ a.optimum = b.last.map (fun r => r.optimum) ∧
    a.value = b.last.map (fun r => r.value) ∧ a.nIter = (values P).nIter b) ?_ cs ⟨fun _ => trivial, fun _ => trivial⟩
  constructor
  · intros; exact ⟨rfl, rfl, rfl, rfl, rfl, rfl⟩
  · intros; exact ⟨rfl, rfl, rfl, rfl, rfl, rfl⟩
  · rintro a b junk ⟨h1, h2, h3, -, -, -⟩
    change ResRel _ (a.copy junk) (if b.params.isNone then Res.ub else Res.ok { b with last := none })
    rw [Obj.copy, h2]
    cases hb : b.params with
    | none => trivial
    | some p => exact ⟨h1, rfl, h3, rfl, rfl, rfl⟩
  · rintro a b a' b' ⟨h1, h2, h3, h4, h5, h6⟩ ⟨g1, g2, g3, g4, g5, g6⟩
    change ResRel _ (a.assign a') (if b.alg = b'.alg then if b'.params.isNone then Res.ub else Res.ok { b' with last := b.last } else Res.throws)
    rw [Obj.assign, h1, g1, g2]
    split
    · rename_i e
      cases hb : b'.params with
      | none => trivial
      | some p => exact ⟨e, rfl, g3, h4, h5, h6⟩
    · trivial
  · rintro a b o x0 ⟨h1, h2, h3, -, -, -⟩
    change OptRel _ (a.optimize P o x0) (match b.params with
      | none => some Res.ub
      | some p => (fresh P o b.alg b.cbs p x0).map fun r => Res.ok ({ b with last := some r }, r.optimum))
    cases hb : b.params with
    | none =>
      rw [Obj.optimize, h2, hb]
      trivial
    | some p =>
      have hf := runAlg_blank P o b.alg b.cbs p x0 a.members blank
      rw [Obj.optimize, h2, hb, h1, h3]
      simp only [fresh]
      rw [← hf]
      cases runAlg P o b.alg b.cbs p x0 a.members with
      | none => trivial
      | some r => exact ⟨⟨rfl, rfl, rfl, rfl, rfl, rfl⟩, rfl⟩
  · rintro a b ⟨-, -, -, h4, -, -⟩
    change read a.optimum = (fun r => r.optimum) <$> read b.last
    rw [h4]
    cases b.last <;> rfl
  · rintro a b ⟨-, -, -, -, h5, -⟩
    change read a.value = (fun r => r.value) <$> read b.last
    rw [h5]
    cases b.last <;> rfl
  · rintro a b ⟨-, -, -, -, -, h6⟩
    exact h6

/-! ### Values -/

/-- An object of the library and the value it stands for: the results agree unless they are stale. -/
def Stands (stale : Prop) (a b : Value K n) : Prop := a.alg = b.alg ∧ a.params = b.params ∧ a.cbs = b.cbs ∧ (¬ stale → a.last = b.last)

theorem Stands.mono {s s' : Prop} {a b : Value K n} (h : Stands s a b) (hs : s → s') : Stands s' a b := ⟨h.1, h.2.1, h.2.2.1, fun h' => h.2.2.2 fun h'' => h' (hs h'')⟩

theorem set_stands {w v : Vars (Value K n)} {stale stale' : Nat → Prop} (h : ∀ x, OptRel (Stands (stale x)) (w x) (v x)) (x : Nat) {a b : Value K n}
    (hab : Stands (stale' x) a b) (hs : ∀ y, y ≠ x → stale y → stale' y) : ∀ y, OptRel (Stands (stale' y)) (w.set x a y) (v.set x b y) := fun y => by
  unfold Vars.set
  split
  · rename_i e
    subst e
    exact hab
  · rename_i e
    have := h y
    generalize w y = p at *
    generalize v y = q at *
    rcases p with _ | a <;> rcases q with _ | b <;> simp only [OptRel] at this ⊢
    exact this.mono (hs y e)

theorem set_standsW {w v : Vars (Option (Value K n))} {stale stale' : Nat → Prop} (h : ∀ x, OptRel (OptRel (Stands (stale x))) (w x) (v x)) (x : Nat)
    {a b : Option (Value K n)} (hab : OptRel (Stands (stale' x)) a b) (hs : ∀ y, y ≠ x → stale y → stale' y) :
    ∀ y, OptRel (OptRel (Stands (stale' y))) (w.set x a y) (v.set x b y) := fun y => by
  unfold Vars.set
  split
  · rename_i e
    subst e
    exact hab
  · rename_i e
    have := h y
    generalize w y = p at *
    generalize v y = q at *
    rcases p with _ | _ | a <;> rcases q with _ | _ | b <;> simp only [OptRel] at this ⊢
    exact this.mono (hs y e)

/-- Related worlds. -/
def WStands (stale staleW : Nat → Prop) (w v : World (Value K n)) : Prop :=
  (∀ x, OptRel (Stands (stale x)) (w.objs x) (v.objs x)) ∧ ∀ x, OptRel (OptRel (Stands (staleW x))) (w.wraps x) (v.wraps x)

theorem held_stands {stale staleW : Nat → Prop} {w v : World (Value K n)} (h : WStands stale staleW w v) (x : Nat) :
    ResRel (Stands (staleW x)) (held w x) (held v x) := by
  have := h.2 x
  unfold held
  generalize w.wraps x = p at *
  generalize v.wraps x = q at *
  rcases p with _ | _ | a <;> rcases q with _ | _ | b <;> simp_all [OptRel, ResRel]

theorem copy_stands (P : Platform K n) {s s' : Prop} {a b : Value K n} (h : Stands s a b) (hs : s') (junk : St K n Unit) :
    ResRel (Stands s') ((ledger P).copy a junk) ((values P).copy b junk) := by
  obtain ⟨h1, h2, h3, -⟩ := h
  change ResRel _ (if a.params.isNone then Res.ub else Res.ok { a with last := none }) (if b.params.isNone then Res.ub else Res.ok b)
  rw [h2]
  split
  · trivial
  · exact ⟨h1, rfl, h3, fun h => absurd hs h⟩

theorem assign_stands (P : Platform K n) {s s' s'' : Prop} {a b a' b' : Value K n} (h : Stands s a b) (h' : Stands s' a' b') (hs : s'') :
    ResRel (Stands s'') ((ledger P).assign a a') ((values P).assign b b') := by
  obtain ⟨h1, -, -, -⟩ := h
  obtain ⟨g1, g2, g3, -⟩ := h'
  change ResRel _ (if a.alg = a'.alg then if a'.params.isNone then Res.ub else Res.ok { a' with last := a.last } else Res.throws)
    (if b.alg = b'.alg then if b'.params.isNone then Res.ub else Res.ok b' else Res.throws)
  rw [h1, g1, g2]
  split
  · split
    · trivial
    · exact ⟨rfl, rfl, g3, fun h => absurd hs h⟩
  · trivial

theorem optimize_stands (P : Platform K n) {s : Prop} {a b : Value K n} (h : Stands s a b) (s' : Prop) (o : Objective K n) (x0 : Vec K n) :
    OptRel (ResRel fun r r' => Stands s' r.1 r'.1 ∧ r.2 = r'.2) ((ledger P).optimize a o x0) ((values P).optimize b o x0) := by
  obtain ⟨h1, h2, h3, -⟩ := h
  change OptRel _ (match a.params with
      | none => some Res.ub
      | some p => (fresh P o a.alg a.cbs p x0).map fun r => Res.ok ({ a with last := some r }, r.optimum))
    (match b.params with
      | none => some Res.ub
      | some p => (fresh P o b.alg b.cbs p x0).map fun r => Res.ok ({ b with last := some r }, r.optimum))
  rw [h2]
  cases hb : b.params with
  | none => trivial
  | some p =>
    simp only
    rw [h1, h3]
    cases fresh P o b.alg b.cbs p x0 with
    | none => trivial
    | some r => exact ⟨⟨rfl, rfl, rfl, fun _ => rfl⟩, rfl⟩

theorem exec_stands (P : Platform K n) (c : Stmt K n) {stale staleW : Nat → Prop} {w v : World (Value K n)} (h : WStands stale staleW w v) (hc : AsksOwn stale staleW c) :
    OptRel (ResRel fun r r' => WStands (staleObjs stale c) (staleWraps staleW c) r.1 r'.1 ∧ r.2 = r'.2) (exec (ledger P) w c) (exec (values P) v c) := by
  cases c with
  | make x alg p cbs junk => exact ⟨⟨set_stands h.1 x ⟨rfl, rfl, rfl, fun _ => rfl⟩ fun y e hy => ⟨e, hy⟩, h.2⟩, rfl⟩
  | default x alg cbs junk => exact ⟨⟨set_stands h.1 x ⟨rfl, rfl, rfl, fun _ => rfl⟩ fun y e hy => ⟨e, hy⟩, h.2⟩, rfl⟩
  | copy x y junk =>
    have hy := h.1 y
    simp only [exec]
    generalize w.objs y = p at *
    generalize v.objs y = q at *
    rcases p with _ | a <;> rcases q with _ | b <;> simp only [OptRel] at hy
    · trivial
    · have := copy_stands P hy (s' := staleObjs stale (.copy x y junk) x) (Or.inl rfl) junk
      simp only
      generalize (ledger P).copy a junk = r at *
      generalize (values P).copy b junk = r' at *
      rcases r with a' | _ | _ <;> rcases r' with b' | _ | _ <;> simp only [ResRel] at this <;> try trivial
      exact ⟨⟨set_stands h.1 x this fun y _ hy => Or.inr hy, h.2⟩, rfl⟩
  | assign x y =>
    have hx := h.1 x
    have hy := h.1 y
    simp only [exec]
    generalize w.objs x = p at *
    generalize v.objs x = q at *
    generalize w.objs y = p' at *
    generalize v.objs y = q' at *
    rcases p with _ | a <;> rcases q with _ | b <;> simp only [OptRel] at hx
    · trivial
    · rcases p' with _ | a' <;> rcases q' with _ | b' <;> simp only [OptRel] at hy
      · trivial
      · have := assign_stands P hx hy (s'' := staleObjs stale (Stmt.assign x y : Stmt K n) x) (Or.inl rfl)
        simp only
        generalize (ledger P).assign a a' = r at *
        generalize (values P).assign b b' = r' at *
        rcases r with a' | _ | _ <;> rcases r' with b' | _ | _ <;> simp only [ResRel] at this <;> try trivial
        exact ⟨⟨set_stands h.1 x this fun y _ hy => Or.inr hy, h.2⟩, rfl⟩
  | optimize x o x0 =>
    have hx := h.1 x
    simp only [exec]
    generalize w.objs x = p at *
    generalize v.objs x = q at *
    rcases p with _ | a <;> rcases q with _ | b <;> simp only [OptRel] at hx
    · trivial
    · have := optimize_stands P hx (staleObjs stale (.optimize x o x0) x) o x0
      simp only
      generalize (ledger P).optimize a o x0 = r at *
      generalize (values P).optimize b o x0 = r' at *
      rcases r with _ | r <;> rcases r' with _ | r' <;> simp only [OptRel] at this <;> try trivial
      rcases r with a' | _ | _ <;> rcases r' with b' | _ | _ <;> simp only [ResRel] at this <;> try trivial
      exact ⟨⟨set_stands h.1 x this.1 fun y e hy => ⟨e, hy⟩, h.2⟩, congrArg Seen.point this.2⟩
  | optimum x =>
    have hx := h.1 x
    have hc : ¬ stale x := hc
    simp only [exec]
    generalize w.objs x = p at *
    generalize v.objs x = q at *
    rcases p with _ | a <;> rcases q with _ | b <;> simp only [OptRel] at hx
    · trivial
    · have e : (ledger P).optimum a = (values P).optimum b := congrArg (fun l => (fun r : Result K n => r.optimum) <$> read l) (hx.2.2.2 hc)
      simp only
      rw [e]
      rcases (values P).optimum b with _ | _ | _
      · exact ⟨h, rfl⟩
      · trivial
      · trivial
  | value x =>
    have hx := h.1 x
    have hc : ¬ stale x := hc
    simp only [exec]
    generalize w.objs x = p at *
    generalize v.objs x = q at *
    rcases p with _ | a <;> rcases q with _ | b <;> simp only [OptRel] at hx
    · trivial
    · have e : (ledger P).value a = (values P).value b := congrArg (fun l => (fun r : Result K n => r.value) <$> read l) (hx.2.2.2 hc)
      simp only
      rw [e]
      rcases (values P).value b with _ | _ | _
      · exact ⟨h, rfl⟩
      · trivial
      · trivial
  | nIter x =>
    have hx := h.1 x
    have hc : ¬ stale x := hc
    simp only [exec]
    generalize w.objs x = p at *
    generalize v.objs x = q at *
    rcases p with _ | a <;> rcases q with _ | b <;> simp only [OptRel] at hx
    · trivial
    · refine ⟨h, congrArg Seen.count ?_⟩
      exact congrArg (fun l : Option (Result K n) => match l with | none => 0 | some r => r.nIter) (hx.2.2.2 hc)
  | wrapEmpty x => exact ⟨⟨h.1, set_standsW h.2 x (a := none) (b := none) trivial fun y e hy => ⟨e, hy⟩⟩, rfl⟩
  | wrap x y junk =>
    have hy := h.1 y
    simp only [exec]
    generalize w.objs y = p at *
    generalize v.objs y = q at *
    rcases p with _ | a <;> rcases q with _ | b <;> simp only [OptRel] at hy
    · trivial
    · have := copy_stands P hy (s' := staleWraps staleW (.wrap x y junk) x) (Or.inl rfl) junk
      simp only
      generalize (ledger P).copy a junk = r at *
      generalize (values P).copy b junk = r' at *
      rcases r with a' | _ | _ <;> rcases r' with b' | _ | _ <;> simp only [ResRel] at this <;> try trivial
      exact ⟨⟨h.1, set_standsW h.2 x (a := some a') (b := some b') this fun y _ hy => Or.inr hy⟩, rfl⟩
  | wrapCopy x y junk =>
    have hy := h.2 y
    simp only [exec]
    generalize w.wraps y = p at *
    generalize v.wraps y = q at *
    rcases p with _ | _ | a <;> rcases q with _ | _ | b <;> simp only [OptRel] at hy
    · trivial
    · exact ⟨⟨h.1, set_standsW h.2 x (a := none) (b := none) trivial fun y _ hy => Or.inr hy⟩, rfl⟩
    · have := copy_stands P hy (s' := staleWraps staleW (.wrapCopy x y junk) x) (Or.inl rfl) junk
      simp only
      generalize (ledger P).copy a junk = r at *
      generalize (values P).copy b junk = r' at *
      rcases r with a' | _ | _ <;> rcases r' with b' | _ | _ <;> simp only [ResRel] at this <;> try trivial
      exact ⟨⟨h.1, set_standsW h.2 x (a := some a') (b := some b') this fun y _ hy => Or.inr hy⟩, rfl⟩
  | wrapOptimize x o x0 fits =>
    have hx := held_stands h x
    simp only [exec]
    generalize held w x = p at *
    generalize held v x = q at *
    rcases p with a | _ | _ <;> rcases q with b | _ | _ <;> simp only [ResRel] at hx <;> try trivial
    simp only
    split
    · have := optimize_stands P hx (staleWraps staleW (.wrapOptimize x o x0 fits) x) o x0
      generalize (ledger P).optimize a o x0 = r at *
      generalize (values P).optimize b o x0 = r' at *
      rcases r with _ | r <;> rcases r' with _ | r' <;> simp only [OptRel] at this <;> try trivial
      rcases r with a' | _ | _ <;> rcases r' with b' | _ | _ <;> simp only [ResRel] at this <;> try trivial
      exact ⟨⟨h.1, set_standsW h.2 x (a := some a'.1) (b := some b'.1) this.1 fun y e hy => ⟨e, hy⟩⟩, congrArg Seen.point this.2⟩
    · trivial
  | wrapOptimum x =>
    have hx := held_stands h x
    have hc : ¬ staleW x := hc
    simp only [exec]
    generalize held w x = p at *
    generalize held v x = q at *
    rcases p with a | _ | _ <;> rcases q with b | _ | _ <;> simp only [ResRel] at hx <;> try trivial
    simp only [Res.ok_bind]
    have e : (ledger P).optimum a = (values P).optimum b := congrArg (fun l => (fun r : Result K n => r.optimum) <$> read l) (hx.2.2.2 hc)
    rw [e]
    rcases (values P).optimum b with _ | _ | _
    · exact ⟨h, rfl⟩
    · trivial
    · trivial
  | wrapValue x =>
    have hx := held_stands h x
    have hc : ¬ staleW x := hc
    simp only [exec]
    generalize held w x = p at *
    generalize held v x = q at *
    rcases p with a | _ | _ <;> rcases q with b | _ | _ <;> simp only [ResRel] at hx <;> try trivial
    simp only [Res.ok_bind]
    have e : (ledger P).value a = (values P).value b := congrArg (fun l => (fun r : Result K n => r.value) <$> read l) (hx.2.2.2 hc)
    rw [e]
    rcases (values P).value b with _ | _ | _
    · exact ⟨h, rfl⟩
    · trivial
    · trivial

/-- **C156**, values: a program that asks an object for its results only after calling `optimize` on it, since the last copy or assignment to it, sees what it would
see if optimizers were values. -/
theorem C156_history_partial (P : Platform K n) (cs : List (Stmt K n)) (hs : Settled (fun _ => False) (fun _ => False) cs) :
    run (library P) World.empty cs = run (values P) World.empty cs := by
  rw [C156_ledger]
  have key : ∀ (cs : List (Stmt K n)) (stale staleW : Nat → Prop) (w v : World (Value K n)), WStands stale staleW w v → Settled stale staleW cs →
      run (ledger P) w cs = run (values P) v cs := by
    intro cs
    induction cs with
    | nil => intros; rfl
    | cons c cs ih =>
      intro stale staleW w v h hs
      have := exec_stands P c h hs.1
      rw [run, run]
      generalize exec (ledger P) w c = r at *
      generalize exec (values P) v c = r' at *
      rcases r with _ | r <;> rcases r' with _ | r' <;> simp only [OptRel] at this <;> try trivial
      rcases r with ⟨w', s⟩ | _ | _ <;> rcases r' with ⟨v', s'⟩ | _ | _ <;> simp only [ResRel] at this <;> try trivial
      obtain ⟨h1, rfl⟩ := this
      simp only
      rw [ih _ _ _ _ h1 hs.2]
  exact key cs _ _ _ _ ⟨fun _ => trivial, fun _ => trivial⟩ hs

/-! ### What copies lose -/

omit [Field K] [LinearOrder K] in
theorem set_apply {α : Type} (f : Vars α) (x : Nat) (a : α) (y : Nat) : f.set x a y = if y = x then some a else f y := rfl

/-- **C156 fails for copies**: `value()` of a copy of an optimizer that has found its optimum reads a number that was never written. -/
theorem C156_bug_copy (P : Platform K n) (alg : Alg) (p : Params K) (cbs : List (Search K)) (o : Objective K n) (x0 : Vec K n) (junk junk' : St K n Unit) :
    run (library P) World.empty [.make 0 alg p cbs junk, .optimize 0 o x0, .copy 1 0 junk', .value 1] = (fresh P o alg cbs p x0).map fun _ => .ub := by
  rw [C156_ledger]
  cases h : fresh P o alg cbs p x0 <;> simp [run, exec, ledger, values, set_apply, held, read, h]

/-- **C156 fails for assignments**: after `b = a` the value of `b` is the one `b` had found, not that of `a`. -/
theorem C156_bug_assign (P : Platform K n) (alg : Alg) (p q : Params K) (cbs : List (Search K)) (o o' : Objective K n) (x0 x1 : Vec K n) (junk junk' : St K n Unit)
    (r r' : Result K n) (h : fresh P o alg cbs p x0 = some r) (h' : fresh P o' alg cbs q x1 = some r') :
    run (library P) World.empty [.make 0 alg p cbs junk, .make 1 alg q cbs junk', .optimize 0 o x0, .optimize 1 o' x1, .assign 1 0, .value 0, .value 1] =
      some (.ok [.nothing, .nothing, .point r.optimum, .point r'.optimum, .nothing, .number r.value, .number r'.value]) := by
  rw [C156_ledger]
  simp [run, exec, ledger, values, set_apply, read, h, h']

/-- **C156 fails for wrappers**: an optimizer that has found its optimum loses it when it is put in a wrapper, and a copy of a wrapper loses what the wrapper has
found: `value()` reads a number that was never written. -/
theorem C156_bug_wrapper (P : Platform K n) (alg : Alg) (p : Params K) (cbs : List (Search K)) (o : Objective K n) (x0 : Vec K n) (junk junk' junk'' : St K n Unit) :
    run (library P) World.empty [.make 0 alg p cbs junk, .optimize 0 o x0, .wrap 0 0 junk', .wrapValue 0] = (fresh P o alg cbs p x0).map (fun _ => .ub) ∧
    run (library P) World.empty [.make 0 alg p cbs junk, .wrap 0 0 junk', .wrapOptimize 0 o x0 true, .wrapCopy 1 0 junk'', .wrapValue 1] =
      (fresh P o alg cbs p x0).map (fun _ => .ub) := by
  constructor
  · rw [C156_ledger]
    cases h : fresh P o alg cbs p x0 <;> simp [run, exec, ledger, values, set_apply, held, read, h]
  · rw [C156_ledger]
    cases h : fresh P o alg cbs p x0 <;> simp [run, exec, ledger, values, set_apply, held, read, h]

/-- **C156 fails for default constructed optimizers**: `optimize` reads the parameters, that were never written. -/
theorem C156_bug_default (P : Platform K n) (alg : Alg) (cbs : List (Search K)) (o : Objective K n) (x0 : Vec K n) (junk : St K n Unit) :
    run (library P) World.empty [.default 0 alg cbs junk, .optimize 0 o x0] = some .ub := rfl

/-- **C156 fails for starts of another type**: the wrapper accepts them, and calls the function compiled for vectors. -/
theorem C156_bug_argument (P : Platform K n) (alg : Alg) (p : Params K) (cbs : List (Search K)) (o : Objective K n) (x0 : Vec K n) (junk junk' : St K n Unit) :
    run (library P) World.empty [.make 0 alg p cbs junk, .wrap 0 0 junk', .wrapOptimize 0 o x0 false] = some .ub := rfl

/-! ### A program -/

/-- `x²` in one variable, without a stopping criterion. -/
def square : Objective ℚ 1 := ⟨fun x => x 0 * x 0, fun x _ => 2 * x 0, fun _ _ _ => 2, fun _ _ _ _ _ _ _ => false⟩

/-- `(x - 1)²`. -/
def shifted : Objective ℚ 1 := ⟨fun x => (x 0 - 1) * (x 0 - 1), fun x _ => 2 * (x 0 - 1), fun _ _ _ => 2, fun _ _ _ _ _ _ _ => false⟩

def platform : Platform ℚ 1 := ⟨fun x => if x 0 < 0 then - x 0 else x 0, fun m b _ => b 0 / m 0 0, 1000000, 40⟩

/-- The numbers a program sees. -/
def numbers : Option (Res (List (Seen ℚ 1))) → Option (List ℚ)
  | some (.ok l) => some (l.flatMap fun s => match s with
    | .nothing => []
    | .point x => [x 0]
    | .number v => [v]
    | .count k => [(k : ℚ)])
  | _ => none

/-- Two optimizers, an assignment, a wrapper with a line search and repeated calls: the hypothesis of `C156_history_partial` holds. -/
def program : List (Stmt ℚ 1) :=
  [.make 0 .gd ⟨2, 1 / 100, 1 / 4⟩ [] blank, .make 1 .newton ⟨5, 1 / 100, 1⟩ [] blank, .make 2 .gd ⟨3, 1 / 100, 1 / 8⟩ [] blank,
   .optimize 0 square (fun _ => 1), .value 0, .nIter 0, .optimize 1 shifted (fun _ => 3), .value 1, .assign 2 0, .optimize 2 shifted (fun _ => 0), .value 2, .value 0,
   .wrap 0 2 blank, .wrapOptimize 0 square (fun _ => 1) true, .wrapValue 0]

example : Settled (fun _ => False) (fun _ => False) program := by
  simp [program, Settled, AsksOwn, staleObjs, staleWraps]

example : numbers (run (library platform) World.empty program) = some [1 / 4, 1 / 16, 2, 1, 0, 3 / 4, 1 / 16, 1 / 16, 1 / 4, 1 / 16] := by decide +kernel

/-- The hypotheses of `C156_bug_assign`. -/
example : (fresh platform square .gd [] ⟨2, 1 / 100, 1 / 4⟩ fun _ => 1).map (fun r => r.value) = some (1 / 16) ∧
    (fresh platform shifted .gd [] ⟨2, 1 / 100, 1 / 4⟩ fun _ => 0).map (fun r => r.value) = some (1 / 16) ∧
    (fresh platform shifted .gd [.backtracking 2 (1 / 2) (1 / 2)] ⟨2, 1 / 100, 1 / 4⟩ fun _ => 3).isSome := by decide +kernel

end Fdapde.Optim.Objects
