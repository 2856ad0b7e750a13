import Verif.Optim.ObjectsSpec
/-
A run of an optimizer does not depend on what its members contained before; simulation between classes of optimizers.
-/
namespace Fdapde.Optim.Objects
open Fdapde Optim

variable {K : Type} [Field K] [LinearOrder K] {n : Nat}

/-! ### The line searches -/

/-- The step chosen by a line search. -/
def pick (P : Platform K n) (o : Objective K n) (x u g : Vec K n) : Search K → Option K
  | .backtracking a b c =>
    if dotProduct g u < 0 then backtrackLoop o.obj b c x u (dotProduct g u) P.fuel a else some a
  | .wolfe a c1 c2 => (wolfeLoop o.obj o.grad c1 c2 x u (dotProduct g u) P.fuel a 0 none).map fun r => r.1

theorem callback_eq (P : Platform K n) (o : Objective K n) (c : Search K) (s : St K n Unit) :
    c.callback P o s = (pick P o s.xOld s.update s.gradOld c).map fun a => ({ s with h := a }, false) := by
  cases c with
  | backtracking a b g =>
    simp only [Search.callback, Optim.backtracking, pick]
    split
    · cases backtrackLoop o.obj b g s.xOld s.update (dotProduct s.gradOld s.update) P.fuel a <;> rfl
    · rfl
  | wolfe a c1 c2 =>
    simp only [Search.callback, Optim.wolfe, pick]
    cases wolfeLoop o.obj o.grad c1 c2 s.xOld s.update (dotProduct s.gradOld s.update) P.fuel a 0 none <;> rfl

/-- The step after all the callbacks. -/
def pickAll (P : Platform K n) (o : Objective K n) (x u g : Vec K n) : List (Search K) → K → Option K
  | [], h => some h
  | c :: cs, _ =>
    match pick P o x u g c with
    | none => none
    | some a => pickAll P o x u g cs a

theorem runAll_eq (P : Platform K n) (o : Objective K n) (cbs : List (Search K)) (s : St K n Unit) :
    runAll (cbs.map (Search.callback P o)) s = (pickAll P o s.xOld s.update s.gradOld cbs s.h).map fun a => ({ s with h := a }, false) := by
  induction cbs generalizing s with
  | nil => rfl
  | cons c cs ih =>
    rw [List.map_cons, runAll, callback_eq, pickAll]
    cases pick P o s.xOld s.update s.gradOld c with
    | none => rfl
    | some a =>
      simp only [Option.map_some]
      rw [ih]
      cases pickAll P o s.xOld s.update s.gradOld cs a <;> rfl

/-! ### Runs -/

/-- Related results of a turn. -/
def TurnRel (R : St K n Unit → St K n Unit → Prop) : Option (Turn K n Unit) → Option (Turn K n Unit) → Prop
  | none, none => True
  | some (.cont s e b), some (.cont s' e' b') => R s s' ∧ e = e' ∧ b = b'
  | some (.ret s x), some (.ret s' x') => s.nIter = s'.nIter ∧ x = x'
  | _, _ => False

theorem mainLoop_rel {R : St K n Unit → St K n Unit → Prop} (hR : ∀ s s', R s s' → s.nIter = s'.nIter ∧ s.xOld = s'.xOld)
    {body : St K n Unit → Option (Turn K n Unit)} (hb : ∀ s s', R s s' → TurnRel R (body s) (body s')) (maxIter : Nat) (tol : K) :
    ∀ (k : Nat) (s s' : St K n Unit) (e : K) (b : Bool), R s s' →
      (mainLoop body maxIter tol k s e b).map (fun r => (r.1.nIter, r.2)) = (mainLoop body maxIter tol k s' e b).map (fun r => (r.1.nIter, r.2)) := by
  intro k
  induction k with
  | zero =>
    intro s s' e b h
    unfold mainLoop
    rw [(hR s s' h).1]
    split
    · rfl
    · simp [(hR s s' h).1, (hR s s' h).2]
  | succ k ih =>
    intro s s' e b h
    unfold mainLoop
    rw [(hR s s' h).1]
    split
    · have ht := hb s s' h
      cases h1 : body s with
      | none =>
        cases h2 : body s' with
        | none => rfl
        | some t => rw [h1, h2] at ht; exact ht.elim
      | some t =>
        cases h2 : body s' with
        | none => rw [h1, h2] at ht; cases t <;> exact ht.elim
        | some t' =>
          rw [h1, h2] at ht
          cases t with
          | cont s1 e1 b1 =>
            cases t' with
            | cont s2 e2 b2 =>
              obtain ⟨r1, rfl, rfl⟩ := ht
              exact ih s1 s2 e1 _ r1
            | ret s2 x2 => exact ht.elim
          | ret s1 x1 =>
            cases t' with
            | cont s2 e2 b2 => exact ht.elim
            | ret s2 x2 =>
              obtain ⟨r1, rfl⟩ := ht
              simp [r1]
    · simp [(hR s s' h).1, (hR s s' h).2]

/-- The end of a turn on states that agree but for the inverse of the Hessian. -/
theorem endTurn_eq (P : Platform K n) (o : Objective K n) (cbs : List (Search K)) (s : St K n Unit) (b : Bool) :
    endTurn (envOf P o cbs) s b = some (.cont { s with xOld := s.xNew, gradOld := s.gradNew, nIter := s.nIter + 1 } (P.nrm s.gradNew)
      (b || o.crit s.xOld s.xNew s.update s.gradOld s.gradNew s.h s.nIter)) := rfl

theorem gd_rel (P : Platform K n) (o : Objective K n) (cbs : List (Search K)) (s s' : St K n Unit)
    (h : s.xOld = s'.xOld ∧ s.gradOld = s'.gradOld ∧ s.h = s'.h ∧ s.nIter = s'.nIter) :
    TurnRel (fun s s' => s.xOld = s'.xOld ∧ s.gradOld = s'.gradOld ∧ s.h = s'.h ∧ s.nIter = s'.nIter) (gdTurn (envOf P o cbs) s) (gdTurn (envOf P o cbs) s') := by
  obtain ⟨h1, h2, h3, h4⟩ := h
  unfold gdTurn
  rw [show (envOf P o cbs).pre = cbs.map (Search.callback P o) from rfl, runAll_eq, runAll_eq]
  simp only [h1, h2, h3]
  cases pickAll P o s'.xOld (-s'.gradOld) s'.gradOld cbs s'.h with
  | none => trivial
  | some a => simp [endTurn_eq, TurnRel, h4]

theorem newton_rel (P : Platform K n) (o : Objective K n) (cbs : List (Search K)) (s s' : St K n Unit)
    (h : s.xOld = s'.xOld ∧ s.h = s'.h ∧ s.nIter = s'.nIter) :
    TurnRel (fun s s' => s.xOld = s'.xOld ∧ s.h = s'.h ∧ s.nIter = s'.nIter) (newtonTurn (envOf P o cbs) s) (newtonTurn (envOf P o cbs) s') := by
  obtain ⟨h1, h3, h4⟩ := h
  unfold newtonTurn
  rw [show (envOf P o cbs).pre = cbs.map (Search.callback P o) from rfl]
  simp only [runAll_eq, h1, h3]
  generalize pickAll P o s'.xOld _ _ cbs s'.h = q
  cases q with
  | none => trivial
  | some a => simp [endTurn_eq, TurnRel, h4]

theorem bfgs_rel (P : Platform K n) (o : Objective K n) (cbs : List (Search K)) (s s' : St K n Unit)
    (h : s.xOld = s'.xOld ∧ s.gradOld = s'.gradOld ∧ s.h = s'.h ∧ s.nIter = s'.nIter ∧ s.invHessian = s'.invHessian) :
    TurnRel (fun s s' => s.xOld = s'.xOld ∧ s.gradOld = s'.gradOld ∧ s.h = s'.h ∧ s.nIter = s'.nIter ∧ s.invHessian = s'.invHessian)
      (bfgsTurn (envOf P o cbs) s) (bfgsTurn (envOf P o cbs) s') := by
  obtain ⟨h1, h2, h3, h4, h5⟩ := h
  unfold bfgsTurn
  rw [show (envOf P o cbs).pre = cbs.map (Search.callback P o) from rfl]
  simp only [runAll_eq, h1, h2, h3, h5]
  generalize pickAll P o s'.xOld _ _ cbs s'.h = q
  cases q with
  | none => trivial
  | some a =>
    simp only [Option.map_some]
    split
    · exact ⟨h4, rfl⟩
    · simp [endTurn_eq, TurnRel, h4]

/-- The result of a run does not depend on the members. -/
theorem runAlg_blank (P : Platform K n) (o : Objective K n) (alg : Alg) (cbs : List (Search K)) (p : Params K) (x0 : Vec K n) (s s' : St K n Unit) :
    (runAlg P o alg cbs p x0 s).map Prod.snd = (runAlg P o alg cbs p x0 s').map Prod.snd := by
  have key : ∀ {a b : Option (St K n Unit × Vec K n)}, a.map (fun r => (r.1.nIter, r.2)) = b.map (fun r => (r.1.nIter, r.2)) →
      (a.map fun r => (r.1, ({ optimum := r.2, value := o.obj r.2, nIter := r.1.nIter } : Result K n))).map Prod.snd =
      (b.map fun r => (r.1, ({ optimum := r.2, value := o.obj r.2, nIter := r.1.nIter } : Result K n))).map Prod.snd := by
    intro a b h
    have := congrArg (fun q => q.map fun r : Nat × Vec K n => ({ optimum := r.2, value := o.obj r.2, nIter := r.1 } : Result K n)) h
    simpa [Option.map_map, Function.comp_def] using this
  unfold runAlg
  cases alg with
  | gd => exact key (mainLoop_rel (fun _ _ h => ⟨h.2.2.2, h.1⟩) (gd_rel P o cbs) _ _ _ _ _ _ _ ⟨rfl, rfl, rfl, rfl⟩)
  | newton => exact key (mainLoop_rel (fun _ _ h => ⟨h.2.2, h.1⟩) (newton_rel P o cbs) _ _ _ _ _ _ _ ⟨rfl, rfl, rfl⟩)
  | bfgs =>
    simp only
    split
    · rfl
    · exact key (mainLoop_rel (fun _ _ h => ⟨h.2.2.2.1, h.1⟩) (bfgs_rel P o cbs) _ _ _ _ _ _ _ ⟨rfl, rfl, rfl, rfl, rfl⟩)

/-! ### Simulation -/

/-- Two outcomes of the same kind, with related values. -/
def ResRel {α β : Type} (R : α → β → Prop) : Res α → Res β → Prop
  | .ok a, .ok b => R a b
  | .throws, .throws => True
  | .ub, .ub => True
  | _, _ => False

def OptRel {α β : Type} (R : α → β → Prop) : Option α → Option β → Prop
  | none, none => True
  | some a, some b => R a b
  | _, _ => False

/-- Objects related by `R` stay related under all the operations, and show the same. -/
structure Sim {α β : Type} (C : Class K n α) (D : Class K n β) (R : α → β → Prop) : Prop where
  make : ∀ alg p cbs junk, R (C.make alg p cbs junk) (D.make alg p cbs junk)
  default : ∀ alg cbs junk, R (C.default alg cbs junk) (D.default alg cbs junk)
  copy : ∀ a b junk, R a b → ResRel R (C.copy a junk) (D.copy b junk)
  assign : ∀ a b a' b', R a b → R a' b' → ResRel R (C.assign a a') (D.assign b b')
  optimize : ∀ a b o x0, R a b → OptRel (ResRel fun r r' => R r.1 r'.1 ∧ r.2 = r'.2) (C.optimize a o x0) (D.optimize b o x0)
  optimum : ∀ a b, R a b → C.optimum a = D.optimum b
  value : ∀ a b, R a b → C.value a = D.value b
  nIter : ∀ a b, R a b → C.nIter a = D.nIter b

/-- Related worlds. -/
def WorldRel {α β : Type} (R : α → β → Prop) (w : World α) (v : World β) : Prop :=
  (∀ x, OptRel R (w.objs x) (v.objs x)) ∧ ∀ x, OptRel (OptRel R) (w.wraps x) (v.wraps x)

theorem set_rel {α β : Type} {R : α → β → Prop} {w : Vars α} {v : Vars β} (h : ∀ x, OptRel R (w x) (v x)) (x : Nat) {a : α} {b : β} (hab : R a b) :
    ∀ y, OptRel R (w.set x a y) (v.set x b y) := fun y => by
  unfold Vars.set
  split
  · exact hab
  · exact h y

theorem held_rel {α β : Type} {R : α → β → Prop} {w : World α} {v : World β} (h : WorldRel R w v) (x : Nat) : ResRel R (held w x) (held v x) := by
  have := h.2 x
  unfold held
  generalize w.wraps x = p at *
  generalize v.wraps x = q at *
  rcases p with _ | _ | a <;> rcases q with _ | _ | b <;> simp_all [OptRel, ResRel]

theorem exec_rel {α β : Type} {C : Class K n α} {D : Class K n β} {R : α → β → Prop} (hS : Sim C D R) {w : World α} {v : World β} (h : WorldRel R w v) (c : Stmt K n) :
    OptRel (ResRel fun r r' => WorldRel R r.1 r'.1 ∧ r.2 = r'.2) (exec C w c) (exec D v c) := by
  cases c with
  | make x alg p cbs junk => exact ⟨⟨set_rel h.1 x (hS.make alg p cbs junk), h.2⟩, rfl⟩
  | default x alg cbs junk => exact ⟨⟨set_rel h.1 x (hS.default alg cbs junk), h.2⟩, rfl⟩
  | copy x y junk =>
    have hy := h.1 y
    simp only [exec]
    generalize w.objs y = p at *
    generalize v.objs y = q at *
    rcases p with _ | a <;> rcases q with _ | b <;> simp only [OptRel] at hy
    · trivial
    · have := hS.copy a b junk hy
      simp only
      generalize C.copy a junk = r at *
      generalize D.copy b junk = r' at *
      rcases r with a' | _ | _ <;> rcases r' with b' | _ | _ <;> simp only [ResRel] at this <;> try trivial
      exact ⟨⟨set_rel h.1 x this, h.2⟩, rfl⟩
  | assign x y =>
    have hx := h.1 x
    have hy := h.1 y
    simp only [exec]
    generalize w.objs x = p at *
    generalize v.objs x = q at *
    generalize w.objs y = p' at *
    generalize v.objs y = q' at *
    rcases p with _ | a <;> rcases q with _ | b <;> simp only [OptRel] at hx
    · trivial
    · rcases p' with _ | a' <;> rcases q' with _ | b' <;> simp only [OptRel] at hy
      · trivial
      · have := hS.assign a b a' b' hx hy
        simp only
        generalize C.assign a a' = r at *
        generalize D.assign b b' = r' at *
        rcases r with a' | _ | _ <;> rcases r' with b' | _ | _ <;> simp only [ResRel] at this <;> try trivial
        exact ⟨⟨set_rel h.1 x this, h.2⟩, rfl⟩
  | optimize x o x0 =>
    have hx := h.1 x
    simp only [exec]
    generalize w.objs x = p at *
    generalize v.objs x = q at *
    rcases p with _ | a <;> rcases q with _ | b <;> simp only [OptRel] at hx
    · trivial
    · have := hS.optimize a b o x0 hx
      simp only
      generalize C.optimize a o x0 = r at *
      generalize D.optimize b o x0 = r' at *
      rcases r with _ | r <;> rcases r' with _ | r' <;> simp only [OptRel] at this <;> try trivial
      rcases r with a' | _ | _ <;> rcases r' with b' | _ | _ <;> simp only [ResRel] at this <;> try trivial
      exact ⟨⟨set_rel h.1 x this.1, h.2⟩, congrArg Seen.point this.2⟩
  | optimum x =>
    have hx := h.1 x
    simp only [exec]
    generalize w.objs x = p at *
    generalize v.objs x = q at *
    rcases p with _ | a <;> rcases q with _ | b <;> simp only [OptRel] at hx
    · trivial
    · simp only
      rw [hS.optimum a b hx]
      rcases D.optimum b with _ | _ | _
      · exact ⟨h, rfl⟩
      · trivial
      · trivial
  | value x =>
    have hx := h.1 x
    simp only [exec]
    generalize w.objs x = p at *
    generalize v.objs x = q at *
    rcases p with _ | a <;> rcases q with _ | b <;> simp only [OptRel] at hx
    · trivial
    · simp only
      rw [hS.value a b hx]
      rcases D.value b with _ | _ | _
      · exact ⟨h, rfl⟩
      · trivial
      · trivial
  | nIter x =>
    have hx := h.1 x
    simp only [exec]
    generalize w.objs x = p at *
    generalize v.objs x = q at *
    rcases p with _ | a <;> rcases q with _ | b <;> simp only [OptRel] at hx
    · trivial
    · exact ⟨h, by rw [hS.nIter a b hx]⟩
  | wrapEmpty x => exact ⟨⟨h.1, set_rel h.2 x (a := none) (b := none) trivial⟩, rfl⟩
  | wrap x y junk =>
    have hy := h.1 y
    simp only [exec]
    generalize w.objs y = p at *
    generalize v.objs y = q at *
    rcases p with _ | a <;> rcases q with _ | b <;> simp only [OptRel] at hy
    · trivial
    · have := hS.copy a b junk hy
      simp only
      generalize C.copy a junk = r at *
      generalize D.copy b junk = r' at *
      rcases r with a' | _ | _ <;> rcases r' with b' | _ | _ <;> simp only [ResRel] at this <;> try trivial
      exact ⟨⟨h.1, set_rel h.2 x (a := some a') (b := some b') this⟩, rfl⟩
  | wrapCopy x y junk =>
    have hy := h.2 y
    simp only [exec]
    generalize w.wraps y = p at *
    generalize v.wraps y = q at *
    rcases p with _ | _ | a <;> rcases q with _ | _ | b <;> simp only [OptRel] at hy
    · trivial
    · exact ⟨⟨h.1, set_rel h.2 x (a := none) (b := none) trivial⟩, rfl⟩
    · have := hS.copy a b junk hy
      simp only
      generalize C.copy a junk = r at *
      generalize D.copy b junk = r' at *
      rcases r with a' | _ | _ <;> rcases r' with b' | _ | _ <;> simp only [ResRel] at this <;> try trivial
      exact ⟨⟨h.1, set_rel h.2 x (a := some a') (b := some b') this⟩, rfl⟩
  | wrapOptimize x o x0 fits =>
    have hx := held_rel h x
    simp only [exec]
    generalize held w x = p at *
    generalize held v x = q at *
    rcases p with a | _ | _ <;> rcases q with b | _ | _ <;> simp only [ResRel] at hx <;> try trivial
    simp only
    split
    · have := hS.optimize a b o x0 hx
      generalize C.optimize a o x0 = r at *
      generalize D.optimize b o x0 = r' at *
      rcases r with _ | r <;> rcases r' with _ | r' <;> simp only [OptRel] at this <;> try trivial
      rcases r with a' | _ | _ <;> rcases r' with b' | _ | _ <;> simp only [ResRel] at this <;> try trivial
      exact ⟨⟨h.1, set_rel h.2 x (a := some a'.1) (b := some b'.1) this.1⟩, congrArg Seen.point this.2⟩
    · trivial
  | wrapOptimum x =>
    have hx := held_rel h x
    simp only [exec]
    generalize held w x = p at *
    generalize held v x = q at *
    rcases p with a | _ | _ <;> rcases q with b | _ | _ <;> simp only [ResRel] at hx <;> try trivial
    simp only [Res.ok_bind]
    rw [hS.optimum a b hx]
    rcases D.optimum b with _ | _ | _
    · exact ⟨h, rfl⟩
    · trivial
    · trivial
  | wrapValue x =>
    have hx := held_rel h x
    simp only [exec]
    generalize held w x = p at *
    generalize held v x = q at *
    rcases p with a | _ | _ <;> rcases q with b | _ | _ <;> simp only [ResRel] at hx <;> try trivial
    simp only [Res.ok_bind]
    rw [hS.value a b hx]
    rcases D.value b with _ | _ | _
    · exact ⟨h, rfl⟩
    · trivial
    · trivial

theorem run_rel {α β : Type} {C : Class K n α} {D : Class K n β} {R : α → β → Prop} (hS : Sim C D R) (cs : List (Stmt K n)) :
    ∀ {w : World α} {v : World β}, WorldRel R w v → run C w cs = run D v cs := by
  induction cs with
  | nil => intros; rfl
  | cons c cs ih =>
    intro w v h
    have := exec_rel hS h c
    rw [run, run]
    generalize exec C w c = r at *
    generalize exec D v c = r' at *
    rcases r with _ | r <;> rcases r' with _ | r' <;> simp only [OptRel] at this <;> try trivial
    rcases r with ⟨w', s⟩ | _ | _ <;> rcases r' with ⟨v', s'⟩ | _ | _ <;> simp only [ResRel] at this <;> try trivial
    obtain ⟨h1, rfl⟩ := this
    simp only
    rw [ih h1]

end Fdapde.Optim.Objects
