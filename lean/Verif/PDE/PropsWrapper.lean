import Verif.PDE.WrapperSpec
import Verif.PDE.PropsHistory
import Verif.Utils.PropsErasure
/-
C126: the type-erased PDE.
-/
namespace Fdapde.PDE
open Utils
variable {V A O : Type}

/-- The handler of every wrapper. -/
def pdeHandler : Handler Meth := ⟨some (fnPtrs.map some), some 18, [(0, 0)]⟩

theorem make_eq (h : Held V) : Erased.make [pdeInterface] h = some ⟨pdeHandler, some h⟩ := by
  simp [Erased.make, vtableInit, mergeLists, initVtable, pdeInterface, fnPtrs, pdeHandler, loadOffsets, setOffset]

theorem copyCtor_eq : pdeHandler.copyCtor = .ok pdeHandler := rfl
theorem copyAssign_eq : pdeHandler.copyAssign = .ok pdeHandler := rfl

theorem call_eq (h : Held V) (i : Nat) (m : Meth) (hm : invokeFn pdeHandler 0 i = .ok m) :
    (⟨pdeHandler, some h⟩ : Erased Meth (Held V)).call 0 i = .ok (m, h) := by
  unfold Erased.call
  rw [hm]

theorem wcall_slot (sem : Sem V A O) (h : Held V) (r : Req) (a : A) (i : Nat) (ty : Ty × List Ty) (m : Meth) (hs : r.slot = some (i, ty))
    (hm : invokeFn pdeHandler 0 i = .ok m) :
    wcall sem ⟨pdeHandler, some h⟩ r a = if m.sig h.fty h.ety = ty then
      (fun q => (some q.1, ⟨pdeHandler, some { h with val := q.2 }⟩)) <$> sem m a h.val else .ub := by
  unfold wcall
  rw [hs]
  dsimp only
  rw [call_eq h i m hm]
  rfl

/-- **C126 (calls).** For every problem, whatever its member functions do, every call of the wrapper with arguments of its types is the call of the member function with that
name on the held object, with the same result, exception or undefined behaviour and the same effect. -/
theorem C126_call_partial (sem : Sem V A O) (h : Held V) (r : Req) (a : A) (hf : r.Fits h.fty h.ety) :
    ∃ e, Erased.make [pdeInterface] h = some e ∧
      wcall sem e r a = (fun q => (q.1, { e with data := some q.2 })) <$> direct sem h r a := by
  refine ⟨_, make_eq h, ?_⟩
  have key : ∀ (i : Nat) (ty : Ty × List Ty) (m : Meth), r.slot = some (i, ty) → r.meth = some m → invokeFn pdeHandler 0 i = .ok m →
      m.sig h.fty h.ety = ty → wcall sem ⟨pdeHandler, some h⟩ r a = (fun q => (q.1, ⟨pdeHandler, some q.2⟩)) <$> direct sem h r a := by
    intro i ty m hs hm hi ht
    rw [wcall_slot sem h r a i ty m hs hi, if_pos ht, direct, hm]
    dsimp only
    cases sem m a h.val <;> rfl
  cases r with
  | evalBasis kind =>
    by_cases h0 : kind = 0
    · exact key 12 _ .evalPointwise (by rw [Req.slot, if_pos h0]; rfl) (by rw [Req.meth, if_pos h0]) rfl rfl
    · by_cases h1 : kind = 1
      · exact key 13 _ .evalAreal (by rw [Req.slot, if_neg h0, if_pos h1]; rfl) (by rw [Req.meth, if_neg h0, if_pos h1]) rfl rfl
      · rw [wcall, direct, Req.slot, Req.meth, if_neg h0, if_neg h1, if_neg h0, if_neg h1]
        rfl
  | setForcing τ => exact key _ _ .setForcing rfl rfl rfl (by change τ = h.fty at hf; rw [hf]; rfl)
  | setOperator τ => exact key _ _ .setOperator rfl rfl rfl (by change τ = h.ety at hf; rw [hf]; rfl)
  | forcingData => exact key _ _ .forcingData rfl rfl rfl (by change h.fty = 0 at hf; rw [hf]; rfl)
  | _ => exact key _ _ _ rfl rfl rfl rfl

/-- C126 (finding): the forcing of a problem whose forcing is a field is read through the wrapper as a matrix: undefined behaviour. -/
theorem C126_bug_forcing_data (sem : Sem V A O) (h : Held V) (a : A) (hF : h.fty ≠ 0) :
    ∃ e, Erased.make [pdeInterface] h = some e ∧ wcall sem e .forcingData a = .ub := by
  refine ⟨_, make_eq h, ?_⟩
  rw [wcall_slot sem h _ a 9 _ .forcingData rfl rfl, if_neg]
  intro e
  simp only [Meth.sig, dmatRef, Prod.mk.injEq, Ty.forcing.injEq] at e
  exact hF e.1

/-- C126 (finding): `set_forcing` of the wrapper accepts an argument of any type, for example a vector for a problem whose forcing is a matrix,
and `set_differential_operator` any operator; if it is not the type of the problem the object is read as another one: undefined
behaviour, without a message of the compiler. -/
theorem C126_bug_setters (sem : Sem V A O) (h : Held V) (a : A) (τ : Nat) :
    ∃ e, Erased.make [pdeInterface] h = some e ∧ (τ ≠ h.fty → wcall sem e (.setForcing τ) a = .ub) ∧
      (τ ≠ h.ety → wcall sem e (.setOperator τ) a = .ub) := by
  refine ⟨_, make_eq h, fun hF => ?_, fun hE => ?_⟩
  · rw [wcall_slot sem h _ a 14 _ .setForcing rfl rfl, if_neg]
    intro e
    simp only [Meth.sig, Prod.mk.injEq, List.cons.injEq, Ty.forcing.injEq] at e
    exact hF e.2.1.symm
  · rw [wcall_slot sem h _ a 17 _ .setOperator rfl rfl, if_neg]
    intro e
    simp only [Meth.sig, Prod.mk.injEq, List.cons.injEq, Ty.operator.injEq] at e
    exact hE e.2.1.symm

/-- **C126 (empty wrapper).** A wrapper without a problem throws at every call. -/
theorem C126_empty (sem : Sem V A O) (r : Req) (a : A) (hr : r.meth ≠ none) : wcall sem Erased.default r a = .throws := by
  cases r with
  | evalBasis kind =>
    by_cases h0 : kind = 0
    · rw [wcall, Req.slot, if_pos h0]; rfl
    · by_cases h1 : kind = 1
      · rw [wcall, Req.slot, if_neg h0, if_pos h1]; rfl
      · exact absurd (by rw [Req.meth, if_neg h0, if_neg h1]) hr
  | _ => rfl

/-! ### Programs -/

/-- The state of the wrappers is that of the values. -/
structure Same (s : PState V O) (t : VState V O) : Prop where
  vars : ∀ x, s.vars x = (t.vars x).map fun h => ⟨pdeHandler, h⟩
  seen : s.seen = t.seen

theorem Same.set {s : PState V O} {t : VState V O} (hs : Same s t) (x : Nat) (h : Option (Held V)) : Same (s.set x ⟨pdeHandler, h⟩) (t.set x h) := by
  refine ⟨fun z => ?_, hs.seen⟩
  show (if z = x then _ else s.vars z) = Option.map _ (if z = x then some h else t.vars z)
  by_cases e : z = x
  · rw [if_pos e, if_pos e]; rfl
  · rw [if_neg e, if_neg e]; exact hs.vars z

theorem same_step (sem : Sem V A O) {s : PState V O} {t : VState V O} (hs : Same s t) (c : Stmt V A) (hc : c.Proper t) :
    (∃ s' t', c.exec sem s = .ok s' ∧ c.means sem t = .ok t' ∧ Same s' t') ∨ c.exec sem s = .ub ∧ c.means sem t = .ub := by
  have look : ∀ y, t.vars y ≠ none → ∃ h, t.vars y = some h ∧ s.vars y = some ⟨pdeHandler, h⟩ := by
    intro y hy
    cases e : t.vars y with
    | none => exact absurd e hy
    | some h => exact ⟨h, rfl, by rw [hs.vars, e]; rfl⟩
  cases c with
  | make x h => exact Or.inl ⟨_, _, by rw [Stmt.exec, make_eq]; rfl, rfl, hs.set x (some h)⟩
  | copy x y =>
    obtain ⟨h, e1, e2⟩ := look y hc.2
    refine Or.inl ⟨s.set x ⟨pdeHandler, h⟩, t.set x h, ?_, ?_, hs.set x h⟩
    · rw [Stmt.exec, e2]; rfl
    · rw [Stmt.means, e1]; rfl
  | assign x y =>
    obtain ⟨h, e1, e2⟩ := look y hc.2.2
    obtain ⟨g, _, e4⟩ := look x hc.2.1
    refine Or.inl ⟨s.set x ⟨pdeHandler, h⟩, t.set x h, ?_, ?_, hs.set x h⟩
    · rw [Stmt.exec, e2, e4]; rfl
    · rw [Stmt.means, e1]; rfl
  | move x y =>
    obtain ⟨h, e1, e2⟩ := look y hc.2
    refine Or.inl ⟨(s.set y ⟨pdeHandler, none⟩).set x ⟨pdeHandler, h⟩, (t.set y none).set x h, ?_, ?_, (hs.set y none).set x h⟩
    · rw [Stmt.exec, e2]; rfl
    · rw [Stmt.means, e1]; rfl
  | moveAssign x y =>
    obtain ⟨h, e1, e2⟩ := look y hc.2.2
    obtain ⟨g, _, e4⟩ := look x hc.2.1
    refine Or.inl ⟨(s.set y ⟨pdeHandler, none⟩).set x ⟨pdeHandler, h⟩, (t.set y none).set x h, ?_, ?_, (hs.set y none).set x h⟩
    · rw [Stmt.exec, e2, e4]; rfl
    · rw [Stmt.means, e1]; rfl
  | call x r a =>
    obtain ⟨h, e1, hf⟩ := hc
    have e2 : s.vars x = some ⟨pdeHandler, some h⟩ := by rw [hs.vars, e1]; rfl
    obtain ⟨e, he, hw⟩ := C126_call_partial sem h r a hf
    rw [make_eq] at he
    cases Option.some.inj he
    rw [Stmt.exec, Stmt.means, e1, e2]
    simp only [Res.ofOptionUB, Res.ok_bind]
    rw [hw]
    cases direct sem h r a with
    | ok q =>
      refine Or.inl ⟨_, _, rfl, rfl, ⟨(hs.set x (some q.2)).vars, ?_⟩⟩
      show s.seen ++ [q.1] = t.seen ++ [q.1]
      rw [hs.seen]
    | throws => exact Or.inl ⟨_, _, rfl, rfl, hs⟩
    | ub => exact Or.inr ⟨rfl, rfl⟩

/-- **C126 (programs).** In every program which makes, copies, assigns, moves and calls wrapped problems, of any number of different types, no variable being assigned to itself, called after
it was moved from or called with arguments of other types than its problem, the results of all calls and the problems in all variables are those of
variables which own their problem and calls made directly on it: copies are independent, assignments replace problem and type. -/
theorem C126_program_partial (sem : Sem V A O) (p : List (Stmt V A)) (hp : ProperProgram sem ⟨fun _ => none, []⟩ p) :
    (∃ s t, runStmts sem ⟨fun _ => none, []⟩ p = .ok s ∧ runMeans sem ⟨fun _ => none, []⟩ p = .ok t ∧ s.seen = t.seen ∧
      ∀ x, (s.vars x).map Erased.data = t.vars x) ∨
    runStmts sem ⟨fun _ => none, []⟩ p = .ub ∧ runMeans sem ⟨fun _ => none, []⟩ p = .ub := by
  have gen : ∀ (p : List (Stmt V A)) (s : PState V O) (t : VState V O), Same s t → ProperProgram sem t p →
      (∃ s' t', runStmts sem s p = .ok s' ∧ runMeans sem t p = .ok t' ∧ Same s' t') ∨ runStmts sem s p = .ub ∧ runMeans sem t p = .ub := by
    intro p
    induction p with
    | nil => intro s t hs _; exact Or.inl ⟨s, t, rfl, rfl, hs⟩
    | cons c p ih =>
      intro s t hs hp
      unfold runStmts runMeans
      rw [foldRes_cons, foldRes_cons]
      rcases same_step sem hs c hp.1 with ⟨s', t', h1, h2, h3⟩ | ⟨h1, h2⟩
      · rw [h1, h2]
        exact ih s' t' h3 (hp.2 t' h2)
      · rw [h1, h2]
        exact Or.inr ⟨rfl, rfl⟩
  rcases gen p ⟨fun _ => none, []⟩ ⟨fun _ => none, []⟩ ⟨fun _ => rfl, rfl⟩ hp with ⟨s, t, h1, h2, h3⟩ | h
  · refine Or.inl ⟨s, t, h1, h2, h3.seen, fun x => ?_⟩
    rw [h3.vars, Option.map_map]
    cases t.vars x <;> rfl
  · exact Or.inr h

/-! ### Histories of one problem -/

variable {K : Type} [Field K]

/-- The request and the argument of a call of a problem with matrix forcing and operator of type `E`. -/
def asRequest (E : Nat) : Call K → Req × Arg K
  | .setForcing m => (.setForcing 0, .mat m)
  | .setOperator p => (.setOperator E, .op p)
  | .setDirichlet m => (.setDirichlet, .mat m)
  | .setInitial v => (.setInitial, .vec v)
  | .init j => (.init, .junk j)
  | .solve => (.solve, .unit)

/-- The program which makes a wrapped problem and calls it. -/
def history (E : Nat) (o : Obj K) (cs : List (Call K)) : List (Stmt (Obj K) (Arg K)) :=
  .make 0 ⟨0, E, o⟩ :: cs.map fun c => .call 0 (asRequest E c).1 (asRequest E c).2

/-- **C126 (histories).** Any sequence of calls of setters, `init` and `solve` made through the wrapper leaves the problem in the state of the same calls made on the problem itself
(C117), and is undefined exactly if they are; afterwards `solution()`, `force()`, `stiff()`, `mass()` and `n_dofs()` of the wrapper show the members of that problem. -/
theorem C126_history (S : SolveFn K) (E : Nat) (o : Obj K) (cs : List (Call K)) :
    (∀ o', o.run S cs = .ok o' → ∃ s e, runStmts (objSem S) ⟨fun _ => none, []⟩ (history E o cs) = .ok s ∧ s.vars 0 = some e ∧
      e.data = some ⟨0, E, o'⟩ ∧ wcall (objSem S) e .solution .unit = .ok (some (.solution o'.sol), e) ∧
      wcall (objSem S) e .force .unit = .ok (some (.force o'.sys.force), e) ∧ wcall (objSem S) e .stiff .unit = .ok (some (.matrix o'.sys.stiff), e) ∧
      wcall (objSem S) e .mass .unit = .ok (some (.matrix o'.sys.mass), e) ∧ wcall (objSem S) e .nDofs .unit = .ok (some (.num o'.sys.n), e)) ∧
    (o.run S cs = .ub → runStmts (objSem S) ⟨fun _ => none, []⟩ (history E o cs) = .ub) := by
  have step : ∀ (s : PState (Obj K) (Out K)) (o : Obj K) (c : Call K), s.vars 0 = some ⟨pdeHandler, some ⟨0, E, o⟩⟩ →
      match o.step S c with
      | .ok o' => ∃ s' : PState (Obj K) (Out K), s'.vars 0 = some ⟨pdeHandler, some ⟨0, E, o'⟩⟩ ∧
          (Stmt.call 0 (asRequest E c).1 (asRequest E c).2).exec (objSem S) s = .ok s'
      | .throws => (Stmt.call 0 (asRequest E c).1 (asRequest E c).2).exec (objSem S) s = .ok s
      | .ub => (Stmt.call 0 (asRequest E c).1 (asRequest E c).2).exec (objSem S) s = .ub := by
    intro s o c hs
    have hfit : (asRequest E c).1.Fits 0 E := by cases c <;> first | rfl | trivial
    obtain ⟨e, he, hw⟩ := C126_call_partial (objSem S) ⟨0, E, o⟩ (asRequest E c).1 (asRequest E c).2 hfit
    rw [make_eq] at he
    cases Option.some.inj he
    have hd : direct (objSem S) ⟨0, E, o⟩ (asRequest E c).1 (asRequest E c).2 = (fun o' => (some Out.unit, ⟨0, E, o'⟩)) <$> o.step S c := by
      cases c <;> simp only [asRequest, direct, Req.meth, objSem] <;> cases o.step S _ <;> rfl
    rw [hd] at hw
    cases hc : o.step S c with
    | ok o' =>
      rw [hc] at hw
      refine ⟨_, ?_, by rw [Stmt.exec, hs]; simp only [Res.ofOptionUB, Res.ok_bind, hw]; rfl⟩
      simp [PState.set]
    | throws =>
      rw [hc] at hw
      show Stmt.exec _ _ _ = _
      rw [Stmt.exec, hs]
      simp only [Res.ofOptionUB, Res.ok_bind, hw]
      rfl
    | ub =>
      rw [hc] at hw
      show Stmt.exec _ _ _ = _
      rw [Stmt.exec, hs]
      simp only [Res.ofOptionUB, Res.ok_bind, hw]
      rfl
  have gen : ∀ (cs : List (Call K)) (s : PState (Obj K) (Out K)) (o : Obj K), s.vars 0 = some ⟨pdeHandler, some ⟨0, E, o⟩⟩ →
      (∀ o', o.run S cs = .ok o' → ∃ s' : PState (Obj K) (Out K), s'.vars 0 = some ⟨pdeHandler, some ⟨0, E, o'⟩⟩ ∧
        runStmts (objSem S) s (cs.map fun c => .call 0 (asRequest E c).1 (asRequest E c).2) = .ok s') ∧
      (o.run S cs = .ub → runStmts (objSem S) s (cs.map fun c => .call 0 (asRequest E c).1 (asRequest E c).2) = .ub) := by
    intro cs
    induction cs with
    | nil =>
      intro s o hs
      exact ⟨fun o' h => ⟨s, by rw [hs, Res.ok.inj h], rfl⟩, fun h => by cases h⟩
    | cons c cs ih =>
      intro s o hs
      have h1 := step s o c hs
      rw [Obj.run]
      unfold runStmts
      rw [List.map_cons, foldRes_cons]
      cases hc : o.step S c with
      | ok o' =>
        rw [hc] at h1
        obtain ⟨s', h2, h3⟩ := h1
        rw [h3]
        exact ih s' o' h2
      | throws =>
        rw [hc] at h1
        rw [h1]
        exact ih s o hs
      | ub =>
        rw [hc] at h1
        rw [h1]
        exact ⟨fun o' h => (by cases h), fun _ => rfl⟩
  have hm : (Stmt.make 0 ⟨0, E, o⟩ : Stmt (Obj K) (Arg K)).exec (objSem S) ⟨fun _ => none, []⟩ =
      .ok ((⟨fun _ => none, []⟩ : PState (Obj K) (Out K)).set 0 ⟨pdeHandler, some ⟨0, E, o⟩⟩) := by
    rw [Stmt.exec, make_eq]
    rfl
  obtain ⟨g1, g2⟩ := gen cs ((⟨fun _ => none, []⟩ : PState (Obj K) (Out K)).set 0 ⟨pdeHandler, some ⟨0, E, o⟩⟩) o (by simp [PState.set])
  have hr : runStmts (objSem S) ⟨fun _ => none, []⟩ (history E o cs) =
      runStmts (objSem S) ((⟨fun _ => none, []⟩ : PState (Obj K) (Out K)).set 0 ⟨pdeHandler, some ⟨0, E, o⟩⟩)
        (cs.map fun c => .call 0 (asRequest E c).1 (asRequest E c).2) := by
    unfold runStmts history
    rw [foldRes_cons, hm]
    rfl
  constructor
  · intro o' ho
    obtain ⟨s', h1, h2⟩ := g1 o' ho
    refine ⟨s', _, by rw [hr, h2], h1, rfl, ?_, ?_, ?_, ?_, ?_⟩
    · exact (wcall_slot _ _ _ _ 2 _ .solution rfl rfl).trans (if_pos (show Meth.sig 0 E .solution = (dmatRef, []) from rfl))
    · exact (wcall_slot _ _ _ _ 3 _ .force rfl rfl).trans (if_pos (show Meth.sig 0 E .force = (dmatRef, []) from rfl))
    · exact (wcall_slot _ _ _ _ 4 _ .stiff rfl rfl).trans (if_pos (show Meth.sig 0 E .stiff = (Ty.spmatRef, []) from rfl))
    · exact (wcall_slot _ _ _ _ 5 _ .mass rfl rfl).trans (if_pos (show Meth.sig 0 E .mass = (Ty.spmatRef, []) from rfl))
    · exact (wcall_slot _ _ _ _ 7 _ .nDofs rfl rfl).trans (if_pos (show Meth.sig 0 E .nDofs = (Ty.int, []) from rfl))
  · intro ho
    rw [hr]
    exact g2 ho

/-! ### Non-vacuity -/

/-- Member functions of a counter: `solve` counts, `init` throws, `solution` shows. -/
def demoSem : Sem Nat Unit Nat
  | .solve, _, v => .ok (0, v + 1)
  | .init, _, _ => .throws
  | _, _, v => .ok (v, v)

def demoProgram : List (Stmt Nat Unit) :=
  [.make 0 ⟨0, 5, 10⟩, .call 0 .solve (), .copy 1 0, .call 1 .solve (), .make 2 ⟨3, 4, 100⟩, .call 2 (.setForcing 3) (), .call 1 .init (), .assign 2 1,
   .call 0 .solution (), .call 2 .forcingData (), .move 3 0, .call 3 (.evalBasis 7) ()]

example : ProperProgram demoSem ⟨fun _ => none, []⟩ demoProgram ∧ ∃ s, runStmts demoSem ⟨fun _ => none, []⟩ demoProgram = .ok s ∧
    s.seen = [some 0, some 0, some 100, some 11, some 12, none] := by
  have hp : ProperProgram demoSem ⟨fun _ => none, []⟩ demoProgram := by
    refine ⟨trivial, fun s e => ?_⟩; cases Res.ok.inj e
    refine ⟨⟨_, rfl, trivial⟩, fun s e => ?_⟩; cases Res.ok.inj e
    refine ⟨⟨by decide, by intro h; cases h⟩, fun s e => ?_⟩; cases Res.ok.inj e
    refine ⟨⟨_, rfl, trivial⟩, fun s e => ?_⟩; cases Res.ok.inj e
    refine ⟨trivial, fun s e => ?_⟩; cases Res.ok.inj e
    refine ⟨⟨_, rfl, rfl⟩, fun s e => ?_⟩; cases Res.ok.inj e
    refine ⟨⟨_, rfl, trivial⟩, fun s e => ?_⟩; cases Res.ok.inj e
    refine ⟨⟨by decide, (by intro h; cases h), (by intro h; cases h)⟩, fun s e => ?_⟩; cases Res.ok.inj e
    refine ⟨⟨_, rfl, trivial⟩, fun s e => ?_⟩; cases Res.ok.inj e
    refine ⟨⟨_, rfl, rfl⟩, fun s e => ?_⟩; cases Res.ok.inj e
    refine ⟨⟨by decide, by intro h; cases h⟩, fun s e => ?_⟩; cases Res.ok.inj e
    exact ⟨⟨_, rfl, trivial⟩, fun s e => trivial⟩
  refine ⟨hp, ?_⟩
  have hm : ∃ t, runMeans demoSem ⟨fun _ => none, []⟩ demoProgram = .ok t ∧ t.seen = [some 0, some 0, some 100, some 11, some 12, none] := ⟨_, rfl, rfl⟩
  obtain ⟨t, h1, h2⟩ := hm
  rcases C126_program_partial demoSem demoProgram hp with ⟨s, t', h3, h4, h5, _⟩ | ⟨_, h⟩
  · rw [h1] at h4
    cases Res.ok.inj h4
    exact ⟨s, h3, by rw [h5, h2]⟩
  · rw [h1] at h
    cases h

example : (Req.setForcing 3).Fits 3 4 ∧ ¬ (Req.setForcing 1).Fits 0 4 ∧ ¬ Req.forcingData.Fits 3 4 := ⟨rfl, by simp [Req.Fits], by simp [Req.Fits]⟩

end Fdapde.PDE
