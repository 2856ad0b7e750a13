import Verif.PDE.HistorySpec
import Verif.PDE.PropsInit
/- C117: histories of calls of a PDE object. -/
namespace Fdapde.PDE
open Fdapde.Quadrature
variable {K : Type} [Field K]

/-! ### Dirichlet conditions -/

/-- The system with the rows of the dofs of `l` replaced. -/
def imposed (g : Dense K) (l : List Nat) (s : Sys K) : Sys K :=
  { s with
    stiff := fun p q => if p ∈ l then (if q = p then 1 else 0) else s.stiff p q
    force := fun p => if p ∈ l then g.at' p 0 else s.force p }

theorem loop_ub (g : Dense K) (l : List Nat) : ∀ s : Sys K, ¬ (∀ d ∈ l, d < s.forceRows ∧ d < g.rows ∧ 0 < g.cols) →
    foldRes (fun (s : Sys K) d => do
      if s.forceRows ≤ d then .ub
      let v ← g.read d 0
      .ok { s with stiff := unitRow s.stiff d, force := fun p => if p = d then v else s.force p }) s l = .ub := by
  induction l with
  | nil => intro s h; exact absurd (by simp) h
  | cons d l ih =>
    intro s h
    rw [foldRes_cons]
    by_cases hd : d < s.forceRows ∧ d < g.rows ∧ 0 < g.cols
    · rw [if_neg (by omega)]
      have hr : g.read d 0 = .ok (g.at' d 0) := if_pos ⟨hd.2.1, hd.2.2⟩
      rw [hr]
      refine ih { s with stiff := unitRow s.stiff d, force := fun p => if p = d then g.at' d 0 else s.force p } ?_
      intro h2
      apply h
      intro e he
      rcases List.mem_cons.1 he with rfl | he
      · exact hd
      · exact h2 e he
    · by_cases h1 : s.forceRows ≤ d
      · rw [if_pos h1]; rfl
      · rw [if_neg h1]
        have hr : g.read d 0 = .ub := if_neg (by omega)
        rw [hr]
        rfl

theorem setDirichlet_eq (g : Dense K) (s : Sys K) (hi : s.isInit = true) :
    ((∀ d ∈ boundaryLoop s.bd s.n, d < s.forceRows ∧ d < g.rows ∧ 0 < g.cols) ∧
      setDirichlet g s = .ok (imposed g (boundaryLoop s.bd s.n) s)) ∨
    (¬ (∀ d ∈ boundaryLoop s.bd s.n, d < s.forceRows ∧ d < g.rows ∧ 0 < g.cols) ∧ setDirichlet g s = .ub) := by
  by_cases h : ∀ d ∈ boundaryLoop s.bd s.n, d < s.forceRows ∧ d < g.rows ∧ 0 < g.cols
  · refine Or.inl ⟨h, ?_⟩
    rw [setDirichlet, if_neg (by simp [hi])]
    by_cases hl : boundaryLoop s.bd s.n = []
    · rw [hl]
      have : imposed g [] s = s := by simp [imposed]
      rw [this]; rfl
    · obtain ⟨d, hd⟩ := List.exists_mem_of_ne_nil _ hl
      obtain ⟨s', e, a1, a2, a3, a4, a5, a6, a7⟩ := dirichletLoop_spec g (h d hd).2.2 (boundaryLoop s.bd s.n) s
        (fun d hd => ⟨(h d hd).2.1, (h d hd).1⟩)
      rw [e]
      congr 1
      cases s'
      simp only at a1 a2 a3 a4 a5
      subst a1 a2 a3 a4 a5
      simp only [imposed, Sys.mk.injEq, true_and, and_true]
      exact ⟨funext fun p => funext fun q => a6 p q, funext a7⟩
  · refine Or.inr ⟨h, ?_⟩
    rw [setDirichlet, if_neg (by simp [hi])]
    exact loop_ub g _ s h

theorem imposed_imposed (g g' : Dense K) (l : List Nat) (s : Sys K) : imposed g l (imposed g' l s) = imposed g l s := by
  simp only [imposed, Sys.mk.injEq, true_and, and_true]
  constructor
  · funext p q
    by_cases h : p ∈ l <;> simp [h]
  · funext p
    by_cases h : p ∈ l <;> simp [h]

/-- Imposing conditions replaces those imposed before. -/
theorem setDirichlet_again (g g' : Dense K) (s s' : Sys K) (hi : s.isInit = true) (h : setDirichlet g' s = .ok s') :
    setDirichlet g s' = setDirichlet g s := by
  rcases setDirichlet_eq g' s hi with ⟨_, e⟩ | ⟨_, e⟩
  · rw [e] at h
    have h := Res.ok.inj h
    subst h
    rcases setDirichlet_eq g s hi with ⟨h1, e1⟩ | ⟨h1, e1⟩
    · rcases setDirichlet_eq g (imposed g' (boundaryLoop s.bd s.n) s) hi with ⟨h2, e2⟩ | ⟨h2, e2⟩
      · rw [e1, e2]
        exact congrArg _ (imposed_imposed g g' _ s)
      · exact absurd h1 h2
    · rcases setDirichlet_eq g (imposed g' (boundaryLoop s.bd s.n) s) hi with ⟨h2, e2⟩ | ⟨h2, e2⟩
      · exact absurd h2 h1
      · rw [e1, e2]
  · rw [e] at h; cases h

theorem setDirichlet_init (g : Dense K) (s s' : Sys K) (h : setDirichlet g s = .ok s') : s.isInit = true ∧ s'.isInit = true := by
  by_cases hi : s.isInit = true
  · refine ⟨hi, ?_⟩
    rcases setDirichlet_eq g s hi with ⟨_, e⟩ | ⟨_, e⟩
    · rw [e] at h; rw [← Res.ok.inj h]; exact hi
    · rw [e] at h; cases h
  · rw [setDirichlet, if_pos (by simpa using hi)] at h; cases h

/-! ### Runs -/

theorem run_append (S : SolveFn K) (o : Obj K) (h₁ h₂ : List (Call K)) :
    o.run S (h₁ ++ h₂) = o.run S h₁ >>= fun o' => o'.run S h₂ := by
  induction h₁ generalizing o with
  | nil => rfl
  | cons c cs ih =>
    rw [List.cons_append, Obj.run, Obj.run]
    cases o.step S c with
    | ok o' => exact ih o'
    | throws => exact ih o
    | ub => rfl

theorem latest_snoc {β : Type} (f : Call K → Option β) (d : β) (h : List (Call K)) (c : Call K) :
    latest f d (h ++ [c]) = (f c).getD (latest f d h) := by
  unfold latest
  rw [List.reverse_append, List.reverse_singleton, List.singleton_append, List.findSome?_cons]
  cases f c <;> rfl

/-- The fields of the problem are those set last. -/
structure Tracks (o₀ : Obj K) (h : List (Call K)) (o : Obj K) : Prop where
  prob : o.P = { o₀.P with op := latest operatorOf o₀.P.op h }
  data : o.data = latest forcingOf o₀.data h
  g : o.g = latest dirichletOf o₀.g h
  ic : o.ic = latest initialOf o₀.ic h

theorem tracks_step (S : SolveFn K) (o₀ o o' : Obj K) (h : List (Call K)) (c : Call K) (ht : Tracks o₀ h o)
    (hs : o.step S c = .ok o') : Tracks o₀ (h ++ [c]) o' := by
  cases c with
  | setForcing data =>
    cases Res.ok.inj hs
    exact ⟨by rw [latest_snoc]; exact ht.prob, by rw [latest_snoc]; rfl, by rw [latest_snoc]; exact ht.g, by rw [latest_snoc]; exact ht.ic⟩
  | setOperator op =>
    cases Res.ok.inj hs
    exact ⟨by rw [latest_snoc]; simp only [ht.prob]; rfl, by rw [latest_snoc]; exact ht.data, by rw [latest_snoc]; exact ht.g,
      by rw [latest_snoc]; exact ht.ic⟩
  | setDirichlet g =>
    cases Res.ok.inj hs
    exact ⟨by rw [latest_snoc]; exact ht.prob, by rw [latest_snoc]; exact ht.data, by rw [latest_snoc]; rfl, by rw [latest_snoc]; exact ht.ic⟩
  | setInitial ic =>
    cases Res.ok.inj hs
    exact ⟨by rw [latest_snoc]; exact ht.prob, by rw [latest_snoc]; exact ht.data, by rw [latest_snoc]; exact ht.g, by rw [latest_snoc]; rfl⟩
  | init junk =>
    obtain ⟨s, _, rfl⟩ := Res.map_eq_ok.1 hs
    exact ⟨by rw [latest_snoc]; exact ht.prob, by rw [latest_snoc]; exact ht.data, by rw [latest_snoc]; exact ht.g,
      by rw [latest_snoc]; exact ht.ic⟩
  | solve =>
    obtain ⟨s, _, h2⟩ := Res.bind_eq_ok.1 hs
    obtain ⟨r, _, rfl⟩ := Res.map_eq_ok.1 h2
    exact ⟨by rw [latest_snoc]; exact ht.prob, by rw [latest_snoc]; exact ht.data, by rw [latest_snoc]; exact ht.g,
      by rw [latest_snoc]; exact ht.ic⟩

theorem init_not_throws (P : Prob K) (data : Dense K) (junk : Nat → K) : P.init data junk ≠ .throws := by
  have fold : ∀ {σ α : Type} (f : σ → α → Res σ) (xs : List α), (∀ s, ∀ x, f s x ≠ .throws) → ∀ s, foldRes f s xs ≠ .throws := by
    intro σ α f xs hf
    induction xs with
    | nil => intro s h; cases h
    | cons x xs ih =>
      intro s
      rw [foldRes_cons]
      cases h : f s x with
      | ok s' => exact ih s'
      | throws => exact absurd h (hf s x)
      | ub => intro h; cases h
  have hop : ∀ sym n nb N dofs (loc : Nat → Nat → Nat → K), discretizeOperator sym n nb N dofs loc ≠ .throws := by
    intro sym n nb N dofs loc
    unfold discretizeOperator
    have : opTriplets sym n nb N dofs loc ≠ .throws := by
      unfold opTriplets
      refine fold _ _ (fun s c => fold _ _ (fun s i => fold _ _ (fun s j => ?_) _) _) _
      unfold pairStep
      split_ifs <;> simp
    cases h : opTriplets sym n nb N dofs loc with
    | ok l => intro h; cases h
    | throws => exact absurd h this
    | ub => intro h; cases h
  have hfo : ∀ i, P.forceCol data i ≠ .throws := by
    intro i
    unfold Prob.forceCol
    split_ifs
    · unfold discretizeForcing
      refine fold _ _ (fun s c => fold _ _ (fun s i => ?_) _) _
      split_ifs <;> simp
    · simp
  have hf : P.force data junk ≠ .throws := by
    unfold Prob.force
    cases h : P.forceCol data 0 with
    | ok v =>
      rw [Res.ok_bind]
      split_ifs
      · refine fold _ _ (fun s i => ?_) _
        cases h : P.forceCol data i with
        | ok v => intro h; cases h
        | throws => exact absurd h (hfo i)
        | ub => intro h; cases h
      · simp
    | throws => exact absurd h (hfo 0)
    | ub => intro h; cases h
  unfold Prob.init
  cases h1 : discretizeOperator (isSymmetric P.op) P.n P.nb P.m P.dofs (locOf P.t P.N P.op P.measure P.psi P.grad) with
  | ok A =>
    rw [Res.ok_bind]
    cases h2 : P.force data junk with
    | ok f =>
      rw [Res.ok_bind]
      cases h3 : discretizeOperator (isSymmetric (.react (fun _ => 1) : Op K)) P.n P.nb P.m P.dofs
          (locOf P.t P.N (.react fun _ => 1) P.measure P.psi P.grad) with
      | ok M => intro h; cases h
      | throws => exact absurd h3 (hop _ _ _ _ _ _)
      | ub => intro h; cases h
    | throws => exact absurd h2 hf
    | ub => intro h; cases h
  | throws => exact absurd h1 (hop _ _ _ _ _ _)
  | ub => intro h; cases h

/-- Only `solve` throws. -/
theorem step_throws (S : SolveFn K) (o : Obj K) (c : Call K) (h : o.step S c = .throws) : c = .solve := by
  cases c with
  | solve => rfl
  | init junk =>
    exfalso
    change _ <$> o.P.init o.data junk = .throws at h
    cases e : o.P.init o.data junk with
    | ok s => rw [e] at h; cases h
    | throws => exact init_not_throws _ _ _ e
    | ub => rw [e] at h; cases h
  | _ => cases h

theorem tracks_run (S : SolveFn K) (o₀ : Obj K) (h : List (Call K)) : ∀ o, o₀.run S h = .ok o → Tracks o₀ h o := by
  induction h using List.reverseRecOn with
  | nil => intro o e; cases Res.ok.inj e; exact ⟨rfl, rfl, rfl, rfl⟩
  | append_singleton h c ih =>
    intro o e
    rw [run_append] at e
    obtain ⟨o', e1, e2⟩ := Res.bind_eq_ok.1 e
    have ht := ih o' e1
    rw [Obj.run] at e2
    cases hs : o'.step S c with
    | ok o'' =>
      rw [hs] at e2
      cases Res.ok.inj e2
      exact tracks_step S o₀ o' _ h c ht hs
    | throws =>
      rw [hs] at e2
      have e3 : o' = o := Res.ok.inj e2
      subst e3
      have hc := step_throws S o' c hs
      subst hc
      exact ⟨by rw [latest_snoc]; exact ht.prob, by rw [latest_snoc]; exact ht.data, by rw [latest_snoc]; exact ht.g,
        by rw [latest_snoc]; exact ht.ic⟩
    | ub => rw [hs] at e2; cases e2

/-- Without `init` the system of the solver changes only by boundary conditions. -/
theorem sys_run (S : SolveFn K) (o : Obj K) (hi : o.sys.isInit = true) (h : List (Call K)) : ∀ o', NoInit h → o.run S h = .ok o' →
    o'.sys = o.sys ∨ ∃ g, setDirichlet g o.sys = .ok o'.sys := by
  induction h using List.reverseRecOn with
  | nil => intro o' _ e; cases Res.ok.inj e; exact Or.inl rfl
  | append_singleton h c ih =>
    intro o' hn e
    rw [run_append] at e
    obtain ⟨o1, e1, e2⟩ := Res.bind_eq_ok.1 e
    have hs1 := ih o1 (fun junk hm => hn junk (List.mem_append_left _ hm)) e1
    rw [Obj.run] at e2
    cases hs : o1.step S c with
    | ub => rw [hs] at e2; cases e2
    | throws => rw [hs] at e2; cases Res.ok.inj e2; exact hs1
    | ok o'' =>
      rw [hs] at e2
      cases Res.ok.inj e2
      cases c with
      | setForcing data => cases Res.ok.inj hs; exact hs1
      | setOperator op => cases Res.ok.inj hs; exact hs1
      | setDirichlet g => cases Res.ok.inj hs; exact hs1
      | setInitial ic => cases Res.ok.inj hs; exact hs1
      | init junk => exact absurd (List.mem_append_right _ (List.mem_singleton.2 rfl)) (hn junk)
      | solve =>
        obtain ⟨s, h1, h2⟩ := Res.bind_eq_ok.1 hs
        obtain ⟨r, _, rfl⟩ := Res.map_eq_ok.1 h2
        change s = o.sys ∨ ∃ g, setDirichlet g o.sys = .ok s
        unfold impose at h1
        split_ifs at h1 with hz
        · cases Res.ok.inj h1; exact hs1
        · right
          rcases hs1 with hs1 | ⟨g, hs1⟩
          · exact ⟨o1.g, by rw [← hs1]; exact h1⟩
          · exact ⟨o1.g, by rw [← setDirichlet_again o1.g g o.sys o1.sys hi hs1]; exact h1⟩

/-- C117 (any solver): after any calls, an `init`, and any further calls without `init`, `solve` with boundary data that are not
empty does what it does on the system built from the operator and the forcing set last *before* the `init`, with the boundary
data, the initial condition (and the number of columns of the forcing) set last. -/
theorem solve_history (S : SolveFn K) (o₀ o : Obj K) (h₁ h₂ : List (Call K)) (junk : Nat → K) (hn : NoInit h₂)
    (hrun : o₀.run S (h₁ ++ Call.init junk :: h₂) = .ok o)
    (hg : (latest dirichletOf o₀.g (h₁ ++ Call.init junk :: h₂)).rows * (latest dirichletOf o₀.g (h₁ ++ Call.init junk :: h₂)).cols ≠ 0) :
    ∃ s, { o₀.P with op := latest operatorOf o₀.P.op h₁ }.init (latest forcingOf o₀.data h₁) junk = .ok s ∧
      (fun o' => (o'.success, o'.sol)) <$> o.step S .solve =
        (setDirichlet (latest dirichletOf o₀.g (h₁ ++ Call.init junk :: h₂)) s >>= fun s' =>
          (fun r => (r.1, r.2 <|> o.sol)) <$> S (latest forcingOf o₀.data (h₁ ++ Call.init junk :: h₂))
            (latest initialOf o₀.ic (h₁ ++ Call.init junk :: h₂)) (latest dirichletOf o₀.g (h₁ ++ Call.init junk :: h₂)) s') := by
  have ht := tracks_run S o₀ _ o hrun
  rw [run_append] at hrun
  obtain ⟨o1, e1, e2⟩ := Res.bind_eq_ok.1 hrun
  have ht1 := tracks_run S o₀ _ o1 e1
  rw [Obj.run] at e2
  change (match (fun s => { o1 with sys := s }) <$> o1.P.init o1.data junk with
    | .ok o' => Obj.run S o' h₂
    | .throws => Obj.run S o1 h₂
    | .ub => .ub) = .ok o at e2
  cases e3 : o1.P.init o1.data junk with
  | throws => exact absurd e3 (init_not_throws _ _ _)
  | ub => rw [e3] at e2; cases e2
  | ok s =>
    rw [e3, Res.map_ok] at e2
    refine ⟨s, by rw [← ht1.prob, ← ht1.data]; exact e3, ?_⟩
    have hi : s.isInit = true := by
      unfold Prob.init at e3
      obtain ⟨A, _, e3⟩ := Res.bind_eq_ok.1 e3
      obtain ⟨f, _, e3⟩ := Res.bind_eq_ok.1 e3
      obtain ⟨M, _, e3⟩ := Res.bind_eq_ok.1 e3
      cases Res.ok.inj e3; rfl
    have hsys := sys_run S { o1 with sys := s } hi h₂ o hn e2
    rw [← ht.g] at hg
    rw [← ht.g, ← ht.data, ← ht.ic]
    have hd : impose o.g o.sys = setDirichlet o.g s := by
      unfold impose
      rw [if_neg hg]
      rcases hsys with hsys | ⟨g, hsys⟩
      · rw [hsys]
      · exact setDirichlet_again o.g g s o.sys hi hsys
    change _ <$> (impose o.g o.sys >>= fun s' => (fun r => o.done s' r) <$> S o.data o.ic o.g s') = _
    rw [hd]
    cases setDirichlet o.g s with
    | ok s' =>
      rw [Res.ok_bind, Res.ok_bind]
      cases S o.data o.ic o.g s' <;> rfl
    | throws => rfl
    | ub => rfl

/-! ### Property theorems -/

/-- The outcome of `solve` as seen through the getters: flag and solution. -/
def seen (r : Res (Obj K)) : Res (Bool × Option (Nat → Nat → K)) := (fun o => (o.success, o.sol)) <$> r

/-- C117: before the first `init`, whatever was called, `solve` throws, and a caller that goes on does so with an object
whose solution is still empty. -/
theorem C117_before_init (lu : Solver K) (time : List K) (S : SolveFn K) (hS : S = elliptic lu ∨ S = parabolic lu time)
    (P : Prob K) (data : Dense K) (h : List (Call K)) (hn : NoInit h) :
    ∃ o, (Obj.fresh P data).run S h = .ok o ∧ o.step S .solve = .throws ∧ o.sol = none ∧ o.sys.isInit = false := by
  have key : ∀ o : Obj K, o.sys.isInit = false → o.step S .solve = .throws := by
    intro o ho
    change (impose o.g o.sys >>= fun s => (fun r => o.done s r) <$> S o.data o.ic o.g s) = .throws
    have hth : S o.data o.ic o.g o.sys = .throws := by
      rcases hS with rfl | rfl
      · simp [elliptic, solveElliptic, ho]
      · simp [parabolic, solveParabolic, ho]
    unfold impose
    split_ifs
    · rw [Res.ok_bind, hth]; rfl
    · rw [setDirichlet, if_pos ho]; rfl
  have main : ∀ (h : List (Call K)), NoInit h → ∀ o : Obj K, o.sys.isInit = false → o.sol = none →
      ∃ o', o.run S h = .ok o' ∧ o'.sol = none ∧ o'.sys.isInit = false := by
    intro h
    induction h with
    | nil => intro _ o h1 h2; exact ⟨o, rfl, h2, h1⟩
    | cons c cs ih =>
      intro hn o h1 h2
      have ih := ih (fun junk hm => hn junk (List.mem_cons_of_mem _ hm))
      rw [Obj.run]
      cases c with
      | setForcing data => exact ih { o with data := data } h1 h2
      | setOperator op => exact ih { o with P := { o.P with op := op } } h1 h2
      | setDirichlet g => exact ih { o with g := g } h1 h2
      | setInitial ic => exact ih { o with ic := ic } h1 h2
      | init junk => exact absurd List.mem_cons_self (hn junk)
      | solve => rw [key o h1]; exact ih o h1 h2
  obtain ⟨o, e, h1, h2⟩ := main h hn (Obj.fresh P data) rfl rfl
  exact ⟨o, e, key o h2, h1, h2⟩

/-- C117 (stationary problems): after any calls, an `init` and further calls without `init`, `solve` with boundary data that are
not empty gives what `solve` gives to a problem that was never touched before: the one with the operator and the forcing set last
before the `init` and the boundary data set last.  Previous solutions, previous conditions and what was set after the `init`,
boundary data excepted, have no influence (the previous solution remains when the new system cannot be factorized). -/
theorem C117_elliptic (lu : Solver K) (o₀ o : Obj K) (h₁ h₂ : List (Call K)) (junk : Nat → K) (hn : NoInit h₂)
    (hrun : o₀.run (elliptic lu) (h₁ ++ Call.init junk :: h₂) = .ok o) (g : Dense K)
    (hg : g = latest dirichletOf o₀.g (h₁ ++ Call.init junk :: h₂)) (hne : g.rows * g.cols ≠ 0) :
    ∃ s, { o₀.P with op := latest operatorOf o₀.P.op h₁ }.init (latest forcingOf o₀.data h₁) junk = .ok s ∧
      seen (o.step (elliptic lu) .solve) =
        (fun r => (r.1, (r.2.map fun u _ => u) <|> o.sol)) <$> pdeSolveElliptic lu g s := by
  subst hg
  obtain ⟨s, e, h⟩ := solve_history (elliptic lu) o₀ o h₁ h₂ junk hn hrun hne
  refine ⟨s, e, ?_⟩
  rw [seen, h, pdeSolveElliptic, if_neg hne]
  change _ = _ <$> (setDirichlet _ s >>= fun s => solveElliptic lu s)
  cases setDirichlet (latest dirichletOf o₀.g (h₁ ++ Call.init junk :: h₂)) s with
  | ok s' =>
    rw [Res.ok_bind, Res.ok_bind, elliptic]
    cases solveElliptic lu s' <;> rfl
  | throws => rfl
  | ub => rfl

/-- C117 (parabolic problems): the same; the initial condition and the number of time steps are those of the data set last. -/
theorem C117_parabolic (lu : Solver K) (time : List K) (o₀ o : Obj K) (h₁ h₂ : List (Call K)) (junk : Nat → K) (hn : NoInit h₂)
    (hrun : o₀.run (parabolic lu time) (h₁ ++ Call.init junk :: h₂) = .ok o) (g : Dense K)
    (hg : g = latest dirichletOf o₀.g (h₁ ++ Call.init junk :: h₂)) (hne : g.rows * g.cols ≠ 0) :
    ∃ s, { o₀.P with op := latest operatorOf o₀.P.op h₁ }.init (latest forcingOf o₀.data h₁) junk = .ok s ∧
      seen (o.step (parabolic lu time) .solve) =
        (fun r => (r.1, some r.2)) <$> pdeSolveParabolic lu time (latest forcingOf o₀.data (h₁ ++ Call.init junk :: h₂)).cols
          (latest initialOf o₀.ic (h₁ ++ Call.init junk :: h₂)) g s := by
  subst hg
  obtain ⟨s, e, h⟩ := solve_history (parabolic lu time) o₀ o h₁ h₂ junk hn hrun hne
  refine ⟨s, e, ?_⟩
  rw [seen, h, pdeSolveParabolic, if_neg hne]
  change _ = _ <$> (setDirichlet _ s >>= fun s => solveParabolic lu time _ _ _ s)
  cases setDirichlet (latest dirichletOf o₀.g (h₁ ++ Call.init junk :: h₂)) s with
  | ok s' =>
    rw [Res.ok_bind, Res.ok_bind, parabolic]
    cases solveParabolic lu time (latest forcingOf o₀.data (h₁ ++ Call.init junk :: h₂)).cols
      (latest initialOf o₀.ic (h₁ ++ Call.init junk :: h₂)) (latest dirichletOf o₀.g (h₁ ++ Call.init junk :: h₂)) s' <;> rfl
  | throws => rfl
  | ub => rfl

/-- C117: without any boundary data (never set to something that is not empty) the same holds of the natural conditions. -/
theorem C117_natural (S : SolveFn K) (o₀ o : Obj K) (h₁ h₂ : List (Call K)) (junk : Nat → K) (hn : NoInit h₂)
    (hrun : o₀.run S (h₁ ++ Call.init junk :: h₂) = .ok o) (h0 : o₀.g.rows * o₀.g.cols = 0)
    (hg : ∀ g, Call.setDirichlet g ∈ h₁ ++ Call.init junk :: h₂ → g.rows * g.cols = 0) :
    ∃ s, { o₀.P with op := latest operatorOf o₀.P.op h₁ }.init (latest forcingOf o₀.data h₁) junk = .ok s ∧
      seen (o.step S .solve) = (fun r => (r.1, r.2 <|> o.sol)) <$> S (latest forcingOf o₀.data (h₁ ++ Call.init junk :: h₂))
            (latest initialOf o₀.ic (h₁ ++ Call.init junk :: h₂)) (latest dirichletOf o₀.g (h₁ ++ Call.init junk :: h₂)) s := by
  have ht := tracks_run S o₀ _ o hrun
  have empty : ∀ h : List (Call K), (∀ g, Call.setDirichlet g ∈ h → g.rows * g.cols = 0) →
      (latest dirichletOf o₀.g h).rows * (latest dirichletOf o₀.g h).cols = 0 := by
    intro h
    induction h using List.reverseRecOn with
    | nil => intro _; exact h0
    | append_singleton h c ih =>
      intro hh
      have ih := ih (fun g hm => hh g (List.mem_append_left _ hm))
      rw [latest_snoc]
      cases c with
      | setDirichlet g => exact hh g (List.mem_append_right _ (List.mem_singleton.2 rfl))
      | _ => exact ih
  rw [run_append] at hrun
  obtain ⟨o1, e1, e2⟩ := Res.bind_eq_ok.1 hrun
  have ht1 := tracks_run S o₀ _ o1 e1
  have hg1 : o1.g.rows * o1.g.cols = 0 := by
    rw [ht1.g]; exact empty h₁ (fun g hm => hg g (List.mem_append_left _ hm))
  rw [Obj.run] at e2
  change (match (fun s => { o1 with sys := s }) <$> o1.P.init o1.data junk with
    | .ok o' => Obj.run S o' h₂
    | .throws => Obj.run S o1 h₂
    | .ub => .ub) = .ok o at e2
  cases e3 : o1.P.init o1.data junk with
  | throws => exact absurd e3 (init_not_throws _ _ _)
  | ub => rw [e3] at e2; cases e2
  | ok s =>
    rw [e3, Res.map_ok] at e2
    refine ⟨s, by rw [← ht1.prob, ← ht1.data]; exact e3, ?_⟩
    have keep : ∀ h : List (Call K), NoInit h → (∀ g, Call.setDirichlet g ∈ h → g.rows * g.cols = 0) → ∀ o2 o3 : Obj K,
        o2.g.rows * o2.g.cols = 0 → o2.run S h = .ok o3 → o3.sys = o2.sys := by
      intro h
      induction h with
      | nil => intro _ _ o2 o3 _ e; cases Res.ok.inj e; rfl
      | cons c cs ih =>
        intro hn hh o2 o3 hz e
        have ih := ih (fun junk hm => hn junk (List.mem_cons_of_mem _ hm)) (fun g hm => hh g (List.mem_cons_of_mem _ hm))
        rw [Obj.run] at e
        cases c with
        | setForcing data => exact ih { o2 with data := data } o3 hz e
        | setOperator op => exact ih { o2 with P := { o2.P with op := op } } o3 hz e
        | setDirichlet g => exact ih { o2 with g := g } o3 (hh g List.mem_cons_self) e
        | setInitial ic => exact ih { o2 with ic := ic } o3 hz e
        | init junk => exact absurd List.mem_cons_self (hn junk)
        | solve =>
          cases hs : o2.step S .solve with
          | ub => rw [hs] at e; cases e
          | throws => rw [hs] at e; exact ih o2 o3 hz e
          | ok o4 =>
            rw [hs] at e
            obtain ⟨s4, h4, h5⟩ := Res.bind_eq_ok.1 hs
            obtain ⟨r, _, h6⟩ := Res.map_eq_ok.1 h5
            rw [impose, if_pos hz] at h4
            have h4 := Res.ok.inj h4
            have h7 := ih o4 o3 (by rw [← h6]; exact hz) e
            rw [h7, ← h6]
            exact h4.symm
    have hs : o.sys = s := keep h₂ hn (fun g hm => hg g (List.mem_append_right _ (List.mem_cons_of_mem _ hm))) { o1 with sys := s } o hg1 e2
    have hge := empty _ hg
    rw [← ht.g] at hge
    rw [← ht.g, ← ht.data, ← ht.ic]
    change _ <$> (impose o.g o.sys >>= fun s' => (fun r => o.done s' r) <$> S o.data o.ic o.g s') = _
    rw [impose, if_pos hge, hs, Res.ok_bind]
    cases S o.data o.ic o.g s <;> rfl

/-- C117 (what the user relies on; dof 0 on the boundary, see `C62_bug_dof_zero`): after any history with at least one `init`, and with
boundary data, `solve` returns, and when the factorization succeeds `solution()` takes the boundary data set last on the boundary
dofs and satisfies a(u, v) = (f, v) with the operator and the forcing that were set last before the last `init`. -/
theorem C117_galerkin_partial (lu : Solver K) (o₀ o : Obj K) (h₁ h₂ : List (Call K)) (junk : Nat → K) (hn : NoInit h₂)
    (hrun : o₀.run (elliptic lu) (h₁ ++ Call.init junk :: h₂) = .ok o)
    (P : Prob K) (hPe : P = { o₀.P with op := latest operatorOf o₀.P.op h₁ }) (hP : P.Ok) (hlu : ExactLU P.m lu) (hm : 0 < P.m) (h0 : P.bd 0 = true)
    (f : Dense K) (hf : f = latest forcingOf o₀.data h₁) (hr : P.n * size P.t ≤ f.rows) (hc : f.cols = 1)
    (g : Dense K) (hg : g = latest dirichletOf o₀.g (h₁ ++ Call.init junk :: h₂)) (hgr : P.m ≤ g.rows) (hgc : 0 < g.cols) :
    ∃ o', o.step (elliptic lu) .solve = .ok o' ∧ (o'.success = false → o'.sol = o.sol) ∧
      (o'.success = true → ∃ u, o'.sol = some u ∧ (∀ p < P.m, P.bd p = true → u 0 p = g.at' p 0) ∧
        ∀ v, P.Test v → P.bilin (u 0) v = P.load (fun c k => f.at' (size P.t * c + k) 0) v) := by
  have hne : g.rows * g.cols ≠ 0 := (Nat.mul_pos (by omega) hgc).ne'
  obtain ⟨s, e, h⟩ := C117_elliptic lu o₀ o h₁ h₂ junk hn hrun g hg hne
  rw [← hPe, ← hf] at e
  obtain ⟨b, u, h2, h3, h4⟩ := C102_galerkin_partial P hP lu hlu f hr hc g hgr hgc hm h0 junk
  rw [e, Res.ok_bind] at h2
  rw [h2, Res.map_ok] at h
  obtain ⟨o', e', h'⟩ := Res.map_eq_ok.1 h
  have hb : o'.success = b := congrArg Prod.fst h'
  have hu : o'.sol = ((u.map fun u _ => u) <|> o.sol) := congrArg Prod.snd h'
  refine ⟨o', e', ?_, ?_⟩
  · intro hs
    rw [hb] at hs
    subst hs
    cases u with
    | none => exact hu
    | some w => exact absurd (h3.2 rfl) (by simp)
  · intro hs
    rw [hb] at hs
    cases u with
    | none => exact absurd (h3.1 hs) (by simp)
    | some w =>
      obtain ⟨k1, k2⟩ := h4 w rfl
      exact ⟨fun _ => w, hu, k1, k2⟩

/-- C117: `solve` called again gives the same (stationary problems, whether or not there are boundary data). -/
theorem C117_again (lu : Solver K) (o o' : Obj K) (h : o.step (elliptic lu) .solve = .ok o') : o'.step (elliptic lu) .solve = .ok o' := by
  obtain ⟨s, h1, h2⟩ := Res.bind_eq_ok.1 h
  obtain ⟨r, h3, h4⟩ := Res.map_eq_ok.1 h2
  have hi : impose o.g s = .ok s := by
    unfold impose at h1 ⊢
    split_ifs at h1 ⊢ with hz
    · rfl
    · have := setDirichlet_again o.g o.g o.sys s (setDirichlet_init _ _ _ h1).1 h1
      rw [this, h1]
  subst h4
  change (impose o.g s >>= fun s => (fun r => (o.done _ _).done s r) <$> elliptic lu o.data o.ic o.g s) = _
  rw [hi, Res.ok_bind]
  have h3' : elliptic lu o.data o.ic o.g s = .ok r := h3
  rw [h3', Res.map_ok]
  obtain ⟨b, u⟩ := r
  simp only [Obj.done]
  congr 2
  cases u <;> rfl

/-- Taking the boundary data away (`set_dirichlet_bc` with an empty matrix) after a `solve` does not take the conditions away:
`solve` goes on imposing those of the removed data, since the rows of the system were overwritten and `PDE::solve` skips empty
boundary data.  Only `init` removes them. -/
theorem C117_bug_conditions_stay (lu : Solver K) (o o' : Obj K) (h : o.step (elliptic lu) .solve = .ok o') (e : Dense K)
    (he : e.rows * e.cols = 0) :
    seen (o'.run (elliptic lu) [.setDirichlet e, .solve]) = .ok (o'.success, o'.sol) := by
  obtain ⟨s, h1, h2⟩ := Res.bind_eq_ok.1 h
  obtain ⟨r, h3, h4⟩ := Res.map_eq_ok.1 h2
  subst h4
  obtain ⟨b, u⟩ := r
  have hst : ({ o.done s (b, u) with g := e } : Obj K).step (elliptic lu) .solve =
      .ok (({ o.done s (b, u) with g := e } : Obj K).done s (b, u)) := by
    change (impose e s >>= fun s' => (fun r => ({ o.done s (b, u) with g := e } : Obj K).done s' r) <$> elliptic lu o.data o.ic e s') = _
    rw [impose, if_pos he, Res.ok_bind]
    have h3' : elliptic lu o.data o.ic e s = .ok (b, u) := h3
    rw [h3']
    rfl
  rw [Obj.run]
  change seen (match ({ o.done s (b, u) with g := e } : Obj K).step (elliptic lu) .solve with
    | .ok o' => Obj.run (elliptic lu) o' []
    | .throws => Obj.run (elliptic lu) ({ o.done s (b, u) with g := e } : Obj K) []
    | .ub => .ub) = _
  rw [hst]
  cases u <;> rfl

/-- When the system cannot be factorized `solve` returns normally and `solution()` is still the solution of an earlier problem;
the flag `success` that would tell is a member of the solver which `PDE` does not expose. -/
theorem C117_bug_stale_solution (lu : Solver K) (o : Obj K) (s : Sys K) (h : impose o.g o.sys = .ok s) (hi : s.isInit = true)
    (hlu : lu s.stiff = none) : seen (o.step (elliptic lu) .solve) = .ok (false, o.sol) := by
  change seen (impose o.g o.sys >>= fun s => (fun r => o.done s r) <$> elliptic lu o.data o.ic o.g s) = _
  rw [h, Res.ok_bind]
  have : elliptic lu o.data o.ic o.g s = .ok (false, none) := by simp [elliptic, solveElliptic, hi, hlu]
  rw [this]
  rfl

/-- Giving a parabolic problem a forcing with more columns after `init` makes `solve` read beyond the end of the load vector, which
has the columns of the forcing at `init`: `solve` takes the number of steps from the new data. -/
theorem C117_bug_more_columns (lu : Solver K) (t0 t1 : K) (ts : List K) (o : Obj K) (s : Sys K) (h : impose o.g o.sys = .ok s)
    (hi : s.isInit = true) (hn : 0 < s.n) (c : Nat) (hf : s.forceRows = s.n * c) (data : Dense K) (hc : 0 < c) (hm : c < data.cols)
    (hlu : lu ((boundaryLoop s.bd s.n).foldl unitRow (fun p q => s.mass p q / (t1 - t0) + s.stiff p q)) ≠ none) :
    (o.run (parabolic lu (t0 :: t1 :: ts)) [.setForcing data, .solve]) = .ub := by
  have hub : ∀ dt (g : Dense K) (f : (Nat → K) → Nat → K) (sol : Nat → Nat → K) (l : List Nat), c - 1 ∈ l →
      foldRes (fun (sol : Nat → Nat → K) i => stepRhs s dt g (sol i) i >>= fun rhs =>
        .ok (fun c => if c = i + 1 then f rhs else sol c)) sol l ≠ .throws →
      foldRes (fun (sol : Nat → Nat → K) i => stepRhs s dt g (sol i) i >>= fun rhs =>
        .ok (fun c => if c = i + 1 then f rhs else sol c)) sol l = .ub := by
    intro dt g f sol l
    induction l generalizing sol with
    | nil => intro hm; cases hm
    | cons i l ih =>
      intro hm
      rw [foldRes_cons]
      cases e : stepRhs s dt g (sol i) i with
      | ub => intro _; rfl
      | throws => intro h; exact absurd rfl h
      | ok rhs =>
        rw [Res.ok_bind]
        rcases List.mem_cons.1 hm with hm | hm
        · exfalso
          rw [stepRhs, if_neg] at e
          · cases e
          · rw [hf, ← hm, Nat.sub_add_cancel hc]; omega
        · intro h; exact ih _ hm h
  have hnt : ∀ dt (g : Dense K) (f : (Nat → K) → Nat → K) (l : List Nat) (sol : Nat → Nat → K),
      foldRes (fun (sol : Nat → Nat → K) i => stepRhs s dt g (sol i) i >>= fun rhs =>
        .ok (fun c => if c = i + 1 then f rhs else sol c)) sol l ≠ .throws := by
    intro dt g f l
    have hr : ∀ u i, stepRhs s dt g u i ≠ .throws := by
      intro u i
      rw [stepRhs]
      split_ifs
      · generalize (boundaryLoop s.bd s.n) = l
        generalize (fun p => (∑ q ∈ Finset.range s.n, s.mass p q / dt * u q) + s.force (s.n * (i + 1) + p)) = r
        induction l generalizing r with
        | nil => intro h; cases h
        | cons d l ih =>
          rw [foldRes_cons, Dense.read]
          split_ifs
          · exact ih _
          · intro h; cases h
      · intro h; cases h
    induction l with
    | nil => intro sol h; cases h
    | cons i l ih =>
      intro sol
      rw [foldRes_cons]
      cases e : stepRhs s dt g (sol i) i with
      | ub => intro h; cases h
      | throws => exact absurd e (hr _ _)
      | ok rhs => exact ih _
  have hpar : solveParabolic lu (t0 :: t1 :: ts) data.cols o.ic o.g s = .ub := by
    rw [solveParabolic, if_neg (by simp [hi])]
    simp only
    rw [if_neg (by omega)]
    cases e : lu ((boundaryLoop s.bd s.n).foldl unitRow (fun p q => s.mass p q / (t1 - t0) + s.stiff p q)) with
    | none => exact absurd e hlu
    | some f =>
      simp only
      have := hub (t1 - t0) o.g f (fun _ => o.ic) (List.range (data.cols - 1)) (List.mem_range.2 (by omega)) (hnt _ _ _ _ _)
      rw [this]
      rfl
  have hst : ({ o with data := data } : Obj K).step (parabolic lu (t0 :: t1 :: ts)) .solve = .ub := by
    change (impose o.g o.sys >>= fun s' => (fun r => ({ o with data := data } : Obj K).done s' r) <$>
      parabolic lu (t0 :: t1 :: ts) data o.ic o.g s') = _
    rw [h, Res.ok_bind, parabolic, hpar]
    rfl
  rw [Obj.run]
  change (match ({ o with data := data } : Obj K).step (parabolic lu (t0 :: t1 :: ts)) .solve with
    | .ok o' => Obj.run (parabolic lu (t0 :: t1 :: ts)) o' []
    | .throws => Obj.run (parabolic lu (t0 :: t1 :: ts)) ({ o with data := data } : Obj K) []
    | .ub => .ub) = _
  rw [hst]

/-! ### The hypotheses are met -/

/-- A problem solved with one set of data, then given other boundary data and another forcing. -/
example : ∃ (lu : Solver ℚ) (o : Obj ℚ),
    (Obj.fresh (demoProb (.neg .lap)) ⟨4, 1, fun _ _ => 7⟩).run (elliptic lu)
      ([.setForcing ⟨4, 1, fun _ _ => 1⟩, .solve, .init (fun _ => 0)] ++ Call.init (fun _ => 5) ::
        [.setDirichlet ⟨3, 1, fun _ _ => 0⟩, .solve, .setForcing ⟨4, 1, fun _ _ => 2⟩, .setDirichlet ⟨3, 1, fun p _ => (p : ℚ)⟩]) = .ok o ∧
    ∃ o', o.step (elliptic lu) .solve = .ok o' := by
  obtain ⟨lu, h1, _⟩ := exists_exactLU (K := ℚ) 3
  have hinit : ∀ junk, ∃ s, (demoProb (.neg .lap)).init ⟨4, 1, fun _ _ => 1⟩ junk = .ok s := fun junk => by
    obtain ⟨s, h, _⟩ := C102_init (demoProb (.neg .lap)) demoProb_ok.1 ⟨4, 1, fun _ _ => 1⟩ (by decide) (by decide) junk
    exact ⟨s, h⟩
  have hrun : ∃ o, (Obj.fresh (demoProb (.neg .lap)) ⟨4, 1, fun _ _ => 7⟩).run (elliptic lu)
      ([.setForcing ⟨4, 1, fun _ _ => 1⟩, .solve, .init (fun _ => 0)] ++ Call.init (fun _ => 5) ::
        [.setDirichlet ⟨3, 1, fun _ _ => 0⟩]) = .ok o := by
    obtain ⟨s1, e1⟩ := hinit (fun _ => 0)
    obtain ⟨s2, e2⟩ := hinit (fun _ => 5)
    refine ⟨⟨demoProb (.neg .lap), ⟨4, 1, fun _ _ => 1⟩, ⟨3, 1, fun _ _ => 0⟩, fun _ => 0, s2, false, none⟩, ?_⟩
    simp only [List.cons_append, List.nil_append, Obj.run, Obj.fresh, Obj.step, impose, elliptic, solveElliptic, Nat.mul_zero, if_true,
      Res.ok_bind, Res.map_throws, e1, e2, Res.map_ok]
  obtain ⟨o1, e1⟩ := hrun
  obtain ⟨o2, e2, _⟩ := C117_galerkin_partial lu _ o1 _ _ _ (by intro j hj; simp at hj) e1 (demoProb (.neg .lap)) rfl demoProb_ok.1 h1
    (by decide) rfl ⟨4, 1, fun _ _ => 1⟩ rfl (by decide) rfl ⟨3, 1, fun _ _ => 0⟩ rfl (by decide) (by decide)
  have e3 : (Obj.fresh (demoProb (.neg .lap)) ⟨4, 1, fun _ _ => 7⟩).run (elliptic lu)
      ([.setForcing ⟨4, 1, fun _ _ => 1⟩, .solve, .init (fun _ => 0)] ++ Call.init (fun _ => 5) ::
        [.setDirichlet ⟨3, 1, fun _ _ => 0⟩, .solve, .setForcing ⟨4, 1, fun _ _ => 2⟩, .setDirichlet ⟨3, 1, fun p _ => (p : ℚ)⟩]) =
      .ok { o2 with data := ⟨4, 1, fun _ _ => 2⟩, g := ⟨3, 1, fun p _ => (p : ℚ)⟩ } := by
    have := run_append (elliptic lu) (Obj.fresh (demoProb (.neg .lap)) ⟨4, 1, fun _ _ => 7⟩)
      ([.setForcing ⟨4, 1, fun _ _ => 1⟩, .solve, .init (fun _ => 0)] ++ Call.init (fun _ => 5) :: [.setDirichlet ⟨3, 1, fun _ _ => 0⟩])
      [.solve, .setForcing ⟨4, 1, fun _ _ => 2⟩, .setDirichlet ⟨3, 1, fun p _ => (p : ℚ)⟩]
    rw [e1, Res.ok_bind, Obj.run, e2] at this
    exact this
  refine ⟨lu, _, e3, ?_⟩
  obtain ⟨o3, e4, _⟩ := C117_galerkin_partial lu _ _ _ _ _ (by intro j hj; simp at hj) e3 (demoProb (.neg .lap)) rfl demoProb_ok.1 h1
    (by decide) rfl ⟨4, 1, fun _ _ => 1⟩ rfl (by decide) rfl ⟨3, 1, fun p _ => (p : ℚ)⟩ rfl (by decide) (by decide)
  exact ⟨o3, e4⟩

end Fdapde.PDE
