import Verif.Fields.ExprLemmas
import Mathlib.Algebra.Order.Ring.Rat
import Mathlib.Data.Fin.VecNotation

/-! # Properties of field expressions (C83) -/

namespace Fdapde.Fields

set_option linter.unusedSectionVars false

variable {K P : Type} [Field K]

/-- `forward` keeps everything but the state of the leaves. -/
theorem forward_pres (q : Nat) : ∀ {s : Shape} (e e' : Exp K P s), forward q e = .ok e' →
    (∀ q' p, den q' p e' = den q' p e) ∧ (WF e → WF e') ∧ (∀ q', Avail q' e → Avail q' e') ∧ (Static e → Static e')
  | _, .const c, e', h => by simp only [forward, Res.ok.injEq] at h; subst h; exact ⟨fun _ _ => rfl, id, fun _ => id, id⟩
  | _, .fn f, e', h => by simp only [forward, Res.ok.injEq] at h; subst h; exact ⟨fun _ _ => rfl, id, fun _ => id, id⟩
  | _, .disc d v, e', h => by
      simp only [forward, Res.bind_eq_ok, Res.pure_eq, Res.ok.injEq] at h
      obtain ⟨v', _, rfl⟩ := h
      exact ⟨fun _ _ => rfl, id, fun _ => id, id⟩
  | _, .bin op a b, e', h => by
      simp only [forward, Res.bind_eq_ok, Res.pure_eq, Res.ok.injEq] at h
      obtain ⟨a', ha, b', hb, rfl⟩ := h
      obtain ⟨a1, a2, a3, a4⟩ := forward_pres q a a' ha
      obtain ⟨b1, b2, b3, b4⟩ := forward_pres q b b' hb
      exact ⟨fun q' p => by simp only [den, a1, b1], fun w => ⟨a2 w.1, b2 w.2⟩, fun q' w => ⟨a3 q' w.1, b3 q' w.2⟩,
        fun w => ⟨a4 w.1, b4 w.2⟩⟩
  | _, .un f a, e', h => by simp only [forward, Res.ok.injEq] at h; subst h; exact ⟨fun _ _ => rfl, id, fun _ => id, id⟩
  | _, .neg a, e', h => by
      simp only [forward, Res.bind_eq_ok, Res.pure_eq, Res.ok.injEq] at h
      obtain ⟨a', ha, rfl⟩ := h
      obtain ⟨a1, a2, a3, a4⟩ := forward_pres q a a' ha
      exact ⟨fun q' p => by simp only [den, a1], a2, a3, a4⟩
  | _, .dot a b, e', h => by
      simp only [forward, Res.bind_eq_ok, Res.pure_eq, Res.ok.injEq] at h
      obtain ⟨a', ha, b', hb, rfl⟩ := h
      obtain ⟨a1, a2, a3, a4⟩ := forward_pres q a a' ha
      obtain ⟨b1, b2, b3, b4⟩ := forward_pres q b b' hb
      exact ⟨fun q' p => by simp only [den, a1, b1],
        fun w => ⟨a2 w.1, b2 w.2.1, fun r => w.2.2 ((isRow_forward q b b' hb).1 r)⟩, fun q' w => ⟨a3 q' w.1, b3 q' w.2⟩,
        fun w => ⟨a4 w.1, b4 w.2⟩⟩
  | _, .vconst v, e', h => by simp only [forward, Res.ok.injEq] at h; subst h; exact ⟨fun _ _ => rfl, id, fun _ => id, id⟩
  | _, .vscal v, e', h => by simp only [forward, Res.ok.injEq] at h; subst h; exact ⟨fun _ _ => rfl, id, fun _ => id, id⟩
  | _, .vfield v, e', h => by simp only [forward, Res.ok.injEq] at h; subst h; exact ⟨fun _ _ => rfl, id, fun _ => id, id⟩
  | _, .vdisc d o, e', h => by simp only [forward, Res.ok.injEq] at h; subst h; exact ⟨fun _ _ => rfl, id, fun _ => id, id⟩
  | _, .vbin op a b, e', h => by
      simp only [forward, Res.bind_eq_ok, Res.pure_eq, Res.ok.injEq] at h
      obtain ⟨a', ha, b', hb, rfl⟩ := h
      obtain ⟨a1, a2, a3, a4⟩ := forward_pres q a a' ha
      obtain ⟨b1, b2, b3, b4⟩ := forward_pres q b b' hb
      exact ⟨fun q' p => by simp only [den, a1, b1], fun w => ⟨a2 w.1, b2 w.2⟩, fun q' w => ⟨a3 q' w.1, b3 q' w.2⟩,
        fun w => ⟨a4 w.1, b4 w.2⟩⟩
  | _, .vneg a, e', h => by
      simp only [forward, Res.bind_eq_ok, Res.pure_eq, Res.ok.injEq] at h
      obtain ⟨a', ha, rfl⟩ := h
      obtain ⟨a1, a2, a3, a4⟩ := forward_pres q a a' ha
      exact ⟨fun q' p => by simp only [den, a1], a2, a3, a4⟩
  | _, .mulVec a b, e', h => by
      simp only [forward, Res.bind_eq_ok, Res.pure_eq, Res.ok.injEq] at h
      obtain ⟨a', ha, b', hb, rfl⟩ := h
      obtain ⟨a1, a2, a3, a4⟩ := forward_pres q a a' ha
      obtain ⟨b1, b2, b3, b4⟩ := forward_pres q b b' hb
      exact ⟨fun q' p => by simp only [den, a1, b1],
        fun w => ⟨a2 w.1, b2 w.2.1, fun r => w.2.2 ((isRow_forward q b b' hb).1 r)⟩, fun q' w => ⟨a3 q' w.1, b3 q' w.2⟩,
        fun w => ⟨a4 w.1, b4 w.2⟩⟩
  | _, .row a i, e', h => by
      simp only [forward, Res.bind_eq_ok, Res.pure_eq, Res.ok.injEq] at h
      obtain ⟨a', ha, rfl⟩ := h
      obtain ⟨a1, a2, a3, a4⟩ := forward_pres q a a' ha
      exact ⟨fun q' p => by simp only [den, a1], fun w => ⟨a2 w.1, w.2⟩, a3, a4⟩
  | _, .col a i, e', h => by
      simp only [forward, Res.bind_eq_ok, Res.pure_eq, Res.ok.injEq] at h
      obtain ⟨a', ha, rfl⟩ := h
      obtain ⟨a1, a2, a3, a4⟩ := forward_pres q a a' ha
      exact ⟨fun q' p => by simp only [den, a1], fun w => ⟨a2 w.1, w.2⟩, a3, a4⟩
  | _, .mconst v, e', h => by simp only [forward, Res.ok.injEq] at h; subst h; exact ⟨fun _ _ => rfl, id, fun _ => id, id⟩
  | _, .mscal v, e', h => by simp only [forward, Res.ok.injEq] at h; subst h; exact ⟨fun _ _ => rfl, id, fun _ => id, id⟩
  | _, .mfield v, e', h => by simp only [forward, Res.ok.injEq] at h; subst h; exact ⟨fun _ _ => rfl, id, fun _ => id, id⟩
  | _, .mdisc d o, e', h => by simp only [forward, Res.ok.injEq] at h; subst h; exact ⟨fun _ _ => rfl, id, fun _ => id, id⟩
  | _, .mbin op a b, e', h => by
      simp only [forward, Res.bind_eq_ok, Res.pure_eq, Res.ok.injEq] at h
      obtain ⟨a', ha, b', hb, rfl⟩ := h
      obtain ⟨a1, a2, a3, a4⟩ := forward_pres q a a' ha
      obtain ⟨b1, b2, b3, b4⟩ := forward_pres q b b' hb
      exact ⟨fun q' p => by simp only [den, a1, b1]; rfl, fun w => ⟨a2 w.1, b2 w.2⟩, fun q' w => ⟨a3 q' w.1, b3 q' w.2⟩,
        fun w => ⟨a4 w.1, b4 w.2⟩⟩
  | _, .mneg a, e', h => by
      simp only [forward, Res.bind_eq_ok, Res.pure_eq, Res.ok.injEq] at h
      obtain ⟨a', ha, rfl⟩ := h
      obtain ⟨a1, a2, a3, a4⟩ := forward_pres q a a' ha
      exact ⟨fun q' p => by simp only [den, a1], a2, a3, a4⟩

/-- A sequence of `forward` calls. -/
def forwards {s : Shape} (qs : List Nat) (e : Exp K P s) : Res (Exp K P s) := foldRes (fun e q => forward q e) e qs

theorem forwards_pres {s : Shape} (p0 : P) (qs : List Nat) (e : Exp K P s) (hw : WF e) (ha : ∀ q ∈ qs, Avail q e) :
    ∃ e', forwards qs e = .ok e' ∧ (∀ q' (p : P), den q' p e' = den q' p e) ∧ WF e' ∧ (∀ q', Avail q' e → Avail q' e') := by
  induction qs generalizing e with
  | nil => exact ⟨e, rfl, fun _ _ => rfl, hw, fun _ => id⟩
  | cons q qs ih =>
      obtain ⟨e1, h1, _⟩ := forward_agree q p0 e hw (ha q (by simp))
      obtain ⟨a1, a2, a3, _⟩ := forward_pres q e e1 h1
      obtain ⟨e', h2, b1, b2, b3⟩ := ih e1 (a2 hw) (fun q' hq' => a3 q' (ha q' (by simp [hq'])))
      refine ⟨e', ?_, fun q' p => by rw [b1, a1], b2, fun q' w => b3 q' (a3 q' w)⟩
      unfold forwards at *
      rw [foldRes_cons, h1, Res.ok_bind]
      exact h2

theorem forwards_agree {s : Shape} (qs : List Nat) (q : Nat) (p : P) (e : Exp K P s) (hw : WF e) (ha : ∀ q' ∈ qs, Avail q' e)
    (hq : Avail q e) :
    ∃ e', forwards (qs ++ [q]) e = .ok e' ∧ Agree s (fun ix => eval e' ix p) (den q p e) ∧ vdims.vouter e' = vdims.vouter e := by
  obtain ⟨e1, h1, d1, w1, a1⟩ := forwards_pres p qs e hw ha
  obtain ⟨e2, h2, g2⟩ := forward_agree q p e1 w1 (a1 q hq)
  have ho : ∀ (qs : List Nat) (e e' : Exp K P s), forwards qs e = .ok e' → vdims.vouter e' = vdims.vouter e := by
    intro qs
    induction qs with
    | nil => intro e e' h; cases h; rfl
    | cons r qs ih =>
        intro e e' h
        unfold forwards at h ih
        rw [foldRes_cons, Res.bind_eq_ok] at h
        obtain ⟨e1, g1, g2⟩ := h
        rw [ih e1 e' g2, vouter_forward e e1 r g1]
  have h3 : forwards (qs ++ [q]) e = .ok e2 := by
    unfold forwards at *
    rw [foldRes_append, h1, Res.ok_bind, foldRes_cons, h2]
    rfl
  refine ⟨e2, h3, ?_, ho _ _ _ h3⟩
  rw [← d1 q p]
  exact g2

/-- **C83.** A scalar expression of any depth, after any sequence of `forward` calls, evaluates at every point to ordinary
arithmetic on the values of its operands, discretised operands taking the values of the last index forwarded.
Partial: the expressions are those of `WF`; outside, see the bug theorems. -/
theorem C83_scalar_partial (e : Exp K P .sc) (hw : WF e) (qs : List Nat) (q : Nat) (ha : ∀ q' ∈ qs, Avail q' e) (hq : Avail q e)
    (p : P) : ∃ e', forwards (qs ++ [q]) e = .ok e' ∧ eval e' () p = .ok (den q p e) := by
  obtain ⟨e', h1, h2, _⟩ := forwards_agree qs q p e hw ha hq
  exact ⟨e', h1, h2⟩

/-- **C83.** The same for vector expressions: all components are produced, in order.  Partial as above. -/
theorem C83_vector_partial {l : Nat} (e : Exp K P (.vec l)) (hw : WF e) (qs : List Nat) (q : Nat) (ha : ∀ q' ∈ qs, Avail q' e)
    (hq : Avail q e) (p : P) : ∃ e', forwards (qs ++ [q]) e = .ok e' ∧ evalVec e' p = .ok (List.ofFn (den q p e : Fin l → K)) := by
  obtain ⟨e', h1, h2, h3⟩ := forwards_agree qs q p e hw ha hq
  refine ⟨e', h1, ?_⟩
  unfold evalVec
  rw [h3, vouter_wf e l rfl hw]
  exact collect_loop (fun j => eval e' j p) l _ h2

/-- **C83.** The same for matrix expressions: all coefficients are produced, row by row.  Partial as above. -/
theorem C83_matrix_partial {m k : Nat} (e : Exp K P (.mat m k)) (hw : WF e) (qs : List Nat) (q : Nat)
    (ha : ∀ q' ∈ qs, Avail q' e) (hq : Avail q e) (p : P) : ∃ e', forwards (qs ++ [q]) e = .ok e' ∧
      evalMat e' p = .ok (List.ofFn fun i => List.ofFn fun j => (den q p e : Matrix (Fin m) (Fin k) K) i j) := by
  obtain ⟨e', h1, h2, _⟩ := forwards_agree qs q p e hw ha hq
  refine ⟨e', h1, ?_⟩
  unfold evalMat
  refine collect_loop _ m (fun i => List.ofFn fun j => (den q p e : Matrix (Fin m) (Fin k) K) i j) ?_
  intro i hi
  exact collect_loop (fun j => eval e' (i, j) p) k _ (fun j hj => h2 i j hi hj)

/-- Without discretised operands no `forward` is needed. -/
theorem C83_static_partial (e : Exp K P .sc) (hw : WF e) (hs : Static e) (p : P) (q : Nat) : eval e () p = .ok (den q p e) := by
  have ha : ∀ {s : Shape} (e : Exp K P s), Static e → Avail q e := by
    intro s e
    induction e with
    | disc | vdisc | mdisc => intro h; exact h.elim
    | bin _ _ _ h1 h2 | dot _ _ h1 h2 | vbin _ _ _ h1 h2 | mulVec _ _ h1 h2 | mbin _ _ _ h1 h2 => intro h; exact ⟨h1 h.1, h2 h.2⟩
    | un _ _ h1 | neg _ h1 | vneg _ h1 | row _ _ h1 | col _ _ h1 | mneg _ h1 => intro h; exact h1 h
    | _ => intro _; trivial
  obtain ⟨e', h1, h2⟩ := forward_agree q p e hw (ha e hs)
  rw [forward_static e q hs] at h1
  cases h1
  exact h2

/-- Bug: `sin`, `cos`, `tan`, `exp` and `log` of an expression do not pass `forward` on, so `exp` of a discretised field is
evaluated with the initial value 0 of the field, whatever its data and the index. -/
theorem C83_bug_unary (f : K → K) (d : Data K) (q : Nat) (p : P) :
    ∃ e', forward q (.un f (.disc d 0) : Exp K P .sc) = .ok e' ∧ eval e' () p = .ok (f 0) := ⟨_, rfl, rfl⟩

/-- Bug: a vector expression dotted with a matrix row on the right, `v.dot(A.row(i))`, sums only the first product. -/
theorem C83_bug_dot_row {l : Nat} (v : Fin (l + 2) → K) (A : Fin (l + 2) → Fin (l + 2) → K) (i : Fin (l + 2)) (p : P) :
    eval (.dot (.vconst v) (.row (.mconst A) i.val) : Exp K P .sc) () p = .ok (v 0 * A i 0) := by
  have hd : dotSize (vdims (.vconst v : Exp K P (.vec (l + 2)))) (vdims (.row (.mconst A) i.val : Exp K P (.vec (l + 2)))) = 1 := by
    show dotSize (l + 2, 1) (1, l + 2) = 1
    unfold dotSize
    rw [if_neg (by simp), if_pos rfl]
  simp only [eval]
  rw [hd]
  simp [foldRes_cons, foldRes_nil, getFin, getFin2, Res.ok_bind]

/-- Bug: the dot product of two matrix rows, `A.row(i).dot(A.row(j))`, sums only the first product. -/
theorem C83_bug_row_row {l : Nat} (A : Fin (l + 2) → Fin (l + 2) → K) (i j : Fin (l + 2)) (p : P) :
    eval (.dot (.row (.mconst A) i.val) (.row (.mconst A) j.val) : Exp K P .sc) () p = .ok (A i 0 * A j 0) := by
  have hd : dotSize (vdims (.row (.mconst A) i.val : Exp K P (.vec (l + 2))))
      (vdims (.row (.mconst A) j.val : Exp K P (.vec (l + 2)))) = 1 := by
    show dotSize (1, l + 2) (1, l + 2) = 1
    simp [dotSize]
  simp only [eval]
  rw [hd]
  simp [foldRes_cons, foldRes_nil, getFin2, Res.ok_bind]

/-- Bug: a matrix times a matrix row, `A * B.row(j)`, computes only the first product of each component. -/
theorem C83_bug_mulVec_row {l : Nat} (A B : Fin (l + 2) → Fin (l + 2) → K) (i j : Fin (l + 2)) (p : P) :
    eval (.mulVec (.mconst A) (.row (.mconst B) j.val) : Exp K P (.vec (l + 2))) i.val p = .ok (A i 0 * B j 0) := by
  have hd : dotSize (1, l + 2) (vdims (.row (.mconst B) j.val : Exp K P (.vec (l + 2)))) = 1 := by
    show dotSize (1, l + 2) (1, l + 2) = 1
    simp [dotSize]
  simp only [eval]
  rw [hd]
  simp [foldRes_cons, foldRes_nil, getFin2, Res.ok_bind]

/-- Bug: evaluating a row of an `m × k` matrix produces `m` components instead of `k`: with more columns than rows the tail is
lost. -/
theorem C83_bug_row_truncated {m k : Nat} (A : Fin m → Fin (m + k + 1) → K) (i : Fin m) (p : P) :
    ∃ r, evalVec (.row (.mconst A) i.val : Exp K P (.vec (m + k + 1))) p = .ok r ∧ r.length = m ∧
      r ≠ List.ofFn (A i) := by
  refine ⟨List.ofFn fun j : Fin m => A i ⟨j.val, by omega⟩, ?_, by simp, ?_⟩
  · unfold evalVec
    show foldRes _ _ (List.range m) = _
    refine collect_loop (fun j => eval (.row (.mconst A) i.val : Exp K P (.vec (m + k + 1))) j p) m _ ?_
    intro j hj
    show getFin2 A i.val j = _
    unfold getFin2
    rw [dif_pos ⟨i.isLt, by omega⟩]
  · intro h
    have := congrArg List.length h
    simp at this
    omega

/-- Bug: with more rows than columns, evaluating a row reads outside the matrix. -/
theorem C83_bug_row_overrun {m k : Nat} (A : Fin (k + m + 1) → Fin k → K) (i : Fin (k + m + 1)) (p : P) :
    evalVec (.row (.mconst A) i.val : Exp K P (.vec k)) p = .ub := by
  unfold evalVec
  show foldRes _ _ (List.range (k + m + 1)) = _
  have e : List.range (k + m + 1) = List.range k ++ (k :: (List.range m).map (fun x => k + 1 + x)) := by
    rw [show k + m + 1 = k + (1 + m) by omega, List.range_add, List.range_add]
    simp [Nat.add_assoc]
  rw [e, foldRes_append]
  have h1 := collect_loop (fun j => eval (.row (.mconst A) i.val : Exp K P (.vec k)) j p) k (fun j => A i j) (by
    intro j hj
    show getFin2 A i.val j = _
    unfold getFin2
    rw [dif_pos ⟨i.isLt, hj⟩])
  rw [h1, Res.ok_bind, foldRes_cons]
  have h2 : eval (.row (.mconst A) i.val : Exp K P (.vec k)) k p = .ub := by
    show getFin2 A i.val k = _
    unfold getFin2
    rw [dif_neg (by simp)]
  rw [h2]
  rfl

/-- A diffusion-like expression: `(A * v).dot(w) + c * d` with discretised `A`, `w` and `d`, two quadrature points. -/
def sample : Exp ℚ (ℚ × ℚ) .sc :=
  .bin .add
    (.dot (.mulVec (.mdisc ⟨2, 4, fun i j => 10 * i + j⟩ none : Exp ℚ (ℚ × ℚ) (.mat 2 2))
        (.vfield fun j p => if j.val = 0 then p.1 else p.2))
      (.vdisc ⟨2, 2, fun i j => i + 2 * j⟩ none))
    (.bin .mul (.const 3) (.disc ⟨2, 1, fun i _ => 5 * i + 1⟩ 0))

example : WF sample := by simp [sample, WF, IsRow]
example : Avail 0 sample ∧ Avail 1 sample := by simp [sample, Avail]
example : ((forwards [0, 1] sample).bind fun e => eval e () (2, 3)) = Res.ok ((10 * 2 + 12 * 3) * 1 + (11 * 2 + 13 * 3) * 3 + 3 * 6) := by
  decide +kernel
example : den 1 (2, 3) sample = (10 * 2 + 12 * 3) * 1 + (11 * 2 + 13 * 3) * 3 + 3 * 6 := by decide +kernel

end Fdapde.Fields
