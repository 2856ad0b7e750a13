import Verif.PDE.WeakTreeSpec
import Verif.PDE.PropsForm
import Verif.Fields.PropsExpr
/-!
# Weak forms as field expressions (C120)
-/
namespace Fdapde.PDE
open Fdapde.Fields (Exp Shape den WF Avail Static IsRow forward eval)
open Fdapde.Quadrature Fdapde.FEM
set_option linter.unusedSectionVars false
variable {K : Type} [Field K] {N M : Nat}

section lift
variable {P Q : Type} (g : Q → P)

theorem den_lift (q : Nat) (p : Q) : ∀ {s : Shape} (e : Exp K P s), den q p (lift g e) = den q (g p) e := by
  intro s e
  induction e with
  | const | fn | disc | vconst | vscal | vfield | vdisc | mconst | mscal | mfield | mdisc => rfl
  | bin _ _ _ h1 h2 | dot _ _ h1 h2 | vbin _ _ _ h1 h2 | mulVec _ _ h1 h2 => simp only [lift, den, h1, h2]
  | mbin _ _ _ h1 h2 => simp only [lift, den, h1, h2]; rfl
  | un _ _ h1 | neg _ h1 | vneg _ h1 | row _ _ h1 | col _ _ h1 | mneg _ h1 => simp only [lift, den, h1]

theorem isRow_lift {s : Shape} (e : Exp K P s) : IsRow (lift g e) ↔ IsRow e := by cases e <;> rfl

theorem static_lift : ∀ {s : Shape} (e : Exp K P s), Static (lift g e) ↔ Static e := by
  intro s e
  induction e with
  | const | fn | disc | vconst | vscal | vfield | vdisc | mconst | mscal | mfield | mdisc => rfl
  | bin _ _ _ h1 h2 | dot _ _ h1 h2 | vbin _ _ _ h1 h2 | mulVec _ _ h1 h2 | mbin _ _ _ h1 h2 => simp only [lift, Static, h1, h2]
  | un _ _ h1 | neg _ h1 | vneg _ h1 | row _ _ h1 | col _ _ h1 | mneg _ h1 => simp only [lift, Static, h1]

theorem wf_lift : ∀ {s : Shape} (e : Exp K P s), WF (lift g e) ↔ WF e := by
  intro s e
  induction e with
  | const | fn | disc | vconst | vscal | vfield | vdisc | mconst | mscal | mfield | mdisc => rfl
  | bin _ _ _ h1 h2 | dot _ _ h1 h2 | vbin _ _ _ h1 h2 | mulVec _ _ h1 h2 | mbin _ _ _ h1 h2 =>
      simp only [lift, WF, h1, h2, isRow_lift]
  | un _ _ h1 | neg _ h1 | vneg _ h1 | row _ _ h1 | col _ _ h1 | mneg _ h1 => simp only [lift, WF, h1, static_lift]

theorem avail_lift (q : Nat) : ∀ {s : Shape} (e : Exp K P s), Avail q (lift g e) ↔ Avail q e := by
  intro s e
  induction e with
  | const | fn | disc | vconst | vscal | vfield | vdisc | mconst | mscal | mfield | mdisc => rfl
  | bin _ _ _ h1 h2 | dot _ _ h1 h2 | vbin _ _ _ h1 h2 | mulVec _ _ h1 h2 | mbin _ _ _ h1 h2 => simp only [lift, Avail, h1, h2]
  | un _ _ h1 | neg _ h1 | vneg _ h1 | row _ _ h1 | col _ _ h1 | mneg _ h1 => simp only [lift, Avail, h1]

end lift

theorem integrate_wf (R : Nat) : ∀ op : WOp K N, op.Usable R → WF (op.integrate (M := M)) := by
  intro op
  induction op with
  | dT | lap | diffC | advC | reactC => intro _; simp [WOp.integrate, WF, gradI, gradJ, valI, valJ, IsRow]
  | diffF D => intro h; simp [WOp.integrate, WF, gradI, gradJ, IsRow, wf_lift, h.1]
  | advF b =>
      intro h
      refine ⟨trivial, ⟨trivial, trivial, fun w => w.elim⟩, (wf_lift _ b).2 h.1, fun w => h.2.1 ((isRow_lift _ b).1 w)⟩
  | reactF c => intro h; simp [WOp.integrate, WF, valI, valJ, wf_lift, h.1]
  | add a b ha hb | sub a b ha hb => intro h; exact ⟨ha h.1, hb h.2⟩
  | smul x a ha => intro h; exact ⟨trivial, ha h⟩
  | neg a ha => intro h; exact ha h

theorem integrate_avail (R : Nat) (r : Nat) (hr : r < R) : ∀ op : WOp K N, op.Usable R → Avail r (op.integrate (M := M)) := by
  intro op
  induction op with
  | dT | lap | diffC | advC | reactC => intro _; simp [WOp.integrate, Avail, gradI, gradJ, valI, valJ]
  | diffF D => intro h; simp [WOp.integrate, Avail, gradI, gradJ, avail_lift, h.2 r hr]
  | advF b => intro h; simp [WOp.integrate, Avail, gradJ, valI, avail_lift, h.2.2 r hr]
  | reactF c => intro h; simp [WOp.integrate, Avail, valI, valJ, avail_lift, h.2 r hr]
  | add a b ha hb | sub a b ha hb => intro h; exact ⟨ha h.1, hb h.2⟩
  | smul x a ha => intro h; exact ⟨trivial, ha h⟩
  | neg a ha => intro h; exact ha h

theorem integrate_static : ∀ op : WOp K N, op.varying = false → Static (op.integrate (M := M)) := by
  intro op
  induction op with
  | dT | lap | diffC | advC | reactC => intro _; simp [WOp.integrate, Static, gradI, gradJ, valI, valJ]
  | diffF | advF | reactF => intro h; cases h
  | add a b ha hb | sub a b ha hb =>
      intro h
      simp only [WOp.varying, Bool.or_eq_false_iff] at h
      exact ⟨ha h.1, hb h.2⟩
  | smul x a ha => intro h; exact ⟨trivial, ha (by simpa [WOp.varying] using h)⟩
  | neg a ha => intro h; exact ha h

theorem integrate_den (t : Table) (r : Nat) (psi : Nat → (Nat → K) → K) (nab : Nat → Fin M → (Nat → K) → K)
    (invJT : Nat → Fin N → Fin M → K) (c i j : Nat) : ∀ op : WOp K N,
    (den r (bufAt psi nab invJT c i j, node K t (r % size t)) op.integrate : K) =
      weak N (op.meant t) r (psi i (node K t (r % size t))) (psi j (node K t (r % size t)))
        (physGrad nab invJT c i (node K t (r % size t))) (physGrad nab invJT c j (node K t (r % size t))) := by
  have gi : ∀ i z (hz : z < N), physGrad nab invJT c i (node K t (r % size t)) z =
      ∑ k : Fin M, invJT c ⟨z, hz⟩ k * nab i k (node K t (r % size t)) := fun i z hz => dif_pos hz
  intro op
  induction op with
  | dT => rfl
  | lap =>
      simp only [WOp.integrate, WOp.meant, den, weak, gradI, gradJ, dotProduct, Matrix.mulVec, Finset.sum_range, bufAt]
      simp only [physGrad, Fin.is_lt, dite_true]
  | diffC D =>
      simp only [WOp.integrate, WOp.meant, den, weak, gradI, gradJ, dotProduct, Matrix.mulVec, Finset.sum_range, bufAt]
      simp only [physGrad, ent2, Fin.is_lt, dite_true, and_self]
  | diffF D =>
      simp only [WOp.integrate, WOp.meant, den, weak, gradI, gradJ, dotProduct, Matrix.mulVec, Finset.sum_range, bufAt, den_lift]
      simp only [physGrad, ent2, Fin.is_lt, dite_true, and_self]
  | advC b =>
      simp only [WOp.integrate, WOp.meant, den, weak, valI, gradJ, dotProduct, Matrix.mulVec, Finset.sum_range, bufAt, Fields.arith]
      simp only [physGrad, ent1, Fin.is_lt, dite_true]
  | advF b =>
      simp only [WOp.integrate, WOp.meant, den, weak, valI, gradJ, dotProduct, Matrix.mulVec, Finset.sum_range, bufAt, Fields.arith,
        den_lift]
      simp only [physGrad, ent1, Fin.is_lt, dite_true]
  | reactC c => rfl
  | reactF c => simp only [WOp.integrate, WOp.meant, den, weak, valI, valJ, bufAt, Fields.arith, den_lift]
  | add a b ha hb | sub a b ha hb => simp only [WOp.integrate, WOp.meant, den, weak, Fields.arith, ha, hb]
  | smul x a ha => simp only [WOp.integrate, WOp.meant, den, weak, Fields.arith, ha]
  | neg a ha => simp only [WOp.integrate, WOp.meant, den, weak, ha]

theorem meant_symmetric (t : Table) : ∀ op : WOp K N, isSymmetric (op.meant t) = op.symmetric := by
  intro op
  induction op with
  | add a b ha hb | sub a b ha hb => simp only [WOp.meant, isSymmetric, WOp.symmetric, ha, hb]
  | smul x a ha => simp only [WOp.meant, isSymmetric, WOp.symmetric, ha]
  | neg a ha => simp only [WOp.meant, isSymmetric, WOp.symmetric, ha]
  | _ => rfl

theorem meant_noScalar (t : Table) : ∀ op : WOp K N, NoScalar (op.meant t) := by
  intro op
  induction op with
  | add a b ha hb | sub a b ha hb => exact ⟨ha, hb⟩
  | smul x a ha => exact ha
  | neg a ha => exact ha
  | _ => trivial

/-- States of the weak form: it still means what it meant when it was built. -/
structure Live (sv : Bool) (R : Nat) (e0 e : Exp K (At K N M) .sc) : Prop where
  same : ∀ q p, (den q p e : K) = den q p e0
  wf : WF e
  avail : ∀ r < R, Avail r e
  static : sv = false → Static e

theorem quadStep_live (t : Table) (sv : Bool) (R id : Nat) (b : Buf K N M) (e0 e : Exp K (At K N M) .sc) (h : Live sv R e0 e) (v : K)
    (iq : Nat) (hr : size t * id + iq < R) : ∃ e', quadStep t sv id b (v, e) iq =
      .ok (v + (den (size t * id + iq) (b, node K t iq) e0 : K) * weight K t iq, e') ∧ Live sv R e0 e' := by
  unfold quadStep fwd
  cases sv with
  | false =>
      refine ⟨e, ?_, h⟩
      have he := Fields.C83_static_partial e h.wf (h.static rfl) (b, node K t iq) (size t * id + iq)
      simp only [Bool.false_eq_true, if_false, Res.ok_bind, he, h.same]
  | true =>
      obtain ⟨e', h1, h2⟩ := Fields.forward_agree (size t * id + iq) (b, node K t iq) e h.wf (h.avail _ hr)
      obtain ⟨a1, a2, a3, _⟩ := Fields.forward_pres _ e e' h1
      have h2' : eval e' () (b, node K t iq) = .ok (den (size t * id + iq) (b, node K t iq) e : K) := h2
      refine ⟨e', ?_, ⟨fun q p => by rw [a1, h.same], a2 h.wf, fun r hr' => a3 r (h.avail r hr'), fun w => by cases w⟩⟩
      simp only [if_true, h1, Res.ok_bind, h2', h.same]

theorem integrateTree_live (t : Table) (sv : Bool) (n id : Nat) (hid : id < n) (measure : K) (b : Buf K N M)
    (e0 e : Exp K (At K N M) .sc) (h : Live sv (n * size t) e0 e) : ∃ e', integrateTree t sv id measure b e =
      .ok (integrateWeak t id measure (fun r p => (den r (b, p) e0 : K)), e') ∧ Live sv (n * size t) e0 e' := by
  have hlt : ∀ iq < size t, size t * id + iq < n * size t := by
    intro iq hiq
    have : size t * (id + 1) ≤ size t * n := Nat.mul_le_mul_left _ hid
    rw [Nat.mul_succ, Nat.mul_comm (size t) n] at this
    omega
  have key : ∀ k ≤ size t, ∃ e', foldRes (quadStep t sv id b) (0, e) (List.range k) =
      .ok ((List.range k).foldl (fun v iq => v + (den (size t * id + iq) (b, node K t iq) e0 : K) * weight K t iq) 0, e') ∧
      Live sv (n * size t) e0 e' := by
    intro k
    induction k with
    | zero => intro _; exact ⟨e, rfl, h⟩
    | succ k ih =>
        intro hk
        obtain ⟨e1, h1, l1⟩ := ih (by omega)
        obtain ⟨e2, h2, l2⟩ := quadStep_live t sv (n * size t) id b e0 e1 l1
          ((List.range k).foldl (fun v iq => v + (den (size t * id + iq) (b, node K t iq) e0 : K) * weight K t iq) 0) k (hlt k (by omega))
        refine ⟨e2, ?_, l2⟩
        rw [List.range_succ, foldRes_append, h1, Res.ok_bind, foldRes_cons, h2, Res.ok_bind, foldRes_nil, List.foldl_append]
        rfl
  obtain ⟨e', h1, l1⟩ := key (size t) le_rfl
  refine ⟨e', ?_, l1⟩
  unfold integrateTree
  rw [h1, Res.map_ok]
  rfl

/-- Two loops over the same list in step: the first has a state of its own, which stays good. -/
theorem foldRes_step {α β γ : Type} (G : β → Prop) (f : α × β → γ → Res (α × β)) (g : α → γ → Res α) (xs : List γ)
    (h : ∀ x ∈ xs, ∀ a b, G b → (g a x = .ub ∧ f (a, b) x = .ub) ∨ ∃ a' b', g a x = .ok a' ∧ f (a, b) x = .ok (a', b') ∧ G b') :
    ∀ a b, G b → (foldRes g a xs = .ub ∧ foldRes f (a, b) xs = .ub) ∨
      ∃ a' b', foldRes g a xs = .ok a' ∧ foldRes f (a, b) xs = .ok (a', b') ∧ G b' := by
  induction xs with
  | nil => intro a b hb; exact Or.inr ⟨a, b, rfl, rfl, hb⟩
  | cons x xs ih =>
      intro a b hb
      rcases h x (by simp) a b hb with ⟨h1, h2⟩ | ⟨a', b', h1, h2, h3⟩
      · left; rw [foldRes_cons, foldRes_cons, h1, h2]; exact ⟨rfl, rfl⟩
      · rw [foldRes_cons, foldRes_cons, h1, h2, Res.ok_bind, Res.ok_bind]
        exact ih (fun y hy => h y (List.mem_cons_of_mem _ hy)) a' b' h3

/-- **C120.** The assembler, which builds the weak form once as a field expression and carries it through all cells, pairs and
nodes, computes the same as a loop that evaluates for every cell, pair and node the form with the coefficients of that node:
nothing is left over from the nodes visited before. -/
theorem C120_assemble (t : Table) (op : WOp K N) (n nb m : Nat) (dofs : Nat → Nat → Nat) (measure : Nat → K)
    (psi : Nat → (Nat → K) → K) (nab : Nat → Fin M → (Nat → K) → K) (invJT : Nat → Fin N → Fin M → K)
    (hu : op.Usable (n * size t)) :
    assembleTree t op n nb m dofs measure psi nab invJT =
      discretizeOperator (isSymmetric (op.meant t)) n nb m dofs
        (locOf t N (op.meant t) measure psi (physGrad nab invJT)) := by
  have h0 : Live op.varying (n * size t) (op.integrate (M := M)) op.integrate :=
    ⟨fun _ _ => rfl, integrate_wf _ op hu, fun r hr => integrate_avail _ r hr op hu, integrate_static op⟩
  have hpush : ∀ c < n, ∀ i j (l : List (Trip K)) (e : Exp K (At K N M) .sc), Live op.varying (n * size t) op.integrate e →
      ((if dofs c i < m ∧ dofs c j < m then
          Res.ok (l ++ [(dofs c i, dofs c j, locOf t N (op.meant t) measure psi (physGrad nab invJT) c i j)]) else .ub) = .ub ∧
        pushPair t op.varying m dofs measure c i j (bufAt psi nab invJT c i j) (l, e) = .ub) ∨
      ∃ a' b', (if dofs c i < m ∧ dofs c j < m then
          Res.ok (l ++ [(dofs c i, dofs c j, locOf t N (op.meant t) measure psi (physGrad nab invJT) c i j)]) else .ub) = .ok a' ∧
        pushPair t op.varying m dofs measure c i j (bufAt psi nab invJT c i j) (l, e) = .ok (a', b') ∧
        Live op.varying (n * size t) op.integrate b' := by
    intro c hc i j l e he
    obtain ⟨e', h1, h2⟩ := integrateTree_live t op.varying n c hc (measure c) (bufAt psi nab invJT c i j) op.integrate e he
    have hv : integrateWeak t c (measure c) (fun r p => (den r (bufAt psi nab invJT c i j, p) op.integrate : K)) =
        locOf t N (op.meant t) measure psi (physGrad nab invJT) c i j := by
      unfold locOf integrateWeak
      congr 1
      refine accum_congr t _ _ fun iq hiq => ?_
      have hm : (size t * c + iq) % size t = iq := by rw [Nat.mul_add_mod, Nat.mod_eq_of_lt hiq]
      have := integrate_den t (size t * c + iq) psi nab invJT c i j op
      rw [hm] at this
      exact this
    unfold pushPair
    simp only [h1, Res.ok_bind, hv]
    by_cases hd : dofs c i < m ∧ dofs c j < m
    · right
      rw [if_pos hd, if_pos hd]
      exact ⟨_, _, rfl, rfl, h2⟩
    · left
      rw [if_neg hd, if_neg hd]
      exact ⟨rfl, rfl⟩
  have hpair : ∀ c < n, ∀ i j (l : List (Trip K)) (e : Exp K (At K N M) .sc), Live op.varying (n * size t) op.integrate e →
      (pairStep op.symmetric m dofs (locOf t N (op.meant t) measure psi (physGrad nab invJT)) c i l j = .ub ∧
        pairTree t op.symmetric op.varying m dofs measure (bufAt psi nab invJT) c i (l, e) j = .ub) ∨
      ∃ a' b', pairStep op.symmetric m dofs (locOf t N (op.meant t) measure psi (physGrad nab invJT)) c i l j = .ok a' ∧
        pairTree t op.symmetric op.varying m dofs measure (bufAt psi nab invJT) c i (l, e) j = .ok (a', b') ∧
        Live op.varying (n * size t) op.integrate b' := by
    intro c hc i j l e he
    unfold pairStep pairTree
    cases op.symmetric with
    | false => simpa using hpush c hc i j l e he
    | true =>
        by_cases hg : dofs c i ≥ dofs c j
        · simpa [hg] using hpush c hc i j l e he
        · right; exact ⟨l, e, by simp [hg], by simp [hg], he⟩
  have hall := foldRes_step (Live op.varying (n * size t) (op.integrate (M := M)))
    (fun s c => foldRes (fun s i =>
        foldRes (pairTree t op.symmetric op.varying m dofs measure (bufAt psi nab invJT) c i) s (List.range nb)) s (List.range nb))
    (fun l c => foldRes (fun l i => foldRes (pairStep op.symmetric m dofs
        (locOf t N (op.meant t) measure psi (physGrad nab invJT)) c i) l (List.range nb)) l (List.range nb)) (List.range n)
    (fun c hc a b hb => foldRes_step _ _ _ (List.range nb) (fun i _ a b hb => foldRes_step _ _ _ (List.range nb)
      (fun j _ a b hb => hpair c (List.mem_range.1 hc) i j a b hb) a b hb) a b hb) [] op.integrate h0
  unfold assembleTree discretizeOperator opTriplets
  rw [meant_symmetric]
  rcases hall with ⟨h1, h2⟩ | ⟨a', b', h1, h2, _⟩
  · rw [h1, h2]; rfl
  · rw [h1, h2]; rfl

/-- **C120** (partial: symmetric diffusion tensors, unless there is a transport term, see C60).  The assembled matrix represents the bilinear form of the operator on the finite element space, the
coefficients of node `k` of cell `c` being the ones in row `num_nodes * c + k` of the data. -/
theorem C120_form_partial (t : Table) (op : WOp K N) (n nb m : Nat) (dofs : Nat → Nat → Nat) (measure : Nat → K)
    (psi : Nat → (Nat → K) → K) (nab : Nat → Fin M → (Nat → K) → K) (invJT : Nat → Fin N → Fin M → K)
    (hu : op.Usable (n * size t)) (hd : ∀ c < n, ∀ i < nb, dofs c i < m) (hs : FlagRight N (op.meant t)) :
    ∃ A, assembleTree t op n nb m dofs measure psi nab invJT = .ok A ∧
      ∀ u v : Nat → K, ∑ p ∈ Finset.range m, ∑ q ∈ Finset.range m, v p * A p q * u q =
        ∑ c ∈ Finset.range n, measure c * ∑ k ∈ Finset.range (size t), weight K t k *
          form N (op.meant t) (size t * c + k)
            (feValue nb (dofs c) u fun i => psi i (node K t k)) (feValue nb (dofs c) v fun i => psi i (node K t k))
            (feGrad nb (dofs c) u fun i => physGrad nab invJT c i (node K t k))
            (feGrad nb (dofs c) v fun i => physGrad nab invJT c i (node K t k)) := by
  rw [C120_assemble t op n nb m dofs measure psi nab invJT hu]
  exact C91_form t N (op.meant t) measure psi (physGrad nab invJT) n nb m dofs hd hs (meant_noScalar t op)

/-- **C120.** The flag by which the index of a node is passed on or not is right: an operator without the flag has the same
coefficients at all nodes. -/
theorem C120_flag (t : Table) : ∀ op : WOp K N, op.varying = false → ∀ r r' bi bj gi gj,
    weak N (op.meant t) r bi bj gi gj = weak N (op.meant t) r' bi bj gi gj := by
  intro op
  induction op with
  | diffF | advF | reactF => intro h; cases h
  | add a b ha hb | sub a b ha hb =>
      intro h r r' bi bj gi gj
      simp only [WOp.varying, Bool.or_eq_false_iff] at h
      simp only [WOp.meant, weak, ha h.1 r r', hb h.2 r r']
  | smul x a ha =>
      intro h r r' bi bj gi gj
      simp only [WOp.varying, Bool.false_or] at h
      simp only [WOp.meant, weak, ha h r r']
  | neg a ha =>
      intro h r r' bi bj gi gj
      simp only [WOp.meant, weak, ha h r r']
  | _ => intro _ r r' bi bj gi gj; rfl

/-- Too few rows of data: the first row that is missing is read. -/
theorem C120_missing (t : Table) (d : Fields.Data K) (v : K) (c : Nat) (measure : K) (b : Buf K N M) (h : d.rows ≤ size t * c)
    (ht : 0 < size t) : integrateTree t true c measure b ((WOp.reactF (.disc d v) : WOp K N).integrate) = .ub := by
  obtain ⟨k, hk⟩ : ∃ k, size t = k + 1 := ⟨size t - 1, by omega⟩
  have h' : ¬ (size t * c + 0 < d.rows ∧ 0 < d.cols) := by omega
  have : quadStep t true c b (0, (WOp.reactF (.disc d v) : WOp K N).integrate) 0 = .ub := by
    simp only [quadStep, fwd, if_true, WOp.integrate, lift, forward, Fields.Data.at, if_neg h', Res.ub_bind]
  unfold integrateTree
  rw [hk, List.range_succ_eq_map, foldRes_cons, this]
  rfl

/-- The data 1, 2 of a reaction coefficient on two tetrahedra with one quadrature node each. -/
abbrev exData : Fields.Data ℚ := ⟨2, 1, fun i _ => i + 1⟩

/-- `-laplacian + reaction(c)` with discretised `c`. -/
abbrev exOp : WOp ℚ 3 := .add (.neg .lap) (.reactF (.disc exData 0))

/-- The linear functions on the reference tetrahedron. -/
abbrev exPsi : Nat → (Nat → ℚ) → ℚ := fun i p => if i = 0 then 1 - p 0 - p 1 - p 2 else p (i - 1)

/-- Their gradients. -/
abbrev exNab : Nat → Fin 3 → (Nat → ℚ) → ℚ := fun i k _ => if i = 0 then -1 else if i = k.val + 1 then 1 else 0

example : exOp.Usable (2 * size rule3_1) ∧ exOp.varying = true ∧ SymTensors 3 (exOp.meant rule3_1) := by
  refine ⟨⟨trivial, trivial, ?_⟩, rfl, ⟨trivial, trivial⟩⟩
  intro r hr
  have : size rule3_1 = 1 := rfl
  rw [this] at hr
  exact ⟨hr, rfl⟩

/-- Two copies of the reference tetrahedron that share no node: the coefficient is 1 on the first and 2 on the second. -/
example : ∃ A, assembleTree rule3_1 exOp 2 4 8 (fun c i => 4 * c + i) (fun _ => 1 / 6) exPsi exNab (fun _ i j => if i = j then 1 else 0) = .ok A ∧
    A 0 0 = 1 / 2 + 1 / 96 ∧ A 4 4 = 1 / 2 + 2 / 96 ∧ A 1 0 = -(1 / 6) + 1 / 96 ∧ A 0 1 = -(1 / 6) + 1 / 96 := by
  refine ⟨_, rfl, ?_, ?_, ?_, ?_⟩ <;> decide +kernel

/-- Coefficients given by a formula (`ScalarField` and the like are accepted) are evaluated at the nodes of the reference element
instead of the nodes of the cell: on the tetrahedron with nodes (1, 0, 0), (2, 0, 0), (1, 1, 0), (1, 0, 1) the reaction coefficient
c(x, y, z) = x gives the diagonal entry 1/384 instead of 5/384, the quadrature of c times the square of the first linear function. -/
theorem C120_bug_closed_form : ∃ A,
    assembleTree rule3_1 (.reactF (.fn fun x => x 0) : WOp ℚ 3) 1 4 4 (fun _ i => i) (fun _ => 1 / 6) exPsi exNab
      (fun _ i j => if i = j then 1 else 0) = .ok A ∧ A 0 0 = 1 / 384 ∧
    integrateBasis rule3_1 (fun p => ((1 + p 0, p 1, p 2) : ℚ × ℚ × ℚ)) (1 / 6) (fun x => x.1) (fun p => exPsi 0 p * exPsi 0 p) = 5 / 384 := by
  refine ⟨_, rfl, ?_, ?_⟩ <;> decide +kernel

/-- A reaction coefficient computed from data by `exp`, `log` and the like never moves (see `C83_bug_unary`): whatever the data and the
cell, the coefficient in the local integral is the function at 0. -/
theorem C120_bug_function_of_data (t : Table) (f : K → K) (d : Fields.Data K) (c : Nat) (measure : K) (b : Buf K N M) :
    integrateTree t true c measure b ((WOp.reactF (.un f (.disc d 0)) : WOp K N).integrate) =
      .ok (integrateWeak t c measure (fun _ p => f 0 * b.psiI p * b.psiJ p), (WOp.reactF (.un f (.disc d 0)) : WOp K N).integrate) := by
  have key : ∀ k, foldRes (quadStep t true c b) (0, (WOp.reactF (.un f (.disc d 0)) : WOp K N).integrate) (List.range k) =
      .ok ((List.range k).foldl (fun v iq => v + f 0 * b.psiI (node K t iq) * b.psiJ (node K t iq) * weight K t iq) 0,
        (WOp.reactF (.un f (.disc d 0)) : WOp K N).integrate) := by
    intro k
    induction k with
    | zero => rfl
    | succ k ih =>
        rw [List.range_succ, foldRes_append, ih, Res.ok_bind, foldRes_cons, List.foldl_append]
        rfl
  unfold integrateTree
  rw [key]
  rfl

end Fdapde.PDE
