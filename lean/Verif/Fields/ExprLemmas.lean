import Verif.Fields.ExprSpec
import Mathlib.Algebra.BigOperators.Fin

/-! # Lemmas on field expressions -/

namespace Fdapde.Fields

set_option linter.unusedSectionVars false

variable {K P : Type} [Field K]

/-- Entries of the evaluator agree with a value. -/
def Agree : (s : Shape) → (Ix s → Res K) → Val K s → Prop
  | .sc, f, v => f () = .ok v
  | .vec l, f, v => ∀ (j : Nat) (h : j < l), f j = .ok ((v : Fin l → K) ⟨j, h⟩)
  | .mat m k, f, v => ∀ (i j : Nat) (hi : i < m) (hj : j < k), f (i, j) = .ok ((v : Matrix (Fin m) (Fin k) K) ⟨i, hi⟩ ⟨j, hj⟩)

theorem vouter_wf : ∀ {s : Shape} (e : Exp K P s) (l : Nat) (_ : s = .vec l), WF e → vdims.vouter e = l
  | _, .row _ _, l, hs, h => by
      cases hs
      exact h.2.1
  | _, .vbin _ a _, l, hs, h => by
      cases hs
      exact vouter_wf a _ rfl h.1
  | _, .vneg a, l, hs, h => by
      cases hs
      exact vouter_wf a _ rfl h
  | _, .vconst _, l, hs, h => by cases hs; rfl
  | _, .vscal _, l, hs, h => by cases hs; rfl
  | _, .vfield _, l, hs, h => by cases hs; rfl
  | _, .vdisc _ _, l, hs, h => by cases hs; rfl
  | _, .mulVec _ _, l, hs, h => by cases hs; rfl
  | _, .col _ _, l, hs, h => by cases hs; rfl

theorem vdims_wf {l : Nat} (e : Exp K P (.vec l)) (h : WF e) : (IsRow e ∧ vdims e = (1, l)) ∨ (¬ IsRow e ∧ vdims e = (l, 1)) := by
  cases e with
  | row a i => exact Or.inl ⟨trivial, rfl⟩
  | vbin op a b =>
      refine Or.inr ⟨fun x => x, ?_⟩
      show (vdims.vouter a, 1) = (l, 1)
      rw [vouter_wf a l rfl h.1]
  | vneg a =>
      refine Or.inr ⟨fun x => x, ?_⟩
      show (vdims.vouter a, 1) = (l, 1)
      rw [vouter_wf a l rfl h]
  | _ => exact Or.inr ⟨fun x => x, rfl⟩

theorem dotSize_wf {l : Nat} (d1 d2 : Nat × Nat) (h1 : d1 = (1, l) ∨ d1 = (l, 1)) (h2 : d2 = (l, 1) ∨ (d2 = (1, l) ∧ l = 1)) :
    dotSize d1 d2 = l := by
  have h2' : d2 = (l, 1) := by
    rcases h2 with h | ⟨h, e⟩
    · exact h
    · rw [h, e]
  subst h2'
  rcases h1 with rfl | rfl
  · unfold dotSize
    by_cases e : l = 1
    · simp [e]
    · simp [e]
  · unfold dotSize
    simp

theorem isRow_forward {l : Nat} (q : Nat) (e e' : Exp K P (.vec l)) (h : forward q e = .ok e') : (IsRow e' ↔ IsRow e) := by
  cases e with
  | row a i =>
      simp only [forward, Res.bind_eq_ok, Res.pure_eq, Res.ok.injEq] at h
      obtain ⟨a', _, rfl⟩ := h
      exact Iff.rfl
  | vbin op a b =>
      simp only [forward, Res.bind_eq_ok, Res.pure_eq, Res.ok.injEq] at h
      obtain ⟨a', _, b', _, rfl⟩ := h
      exact Iff.rfl
  | vneg a =>
      simp only [forward, Res.bind_eq_ok, Res.pure_eq, Res.ok.injEq] at h
      obtain ⟨a', _, rfl⟩ := h
      exact Iff.rfl
  | mulVec a v =>
      simp only [forward, Res.bind_eq_ok, Res.pure_eq, Res.ok.injEq] at h
      obtain ⟨a', _, b', _, rfl⟩ := h
      exact Iff.rfl
  | col a i =>
      simp only [forward, Res.bind_eq_ok, Res.pure_eq, Res.ok.injEq] at h
      obtain ⟨a', _, rfl⟩ := h
      exact Iff.rfl
  | vconst v => simp only [forward, Res.ok.injEq] at h; subst h; exact Iff.rfl
  | vscal v => simp only [forward, Res.ok.injEq] at h; subst h; exact Iff.rfl
  | vfield v => simp only [forward, Res.ok.injEq] at h; subst h; exact Iff.rfl
  | vdisc d o => simp only [forward, Res.ok.injEq] at h; subst h; exact Iff.rfl

/-- The accumulation loop of the dot product. -/
theorem dot_loop (f g : Nat → Res K) (l : Nat) (u v : Fin l → K) (hf : ∀ j (h : j < l), f j = .ok (u ⟨j, h⟩))
    (hg : ∀ j (h : j < l), g j = .ok (v ⟨j, h⟩)) :
    foldRes (fun acc j => do
      let x ← f j
      let y ← g j
      return acc + x * y) 0 (List.range l) = .ok (dotProduct u v) := by
  induction l with
  | zero => simp [foldRes_nil, dotProduct]
  | succ l ih =>
      have h1 := ih (fun j => u j.castSucc) (fun j => v j.castSucc) (fun j h => hf j (by omega)) (fun j h => hg j (by omega))
      rw [List.range_succ, foldRes_append, h1, Res.ok_bind, foldRes_cons]
      rw [hf l (by omega), hg l (by omega)]
      simp only [Res.ok_bind, Res.pure_eq, foldRes_nil, dotProduct, Fin.sum_univ_castSucc]
      rfl

theorem collect_loop {α : Type} (f : Nat → Res α) (l : Nat) (u : Fin l → α) (hf : ∀ j (h : j < l), f j = .ok (u ⟨j, h⟩)) :
    foldRes (fun acc j => do
      let x ← f j
      return acc ++ [x]) [] (List.range l) = .ok (List.ofFn u) := by
  induction l with
  | zero => simp [foldRes_nil]
  | succ l ih =>
      have h1 := ih (fun j => u j.castSucc) (fun j h => hf j (by omega))
      rw [List.range_succ, foldRes_append, h1, Res.ok_bind, foldRes_cons]
      rw [hf l (by omega)]
      simp only [Res.ok_bind, Res.pure_eq, foldRes_nil]
      rw [List.ofFn_succ_last]
      rfl

theorem raw_row (d : Data K) (q j : Nat) (hq : q < d.rows) (hj : j < d.cols) : d.raw (q * d.cols + j) = .ok (d.val q j) := by
  have h1 : q * d.cols + j < d.rows * d.cols := by
    calc q * d.cols + j < q * d.cols + d.cols := by omega
      _ = (q + 1) * d.cols := by ring
      _ ≤ d.rows * d.cols := Nat.mul_le_mul_right _ hq
  have h2 : (q * d.cols + j) / d.cols = q := by
    rw [Nat.mul_comm, Nat.mul_add_div (by omega), Nat.div_eq_of_lt hj, Nat.add_zero]
  have h3 : (q * d.cols + j) % d.cols = j := by
    rw [Nat.mul_comm, Nat.mul_add_mod, Nat.mod_eq_of_lt hj]
  unfold Data.raw
  rw [if_pos h1, h2, h3]

/-- Static expressions are not changed by `forward`. -/
theorem forward_static : ∀ {s : Shape} (e : Exp K P s) (q : Nat), Static e → forward q e = .ok e
  | _, .const _, _, _ => rfl
  | _, .fn _, _, _ => rfl
  | _, .bin _ a b, q, h => by
      simp only [forward, forward_static a q h.1, forward_static b q h.2, Res.ok_bind, Res.pure_eq]
  | _, .un _ _, _, _ => rfl
  | _, .neg a, q, h => by simp only [forward, forward_static a q h, Res.ok_bind, Res.pure_eq]
  | _, .dot a b, q, h => by
      simp only [forward, forward_static a q h.1, forward_static b q h.2, Res.ok_bind, Res.pure_eq]
  | _, .vconst _, _, _ => rfl
  | _, .vscal _, _, _ => rfl
  | _, .vfield _, _, _ => rfl
  | _, .vbin _ a b, q, h => by
      simp only [forward, forward_static a q h.1, forward_static b q h.2, Res.ok_bind, Res.pure_eq]
  | _, .vneg a, q, h => by simp only [forward, forward_static a q h, Res.ok_bind, Res.pure_eq]
  | _, .mulVec a b, q, h => by
      simp only [forward, forward_static a q h.1, forward_static b q h.2, Res.ok_bind, Res.pure_eq]
  | _, .row a _, q, h => by simp only [forward, forward_static a q h, Res.ok_bind, Res.pure_eq]
  | _, .col a _, q, h => by simp only [forward, forward_static a q h, Res.ok_bind, Res.pure_eq]
  | _, .mconst _, _, _ => rfl
  | _, .mscal _, _, _ => rfl
  | _, .mfield _, _, _ => rfl
  | _, .mbin _ a b, q, h => by
      simp only [forward, forward_static a q h.1, forward_static b q h.2, Res.ok_bind, Res.pure_eq]
  | _, .mneg a, q, h => by simp only [forward, forward_static a q h, Res.ok_bind, Res.pure_eq]

theorem vouter_forward : ∀ {s : Shape} (e e' : Exp K P s) (q : Nat), forward q e = .ok e' → vdims.vouter e' = vdims.vouter e
  | _, .row a i, e', q, h => by
      simp only [forward, Res.bind_eq_ok, Res.pure_eq, Res.ok.injEq] at h
      obtain ⟨a', _, rfl⟩ := h
      rfl
  | _, .vbin op a b, e', q, h => by
      simp only [forward, Res.bind_eq_ok, Res.pure_eq, Res.ok.injEq] at h
      obtain ⟨a', ha, b', _, rfl⟩ := h
      exact vouter_forward a a' q ha
  | _, .vneg a, e', q, h => by
      simp only [forward, Res.bind_eq_ok, Res.pure_eq, Res.ok.injEq] at h
      obtain ⟨a', ha, rfl⟩ := h
      exact vouter_forward a a' q ha
  | _, .mulVec a v, e', q, h => by
      simp only [forward, Res.bind_eq_ok, Res.pure_eq, Res.ok.injEq] at h
      obtain ⟨a', _, b', _, rfl⟩ := h
      rfl
  | _, .col a i, e', q, h => by
      simp only [forward, Res.bind_eq_ok, Res.pure_eq, Res.ok.injEq] at h
      obtain ⟨a', _, rfl⟩ := h
      rfl
  | _, .vconst v, e', q, h => by simp only [forward, Res.ok.injEq] at h; subst h; rfl
  | _, .vscal v, e', q, h => by simp only [forward, Res.ok.injEq] at h; subst h; rfl
  | _, .vfield v, e', q, h => by simp only [forward, Res.ok.injEq] at h; subst h; rfl
  | _, .vdisc d o, e', q, h => by simp only [forward, Res.ok.injEq] at h; subst h; rfl
  | .sc, e, e', q, h => by
      have key : ∀ x : Exp K P .sc, vdims.vouter x = 1 := by intro x; cases x <;> rfl
      rw [key, key]
  | .mat m k, e, e', q, h => by
      have key : ∀ x : Exp K P (.mat m k), vdims.vouter x = 1 := by intro x; cases x <;> rfl
      rw [key, key]

theorem vdims_forward {l : Nat} (q : Nat) (e e' : Exp K P (.vec l)) (h : forward q e = .ok e') : vdims e' = vdims e := by
  have ho := vouter_forward e e' q h
  cases e with
  | row a i =>
      simp only [forward, Res.bind_eq_ok, Res.pure_eq, Res.ok.injEq] at h
      obtain ⟨a', _, rfl⟩ := h
      rfl
  | vbin op a b =>
      simp only [forward, Res.bind_eq_ok, Res.pure_eq, Res.ok.injEq] at h
      obtain ⟨a', _, b', _, rfl⟩ := h
      exact congrArg (fun x => (x, 1)) ho
  | vneg a =>
      simp only [forward, Res.bind_eq_ok, Res.pure_eq, Res.ok.injEq] at h
      obtain ⟨a', _, rfl⟩ := h
      exact congrArg (fun x => (x, 1)) ho
  | mulVec a v =>
      simp only [forward, Res.bind_eq_ok, Res.pure_eq, Res.ok.injEq] at h
      obtain ⟨a', _, b', _, rfl⟩ := h
      rfl
  | col a i =>
      simp only [forward, Res.bind_eq_ok, Res.pure_eq, Res.ok.injEq] at h
      obtain ⟨a', _, rfl⟩ := h
      rfl
  | vconst v => simp only [forward, Res.ok.injEq] at h; subst h; rfl
  | vscal v => simp only [forward, Res.ok.injEq] at h; subst h; rfl
  | vfield v => simp only [forward, Res.ok.injEq] at h; subst h; rfl
  | vdisc d o => simp only [forward, Res.ok.injEq] at h; subst h; rfl

/-- After `forward q`, every entry of a well-formed expression evaluates to its meaning. -/
theorem forward_agree (q : Nat) (p : P) : ∀ {s : Shape} (e : Exp K P s), WF e → Avail q e →
    ∃ e', forward q e = .ok e' ∧ Agree s (fun ix => eval e' ix p) (den q p e)
  | _, .const c, _, _ => ⟨_, rfl, rfl⟩
  | _, .fn f, _, _ => ⟨_, rfl, rfl⟩
  | _, .disc d v, _, ha => by
      refine ⟨.disc d (d.val q 0), ?_, rfl⟩
      have h : q < d.rows ∧ 0 < d.cols := ⟨ha.1, by rw [ha.2]; exact Nat.one_pos⟩
      simp only [forward, Data.at, if_pos h, Res.ok_bind, Res.pure_eq]
  | _, .bin op a b, hw, ha => by
      obtain ⟨a', h1, g1⟩ := forward_agree q p a hw.1 ha.1
      obtain ⟨b', h2, g2⟩ := forward_agree q p b hw.2 ha.2
      refine ⟨.bin op a' b', by simp only [forward, h1, h2, Res.ok_bind, Res.pure_eq], ?_⟩
      have g1' : eval a' () p = _ := g1
      have g2' : eval b' () p = _ := g2
      show eval (.bin op a' b') () p = _
      simp only [eval, g1', g2', Res.ok_bind, Res.pure_eq]
      cases op <;> rfl
  | _, .un f a, hw, ha => by
      obtain ⟨a', h1, g1⟩ := forward_agree q p a hw.1 ha
      rw [forward_static a q hw.2] at h1
      cases h1
      refine ⟨.un f a, rfl, ?_⟩
      have g1' : eval a () p = _ := g1
      show eval (.un f a) () p = _
      simp only [eval, g1', Res.ok_bind, Res.pure_eq]
      rfl
  | _, .neg a, hw, ha => by
      obtain ⟨a', h1, g1⟩ := forward_agree q p a hw ha
      refine ⟨.neg a', by simp only [forward, h1, Res.ok_bind, Res.pure_eq], ?_⟩
      have g1' : eval a' () p = _ := g1
      show eval (.neg a') () p = _
      simp only [eval, g1', Res.ok_bind, Res.pure_eq]
      rfl
  | _, .dot (l := l) a b, hw, ha => by
      obtain ⟨a', h1, g1⟩ := forward_agree q p a hw.1 ha.1
      obtain ⟨b', h2, g2⟩ := forward_agree q p b hw.2.1 ha.2
      refine ⟨.dot a' b', by simp only [forward, h1, h2, Res.ok_bind, Res.pure_eq], ?_⟩
      show eval (.dot a' b') () p = _
      have hd : dotSize (vdims a') (vdims b') = l := by
        rw [vdims_forward q a a' h1, vdims_forward q b b' h2]
        apply dotSize_wf
        · rcases vdims_wf a hw.1 with h | h
          · exact Or.inl h.2
          · exact Or.inr h.2
        · rcases vdims_wf b hw.2.1 with h | h
          · exact Or.inr ⟨h.2, hw.2.2 h.1⟩
          · exact Or.inl h.2
      simp only [eval]
      rw [hd]
      exact dot_loop (fun j => eval a' j p) (fun j => eval b' j p) l _ _ g1 g2
  | _, .vconst v, _, _ => by
      refine ⟨_, rfl, ?_⟩
      intro j hj
      show getFin v j = _
      unfold getFin
      rw [dif_pos hj]
      rfl
  | _, .vscal c, _, _ => ⟨_, rfl, fun _ _ => rfl⟩
  | _, .vfield f, _, _ => by
      refine ⟨_, rfl, ?_⟩
      intro j hj
      show getFin (fun j' => f j' p) j = _
      unfold getFin
      rw [dif_pos hj]
      rfl
  | _, .vdisc (l := l) d o, _, ha => by
      refine ⟨_, rfl, ?_⟩
      intro j hj
      show readMap d (some (q * l)) l j = _
      simp only [readMap, if_pos hj]
      have := raw_row d q j ha.1 (by rw [ha.2]; exact hj)
      rw [ha.2] at this
      exact this
  | _, .vbin op a b, hw, ha => by
      obtain ⟨a', h1, g1⟩ := forward_agree q p a hw.1 ha.1
      obtain ⟨b', h2, g2⟩ := forward_agree q p b hw.2 ha.2
      refine ⟨.vbin op a' b', by simp only [forward, h1, h2, Res.ok_bind, Res.pure_eq], ?_⟩
      intro j hj
      have g1' : eval a' j p = _ := g1 j hj
      have g2' : eval b' j p = _ := g2 j hj
      show eval (.vbin op a' b') j p = _
      simp only [eval, g1', g2', Res.ok_bind, Res.pure_eq]
      cases op <;> rfl
  | _, .vneg a, hw, ha => by
      obtain ⟨a', h1, g1⟩ := forward_agree q p a hw ha
      refine ⟨.vneg a', by simp only [forward, h1, Res.ok_bind, Res.pure_eq], ?_⟩
      intro j hj
      have g1' : eval a' j p = _ := g1 j hj
      show eval (.vneg a') j p = _
      simp only [eval, g1', Res.ok_bind, Res.pure_eq]
      rfl
  | _, .mulVec (k := k) a v, hw, ha => by
      obtain ⟨a', h1, g1⟩ := forward_agree q p a hw.1 ha.1
      obtain ⟨v', h2, g2⟩ := forward_agree q p v hw.2.1 ha.2
      refine ⟨.mulVec a' v', by simp only [forward, h1, h2, Res.ok_bind, Res.pure_eq], ?_⟩
      intro i hi
      show eval (.mulVec a' v') i p = _
      have hd : dotSize (1, k) (vdims v') = k := by
        rw [vdims_forward q v v' h2]
        apply dotSize_wf _ _ (Or.inl rfl)
        rcases vdims_wf v hw.2.1 with h | h
        · exact Or.inr ⟨h.2, hw.2.2 h.1⟩
        · exact Or.inl h.2
      simp only [eval]
      rw [hd]
      exact dot_loop (fun j => eval a' (i, j) p) (fun j => eval v' j p) k _ _ (fun j hj => g1 i j hi hj) g2
  | _, .row a r, hw, ha => by
      obtain ⟨a', h1, g1⟩ := forward_agree q p a hw.1 ha
      refine ⟨.row a' r, by simp only [forward, h1, Res.ok_bind, Res.pure_eq], ?_⟩
      intro j hj
      show eval a' (r, j) p = _
      have h3 : eval a' (r, j) p = _ := g1 r j hw.2.2 hj
      rw [h3]
      simp only [den, dif_pos hw.2.2]
  | _, .col a c, hw, ha => by
      obtain ⟨a', h1, g1⟩ := forward_agree q p a hw.1 ha
      refine ⟨.col a' c, by simp only [forward, h1, Res.ok_bind, Res.pure_eq], ?_⟩
      intro i hi
      show eval a' (i, c) p = _
      have h3 : eval a' (i, c) p = _ := g1 i c hi hw.2
      rw [h3]
      simp only [den, dif_pos hw.2]
  | _, .mconst v, _, _ => by
      refine ⟨_, rfl, ?_⟩
      intro i j hi hj
      show getFin2 v i j = _
      unfold getFin2
      rw [dif_pos ⟨hi, hj⟩]
      rfl
  | _, .mscal c, _, _ => ⟨_, rfl, fun _ _ _ _ => rfl⟩
  | _, .mfield f, _, _ => by
      refine ⟨_, rfl, ?_⟩
      intro i j hi hj
      show getFin2 (fun i' j' => f i' j' p) i j = _
      unfold getFin2
      rw [dif_pos ⟨hi, hj⟩]
      rfl
  | _, .mdisc (m := m) (k := k) d o, _, ha => by
      refine ⟨_, rfl, ?_⟩
      intro i j hi hj
      show (if i < m ∧ j < k then readMap d (some (q * m * k)) (m * k) (i + j * m) else .ub) = _
      have hb : i + j * m < m * k := by
        calc i + j * m < m + j * m := by omega
          _ = m * (j + 1) := by ring
          _ ≤ m * k := Nat.mul_le_mul_left _ hj
      rw [if_pos ⟨hi, hj⟩]
      simp only [readMap, if_pos hb]
      have := raw_row d q (i + j * m) ha.1 (by rw [ha.2]; exact hb)
      rw [ha.2, ← Nat.mul_assoc] at this
      exact this
  | _, .mbin op a b, hw, ha => by
      obtain ⟨a', h1, g1⟩ := forward_agree q p a hw.1 ha.1
      obtain ⟨b', h2, g2⟩ := forward_agree q p b hw.2 ha.2
      refine ⟨.mbin op a' b', by simp only [forward, h1, h2, Res.ok_bind, Res.pure_eq], ?_⟩
      intro i j hi hj
      have g1' : eval a' (i, j) p = _ := g1 i j hi hj
      have g2' : eval b' (i, j) p = _ := g2 i j hi hj
      show eval (.mbin op a' b') (i, j) p = _
      simp only [eval, g1', g2', Res.ok_bind, Res.pure_eq]
      cases op <;> rfl
  | _, .mneg a, hw, ha => by
      obtain ⟨a', h1, g1⟩ := forward_agree q p a hw ha
      refine ⟨.mneg a', by simp only [forward, h1, Res.ok_bind, Res.pure_eq], ?_⟩
      intro i j hi hj
      have g1' : eval a' (i, j) p = _ := g1 i j hi hj
      show eval (.mneg a') (i, j) p = _
      simp only [eval, g1', Res.ok_bind, Res.pure_eq]
      rfl

end Fdapde.Fields
