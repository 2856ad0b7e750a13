import Verif.KDTree.Lemmas
namespace Fdapde.KDTree
open BinTree BinTree.Tree

variable {R : Type} [CommRing R] [LinearOrder R] [IsStrictOrderedRing R]

/-- Ids met on the descent from the root towards `p` (root first). -/
def path (data : Nat → Nat → R) (K : Nat) (p : Nat → R) : BinTree.Tree Nat → List Nat
  | .nil => []
  | .node l v d r => v :: if p (d % K) < data v (d % K) then path data K p l else path data K p r

/-- Root value. -/
def val : BinTree.Tree Nat → List Nat
  | .nil => []
  | .node _ v _ _ => [v]

/-- Sum of the weights of all nodes; used for termination. -/
def tw : BinTree.Tree Nat → Nat
  | .nil => 0
  | .node l _ _ r => 1 + 2 * (tw l + tw r)
/-- Weight of a stacked node. -/
def nw : BinTree.Tree Nat → Nat
  | .nil => 0
  | .node l _ _ r => 1 + tw l + tw r

theorem sqDist_nonneg (data : Nat → Nat → R) (K : Nat) (p : Nat → R) (i : Nat) : 0 ≤ sqDist data K p i :=
  Finset.sum_nonneg fun k _ => mul_self_nonneg _

theorem path_sub (data : Nat → Nat → R) (K : Nat) (p : Nat → R) (t : BinTree.Tree Nat) :
    ∀ i ∈ path data K p t, i ∈ t.inorder := by
  induction t with
  | nil => simp [path]
  | node l v d r ihl ihr =>
    intro i hi
    simp only [path, List.mem_cons] at hi
    simp only [inorder, List.mem_append, List.mem_cons]
    rcases hi with rfl | hi
    · simp
    · split at hi
      · exact .inl (ihl i hi)
      · exact .inr (.inr (ihr i hi))

theorem walk_spec (data : Nat → Nat → R) (K : Nat) (p : Nat → R) (t : BinTree.Tree Nat) :
    ∀ st st', walk data K p t st = .ok st' →
      ∃ P : List (BinTree.Tree Nat), st' = P ++ st ∧ (P.flatMap val).Perm (path data K p t) ∧ NonNil P ∧
        (∀ u ∈ P, ∀ x ∈ u.inorder, x ∈ t.inorder) ∧ (P.map nw).sum ≤ tw t ∧ (Full t → ∀ u ∈ P, Full u) := by
  induction t with
  | nil => intro st st' h; simp [walk] at h
  | node l v d r ihl ihr =>
    intro st st' h
    simp only [walk] at h
    split at h
    · rename_i hn
      injection h with h
      have hl : l = .nil := by cases l <;> simp_all [isNil]
      have hr : r = .nil := by cases r <;> simp_all [isNil]
      subst hl hr
      refine ⟨[.node .nil v d .nil], by simp [← h], ?_, ?_, ?_, ?_, ?_⟩
      · simp [val, path]
      · simp [NonNil, isNil]
      · simp
      · simp [nw, tw]
      · intro hf; simpa using hf
    · split at h
      · rename_i _ hlt
        obtain ⟨P, h1, h2, h3, h4, h5, h6⟩ := ihl _ _ h
        refine ⟨P ++ [.node l v d r], by simp [h1], ?_, ?_, ?_, ?_, ?_⟩
        · simp only [List.flatMap_append, List.flatMap_cons, List.flatMap_nil, val, path, if_pos hlt, List.append_nil]
          exact (List.perm_append_comm).trans (h2.cons v)
        · exact h3.append (by simp [NonNil, isNil])
        · intro u hu x hx
          rcases List.mem_append.1 hu with hu | hu
          · simp [inorder, h4 u hu x hx]
          · simp at hu; subst hu; exact hx
        · simp [nw, tw]; omega
        · intro hf u hu
          rcases List.mem_append.1 hu with hu | hu
          · exact h6 hf.2.1 u hu
          · simp at hu; subst hu; exact hf
      · rename_i _ hlt
        obtain ⟨P, h1, h2, h3, h4, h5, h6⟩ := ihr _ _ h
        refine ⟨P ++ [.node l v d r], by simp [h1], ?_, ?_, ?_, ?_, ?_⟩
        · simp only [List.flatMap_append, List.flatMap_cons, List.flatMap_nil, val, path, if_neg hlt, List.append_nil]
          exact (List.perm_append_comm).trans (h2.cons v)
        · exact h3.append (by simp [NonNil, isNil])
        · intro u hu x hx
          rcases List.mem_append.1 hu with hu | hu
          · simp [inorder, h4 u hu x hx]
          · simp at hu; subst hu; exact hx
        · simp [nw, tw]; omega
        · intro hf u hu
          rcases List.mem_append.1 hu with hu | hu
          · exact h6 hf.2.2 u hu
          · simp at hu; subst hu; exact hf

theorem walk_full (data : Nat → Nat → R) (K : Nat) (p : Nat → R) (t : BinTree.Tree Nat) :
    Full t → t.isNil = false → ∀ st, ∃ st', walk data K p t st = .ok st' := by
  induction t with
  | nil => intro _ h; simp [isNil] at h
  | node l v d r ihl ihr =>
    intro hf _ st
    obtain ⟨h1, h2, h3⟩ := hf
    simp only [walk]
    cases hn : (l.isNil && r.isNil) with
    | true => exact ⟨.node l v d r :: st, by simp⟩
    | false =>
      have hl : l.isNil = false := by
        cases hl : l.isNil
        · rfl
        · rw [← h1, hl] at hn; simp at hn
      have hr : r.isNil = false := by rw [← h1]; exact hl
      simp only [Bool.false_eq_true, if_false]
      split
      · exact ihl h2 hl _
      · exact ihr h3 hr _

theorem walkDown_spec (data : Nat → Nat → R) (K : Nat) (p : Nat → R) (t : BinTree.Tree Nat)
    (st st' : List (BinTree.Tree Nat)) (h : walkDown data K p t st = .ok st') :
      ∃ P : List (BinTree.Tree Nat), st' = P ++ st ∧ (P.flatMap val).Perm (path data K p t) ∧ NonNil P ∧
        (∀ u ∈ P, ∀ x ∈ u.inorder, x ∈ t.inorder) ∧ (P.map nw).sum ≤ tw t ∧ (Full t → ∀ u ∈ P, Full u) := by
  unfold walkDown at h
  split at h
  · rename_i hn
    injection h with h
    have : t = .nil := by cases t <;> simp_all [isNil]
    subst this
    exact ⟨[], by simp [h], by simp [path], by simp [NonNil], by simp, by simp, by simp⟩
  · exact walk_spec data K p t st st' h

theorem walkDown_full (data : Nat → Nat → R) (K : Nat) (p : Nat → R) (t : BinTree.Tree Nat) (hf : Full t)
    (st : List (BinTree.Tree Nat)) : ∃ st', walkDown data K p t st = .ok st' := by
  unfold walkDown
  cases h : t.isNil with
  | true => exact ⟨st, by simp⟩
  | false => simpa using walk_full data K p t hf h st

theorem nn_loop_spec (data : Nat → Nat → R) (K : Nat) (p : Nat → R) :
    ∀ (fuel : Nat) (st : List (BinTree.Tree Nat)) (best : Option (Nat × R)) (res : Option Nat),
    (∀ b, best = some b → b.2 = sqDist data K p b.1) →
    nnLoop data K p fuel st best = some (.ok res) →
    (st = [] ∧ best = none ∧ res = none) ∨
    ∃ i, res = some i ∧ (∀ j ∈ st.flatMap val, sqDist data K p i ≤ sqDist data K p j) ∧
      (∀ b, best = some b → sqDist data K p i ≤ b.2) ∧
      ((∃ b, best = some b ∧ b.1 = i) ∨ i ∈ st.flatMap inorder) := by
  intro fuel
  induction fuel with
  | zero =>
    intro st best res hb h
    cases st with
    | cons t st => simp [nnLoop] at h
    | nil =>
      simp only [nnLoop, Option.some.injEq, Res.ok.injEq] at h
      cases best with
      | none => left; exact ⟨rfl, rfl, by simpa using h.symm⟩
      | some b =>
        right
        refine ⟨b.1, by simpa using h.symm, by simp, ?_, .inl ⟨b, rfl, rfl⟩⟩
        intro b' hb'; injection hb' with hb'; subst hb'
        rw [hb b rfl]
  | succ fuel ih =>
    intro st best res hb h
    cases st with
    | nil =>
      simp only [nnLoop, Option.some.injEq, Res.ok.injEq] at h
      cases best with
      | none => left; exact ⟨rfl, rfl, by simpa using h.symm⟩
      | some b =>
        right
        refine ⟨b.1, by simpa using h.symm, by simp, ?_, .inl ⟨b, rfl, rfl⟩⟩
        intro b' hb'; injection hb' with hb'; subst hb'
        rw [hb b rfl]
    | cons t st =>
      right
      cases t with
      | nil => simp [nnLoop] at h
      | node l v d r =>
        -- the updated best
        have hcons : (newBest best v (sqDist data K p v)).2 = sqDist data K p (newBest best v (sqDist data K p v)).1 := by
          simp only [newBest]
          split
          · rfl
          · cases hbest : best with
            | none => rfl
            | some b => exact hb b hbest
        obtain ⟨best', hbd⟩ : ∃ b, b = newBest best v (sqDist data K p v) := ⟨_, rfl⟩
        rw [← hbd] at hcons
        have hle : best'.2 ≤ sqDist data K p v ∧ (∀ b, best = some b → best'.2 ≤ b.2) ∧
            ((∃ b, best = some b ∧ b.1 = best'.1) ∨ best'.1 = v) := by
          cases hbest : best with
          | none => simp [hbd, newBest, better, hbest]
          | some b =>
            by_cases hlt : sqDist data K p v < b.2
            · have hu : better (some b) (sqDist data K p v) = true := by simp [better, hlt]
              simp only [hbd, newBest, hbest, hu, if_true]
              refine ⟨le_refl _, ?_, .inr trivial⟩
              intro b' hb'; injection hb' with hb'; subst hb'; exact le_of_lt hlt
            · have hu : better (some b) (sqDist data K p v) = false := by simp [better, hlt]
              simp only [hbd, newBest, hbest, hu, Bool.false_eq_true, if_false, Option.getD_some]
              refine ⟨not_lt.1 hlt, ?_, .inl ⟨b, rfl, rfl⟩⟩
              intro b' hb'; injection hb' with hb'; subst hb'; exact le_refl _
        have hdef : nnLoop data K p (fuel + 1) (.node l v d r :: st) best =
            (if better best (sqDist data K p v) && decide (sqDist data K p v = 0) then some (.ok (some v))
            else if (data v (d % K) - p (d % K)) * (data v (d % K) - p (d % K)) < best'.2 then
              match walkDown data K p (if data v (d % K) - p (d % K) > 0 then l else r) st with
              | .ok st' => nnLoop data K p fuel st' (some best')
              | .throws => some .throws
              | .ub => some .ub
            else nnLoop data K p fuel st (some best')) := by rw [hbd]; rfl
        rw [hdef] at h
        have hrec : ∀ (st' P : List (BinTree.Tree Nat)), st' = P ++ st →
            (∀ u ∈ P, ∀ x ∈ u.inorder, x ∈ (BinTree.Tree.node l v d r).inorder) →
            nnLoop data K p fuel st' (some best') = some (.ok res) →
            ∃ i, res = some i ∧ (∀ j ∈ (BinTree.Tree.node l v d r :: st).flatMap val, sqDist data K p i ≤ sqDist data K p j) ∧
              (∀ b, best = some b → sqDist data K p i ≤ b.2) ∧
              ((∃ b, best = some b ∧ b.1 = i) ∨ i ∈ (BinTree.Tree.node l v d r :: st).flatMap inorder) := by
          intro st' P hst hP hrun
          rcases ih st' (some best') res (by intro b hb'; injection hb' with hb'; subst hb'; exact hcons) hrun with
            ⟨_, h2, _⟩ | ⟨i, h1, h2, h3, h4⟩
          · cases h2
          · have h3' := h3 best' rfl
            refine ⟨i, h1, ?_, ?_, ?_⟩
            · intro j hj
              rw [List.flatMap_cons, List.mem_append] at hj
              rcases hj with hj | hj
              · simp [val] at hj; subst hj; exact le_trans h3' hle.1
              · exact h2 j (by rw [hst, List.flatMap_append, List.mem_append]; exact .inr hj)
            · intro b hb'; exact le_trans h3' (hle.2.1 b hb')
            · rcases h4 with ⟨b, hb1, hb2⟩ | h4
              · injection hb1 with hb1
                subst hb1
                rcases hle.2.2 with ⟨b, hb1, hb3⟩ | hb3
                · exact .inl ⟨b, hb1, hb3.trans hb2⟩
                · right
                  rw [← hb2, hb3]; simp [inorder]
              · right
                rw [hst, List.flatMap_append, List.mem_append] at h4
                rw [List.flatMap_cons, List.mem_append]
                rcases h4 with h4 | h4
                · obtain ⟨u, hu, hx⟩ := List.mem_flatMap.1 h4
                  exact .inl (hP u hu i hx)
                · exact .inr h4
        split at h
        · rename_i hz
          simp only [Option.some.injEq, Res.ok.injEq] at h
          simp only [Bool.and_eq_true, decide_eq_true_eq] at hz
          refine ⟨v, h.symm, ?_, ?_, .inr (by simp [inorder])⟩
          · intro j _; rw [hz.2]; exact sqDist_nonneg _ _ _ _
          · intro b hb'; rw [hz.2, hb b hb']; exact sqDist_nonneg _ _ _ _
        · split at h
          · cases hw : walkDown data K p (if data v (d % K) - p (d % K) > 0 then l else r) st with
            | ok st' =>
              rw [hw] at h
              obtain ⟨P, h1, _, _, h4, _⟩ := walkDown_spec data K p _ _ _ hw
              refine hrec st' P h1 ?_ h
              intro u hu x hx
              have := h4 u hu x hx
              simp only [inorder, List.mem_append, List.mem_cons]
              split at this
              · exact .inl this
              · exact .inr (.inr this)
            | throws => rw [hw] at h; simp at h
            | ub => rw [hw] at h; simp at h
          · exact hrec st [] rfl (by simp) h

theorem nn_loop_full (data : Nat → Nat → R) (K : Nat) (p : Nat → R) :
    ∀ (fuel : Nat) (st : List (BinTree.Tree Nat)) (best : Option (Nat × R)),
    NonNil st → (∀ u ∈ st, Full u) → (st.map nw).sum ≤ fuel →
    ∃ res, nnLoop data K p fuel st best = some (.ok res) := by
  intro fuel
  induction fuel with
  | zero =>
    intro st best hn hf hl
    cases st with
    | nil => exact ⟨_, rfl⟩
    | cons t st => obtain ⟨l, v, d, r, rfl⟩ := hn.head; simp [nw] at hl
  | succ fuel ih =>
    intro st best hn hf hl
    cases st with
    | nil => exact ⟨_, rfl⟩
    | cons t st =>
      obtain ⟨l, v, d, r, rfl⟩ := hn.head
      obtain ⟨f1, f2, f3⟩ := hf _ (List.mem_cons_self ..)
      simp only [List.map_cons, List.sum_cons, nw] at hl
      simp only [nnLoop]
      split
      · exact ⟨_, rfl⟩
      · split
        · have hc : Full (if data v (d % K) - p (d % K) > 0 then l else r) := by split <;> assumption
          have ht : tw (if data v (d % K) - p (d % K) > 0 then l else r) ≤ tw l + tw r := by
            split <;> omega
          obtain ⟨st', hw⟩ := walkDown_full data K p _ hc st
          rw [hw]
          obtain ⟨P, h1, _, h3, _, h5, h6⟩ := walkDown_spec data K p _ _ _ hw
          subst h1
          refine ih _ _ (h3.append hn.tail) ?_ ?_
          · intro u hu
            rcases List.mem_append.1 hu with hu | hu
            · exact h6 hc u hu
            · exact hf u (List.mem_cons_of_mem _ hu)
          · simp only [List.map_append, List.sum_append]; omega
        · exact ih _ _ hn.tail (fun u hu => hf u (List.mem_cons_of_mem _ hu)) (by omega)

/-- With one coordinate the descent meets a nearest point. -/
theorem path_nearest1 (data : Nat → Nat → R) (p : Nat → R) (t : BinTree.Tree Nat) (hk : KDInv data 1 t) :
    ∀ y ∈ t.inorder, ∃ z ∈ path data 1 p t, sqDist data 1 p z ≤ sqDist data 1 p y := by
  induction t with
  | nil => simp [inorder]
  | node l v d r ihl ihr =>
    obtain ⟨h1, h2, h3, h4⟩ := hk
    have hm : d % 1 = 0 := Nat.mod_one d
    rw [hm] at h1 h2
    intro y hy
    simp only [inorder, List.mem_append, List.mem_cons] at hy
    have hsq : ∀ i, sqDist data 1 p i = (data i 0 - p 0) * (data i 0 - p 0) := by
      intro i; simp [sqDist]
    simp only [path, hm]
    by_cases hlt : p 0 < data v 0
    · rw [if_pos hlt]
      rcases hy with hy | rfl | hy
      · obtain ⟨z, hz, hzl⟩ := ihl h3 y hy
        exact ⟨z, List.mem_cons_of_mem _ hz, hzl⟩
      · exact ⟨y, List.mem_cons_self .., le_refl _⟩
      · refine ⟨v, List.mem_cons_self .., ?_⟩
        rw [hsq, hsq]
        have := h2 y hy
        nlinarith
    · rw [if_neg hlt]
      rcases hy with hy | rfl | hy
      · refine ⟨v, List.mem_cons_self .., ?_⟩
        rw [hsq, hsq]
        have := h1 y hy
        nlinarith
      · exact ⟨y, List.mem_cons_self .., le_refl _⟩
      · obtain ⟨z, hz, hzl⟩ := ihr h4 y hy
        exact ⟨z, List.mem_cons_of_mem _ hz, hzl⟩

/-- A data point equal to the query is on the descent. -/
theorem path_exact (data : Nat → Nat → R) (K : Nat) (hK : 0 < K) (p : Nat → R) (t : BinTree.Tree Nat)
    (hk : KDInv data K t) (x : Nat) (hp : ∀ k < K, p k = data x k) :
    x ∈ t.inorder → x ∈ path data K p t := by
  induction t with
  | nil => simp [inorder]
  | node l v d r ihl ihr =>
    obtain ⟨h1, h2, h3, h4⟩ := hk
    intro hx
    simp only [inorder, List.mem_append, List.mem_cons] at hx
    simp only [path, hp (d % K) (Nat.mod_lt _ hK)]
    rcases hx with hx | rfl | hx
    · rw [if_pos (h1 x hx)]
      exact List.mem_cons_of_mem _ (ihl h3 hx)
    · exact List.mem_cons_self ..
    · rw [if_neg (not_lt.2 (h2 x hx))]
      exact List.mem_cons_of_mem _ (ihr h4 hx)

end Fdapde.KDTree
