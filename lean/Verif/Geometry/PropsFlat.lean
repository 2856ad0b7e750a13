import Verif.Geometry.Flat
import Verif.Geometry.PropsSearch
import Mathlib.Data.EReal.Operations
/- C48 on meshes which are flat in a direction. -/
set_option linter.unusedSectionVars false
namespace Fdapde.Geometry
open KDTree BinTree Tree
variable {d N : Nat}

/-! ### The doubles of the model are the extended real numbers and NaN -/

/-- The extended real number that a double represents. -/
noncomputable def Flt.toE : Flt → Option EReal
  | .num x => some (x : EReal)
  | .inf false => some ⊤
  | .inf true => some ⊥
  | .nan => none

/-- **C48**, arithmetic: comparisons of the doubles of the model are those of the extended real numbers and false if an operand is NaN;
`1.0 / x` is `+∞` for `x = 0` and the inverse otherwise; a product is that of the extended real numbers, except that zero times an infinity is
NaN (IEEE 754). -/
theorem C48_doubles :
    (∀ a b : Flt, a < b ↔ ∃ x y, a.toE = some x ∧ b.toE = some y ∧ x < y) ∧
    (∀ a b : Flt, a ≤ b ↔ ∃ x y, a.toE = some x ∧ b.toE = some y ∧ x ≤ y) ∧
    ((Flt.inv 0).toE = some ⊤ ∧ ∀ x : ℝ, x ≠ 0 → (Flt.inv x).toE = some ((x⁻¹ : ℝ) : EReal)) ∧
    (∀ (x : ℝ) (a : Flt) (y : EReal), a.toE = some y →
      (Flt.mul x a).toE = if x = 0 ∧ (y = ⊤ ∨ y = ⊥) then none else some ((x : EReal) * y)) ∧
    ∀ x : ℝ, (Flt.mul x .nan).toE = none := by
  refine ⟨fun a b => ?_, fun a b => ?_, ⟨by simp [Flt.inv, Flt.toE], fun x hx => by simp [Flt.inv, Flt.toE, hx]; norm_num⟩,
    fun x a y h => ?_, fun x => rfl⟩
  · show Flt.lt a b ↔ _
    rcases a with a | (_ | _) | _ <;> rcases b with b | (_ | _) | _ <;> simp [Flt.lt, Flt.toE]
  · show Flt.le a b ↔ _
    rcases a with a | (_ | _) | _ <;> rcases b with b | (_ | _) | _ <;> simp [Flt.le, Flt.toE]
  · rcases a with a | (_ | _) | _ <;> simp only [Flt.toE, Option.some.injEq, reduceCtorEq] at h
    · subst h; simp [Flt.mul, Flt.toE]
    · subst h
      rcases lt_trichotomy x 0 with hx | hx | hx
      · simp [Flt.mul, Flt.toE, hx.ne, hx, EReal.coe_mul_top_of_neg hx]
      · simp [Flt.mul, Flt.toE, hx]
      · simp [Flt.mul, Flt.toE, hx.ne', hx.not_gt, EReal.coe_mul_top_of_pos hx]
    · subst h
      rcases lt_trichotomy x 0 with hx | hx | hx
      · simp [Flt.mul, Flt.toE, hx.ne, hx, EReal.coe_mul_bot_of_neg hx]
      · simp [Flt.mul, Flt.toE, hx]
      · simp [Flt.mul, Flt.toE, hx.ne', hx.not_gt, EReal.coe_mul_bot_of_pos hx]

/-! ### Agreement of the two models when the mesh is not flat -/

theorem num_lt (x y : ℝ) : (Flt.num x < Flt.num y) = (x < y) := rfl
theorem num_le (x y : ℝ) : (Flt.num x ≤ Flt.num y) = (x ≤ y) := rfl

theorem dec_lt (x y : ℝ) : decide (Flt.num x < Flt.num y) = decide (x < y) := decide_eq_decide.2 Iff.rfl
theorem dec_le (x y : ℝ) : decide (Flt.num x ≤ Flt.num y) = decide (x ≤ y) := decide_eq_decide.2 Iff.rfl

/-- The construction depends on the outcome of the comparisons only. -/
theorem build_congr {R R' : Type} [LT R] [LE R] [DecidableLT R] [DecidableLE R] [LT R'] [LE R'] [DecidableLT R'] [DecidableLE R']
    (nth) (f : Nat → Nat → R) (g : Nat → Nat → R') (K n : Nat) (h : ∀ i j k, (f i (k % K) < f j (k % K)) ↔ (g i (k % K) < g j (k % K))) :
    KDTree.build nth f K n = KDTree.build nth g K n := by
  have hlt : kdLt f K = kdLt g K := by
    funext x v dd
    simp only [kdLt, h]
  have hstep : buildStep nth f K = buildStep nth g K := by
    funext s
    unfold buildStep
    rw [hlt]
  have hloop : ∀ fuel s, buildLoop nth f K fuel s = buildLoop nth g K fuel s := by
    intro fuel
    induction fuel with
    | zero => intro s; rfl
    | succ fuel ih =>
      intro s
      rw [buildLoop, buildLoop, hstep]
      split_ifs
      · rfl
      · cases buildStep nth g K s with
        | ok s' => exact ih s'
        | throws => rfl
        | ub => rfl
  rw [KDTree.build, KDTree.build, hloop]

theorem cF_num (m : SMesh d N) (k : Fin N) (h : m.lo k < m.hi k) : m.cF k = .num (m.c k) := by
  rw [SMesh.cF, Flt.inv, if_neg (by linarith), SMesh.c]

theorem stackF_num (a b : Fin N → ℝ) (k : Nat) : stackF (fun z => .num (a z)) (fun z => .num (b z)) k = .num (stack a b k) := by
  unfold stackF stack
  split_ifs <;> rfl

theorem scaleF_num (m : SMesh d N) (h : ∀ k, m.lo k < m.hi k) (x : Vec N) : m.scaleF x = fun k => .num (m.scale x k) := by
  funext k
  rw [SMesh.scaleF, cF_num m k (h k)]
  rfl

theorem dataF_num (m : SMesh d N) (h : ∀ k, m.lo k < m.hi k) (i k : Nat) : m.dataF i k = .num (m.data i k) := by
  rw [SMesh.dataF, scaleF_num m h, scaleF_num m h, stackF_num]
  rfl

theorem contained_num (f : Nat → Nat → ℝ) (F : Nat → Nat → Flt) (hF : ∀ i k, F i k = .num (f i k)) (q : Box ℝ) (Q : Box Flt)
    (h1 : ∀ k, Q.ll k = .num (q.ll k)) (h2 : ∀ k, Q.ur k = .num (q.ur k)) (i : Nat) : ∀ m dim, contained F Q i dim m = contained f q i dim m
  | 0, dim => rfl
  | m + 1, dim => by
    rw [contained, contained, contained_num f F hF q Q h1 h2 i m (dim + 1), hF, h1, h2]
    simp only [gt_iff_lt, dec_lt]

theorem rangeLoop_num (f : Nat → Nat → ℝ) (F : Nat → Nat → Flt) (hF : ∀ i k, F i k = .num (f i k)) (q : Box ℝ) (Q : Box Flt)
    (h1 : ∀ k, Q.ll k = .num (q.ll k)) (h2 : ∀ k, Q.ur k = .num (q.ur k)) (K : Nat) : ∀ fuel st res,
    rangeLoop F K Q fuel st res = rangeLoop f K q fuel st res := by
  intro fuel
  induction fuel with
  | zero => intro st res; cases st <;> rfl
  | succ fuel ih =>
    intro st res
    cases st with
    | nil => rfl
    | cons t st =>
      cases t with
      | nil => rfl
      | node l v dd r =>
        rw [rangeLoop, rangeLoop]
        simp only [contained_num f F hF q Q h1 h2, hF, h1, h2, ge_iff_le, dec_le]
        exact ih _ _

/-- On meshes which are not flat the doubles of this model are numbers, and nothing changes. -/
theorem candidatesF_eq (m : SMesh d N) (h : ∀ k, m.lo k < m.hi k) (nth) (ord : List Nat → List Nat) (p : Vec N) :
    m.candidatesF nth ord p = m.candidates nth ord p := by
  have hb : KDTree.build nth m.dataF (2 * N) m.n = KDTree.build nth m.data (2 * N) m.n :=
    build_congr nth _ _ _ _ fun i j k => by rw [dataF_num m h, dataF_num m h, num_lt]
  have hs : ∀ t, rangeSearch m.dataF (2 * N) (m.queryF p) t m.n = rangeSearch m.data (2 * N) (m.query p) t m.n := by
    intro t
    refine rangeLoop_num m.data m.dataF (dataF_num m h) _ _ (fun k => ?_) (fun k => ?_) _ _ _ _
    · simp only [SMesh.queryF, SMesh.query, scaleF_num m h]
      exact stackF_num (fun _ => 0) (m.scale p) k
    · simp only [SMesh.queryF, SMesh.query, scaleF_num m h]
      exact stackF_num (m.scale p) (fun _ => 1) k
  rw [SMesh.candidatesF, SMesh.candidates, hb]
  simp only [hs]
  rfl

/-- **C48** for the model with infinities and NaN, on meshes which are not flat in any direction. -/
theorem C48_locate_doubles (m : SMesh N N) (hm : m.Ok) (hN : 0 < N) (hS : ∀ i < m.n, (m.cell i).Nondeg) (nth)
    (hnth : NthContract nth) (ord : List Nat → List Nat) (hord : ∀ l, (ord l).Perm l) (p : Vec N) :
    (m.locateF nth ord 0 p = some (.ok (-1)) ∧ ∀ i < m.n, p ∉ convexHull ℝ (Set.range (m.cell i).coords)) ∨
    ∃ i < m.n, m.locateF nth ord 0 p = some (.ok (i : Int)) ∧ p ∈ convexHull ℝ (Set.range (m.cell i).coords) := by
  have e : m.locateF nth ord 0 p = m.locate nth ord 0 p := by rw [SMesh.locateF, SMesh.locate, candidatesF_eq m hm.flat]; rfl
  rw [e]
  exact C48_locate_exact m hm hN hS nth hnth ord hord p

/-! ### Flat meshes -/

/-- The ids which the search can visit when it never descends from a node of depth `k` (modulo `K`). -/
def reach (K k : Nat) : BinTree.Tree Nat → List Nat
  | .nil => []
  | .node l v d r => v :: if d % K = k then [] else reach K k l ++ reach K k r

theorem reach_length (K k : Nat) (hk : k < K) : ∀ (j : Nat) (t : BinTree.Tree Nat), j ≤ k → DepthOK (k - j) t → (reach K k t).length ≤ 2 ^ (j + 1) - 1
  | j, .nil, _, _ => by simp [reach]
  | j, .node l v dd r, hj, ⟨h1, h2, h3⟩ => by
    rw [reach]
    subst h1
    rw [Nat.mod_eq_of_lt (by omega)]
    cases j with
    | zero => simp
    | succ j =>
      rw [if_neg (by omega), List.length_cons, List.length_append]
      have e : k - (j + 1) + 1 = k - j := by omega
      rw [e] at h2 h3
      have a := reach_length K k hk j l (by omega) h2
      have b := reach_length K k hk j r (by omega) h3
      have : 2 ^ (j + 1 + 1) = 2 ^ (j + 1) + 2 ^ (j + 1) := by ring
      have : 1 ≤ 2 ^ (j + 1) := Nat.one_le_two_pow
      omega

theorem reach_sub (K k : Nat) : ∀ (t : BinTree.Tree Nat), ∀ i ∈ reach K k t, i ∈ t.inorder
  | .nil, i, h => by simp [reach] at h
  | .node l v dd r, i, h => by
    rw [reach] at h
    rw [inorder, List.mem_append, List.mem_cons]
    rcases List.mem_cons.1 h with rfl | h
    · exact .inr (.inl rfl)
    · split_ifs at h
      · simp at h
      · rcases List.mem_append.1 h with h | h
        · exact .inl (reach_sub K k l i h)
        · exact .inr (.inr (reach_sub K k r i h))

theorem rangeLoop_reach {R : Type} [LT R] [LE R] [DecidableLT R] [DecidableLE R] (data : Nat → Nat → R) (K k : Nat) (q : Box R)
    (n : Nat) (hll : ∀ v < n, ¬ data v k ≥ q.ll k) (hur : ∀ v < n, ¬ data v k ≤ q.ur k) :
    ∀ (fuel : Nat) (st : List (BinTree.Tree Nat)) (res : List Nat), NonNil st → (∀ t ∈ st, ∀ v ∈ t.inorder, v < n) → fsize st ≤ fuel →
      ∃ out, rangeLoop data K q fuel st res = some (.ok out) ∧ ∀ i ∈ out, i ∈ res ∨ ∃ t ∈ st, i ∈ reach K k t := by
  intro fuel
  induction fuel with
  | zero =>
    intro st res hn hv hl
    cases st with
    | nil => exact ⟨res, by simp [rangeLoop], fun i hi => .inl hi⟩
    | cons t st => obtain ⟨l, v, dd, r, rfl⟩ := hn.head; simp [size] at hl
  | succ fuel ih =>
    intro st res hn hv hl
    cases st with
    | nil => exact ⟨res, by simp [rangeLoop], fun i hi => .inl hi⟩
    | cons t st =>
      obtain ⟨l, v, dd, r, rfl⟩ := hn.head
      simp only [rangeLoop]
      rw [push_if _ r, push_if _ l]
      have hA : ∀ (t : BinTree.Tree Nat) (c : Bool), NonNil (if !t.isNil && c then [t] else []) ∧ fsize (if !t.isNil && c then [t] else []) ≤ t.size := by
        intro t c
        cases hc : (!t.isNil && c) with
        | false => simp [NonNil]
        | true =>
          simp only [Bool.and_eq_true, Bool.not_eq_true'] at hc
          simp [NonNil, hc.1]
      obtain ⟨a1, a2⟩ := hA l (decide (data v (dd % K) ≥ q.ll (dd % K)))
      obtain ⟨b1, b2⟩ := hA r (decide (data v (dd % K) ≤ q.ur (dd % K)))
      obtain ⟨out, ho1, ho2⟩ := ih _ (if contained data q v 0 K then v :: res else res)
        (b1.append (a1.append hn.tail))
        (by
          intro u hu x hx
          have hroot := hv _ List.mem_cons_self
          simp only [inorder, List.mem_append, List.mem_cons] at hroot
          simp only [List.mem_append] at hu
          rcases hu with hu | hu | hu
          · split_ifs at hu
            · rw [List.mem_singleton] at hu
              subst hu
              exact hroot x (.inr (.inr hx))
            · simp at hu
          · split_ifs at hu
            · rw [List.mem_singleton] at hu
              subst hu
              exact hroot x (.inl hx)
            · simp at hu
          · exact hv u (List.mem_cons_of_mem _ hu) x hx)
        (by simp only [fsize_append, fsize_cons, size] at hl ⊢; omega)
      refine ⟨out, ho1, fun i hi => ?_⟩
      have hvn : v < n := hv _ List.mem_cons_self v (by simp [inorder])
      rcases ho2 i hi with h | ⟨t, ht, hit⟩
      · split_ifs at h
        · rcases List.mem_cons.1 h with rfl | h
          · exact .inr ⟨_, List.mem_cons_self, by simp [reach]⟩
          · exact .inl h
        · exact .inl h
      · simp only [List.mem_append] at ht
        have hsub : ∀ (u : BinTree.Tree Nat) (c : Bool), (dd % K = k → c = false) → t ∈ (if !u.isNil && c then [u] else []) → dd % K ≠ k ∧ t = u := by
          intro u c hc htu
          split_ifs at htu with hcc
          · simp only [List.mem_singleton] at htu
            refine ⟨fun e => ?_, htu⟩
            rw [hc e] at hcc
            simp at hcc
          · simp at htu
        rcases ht with ht | ht | ht
        · obtain ⟨hne, rfl⟩ := hsub r _ (fun e => by rw [e]; exact decide_eq_false (hur v hvn)) ht
          exact .inr ⟨_, List.mem_cons_self, by rw [reach, if_neg hne]; simp [hit]⟩
        · obtain ⟨hne, rfl⟩ := hsub l _ (fun e => by rw [e]; exact decide_eq_false (hll v hvn)) ht
          exact .inr ⟨_, List.mem_cons_self, by rw [reach, if_neg hne]; simp [hit]⟩
        · exact .inr ⟨t, List.mem_cons_of_mem _ ht, hit⟩

/-- Whatever the outcome of the comparisons, the construction succeeds with the same ids and the right depths. -/
theorem build_any {R R' : Type} [LT R] [LE R] [DecidableLT R] [DecidableLE R] [LT R'] [LE R'] [DecidableLT R'] [DecidableLE R']
    (nth) (f : Nat → Nat → R) (g : Nat → Nat → R') (K n : Nat) (t : BT Nat) (h : KDTree.build nth g K n = some (.ok t)) :
    ∃ t' : BT Nat, KDTree.build nth f K n = some (.ok t') ∧ t'.root.inorder.Perm t.root.inorder ∧ DepthOK 0 t'.root := by
  have hloop : ∀ fuel (s s' r : BSt), s.ids = s'.ids → s.stack = s'.stack → s.sd = s'.sd → s.tree.root.inorder.Perm s'.tree.root.inorder →
      DepthOK 0 s.tree.root → buildLoop nth g K fuel s' = some (.ok r) →
      ∃ r', buildLoop nth f K fuel s = some (.ok r') ∧ r'.tree.root.inorder.Perm r.tree.root.inorder ∧ DepthOK 0 r'.tree.root := by
    intro fuel
    induction fuel with
    | zero =>
      intro s s' r _ h2 _ h4 h5 hr
      rw [buildLoop] at hr ⊢
      rw [h2]
      split_ifs at hr ⊢
      have := Res.ok.inj (Option.some.inj hr)
      subst this
      exact ⟨s, rfl, h4, h5⟩
    | succ fuel ih =>
      intro s s' r h1 h2 h3 h4 h5 hr
      rw [buildLoop] at hr ⊢
      by_cases he : s'.stack = []
      · rw [if_pos he] at hr
        have := Res.ok.inj (Option.some.inj hr)
        subst this
        rw [if_pos (h2.trans he)]
        exact ⟨s, rfl, h4, h5⟩
      · rw [if_neg he] at hr
        rw [if_neg (by rw [h2]; exact he)]
        obtain ⟨ps, st, hst⟩ := List.exists_cons_of_ne_nil he
        unfold buildStep at hr ⊢
        rw [h2, h1, h3]
        rw [hst] at hr ⊢
        simp only at hr ⊢
        cases hm : (nthRange nth s'.ids ps (ps.b + (ps.e - ps.b) / 2))[ps.b + (ps.e - ps.b) / 2]? with
        | none => rw [hm] at hr; simp at hr
        | some id =>
          rw [hm] at hr
          simp only at hr ⊢
          refine ih _ _ r ?_ ?_ ?_ ?_ ?_ hr
          · rfl
          · rfl
          · rfl
          · exact (insertBy_inorder_perm _ id _ 0).trans ((h4.cons id).trans (insertBy_inorder_perm _ id _ 0).symm)
          · exact insertBy_depth _ id _ 0 h5
  rw [KDTree.build] at h ⊢
  cases hr : buildLoop nth g K n ⟨List.range n, [⟨0, n, 0⟩], 0, BT.empty⟩ with
  | none => rw [hr] at h; simp at h
  | some r =>
    rw [hr] at h
    cases r with
    | ok s =>
      have h' := Res.ok.inj (Option.some.inj h)
      obtain ⟨r', e1, e2, e3⟩ := hloop n _ _ s rfl rfl rfl (List.Perm.refl _) (by simp [BT.empty, DepthOK]) hr
      refine ⟨r'.tree, by rw [e1]; rfl, ?_, e3⟩
      rw [← h']
      exact e2
    | throws => simp [Res.bind] at h
    | ub => simp [Res.bind] at h

theorem boundingBox_flat (S : Simplex d N) (k : Fin N) (x : ℝ) (h : ∀ v, S.coords v k = x) : S.boundingBox.1 k = x ∧ S.boundingBox.2 k = x := by
  constructor
  · refine le_antisymm ?_ (Finset.le_inf' Finset.univ_nonempty _ fun v _ => (h v).ge)
    exact (Finset.inf'_le (fun v => S.coords v k) (Finset.mem_univ 0)).trans (h 0).le
  · refine le_antisymm (Finset.sup'_le Finset.univ_nonempty _ fun v _ => (h v).le) ?_
    exact (h 0).ge.trans (Finset.le_sup' (fun v => S.coords v k) (Finset.mem_univ 0))

/-- C48 (finding): on a mesh which is flat in a direction, for instance a plane surface in space, the scaled coordinates in this
direction are NaN, every comparison with them is false and the search never descends below the first levels of its tree: it returns
at most `2 ^ (k + 1) - 1` cells (seven for a surface `z = c`), whatever the point.  Some cell of every larger mesh is never found: at
points which are in this cell only, `locate` answers -1. -/
theorem C48_bug_flat (m : SMesh 2 3) (k : Fin 3) (hflat : m.lo k = m.hi k) (hnodes : ∀ i < m.n, ∀ v, (m.cell i).coords v k = m.lo k)
    (hcells : 7 < m.n) (hS : ∀ i < m.n, (m.cell i).Nondeg) (nth) (hnth : NthContract nth) (ord : List Nat → List Nat)
    (hord : ∀ l, (ord l).Perm l) :
    ∃ j < m.n, (∀ p, ∃ l, m.candidatesF nth ord p = some (.ok l) ∧ j ∉ l) ∧
      ∀ p ∈ convexHull ℝ (Set.range (m.cell j).coords), (∀ i < m.n, i ≠ j → p ∉ convexHull ℝ (Set.range (m.cell i).coords)) →
        m.locateF nth ord 0 p = some (.ok (-1)) := by
  classical
  have hnan : ∀ x : Vec 3, x k = m.lo k → m.scaleF x k = .nan := by
    intro x hx
    rw [SMesh.scaleF, SMesh.cF, Flt.inv, if_pos (by rw [hflat, sub_self]), Flt.mul, if_pos (by rw [hx, sub_self])]
  have hdata : ∀ i < m.n, m.dataF i k = .nan := by
    intro i hi
    rw [SMesh.dataF, stackF, dif_pos k.2]
    exact hnan _ (boundingBox_flat _ k _ (hnodes i hi)).1
  obtain ⟨t0, b1, _, b3, _⟩ := C16_build nth hnth (fun _ _ => (0 : ℝ)) (2 * 3) m.n (by omega)
  obtain ⟨t, c1, c2, c3⟩ := build_any nth m.dataF _ _ _ t0 b1
  have hperm := c2.trans b3
  have hsz : t.root.size = m.n := by
    have := (inorder_perm t.root).length_eq
    rw [preorder_length, hperm.length_eq, List.length_range] at this
    omega
  have hnn : t.root.isNil = false := by
    cases hr : t.root with
    | nil => rw [hr] at hsz; simp [size] at hsz; omega
    | node => rfl
  have hlen : (reach (2 * 3) k t.root).length ≤ 7 := by
    have := reach_length (2 * 3) k (by omega) k t.root le_rfl (by rw [Nat.sub_self]; exact c3)
    have h2 : 2 ^ (k.1 + 1) ≤ 2 ^ 3 := Nat.pow_le_pow_right (by omega) (by omega)
    omega
  obtain ⟨j, hj, hjr⟩ : ∃ j < m.n, j ∉ reach (2 * 3) k t.root := by
    by_contra hcon
    push Not at hcon
    have : (Finset.range m.n).card ≤ (reach (2 * 3) k t.root).toFinset.card :=
      Finset.card_le_card fun x hx => List.mem_toFinset.2 (hcon x (Finset.mem_range.1 hx))
    rw [Finset.card_range] at this
    have := List.toFinset_card_le (reach (2 * 3) k t.root)
    omega
  have hcand : ∀ p, ∃ l, m.candidatesF nth ord p = some (.ok l) ∧ j ∉ l ∧ ∀ i ∈ l, i < m.n := by
    intro p
    have hfalse : ∀ x : Flt, ¬ (Flt.nan ≥ x) ∧ ¬ (Flt.nan ≤ x) := fun x => ⟨fun h => by cases x <;> exact h, fun h => by cases x <;> exact h⟩
    obtain ⟨out, o1, o2⟩ := rangeLoop_reach m.dataF (2 * 3) k (m.queryF p) m.n (fun v hv => by rw [hdata v hv]; exact (hfalse _).1)
      (fun v hv => by rw [hdata v hv]; exact (hfalse _).2) m.n [t.root] [] (by simpa [NonNil] using hnn)
      (by
        intro u hu v hv
        rw [List.mem_singleton] at hu
        subst hu
        exact List.mem_range.1 (hperm.mem_iff.1 hv)) (by simp [hsz])
    refine ⟨ord out, ?_, fun hmem => ?_, fun i hi => ?_⟩
    · rw [SMesh.candidatesF, c1]
      simp only [rangeSearch, o1]
    · rcases o2 j ((hord out).mem_iff.1 hmem) with h | ⟨u, hu, h⟩
      · simp at h
      · rw [List.mem_singleton] at hu
        subst hu
        exact hjr h
    · rcases o2 i ((hord out).mem_iff.1 hi) with h | ⟨u, hu, h⟩
      · simp at h
      · rw [List.mem_singleton] at hu
        subst hu
        exact List.mem_range.1 (hperm.mem_iff.1 (reach_sub _ _ _ i h))
  refine ⟨j, hj, fun p => ?_, fun p _ hp => ?_⟩
  · obtain ⟨l, h1, h2, _⟩ := hcand p
    exact ⟨l, h1, h2⟩
  · obtain ⟨l, h1, h2, h3⟩ := hcand p
    rw [SMesh.locateF, h1]
    simp only
    rcases scanFirst_spec (m.hit 0 p) l with ⟨h4, _⟩ | ⟨i, h4, h5, _⟩
    · rw [h4]
    · exfalso
      have hij : i ≠ j := fun e => h2 (e ▸ h4)
      have := (C43_outside_tri3 (hS i (h3 i h4)) p).2 (hp i (h3 i h4) hij)
      simp [SMesh.hit, this] at h5

/-- A strip of triangles in the plane `z = 0`. -/
def strip (n : Nat) : SMesh 2 3 := ⟨fun i => ⟨![![i, 0, 0], ![i + 1, 0, 0], ![i, 1, 0]]⟩, n, ![0, 0, 0], ![n, 1, 0]⟩

theorem strip_nondeg (n i : Nat) : ((strip n).cell i).Nondeg := by
  unfold Simplex.Nondeg
  rw [affineIndependent_iff_of_fintype]
  intro w h1 h2
  rw [Finset.weightedVSub_eq_linear_combination _ h1] at h2
  have a := congrFun h2 0
  have b := congrFun h2 1
  rw [Fin.sum_univ_three] at h1
  simp [Fin.sum_univ_three, strip] at a b
  have c : w 1 = 0 := by
    have : w 0 * (i : ℝ) + w 1 * ((i : ℝ) + 1) + w 2 * (i : ℝ) = (w 0 + w 1 + w 2) * (i : ℝ) + w 1 := by ring
    rw [this, h1] at a
    linarith
  intro z
  fin_cases z <;> simp <;> linarith

/-- Every triangle of the strip has points which are in no other triangle: its barycenter. -/
theorem strip_private (n i j : Nat) (hij : i ≠ j) :
    (![i + 1 / 3, 1 / 3, 0] : Vec 3) ∈ convexHull ℝ (Set.range ((strip n).cell i).coords) ∧
    (![i + 1 / 3, 1 / 3, 0] : Vec 3) ∉ convexHull ℝ (Set.range ((strip n).cell j).coords) := by
  constructor
  · have h : ∀ v, ((strip n).cell i).coords v ∈ convexHull ℝ (Set.range ((strip n).cell i).coords) := fun v => subset_convexHull ℝ _ ⟨v, rfl⟩
    have hc := convex_convexHull ℝ (Set.range ((strip n).cell i).coords)
    have := hc (hc (h 0) (h 1) (by norm_num : (0 : ℝ) ≤ 1 / 2) (by norm_num : (0 : ℝ) ≤ 1 / 2) (by norm_num)) (h 2)
      (by norm_num : (0 : ℝ) ≤ 2 / 3) (by norm_num : (0 : ℝ) ≤ 1 / 3) (by norm_num)
    convert this using 1
    funext z
    fin_cases z <;> simp [strip] <;> ring
  · intro h
    have hc : Convex ℝ {p : Vec 3 | (j : ℝ) ≤ p 0 ∧ p 0 + p 1 ≤ j + 1} := by
      intro x hx y hy a b ha hb hab
      obtain ⟨x1, x2⟩ := hx
      obtain ⟨y1, y2⟩ := hy
      have e : b = 1 - a := by linarith
      subst e
      constructor
      · show (j : ℝ) ≤ a * x 0 + (1 - a) * y 0
        nlinarith
      · show a * x 0 + (1 - a) * y 0 + (a * x 1 + (1 - a) * y 1) ≤ j + 1
        nlinarith
    have := convexHull_min (s := Set.range ((strip n).cell j).coords) (t := {p : Vec 3 | (j : ℝ) ≤ p 0 ∧ p 0 + p 1 ≤ j + 1}) (by
      rintro _ ⟨v, rfl⟩
      show (j : ℝ) ≤ ((strip n).cell j).coords v 0 ∧ ((strip n).cell j).coords v 0 + ((strip n).cell j).coords v 1 ≤ j + 1
      fin_cases v <;> simp [strip]) hc h
    obtain ⟨h1, h2⟩ := this
    simp at h1 h2
    have e1 : (j : ℝ) < i + 1 := by linarith
    have e2 : (i : ℝ) < j + 1 := by linarith
    have e1' : j < i + 1 := by exact_mod_cast e1
    have e2' : i < j + 1 := by exact_mod_cast e2
    omega

/-- Eight triangles in the plane: some barycenter of a triangle is not located. -/
example (nth) (hnth : NthContract nth) (ord : List Nat → List Nat) (hord : ∀ l, (ord l).Perm l) :
    ∃ j : Nat, j < 8 ∧ (strip 8).locateF nth ord 0 ![j + 1 / 3, 1 / 3, 0] = some (.ok (-1)) := by
  obtain ⟨j, hj, _, h⟩ := C48_bug_flat (strip 8) 2 (by simp [strip]) (fun i _ v => by fin_cases v <;> simp [strip]) (by simp [strip])
    (fun i _ => strip_nondeg 8 i) nth hnth ord hord
  refine ⟨j, hj, h _ (strip_private 8 j (j + 1) (by omega)).1 fun i _ hij => ?_⟩
  exact (strip_private 8 j i (Ne.symm hij)).2

end Fdapde.Geometry
