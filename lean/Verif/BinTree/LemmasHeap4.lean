import Verif.BinTree.LemmasHeap3
/- The invariant of programs on several trees. -/
namespace Fdapde.BinTree
variable {α : Type}
open Tree

def treeVar (t : ATree α) : TreeVar := ⟨addr t, t.size⟩

def valueOf (t : ATree α) : BT α := ⟨strip t, t.size⟩

def oaddrs : Option (ATree α) → List Nat
  | none => []
  | some t => addrs t

def setA (A : Nat → Option (ATree α)) (v : Nat) (t : Option (ATree α)) : Nat → Option (ATree α) := fun u => if u = v then t else A u

/-- The trees of the variables, with the addresses of their nodes. -/
structure TInv (w : TWorld α) (A : Nat → Option (ATree α)) : Prop where
  vars : ∀ v, w.vars v = (A v).map treeVar
  rep : ∀ v t, A v = some t → Rep w.mem t ∧ (addrs t).Nodup ∧ DepthOK 0 (strip t)
  disj : ∀ u v s t, u ≠ v → A u = some s → A v = some t → ∀ a ∈ addrs s, a ∉ addrs t
  live : ∀ a c, w.mem[a]? = some (some c) → ∃ v t, A v = some t ∧ a ∈ addrs t

theorem step_var {w : TWorld α} {A : Nat → Option (ATree α)} (hw : TInv w A) (v : Nat) (h' : Mem α) (T : Option (ATree α))
    (hrep : ∀ t, T = some t → Rep h' t ∧ (addrs t).Nodup ∧ DepthOK 0 (strip t))
    (hsub : ∀ a ∈ oaddrs T, a ∈ oaddrs (A v) ∨ w.mem.length ≤ a)
    (hfree : ∀ a ∈ oaddrs (A v), a ∉ oaddrs T → ∀ c, h'[a]? ≠ some (some c))
    (hframe : ∀ a, a ∉ oaddrs (A v) → a ∉ oaddrs T → h'[a]? = w.mem[a]?) :
    TInv (TWorld.setVar ⟨h', w.vars⟩ v (T.map treeVar)) (setA A v T) := by
  have hother : ∀ u t, u ≠ v → A u = some t → ∀ a ∈ addrs t, a ∉ oaddrs (A v) ∧ a ∉ oaddrs T := by
    intro u t hu ht a ha
    have h1 : a ∉ oaddrs (A v) := by
      cases hv : A v with
      | none => simp [oaddrs]
      | some s => exact hw.disj u v t s hu ht hv a ha
    refine ⟨h1, fun h2 => ?_⟩
    rcases hsub a h2 with h3 | h3
    · exact h1 h3
    · exact absurd (rep_lt t (hw.rep u t ht).1 ha) (by omega)
  refine ⟨?_, ?_, ?_, ?_⟩
  · intro u
    simp only [TWorld.setVar, setA]
    split
    · rfl
    · exact hw.vars u
  · intro u t hu
    simp only [setA] at hu
    simp only [TWorld.setVar]
    split at hu
    · exact hrep t hu
    · rename_i hne
      obtain ⟨h1, h2, h3⟩ := hw.rep u t hu
      refine ⟨rep_frame t h1 fun a ha => ?_, h2, h3⟩
      obtain ⟨g1, g2⟩ := hother u t hne hu a ha
      exact hframe a g1 g2
  · intro u u' s t hne hu hu' a ha ha'
    simp only [setA] at hu hu'
    split at hu <;> split at hu'
    · rename_i e1 e2; exact hne (e1.trans e2.symm)
    · rename_i e1 e2
      refine (hother u' t e2 hu' a ha').2 ?_
      rw [hu]; exact ha
    · rename_i e1 e2
      refine (hother u s e1 hu a ha).2 ?_
      rw [hu']; exact ha'
    · exact hw.disj u u' s t hne hu hu' a ha ha'
  · intro a c hc
    simp only [TWorld.setVar] at hc
    by_cases hT : a ∈ oaddrs T
    · cases hTe : T with
      | none => rw [hTe] at hT; simp [oaddrs] at hT
      | some t => exact ⟨v, t, by simp [setA], by rw [hTe] at hT; exact hT⟩
    · by_cases hv : a ∈ oaddrs (A v)
      · exact absurd hc (hfree a hv hT c)
      · rw [hframe a hv hT] at hc
        obtain ⟨u, t, hu, ha⟩ := hw.live a c hc
        refine ⟨u, t, ?_, ha⟩
        have : u ≠ v := by
          rintro rfl
          apply hv
          rw [hu]; exact ha
        simp [setA, this, hu]

theorem var_eq {w : TWorld α} {A : Nat → Option (ATree α)} (hw : TInv w A) {v : Nat} {t : ATree α} (hv : A v = some t) :
    w.var v = .ok (treeVar t) := by simp [TWorld.var, hw.vars, hv]

theorem setVar_vars (w : TWorld α) (v : Nat) (t : Option TreeVar) (h : Mem α) :
    TWorld.setVar (⟨h, (w.setVar v t).vars⟩ : TWorld α) v = TWorld.setVar (⟨h, w.vars⟩ : TWorld α) v := by
  funext s
  simp only [TWorld.setVar]
  congr 1
  funext u
  split <;> rfl

theorem step_fresh {w : TWorld α} {A : Nat → Option (ATree α)} (hw : TInv w A) {v : Nat} (hv : A v = none) :
    w.fresh v ⟨none, 0⟩ = .ok (w.setVar v (some (treeVar (nil : ATree α)))) ∧
      TInv (w.setVar v (some (treeVar (nil : ATree α)))) (setA A v (some nil)) := by
  refine ⟨?_, ?_⟩
  · have h1 : w.vars v = none := by rw [hw.vars, hv]; rfl
    simp only [TWorld.fresh, h1]
    rfl
  · have := step_var hw v w.mem (some nil) (by rintro t ⟨⟩; exact ⟨trivial, by simp, trivial⟩) (by simp [oaddrs])
      (by simp [oaddrs, hv]) (by intro a _ _; rfl)
    exact this

theorem step_clear {w : TWorld α} {A : Nat → Option (ATree α)} (hw : TInv w A) {v : Nat} {t : ATree α} (hv : A v = some t) :
    ∃ h', clearTree w.mem (treeVar t) = .ok (h', treeVar (nil : ATree α)) ∧
      TInv (TWorld.setVar ⟨h', w.vars⟩ v (some (treeVar (nil : ATree α)))) (setA A v (some nil)) := by
  obtain ⟨h1, h2, h3⟩ := hw.rep v t hv
  obtain ⟨h', e1, e2, e3, e4⟩ := clearTree_spec t w.mem h1 h2
  refine ⟨h', e1, ?_⟩
  refine step_var hw v h' (some nil) (by rintro t ⟨⟩; exact ⟨trivial, by simp, trivial⟩) (by simp [oaddrs]) ?_ ?_
  · intro a ha _ c hc
    rw [hv] at ha
    rw [e3 a ha] at hc
    simp at hc
  · intro a ha _
    rw [hv] at ha
    exact e4 a ha

theorem step_destroy {w : TWorld α} {A : Nat → Option (ATree α)} (hw : TInv w A) {v : Nat} (hv : A v = some nil) :
    TInv (w.setVar v none) (setA A v none) :=
  step_var hw v w.mem none (by simp) (by simp [oaddrs]) (by simp [oaddrs, hv]) (by intro a _ _; rfl)

theorem step_push {w : TWorld α} {A : Nat → Option (ATree α)} (hw : TInv w A) {v : Nat} {t : ATree α} (hv : A v = some t)
    (lt : α → α → Bool) (x : α) :
    ∃ h' t', pushTree lt x w.mem (treeVar t) = .ok (h', treeVar t') ∧ valueOf t' = (valueOf t).push lt x ∧
      TInv (TWorld.setVar ⟨h', w.vars⟩ v (some (treeVar t'))) (setA A v (some t')) := by
  obtain ⟨h1, h2, h3⟩ := hw.rep v t hv
  obtain ⟨h', t', e1, e2, e3, e4, e5, e6⟩ := pushTree_spec lt x t w.mem h1 h2
  have hna : w.mem.length ∉ addrs t := fun hm => absurd (rep_lt t h1 hm) (Nat.lt_irrefl _)
  refine ⟨h', t', e1, ?_, ?_⟩
  · have hsz : t'.size = t.size + 1 := by rw [← addrs_length, ← addrs_length, e4.length_eq]; simp
    simp [valueOf, BT.push, e3, hsz]
  · refine step_var hw v h' (some t') ?_ ?_ ?_ ?_
    · rintro t0 ⟨⟩
      refine ⟨e2, ?_, ?_⟩
      · rw [e4.nodup_iff]; simp [hna, h2]
      · rw [e3]; exact insert_depth lt x (strip t) 0 h3
    · intro a ha
      have := e4.mem_iff.1 ha
      rw [hv]
      rcases List.mem_cons.1 this with rfl | h
      · exact .inr (Nat.le_refl _)
      · exact .inl h
    · intro a ha hna'
      rw [hv] at ha
      exact absurd (e4.mem_iff.2 (List.mem_cons_of_mem _ ha)) hna'
    · intro a _ ha
      exact e6 a ha

theorem step_pushAt {w : TWorld α} {A : Nat → Option (ATree α)} (hw : TInv w A) {v : Nat} {t : ATree α} (hv : A v = some t)
    (p : Path) (left : Bool) (x : α) (hp : sub (strip t) p ≠ nil) :
    ∃ h' t', pushAtTree p left x w.mem (treeVar t) = .ok (h', treeVar t') ∧ putValue p left x (valueOf t) = some (valueOf t') ∧
      TInv (TWorld.setVar ⟨h', w.vars⟩ v (some (treeVar t'))) (setA A v (some t')) := by
  obtain ⟨h1, h2, h3⟩ := hw.rep v t hv
  have hp' : (sub t p).isNil = false := by
    rw [← strip_isNil, strip_sub]
    cases h : sub (strip t) p with
    | nil => exact absurd h hp
    | node => rfl
  obtain ⟨h', t', e1, e2, ⟨b, e3⟩, e4, e5, e6, e7, e8⟩ := pushAtTree_spec x left t w.mem h1 h2 p hp'
  refine ⟨h', t', e1, ?_, ?_⟩
  · have hsz := childPut_size x left (strip t) p _ _ e3
    rw [strip_size, strip_size] at hsz
    simp only [putValue, valueOf, BT.pushAt, e3, Res.ok_bind, Res.pure_eq, hsz]
    cases b <;> rfl
  · refine step_var hw v h' (some t') ?_ ?_ ?_ ?_
    · rintro t0 ⟨⟩
      exact ⟨e2, e6, childPut_depth x left (strip t) 0 p _ _ h3 e3⟩
    · intro a ha
      rw [hv]
      rcases e4 a ha with h | rfl
      · exact .inl h
      · exact .inr (Nat.le_refl _)
    · intro a ha hna'
      rw [hv] at ha
      exact absurd (e5 a ha) hna'
    · intro a _ ha
      exact e8 a ha

theorem step_single {w : TWorld α} {A : Nat → Option (ATree α)} (hw : TInv w A) {v : Nat} (hv : A v = none) (x : α) :
    TInv (TWorld.setVar ⟨w.mem ++ [some ⟨x, none, none, none, 0⟩], w.vars⟩ v
      (some (treeVar (node nil (w.mem.length, x) 0 nil)))) (setA A v (some (node nil (w.mem.length, x) 0 nil))) := by
  refine step_var hw v _ (some (node nil (w.mem.length, x) 0 nil)) ?_ ?_ ?_ ?_
  · rintro t ⟨⟩
    exact ⟨⟨⟨none, by simp [addr]⟩, trivial, trivial⟩, by simp, ⟨rfl, trivial, trivial⟩⟩
  · intro a ha
    simp [oaddrs] at ha
    exact .inr (by omega)
  · intro a ha
    rw [hv] at ha
    simp [oaddrs] at ha
  · intro b _ hb
    simp [oaddrs] at hb
    by_cases hbl : b < w.mem.length
    · rw [List.getElem?_append_left hbl]
    · rw [List.getElem?_append_right (by omega), List.getElem?_eq_none (by simp; omega), List.getElem?_eq_none (by omega)]

theorem step_clone {w : TWorld α} {A : Nat → Option (ATree α)} (hw : TInv w A) {d s : Nat} (hds : d ≠ s) {t S : ATree α}
    (hd : A d = some t) (hs : A s = some S) (hne : S.isNil = false) :
    ∃ w' D, cloneTree w d s = .ok w' ∧ valueOf D = valueOf S ∧ TInv w' (setA A d (some D)) := by
  obtain ⟨h', e1, hw1⟩ := step_clear hw hd
  obtain ⟨l, v, k, r, rfl⟩ : ∃ l v k r, S = node l v k r := by
    cases S with
    | nil => simp [isNil] at hne
    | node l v k r => exact ⟨_, _, _, _, rfl⟩
  have hA1 : setA A d (some nil) s = some (node l v k r) := by simp [setA, Ne.symm hds, hs]
  obtain ⟨hr, hn, hdep⟩ := hw1.rep s _ hA1
  have hr0 : Rep h' (node l v k r) := hr
  obtain ⟨⟨par, hcell⟩, -, -⟩ := hr
  have hcell' : h'[v.1]? = some (some ⟨v.2, par, addr l, addr r, k⟩) := hcell
  -- the loop
  let st0 : HClone α := ⟨h' ++ [some ⟨v.2, none, none, none, 0⟩], some v.1, [v.1], 0 + 1, [h'.length], h'.length⟩
  have hsize : (node l v k r).size ≤ (node l v k r).size + 1 := by omega
  obtain ⟨hs', D, g1, g2, g3, g4, g5, g6, g7, g8, g9⟩ := hclone_loop hr0 h'.length ((node l v k r).size + 1)
    ⟨Iter.start (strip (node l v k r)), ⟨.node .nil v.2 0 .nil, 1⟩, [[]], []⟩ (fun _ _ => false) st0
    (node nil (h'.length, v.2) 0 nil)
    { it := by simp [Iter.start, mk, strip]
      dst := by simp [build, strip]
      wf := rfl
      cur := by intro q qs h; injection h with h1 h2
      valid := by simp [isNil, strip]
      fresh := by simp
      anti := by simp
      reach := by
        intro q hq p b u h
        simp at hq
        subst hq
        simp at h
      done := by
        intro p hp
        right
        exact ⟨[], by simp, List.nil_prefix⟩ }
    { repD := ⟨⟨none, by simp [st0, addr]⟩, trivial, trivial⟩
      strip := rfl
      n := rfl
      nodup := by simp
      root := rfl
      range := by intro a; simp [st0]; omega
      len := by simp [st0]
      frame := by intro a ha; simp only [st0]; rw [List.getElem?_append_left ha]
      queue := by simp [st0, addr] }
    (by simp [st0, addr]) (by simp [st0]) (by simp [st0, addr])
    (by simp only [List.map_cons, List.map_nil, sub_root, fsize, List.sum_cons, List.sum_nil, strip_size]; omega)
  have hval : valueOf D = valueOf (node l v k r) := by
    have e2 : strip D = strip (node l v k r) := by rw [g2]; exact relabel_of_depthOK _ 0 hdep
    have e3 : D.size = (node l v k r).size := by rw [← strip_size, e2, strip_size]
    simp only [valueOf, e2, e3]
  refine ⟨TWorld.setVar ⟨hs'.mem, w.vars⟩ d (some ⟨some h'.length, hs'.n⟩), D, ?_, hval, ?_⟩
  · have hnz : (treeVar (node l v k r)).n ≠ 0 := by simp [treeVar, size]
    have hv1 : TWorld.var (TWorld.setVar (⟨h', w.vars⟩ : TWorld α) d (some (treeVar (nil : ATree α)))) s = .ok (treeVar (node l v k r)) :=
      var_eq hw1 hA1
    simp only [cloneTree, var_eq hw hs, var_eq hw hd, Res.ok_bind, if_neg hnz, e1, hv1]
    have hmem : (TWorld.setVar (⟨h', w.vars⟩ : TWorld α) d (some (treeVar (nil : ATree α)))).mem = h' := rfl
    simp only [hmem]
    simp only [treeVar, addr_node, mem_get hcell', Res.ok_bind]
    have hloop : hcloneLoop ((node l v k r).size + 1)
        ⟨h' ++ [some ⟨v.2, none, none, none, 0⟩], some v.1, [v.1], (nil : ATree α).size + 1, [h'.length], h'.length⟩ = .ok hs' := g1
    rw [hloop]
    simp only [Res.ok_bind, Res.pure_eq, Res.ok.injEq]
    exact congrFun (setVar_vars ⟨h', w.vars⟩ d _ hs'.mem) _
  · have hD1 : treeVar D = ⟨some h'.length, hs'.n⟩ := by
      have : D.size = hs'.n := by rw [g3]; exact congrArg BT.n hval
      simp only [treeVar, g6, this]
    have hstep := step_var hw1 d hs'.mem (some D)
      (by
        rintro t0 ⟨⟩
        refine ⟨g4, g5, ?_⟩
        have e2 : strip D = strip (node l v k r) := congrArg BT.root hval
        rw [e2]; exact hdep)
      (by
        intro a ha
        right
        exact ((g7 a).1 ha).1)
      (by intro a ha; simp [setA, oaddrs] at ha)
      (by
        intro a _ ha
        by_cases hal : a < h'.length
        · exact g9 a hal
        · have : ¬ a < hs'.mem.length := fun h => ha ((g7 a).2 ⟨by omega, h⟩)
          have e : (TWorld.setVar (⟨h', w.vars⟩ : TWorld α) d (some (treeVar (nil : ATree α)))).mem = h' := rfl
          rw [e, List.getElem?_eq_none (by omega), List.getElem?_eq_none (by omega)])
    have eA : setA (setA A d (some nil)) d (some D) = setA A d (some D) := by
      funext u; simp only [setA]; split <;> rfl
    rw [eA] at hstep
    have ew := congrFun (setVar_vars ⟨h', w.vars⟩ d (some (treeVar (nil : ATree α))) hs'.mem) (some (treeVar D))
    rw [← hD1]
    exact ew ▸ hstep

/-- The tree of one variable is handed over to another one. -/
theorem rename_var {w : TWorld α} {A : Nat → Option (ATree α)} (hw : TInv w A) {d s : Nat} (hds : d ≠ s) {t : ATree α}
    (hd : A d = some nil) (hs : A s = some t) :
    TInv ((w.setVar d (some (treeVar t))).setVar s (some (treeVar (nil : ATree α)))) (setA (setA A d (some t)) s (some nil)) := by
  refine ⟨?_, ?_, ?_, ?_⟩
  · intro u
    simp only [TWorld.setVar, setA]
    split
    · rfl
    · split
      · rfl
      · exact hw.vars u
  · intro u t' hu
    simp only [setA] at hu
    simp only [TWorld.setVar]
    split at hu
    · injection hu with hu; subst hu; exact ⟨trivial, by simp, trivial⟩
    · split at hu
      · injection hu with hu; subst hu; exact hw.rep s t hs
      · exact hw.rep u t' hu
  · intro u u' p q hne hu hu' a ha ha'
    simp only [setA] at hu hu'
    split at hu
    · injection hu with hu; subst hu; simp at ha
    · split at hu'
      · injection hu' with hu'; subst hu'; simp at ha'
      · rename_i h1 h2
        split at hu
        · injection hu with hu
          subst hu
          rename_i h3
          rw [if_neg (fun h => hne (h3.trans h.symm))] at hu'
          exact hw.disj s u' t q (Ne.symm h2) hs hu' a ha ha'
        · split at hu'
          · injection hu' with hu'
            subst hu'
            exact hw.disj u s p t h1 hu hs a ha ha'
          · exact hw.disj u u' p q hne hu hu' a ha ha'
  · intro a c hc
    obtain ⟨u, t', hu, ha⟩ := hw.live a c hc
    by_cases h1 : u = s
    · subst h1
      rw [hs] at hu
      injection hu with hu
      subst hu
      exact ⟨d, t, by simp [setA, hds], ha⟩
    · by_cases h2 : u = d
      · subst h2
        rw [hd] at hu
        injection hu with hu
        subst hu
        simp at ha
      · exact ⟨u, t', by simp [setA, h1, h2, hu], ha⟩

theorem step_move {w : TWorld α} {A : Nat → Option (ATree α)} (hw : TInv w A) {d s : Nat} (hds : d ≠ s) {t S : ATree α}
    (hd : A d = some t) (hs : A s = some S) :
    ∃ w' D, moveTree w d s = .ok w' ∧ valueOf D = valueOf S ∧ TInv w' (setA (setA A d (some D)) s (some nil)) := by
  obtain ⟨h', e1, hw1⟩ := step_clear hw hd
  have hA1 : setA A d (some nil) s = some S := by simp [setA, Ne.symm hds, hs]
  have hA1d : setA A d (some nil) d = some nil := by simp [setA]
  have hv1 := var_eq hw1 hA1
  cases S with
  | nil =>
    refine ⟨TWorld.setVar ⟨h', w.vars⟩ d (some (treeVar (nil : ATree α))), nil, ?_, rfl, ?_⟩
    · simp only [moveTree, var_eq hw hd, Res.ok_bind, e1, hv1]
      simp [treeVar, size]
    · have : setA (setA A d (some nil)) s (some nil) = setA A d (some (nil : ATree α)) := by
        funext u
        simp only [setA]
        split
        · rename_i h; subst h; rw [if_neg (Ne.symm hds), hs]
        · rfl
      rw [this]
      exact hw1
  | node l v k r =>
    obtain ⟨hr, hn, hdep⟩ := hw1.rep s _ hA1
    obtain ⟨⟨par, hcell⟩, hl, hrr⟩ := hr
    have hcell' : h'[v.1]? = some (some ⟨v.2, par, addr l, addr r, k⟩) := hcell
    have hlt : v.1 < h'.length := (List.getElem?_eq_some_iff.1 hcell').1
    simp only [addrs_node, List.nodup_cons, List.nodup_append, List.mem_append, not_or] at hn
    obtain ⟨⟨hvl, hvr⟩, hnl, hnr, hlr⟩ := hn
    obtain ⟨hk, hdl, hdr⟩ := hdep
    let h2 : Mem α := (h' ++ [some (⟨v.2, none, addr l, addr r, 0⟩ : Cell α)]).set v.1 none
    have hlen2 : h2.length = h'.length + 1 := by simp [h2]
    have hfr : ∀ a, a ≠ v.1 → a ≠ h'.length → h2[a]? = h'[a]? := by
      intro a ha ha'
      simp only [h2]
      rw [List.getElem?_set_ne (Ne.symm ha)]
      by_cases hal : a < h'.length
      · rw [List.getElem?_append_left hal]
      · rw [List.getElem?_append_right (by omega), List.getElem?_eq_none (by simp; omega), List.getElem?_eq_none (by omega)]
    have hnew : h2[h'.length]? = some (some ⟨v.2, none, addr l, addr r, 0⟩) := by
      simp only [h2]
      rw [List.getElem?_set_ne (Nat.ne_of_lt hlt), List.getElem?_append_right (Nat.le_refl _)]
      simp
    have hgone : h2[v.1]? = some none := by
      simp only [h2]
      rw [List.getElem?_set_self (by simp; omega)]
    have hll : ∀ a ∈ addrs l, a < h'.length := fun a ha => rep_lt l hl ha
    have hrl : ∀ a ∈ addrs r, a < h'.length := fun a ha => rep_lt r hrr ha
    -- the new root, still in the source
    have hstep := step_var hw1 s h2 (some (node l (h'.length, v.2) 0 r))
      (by
        rintro t0 ⟨⟩
        refine ⟨⟨⟨none, hnew⟩, ?_, ?_⟩, ?_, ?_⟩
        · exact rep_frame l hl fun a ha => hfr a (fun e => hvl (e ▸ ha)) (Nat.ne_of_lt (hll a ha))
        · exact rep_frame r hrr fun a ha => hfr a (fun e => hvr (e ▸ ha)) (Nat.ne_of_lt (hrl a ha))
        · simp only [addrs_node, List.nodup_cons, List.nodup_append, List.mem_append, not_or]
          exact ⟨⟨fun h => Nat.lt_irrefl _ (hll _ h), fun h => Nat.lt_irrefl _ (hrl _ h)⟩, hnl, hnr, hlr⟩
        · exact ⟨rfl, hdl, hdr⟩)
      (by
        intro a ha
        simp only [oaddrs, addrs_node, List.mem_cons, List.mem_append] at ha
        rcases ha with rfl | ha
        · exact .inr (Nat.le_refl _)
        · left
          rw [hA1]
          simp only [oaddrs, addrs_node, List.mem_cons, List.mem_append]
          exact .inr ha)
      (by
        intro a ha hna c hc
        rw [hA1] at ha
        simp only [oaddrs, addrs_node, List.mem_cons, List.mem_append, not_or] at ha hna
        rcases ha with rfl | ha
        · rw [hgone] at hc; simp at hc
        · rcases ha with ha | ha
          · exact hna.2.1 ha
          · exact hna.2.2 ha)
      (by
        intro a ha hna
        rw [hA1] at ha
        simp only [oaddrs, addrs_node, List.mem_cons, List.mem_append, not_or] at ha hna
        exact hfr a ha.1 hna.1)
    have hren := rename_var hstep hds (by simp [setA, hds]) (t := node l (h'.length, v.2) 0 r) (by simp [setA])
    refine ⟨(TWorld.setVar (⟨h2, (TWorld.setVar (⟨h', w.vars⟩ : TWorld α) d (some (treeVar (nil : ATree α)))).vars⟩ : TWorld α) d
        (some ⟨some h'.length, (node l v k r).size⟩)).setVar s (some ⟨none, 0⟩), node l (h'.length, v.2) 0 r, ?_, ?_, ?_⟩
    · have hnz : (treeVar (node l v k r)).n ≠ 0 := by simp [treeVar, size]
      simp only [moveTree, var_eq hw hd, Res.ok_bind, e1, hv1, if_neg hnz]
      have hmem : (TWorld.setVar (⟨h', w.vars⟩ : TWorld α) d (some (treeVar (nil : ATree α)))).mem = h' := rfl
      simp only [hmem]
      simp only [treeVar, addr_node, mem_get hcell', Res.ok_bind, Res.pure_eq]
      rfl
    · simp [valueOf, strip, size, hk]
    · have eA : setA (setA (setA (setA A d (some nil)) s (some (node l (h'.length, v.2) 0 r))) d
          (some (node l (h'.length, v.2) 0 r))) s (some nil) =
          setA (setA A d (some (node l (h'.length, v.2) 0 r))) s (some nil) := by
        funext u
        simp only [setA]
        split
        · rfl
        · split <;> rfl
      rw [eA] at hren
      convert hren using 1
      simp only [TWorld.setVar, TWorld.mk.injEq, true_and]
      funext u
      split
      · rfl
      · split <;> rfl

theorem step_self_move {w : TWorld α} {A : Nat → Option (ATree α)} (hw : TInv w A) {d : Nat} {t : ATree α} (hd : A d = some t) :
    ∃ w', moveTree w d d = .ok w' ∧ TInv w' (setA A d (some nil)) := by
  obtain ⟨h', e1, hw1⟩ := step_clear hw hd
  have hv1 := var_eq hw1 (show setA A d (some nil) d = some nil by simp [setA])
  refine ⟨_, ?_, hw1⟩
  simp only [moveTree, var_eq hw hd, Res.ok_bind, e1, hv1]
  simp [treeVar, size]

end Fdapde.BinTree
