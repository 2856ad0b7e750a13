import Verif.BinTree.LemmasHeap2
/- `clone_` on the heap follows `clone_` on values. -/
namespace Fdapde.BinTree
variable {α : Type}
open Tree

theorem childOf_strip (left : Bool) (t : ATree α) : childOf left (strip t) = strip (childOf left t) := by
  cases t with
  | nil => rfl
  | node l v d r => cases left <;> rfl

theorem addr_isNil (t : ATree α) {a : Nat} (h : addr t = some a) : t.isNil = false := by
  cases t with
  | nil => simp [addr] at h
  | node l v d r => rfl

/-- The copy under construction: heap and values. -/
structure HRel (h0 : Mem α) (a0 : Nat) (dst : BT α) (qs : List Path) (hs : HClone α) (D : ATree α) : Prop where
  repD : Rep hs.mem D
  strip : strip D = dst.root
  n : hs.n = dst.n
  nodup : (addrs D).Nodup
  root : addr D = some a0
  range : ∀ a, a ∈ addrs D ↔ h0.length ≤ a ∧ a < hs.mem.length
  len : h0.length ≤ hs.mem.length
  frame : ∀ a < h0.length, hs.mem[a]? = h0[a]?
  queue : hs.queue.map some = qs.map (fun q => addr (sub D q))

theorem sim_child {S : ATree α} {h0 : Mem α} (hS : Rep h0 S) {a0 : Nat} {dst : BT α} {qs : List Path} {hs : HClone α} {D : ATree α}
    (hrel : HRel h0 a0 dst qs hs D) (q : Path) {l : ATree α} {v : Nat × α} {d : Nat} {r : ATree α} (hq : sub S q = node l v d r)
    (hit : hs.it = some v.1) (hcur : addr (sub D q) = some hs.current) (left : Bool) {dst' : BT α} {qs' : List Path}
    (hc : cloneChild q left (childOf left (sub (strip S) q)) dst qs = .ok (dst', qs')) :
    ∃ hs' D', hcloneChild left hs = .ok hs' ∧ HRel h0 a0 dst' qs' hs' D' ∧ hs'.it = hs.it ∧ hs'.store = hs.store ∧
      hs'.current = hs.current ∧ addr (sub D' q) = some hs'.current := by
  have hrS : Rep hs.mem S := rep_frame S hS fun a ha => hrel.frame a (rep_lt S hS ha)
  have hrq := rep_sub S hrS q
  rw [hq] at hrq
  obtain ⟨⟨par, h1⟩, h2, h3⟩ := hrq
  rw [← strip_sub, childOf_strip, hq] at hc
  cases hch : childOf left (node l v d r) with
  | nil =>
    rw [hch] at hc
    simp only [BinTree.strip, cloneChild, Res.ok.injEq, Prod.mk.injEq] at hc
    obtain ⟨rfl, rfl⟩ := hc
    refine ⟨hs, D, ?_, hrel, rfl, rfl, rfl, hcur⟩
    rw [hcloneChild, hit, mem_get h1]
    have hcell : (if left = true then addr l else addr r) = none := by
      cases left <;> simp only [childOf, Bool.false_eq_true, if_false, if_true] at hch ⊢ <;> rw [hch] <;> rfl
    simp only [hcell]
  | node cl cv cd cr =>
    rw [hch] at hc
    have hcell : (if left = true then addr l else addr r) = some cv.1 := by
      cases left <;> simp only [childOf, Bool.false_eq_true, if_false, if_true] at hch ⊢ <;> rw [hch] <;> rfl
    have hrc : Rep hs.mem (node cl cv cd cr) := by
      cases left <;> simp only [childOf, Bool.false_eq_true, if_false, if_true] at hch
      · rw [← hch]; exact h3
      · rw [← hch]; exact h2
    obtain ⟨⟨par', h4⟩, -, -⟩ := hrc
    have hD : (sub D q).isNil = false := addr_isNil _ hcur
    obtain ⟨h', b, e1, e2, e3, e4, e5⟩ := pushNode_spec cv.2 left D hs.mem hrel.repD hrel.nodup q hD
    have hput := childPut_strip hs.mem.length cv.2 left D q hD
    have hmem := addrs_aput hs.mem.length cv.2 left D q hD
    have hna : hs.mem.length ∉ addrs D := fun hm => absurd (rep_lt D hrel.repD hm) (Nat.lt_irrefl _)
    simp only [BinTree.strip, cloneChild, BT.pushAt, ← hrel.strip, hput, Res.ok_bind, Res.pure_eq, Res.ok.injEq, Prod.mk.injEq] at hc
    obtain ⟨rfl, rfl⟩ := hc
    refine ⟨{ hs with mem := h', n := if (childOf left (sub D q)).isNil then hs.n + 1 else hs.n, queue := hs.queue ++ [b] },
      aput hs.mem.length cv.2 left D q, ?_, ?_, rfl, rfl, rfl, ?_⟩
    · rw [hcloneChild, hit, mem_get h1]
      simp only [hcell, mem_get h4, ← hcur, e1]
    · refine ⟨e2, rfl, by simp [hrel.n], ?_, by rw [addr_aput]; exact hrel.root, ?_, by simp only [e4]; have := hrel.len; omega, ?_, ?_⟩
      · rw [hmem.nodup_iff]
        split
        · simp [hna, hrel.nodup]
        · simpa using hrel.nodup
      · intro a
        rw [hmem.mem_iff, List.mem_append, hrel.range]
        simp only [e4]
        have := hrel.len
        split
        · simp; omega
        · simp
      · intro a ha
        have hnot : a ∉ addrs (aput hs.mem.length cv.2 left D q) := by
          rw [hmem.mem_iff, List.mem_append, hrel.range]
          have := hrel.len
          rintro (h | h)
          · split at h <;> simp at h
            omega
          · omega
        rw [e5 a hnot]
        exact hrel.frame a ha
      · simp only [List.map_append, List.map_cons, List.map_nil, e3]
        rw [hrel.queue]
        congr 1
        apply List.map_congr_left
        intro p hp
        symm
        apply sub_aput_addr
        have hm : addr (sub D p) ∈ hs.queue.map some := by
          rw [hrel.queue]
          exact List.mem_map.2 ⟨p, hp, rfl⟩
        obtain ⟨a, -, ha⟩ := List.mem_map.1 hm
        exact addr_isNil _ ha.symm
    · rw [sub_aput_addr _ _ _ _ _ _ hD]
      exact hcur

theorem map_some_cons {l : List Nat} {β : Type} {f : β → Option Nat} {q : β} {qs : List β} (h : l.map some = (q :: qs).map f) :
    ∃ a l', l = a :: l' ∧ f q = some a ∧ l'.map some = qs.map f := by
  cases l with
  | nil => simp at h
  | cons a l' =>
    simp only [List.map_cons, List.cons.injEq] at h
    exact ⟨a, l', rfl, h.1.symm, h.2⟩

theorem addr_toList_paths (S : ATree α) (q : Path) (left : Bool) {l : ATree α} {v : Nat × α} {d : Nat} {r : ATree α}
    (hq : sub S q = node l v d r) :
    (addr (childOf left (node l v d r))).toList.map some =
      (if (childOf left (sub (strip S) q)).isNil then [] else [q ++ [left]]).map fun p => addr (sub S p) := by
  have e : sub S (q ++ [left]) = childOf left (node l v d r) := by
    rw [sub_append, hq]
    cases left <;> simp [sub, childOf]
  rw [← strip_sub, childOf_strip, strip_isNil, hq]
  cases hc : childOf left (node l v d r) with
  | nil => simp [isNil, addr]
  | node => simp [isNil, addr, e, hc]

theorem cloneChild_queue {q : Path} {left : Bool} {c : Tree α} {dst : BT α} {qs : List Path} {dst' : BT α} {qs' : List Path}
    (h : cloneChild q left c dst qs = .ok (dst', qs')) : qs' = qs ++ if c.isNil then [] else [q ++ [left]] := by
  cases c with
  | nil => simp only [cloneChild, Res.ok.injEq, Prod.mk.injEq] at h; simp [isNil, h.2]
  | node cl x d cr =>
    rw [cloneChild] at h
    cases hp : dst.pushAt q left x with
    | ok t => rw [hp] at h; simp only [Res.ok.injEq, Prod.mk.injEq] at h; simp [isNil, h.2]
    | throws => rw [hp] at h; cases h
    | ub => rw [hp] at h; cases h

theorem hclone_loop {S : ATree α} {h0 : Mem α} (hS : Rep h0 S) (a0 : Nat) :
    ∀ (fuel : Nat) (vs : CloneSt α) (E : Path → Bool → Bool) (hs : HClone α) (D : ATree α),
    CInv (strip S) vs E → HRel h0 a0 vs.dst vs.queue hs D → hs.store.map some = vs.queue.map (fun q => addr (sub S q)) →
    hs.it = hs.store.head? → (vs.queue ≠ [] → some hs.current = addr (sub D vs.current)) →
    fsize (vs.queue.map (sub (strip S))) ≤ fuel →
    ∃ hs' D', hcloneLoop fuel hs = .ok hs' ∧ strip D' = relabel 0 (strip S) ∧ hs'.n = S.size ∧ Rep hs'.mem D' ∧ (addrs D').Nodup ∧
      addr D' = some a0 ∧ (∀ a, a ∈ addrs D' ↔ h0.length ≤ a ∧ a < hs'.mem.length) ∧ h0.length ≤ hs'.mem.length ∧
      ∀ a < h0.length, hs'.mem[a]? = h0[a]? := by
  have hend : ∀ (fuel : Nat) (vs : CloneSt α) (E : Path → Bool → Bool) (hs : HClone α) (D : ATree α),
      CInv (strip S) vs E → HRel h0 a0 vs.dst vs.queue hs D → hs.store.map some = vs.queue.map (fun q => addr (sub S q)) →
      hs.it = hs.store.head? → vs.queue = [] →
      ∃ hs' D', hcloneLoop fuel hs = .ok hs' ∧ strip D' = relabel 0 (strip S) ∧ hs'.n = S.size ∧ Rep hs'.mem D' ∧ (addrs D').Nodup ∧
        addr D' = some a0 ∧ (∀ a, a ∈ addrs D' ↔ h0.length ≤ a ∧ a < hs'.mem.length) ∧ h0.length ≤ hs'.mem.length ∧
        ∀ a < h0.length, hs'.mem[a]? = h0[a]? := by
    intro fuel vs E hs D hi hrel hst hit hq
    rw [hq] at hst
    simp at hst
    have hroot : vs.dst.root = relabel 0 (strip S) := by
      rw [hi.dst]
      apply build_full
      intro p hp
      rcases hi.done p hp with h | ⟨q, hq', _⟩
      · simpa using h
      · rw [hq] at hq'; simp at hq'
    refine ⟨hs, D, ?_, by rw [hrel.strip, hroot], ?_, hrel.repD, hrel.nodup, hrel.root, hrel.range, hrel.len, hrel.frame⟩
    · have : hs.it = none := by rw [hit, hst]; rfl
      cases fuel <;> simp [hcloneLoop, this]
    · rw [hrel.n, hi.wf, hroot, relabel_size, strip_size]
  intro fuel
  induction fuel with
  | zero =>
    intro vs E hs D hi hrel hst hit hcur hf
    cases hq : vs.queue with
    | nil => exact hend 0 vs E hs D hi hrel hst hit hq
    | cons q qs =>
      obtain ⟨s', E', _, _, h3⟩ := clone_step (strip S) vs E hi q qs hq
      omega
  | succ fuel ih =>
    intro vs E hs D hi hrel hst hit hcur hf
    cases hq : vs.queue with
    | nil => exact hend _ vs E hs D hi hrel hst hit hq
    | cons q qs =>
      obtain ⟨s', E', hstep, hi', hlt⟩ := clone_step (strip S) vs E hi q qs hq
      have hvc : vs.current = q := hi.cur q qs hq
      rw [hq] at hst
      obtain ⟨o, store', hso, hoq, hst'⟩ := map_some_cons hst
      obtain ⟨l, v, d, r, hsq⟩ : ∃ l v d r, sub S q = node l v d r := by
        cases h : sub S q with
        | nil => rw [h] at hoq; simp [addr] at hoq
        | node l v d r => exact ⟨_, _, _, _, rfl⟩
      rw [hsq, addr_node, Option.some.injEq] at hoq
      subst hoq
      have hit1 : hs.it = some v.1 := by rw [hit, hso]; rfl
      have hcur1 : addr (sub D q) = some hs.current := by rw [← hvc]; exact (hcur (by simp [hq])).symm
      -- the values
      have hnode : vs.it.node = sub (strip S) q := by rw [hi.it, hq]; rfl
      rw [Res.bind_eq_ok] at hstep
      obtain ⟨s1, hb, hstep⟩ := hstep
      rw [Res.bind_eq_ok] at hstep
      obtain ⟨it', -, hstep⟩ := hstep
      simp only [Res.pure_eq, Res.ok.injEq] at hstep
      have hsq' : sub (strip S) q = node (strip l) v.2 d (strip r) := by rw [← strip_sub, hsq]; rfl
      rw [cloneBody, hq] at hb
      simp only [hnode, hsq', hvc] at hb
      rw [Res.bind_eq_ok] at hb
      obtain ⟨⟨d1, q1⟩, hc1, hb⟩ := hb
      rw [Res.bind_eq_ok] at hb
      obtain ⟨⟨d2, q2⟩, hc2, hb⟩ := hb
      simp only [Res.pure_eq, Res.ok.injEq] at hb
      -- the heap
      obtain ⟨b0, queue', hqq, -, hqueue'⟩ := map_some_cons (hq ▸ hrel.queue)
      have hrel0 : HRel h0 a0 vs.dst qs { hs with queue := queue' } D :=
        ⟨hrel.repD, hrel.strip, hrel.n, hrel.nodup, hrel.root, hrel.range, hrel.len, hrel.frame, hqueue'⟩
      have hk1 : childOf true (sub (strip S) q) = strip l := by rw [hsq']; rfl
      have hk2 : childOf false (sub (strip S) q) = strip r := by rw [hsq']; rfl
      obtain ⟨hs1, D1, e1, hrel1, i1, st1, c1, a1⟩ := sim_child hS hrel0 q hsq hit1 hcur1 true (by rw [hk1]; exact hc1)
      obtain ⟨hs2, D2, e2, hrel2, i2, st2, c2, a2⟩ := sim_child hS hrel1 q hsq (by rw [i1]; exact hit1) a1 false (by rw [hk2]; exact hc2)
      have hrS : Rep hs2.mem S := rep_frame S hS fun a ha => hrel2.frame a (rep_lt S hS ha)
      have hrq := rep_sub S hrS q
      rw [hsq] at hrq
      obtain ⟨⟨par, hcell⟩, -, -⟩ := hrq
      have hq2 : q2 = qs ++ (if (childOf true (sub (strip S) q)).isNil then [] else [q ++ [true]]) ++
          (if (childOf false (sub (strip S) q)).isNil then [] else [q ++ [false]]) := by
        rw [cloneChild_queue hc2, cloneChild_queue hc1, hk1, hk2]
      have hmapq2 : (store' ++ (addr l).toList ++ (addr r).toList).map some = q2.map fun p => addr (sub S p) := by
        rw [hq2]
        simp only [List.map_append, hst']
        rw [← addr_toList_paths S q true hsq, ← addr_toList_paths S q false hsq]
        rfl
      have hs'q : s'.queue = q2 := by rw [← hstep, ← hb]
      have hs'd : s'.dst = d2 := by rw [← hstep, ← hb]
      have hs'c : s'.current = headOr q q2 := by rw [← hstep, ← hb]
      let hs3 : HClone α := { hcloneCurrent hs2 with it := (store' ++ (addr l).toList ++ (addr r).toList).head?,
                                                     store := store' ++ (addr l).toList ++ (addr r).toList }
      have hnext : hcloneNext (hcloneCurrent hs2) = .ok hs3 := by
        have e3 : (hcloneCurrent hs2).store = v.1 :: store' := by simp only [hcloneCurrent]; rw [st2, st1]; exact hso
        have e4 : (hcloneCurrent hs2).it = some v.1 := by simp only [hcloneCurrent]; rw [i2, i1]; exact hit1
        have e5 : (hcloneCurrent hs2).mem.get (some v.1) = .ok ⟨v.2, par, addr l, addr r, d⟩ := mem_get hcell
        rw [hcloneNext, e3]
        simp only [e4, e5]
        rfl
      have hrel3 : HRel h0 a0 s'.dst s'.queue hs3 D2 := by
        rw [hs'q, hs'd]
        exact ⟨hrel2.repD, hrel2.strip, hrel2.n, hrel2.nodup, hrel2.root, hrel2.range, hrel2.len, hrel2.frame, hrel2.queue⟩
      obtain ⟨hs', D', g1, g⟩ := ih s' E' hs3 D2 hi' hrel3 (by rw [hs'q]; exact hmapq2) rfl
        (by
          intro hne
          rw [hs'q] at hne
          rw [hs'c]
          cases hq2c : q2 with
          | nil => exact absurd hq2c hne
          | cons p ps =>
            have hqu := hrel2.queue
            rw [hq2c] at hqu
            obtain ⟨a, l', ha, hb', -⟩ := map_some_cons hqu
            have : hs3.current = a := by simp only [hs3, hcloneCurrent, ha]; rfl
            rw [this]
            exact hb'.symm) (by omega)
      refine ⟨hs', D', ?_, g⟩
      have hnn : hs.it.isNone = false := by rw [hit1]; rfl
      have hpop : hclonePop hs = .ok { hs with queue := queue' } := by rw [hclonePop, hqq]
      rw [hcloneLoop]
      simp only [hnn, Bool.false_eq_true, if_false]
      simp only [hpop, e1, e2, hnext, Res.ok_bind]
      exact g1

end Fdapde.BinTree
