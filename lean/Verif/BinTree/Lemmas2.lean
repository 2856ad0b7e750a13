import Verif.BinTree.Lemmas
/- Correctness of `clone_` (binary_tree.h:258-273). -/
namespace Fdapde.BinTree
variable {α : Type}
open Tree

theorem sub_append (t : Tree α) (p q : Path) : sub t (p ++ q) = sub (sub t p) q := by
  induction p generalizing t with
  | nil => cases t <;> rfl
  | cons b p ih =>
    cases t with
    | nil =>
      have : ∀ q : Path, sub (nil : Tree α) q = nil := by intro q; cases q <;> rfl
      rw [this, this, this]
    | node l v d r => cases b <;> exact ih _

theorem sub_nil (q : Path) : sub (nil : Tree α) q = nil := by cases q <;> rfl

@[simp] theorem sub_root (t : Tree α) : sub t [] = t := by cases t <;> rfl

/-- The part of a tree whose child links are marked by `E`, with depths recomputed. -/
def build (E : Path → Bool → Bool) : Path → Tree α → Tree α
  | _, nil => nil
  | p, node l v _ r =>
    node (if E p true then build E (p ++ [true]) l else nil) v p.length
      (if E p false then build E (p ++ [false]) r else nil)

def upd (E : Path → Bool → Bool) (q : Path) (b : Bool) : Path → Bool → Bool :=
  fun p c => if p = q ∧ c = b then true else E p c

theorem build_congr {E E' : Path → Bool → Bool} (t : Tree α) : ∀ p : Path,
    (∀ s b, E (p ++ s) b = E' (p ++ s) b) → build E p t = build E' p t := by
  induction t with
  | nil => intro p _; rfl
  | node l v d r ihl ihr =>
    intro p h
    have h0 : ∀ b, E p b = E' p b := fun b => by simpa using h [] b
    simp only [build, h0]
    rw [ihl (p ++ [true]) (fun s b => by simpa using h (true :: s) b),
      ihr (p ++ [false]) (fun s b => by simpa using h (false :: s) b)]

theorem upd_other {E : Path → Bool → Bool} {q p : Path} {b c : Bool} (h : ¬ (p = q ∧ c = b)) :
    upd E q b p c = E p c := by simp [upd, h]

theorem append_ne_self (p s : Path) (b : Bool) : p ++ b :: s ≠ p := by
  intro h
  have := congrArg List.length h
  simp at this

/-- The left or right child pointer. -/
def childOf (left : Bool) : Tree α → Tree α
  | nil => nil
  | node l _ _ r => if left then l else r

theorem put_build (E : Path → Bool → Bool) (x : α) (left : Bool) :
    ∀ (q : Path) (t : Tree α) (pre : Path) (l : Tree α) (v : α) (d : Nat) (r : Tree α),
    sub t q = node l v d r →
    (∀ p b s, q = p ++ b :: s → E (pre ++ p) b = true) →
    E (pre ++ q) left = false →
    (∀ c, E (pre ++ q ++ [left]) c = false) →
    (∃ cl cd cr, childOf left (node l v d r) = node cl x cd cr) →
    childPut x left (build E pre t) q = .ok (build (upd E (pre ++ q) left) pre t, true) := by
  intro q
  induction q with
  | nil =>
    intro t pre l v d r hs _ hE hc hch
    rw [sub_root] at hs
    subst hs
    obtain ⟨cl, cd, cr, hch⟩ := hch
    simp only [List.append_nil] at hE hc ⊢
    have hno : ∀ (s : Path) (b c : Bool), upd E pre left (pre ++ b :: s) c = E (pre ++ b :: s) c := by
      intro s b c
      exact upd_other fun h => append_ne_self _ _ _ h.1
    have hbt : ∀ (u : Tree α) (b : Bool), build (upd E pre left) (pre ++ [b]) u = build E (pre ++ [b]) u := by
      intro u b
      apply build_congr
      intro s c
      simpa using hno s b c
    cases left with
    | true =>
      simp only [childOf, if_true] at hch
      subst hch
      have e1 : upd E pre true pre true = true := by simp [upd]
      have e2 : upd E pre true pre false = E pre false := by simp [upd]
      simp only [build, hE, e1, e2, Bool.false_eq_true, if_false, if_true, childPut, hbt]
      have e3 := hno [] true true
      have e4 := hno [] true false
      simp [e3, e4, hc]
    | false =>
      simp only [childOf, Bool.false_eq_true, if_false] at hch
      subst hch
      have e1 : upd E pre false pre true = E pre true := by simp [upd]
      have e2 : upd E pre false pre false = true := by simp [upd]
      simp only [build, hE, e1, e2, Bool.false_eq_true, if_false, if_true, childPut, hbt]
      have e3 := hno [] false true
      have e4 := hno [] false false
      simp [e3, e4, hc]
  | cons b q ih =>
    intro t pre l v d r hs hreach hE hc hch
    have hb : E pre b = true := by simpa using hreach [] b q rfl
    cases t with
    | nil => rw [sub_nil] at hs; cases hs
    | node tl tv td tr =>
      have ea : ∀ b, pre ++ b :: q = pre ++ [b] ++ q := by simp
      have hne : ∀ (c c' : Bool), upd E (pre ++ b :: q) left pre c = E pre c := by
        intro c _
        exact upd_other fun h => append_ne_self _ _ _ h.1.symm
      have hoth : ∀ (u : Tree α), build (upd E (pre ++ b :: q) left) (pre ++ [!b]) u = build E (pre ++ [!b]) u := by
        intro u
        apply build_congr
        intro s c
        apply upd_other
        intro h
        have := h.1
        rw [List.append_assoc, List.append_cancel_left_eq] at this
        cases b <;> simp at this
      cases b with
      | true =>
        have := ih tl (pre ++ [true]) l v d r hs
          (fun p b s h => by simpa using hreach (true :: p) b s (by rw [h]; rfl))
          (by rw [← ea]; exact hE) (by rw [← ea]; exact hc) hch
        have hoth' := hoth tr
        simp only [Bool.not_true] at hoth'
        simp only [build, hb, if_true, childPut, hne _ true, hoth', this, ← ea, Res.ok_bind, Res.pure_eq]
      | false =>
        have := ih tr (pre ++ [false]) l v d r hs
          (fun p b s h => by simpa using hreach (false :: p) b s (by rw [h]; rfl))
          (by rw [← ea]; exact hE) (by rw [← ea]; exact hc) hch
        have hoth' := hoth tl
        simp only [Bool.not_false] at hoth'
        simp only [build, hb, if_true, childPut, hne _ true, hoth', this, ← ea, Res.ok_bind, Res.pure_eq]

theorem build_upd_nil (E : Path → Bool → Bool) (left : Bool) :
    ∀ (q : Path) (t : Tree α) (pre : Path), (childOf left (sub t q)) = nil →
    build (upd E (pre ++ q) left) pre t = build E pre t := by
  intro q
  induction q with
  | nil =>
    intro t pre h
    rw [sub_root] at h
    cases t with
    | nil => rfl
    | node l v d r =>
      simp only [List.append_nil]
      have hbt : ∀ (u : Tree α) (b : Bool), build (upd E pre left) (pre ++ [b]) u = build E (pre ++ [b]) u := by
        intro u b
        apply build_congr
        intro s c
        apply upd_other
        intro h
        have := h.1
        simp at this
      cases left with
      | true =>
        simp only [childOf, if_true] at h
        subst h
        simp [build, hbt, upd]
      | false =>
        simp only [childOf, Bool.false_eq_true, if_false] at h
        subst h
        simp [build, hbt, upd]
  | cons b q ih =>
    intro t pre h
    cases t with
    | nil => rfl
    | node tl tv td tr =>
      have ea : ∀ b, pre ++ b :: q = pre ++ [b] ++ q := by simp
      have hne : ∀ (c : Bool), upd E (pre ++ b :: q) left pre c = E pre c := by
        intro c
        exact upd_other fun h => append_ne_self _ _ _ h.1.symm
      have hoth : ∀ (u : Tree α), build (upd E (pre ++ b :: q) left) (pre ++ [!b]) u = build E (pre ++ [!b]) u := by
        intro u
        apply build_congr
        intro s c
        apply upd_other
        intro h
        have := h.1
        rw [List.append_assoc, List.append_cancel_left_eq] at this
        cases b <;> simp at this
      cases b with
      | true =>
        have := ih tl (pre ++ [true]) h
        have hoth' := hoth tr
        simp only [Bool.not_true] at hoth'
        simp only [build, hne, hoth']
        rw [ea, this]
      | false =>
        have := ih tr (pre ++ [false]) h
        have hoth' := hoth tl
        simp only [Bool.not_false] at hoth'
        simp only [build, hne, hoth']
        rw [ea, this]

/-- Same tree with the depths recomputed. -/
def relabel : Nat → Tree α → Tree α
  | _, nil => nil
  | k, node l v _ r => node (relabel (k + 1) l) v k (relabel (k + 1) r)

theorem relabel_size (t : Tree α) : ∀ k, (relabel k t).size = t.size := by
  induction t with
  | nil => intro k; rfl
  | node l v d r ihl ihr => intro k; simp [relabel, size, ihl, ihr]

theorem relabel_of_depthOK (t : Tree α) : ∀ k, DepthOK k t → relabel k t = t := by
  induction t with
  | nil => intro k _; rfl
  | node l v d r ihl ihr =>
    intro k h
    obtain ⟨h1, h2, h3⟩ := h
    simp [relabel, ihl _ h2, ihr _ h3, h1]

theorem build_full (E : Path → Bool → Bool) (t : Tree α) : ∀ p : Path,
    (∀ s, (sub t s).isNil = false → ∀ b, E (p ++ s) b = true) → build E p t = relabel p.length t := by
  induction t with
  | nil => intro p _; rfl
  | node l v d r ihl ihr =>
    intro p h
    have h0 : ∀ b, E p b = true := by simpa using h [] rfl
    simp only [build, h0, if_true, relabel]
    rw [ihl (p ++ [true]) (fun s hs b => by simpa using h (true :: s) hs b),
      ihr (p ++ [false]) (fun s hs b => by simpa using h (false :: s) hs b)]
    simp

theorem childPut_size (x : α) (left : Bool) (t : Tree α) : ∀ (q : Path) t' b,
    childPut x left t q = .ok (t', b) → t'.size = t.size + (if b then 1 else 0) := by
  induction t with
  | nil => intro q t' b h; cases q <;> simp [childPut] at h
  | node l v d r ihl ihr =>
    intro q t' b h
    cases q with
    | nil =>
      cases left with
      | true =>
        cases l with
        | nil => simp [childPut] at h; obtain ⟨rfl, rfl⟩ := h; simp [size]; omega
        | node => simp [childPut] at h; obtain ⟨rfl, rfl⟩ := h; simp [size]
      | false =>
        cases r with
        | nil => simp [childPut] at h; obtain ⟨rfl, rfl⟩ := h; simp [size]
        | node => simp [childPut] at h; obtain ⟨rfl, rfl⟩ := h; simp [size]
    | cons c q =>
      cases c with
      | true =>
        rw [childPut, Res.bind_eq_ok] at h
        obtain ⟨⟨l', b'⟩, h1, h2⟩ := h
        simp at h2
        obtain ⟨rfl, rfl⟩ := h2
        have := ihl _ _ _ h1
        simp [size, this]; omega
      | false =>
        rw [childPut, Res.bind_eq_ok] at h
        obtain ⟨⟨l', b'⟩, h1, h2⟩ := h
        simp at h2
        obtain ⟨rfl, rfl⟩ := h2
        have := ihr _ _ _ h1
        simp [size, this]; omega

theorem childPut_depth (x : α) (left : Bool) (t : Tree α) : ∀ (k : Nat) (q : Path) t' b, DepthOK k t →
    childPut x left t q = .ok (t', b) → DepthOK k t' := by
  induction t with
  | nil => intro k q t' b _ h; cases q <;> simp [childPut] at h
  | node l v d r ihl ihr =>
    intro k q t' b hd h
    obtain ⟨rfl, hd2, hd3⟩ := hd
    cases q with
    | nil =>
      cases left with
      | true =>
        cases l with
        | nil => simp [childPut] at h; obtain ⟨rfl, rfl⟩ := h; simp [DepthOK, hd3]
        | node => simp [childPut] at h; obtain ⟨rfl, rfl⟩ := h; exact ⟨rfl, hd2, hd3⟩
      | false =>
        cases r with
        | nil => simp [childPut] at h; obtain ⟨rfl, rfl⟩ := h; simp [DepthOK, hd2]
        | node => simp [childPut] at h; obtain ⟨rfl, rfl⟩ := h; exact ⟨rfl, hd2, hd3⟩
    | cons c q =>
      cases c with
      | true =>
        rw [childPut, Res.bind_eq_ok] at h
        obtain ⟨⟨l', b'⟩, h1, h2⟩ := h
        simp at h2
        obtain ⟨rfl, rfl⟩ := h2
        exact ⟨rfl, ihl _ _ _ _ hd2 h1, hd3⟩
      | false =>
        rw [childPut, Res.bind_eq_ok] at h
        obtain ⟨⟨l', b'⟩, h1, h2⟩ := h
        simp at h2
        obtain ⟨rfl, rfl⟩ := h2
        exact ⟨rfl, hd2, ihr _ _ _ _ hd3 h1⟩

/-- Invariant of the loop of `clone_`. -/
structure CInv (src : Tree α) (s : CloneSt α) (E : Path → Bool → Bool) : Prop where
  it : s.it = mk (s.queue.map (sub src))
  dst : s.dst.root = build E [] src
  wf : s.dst.n = s.dst.root.size
  cur : ∀ q qs, s.queue = q :: qs → s.current = q
  valid : ∀ q ∈ s.queue, (sub src q).isNil = false
  fresh : ∀ q ∈ s.queue, ∀ p b, E (q ++ p) b = false
  anti : s.queue.Pairwise (fun a b => ¬ a <+: b ∧ ¬ b <+: a)
  reach : ∀ q ∈ s.queue, ∀ p b u, q = p ++ b :: u → E p b = true
  done : ∀ p, (sub src p).isNil = false → (∀ b, E p b = true) ∨ ∃ q ∈ s.queue, q <+: p

theorem cloneChild_spec (src : Tree α) (E : Path → Bool → Bool) (q : Path) (left : Bool)
    (l : Tree α) (v : α) (d : Nat) (r : Tree α) (dst : BT α) (qs : List Path)
    (hs : sub src q = node l v d r) (hd : dst.root = build E [] src) (hw : dst.n = dst.root.size)
    (hreach : ∀ p b u, q = p ++ b :: u → E p b = true)
    (hE : E q left = false) (hfresh : ∀ c, E (q ++ [left]) c = false) :
    ∃ dst', cloneChild q left (childOf left (node l v d r)) dst qs =
        .ok (dst', qs ++ if (childOf left (node l v d r)).isNil then [] else [q ++ [left]]) ∧
      dst'.root = build (upd E q left) [] src ∧ dst'.n = dst'.root.size := by
  cases hc : childOf left (node l v d r) with
  | nil =>
    refine ⟨dst, by simp [cloneChild, isNil], ?_, hw⟩
    have := build_upd_nil E left q src [] (by rw [hs]; exact hc)
    rw [hd]; simpa using this.symm
  | node cl x cd cr =>
    have h := put_build E x left q src [] l v d r hs (by simpa using hreach) (by simpa using hE)
      (by simpa using hfresh) ⟨cl, cd, cr, hc⟩
    simp only [List.nil_append] at h
    rw [← hd] at h
    have hsz := childPut_size _ _ _ _ _ _ h
    refine ⟨⟨build (upd E q left) [] src, dst.n + 1⟩, ?_, rfl, ?_⟩
    · simp [cloneChild, BT.pushAt, h, isNil]
    · simp only [if_true] at hsz
      simp only; omega

theorem toList?_eq_map (src : Tree α) (q : Path) (left : Bool) (t : Tree α) (ht : sub src (q ++ [left]) = t) :
    (if t.isNil then [] else [q ++ [left]]).map (sub src) = t.toList? := by
  unfold toList?
  cases t.isNil <;> simp [ht]

theorem prefix_snoc {q' q : Path} {b : Bool} (h : q' <+: q ++ [b]) : q' <+: q ∨ q' = q ++ [b] := by
  obtain ⟨t, ht⟩ := h
  rcases List.eq_nil_or_concat t with rfl | ⟨t', c, rfl⟩
  · right; simpa using ht
  · left
    rw [List.concat_eq_append, ← List.append_assoc] at ht
    have := List.append_inj' ht rfl
    exact ⟨t', this.1⟩

theorem clone_step (src : Tree α) (s : CloneSt α) (E : Path → Bool → Bool) (hi : CInv src s E)
    (q : Path) (qs : List Path) (hq : s.queue = q :: qs) :
    ∃ s' E', (do
          let s ← cloneBody s
          let it ← bfsNext s.it
          return { s with it := it }) = Res.ok s' ∧ CInv src s' E' ∧
      fsize (s'.queue.map (sub src)) < fsize (s.queue.map (sub src)) := by
  have hcur := hi.cur q qs hq
  have hv := hi.valid q (by simp [hq])
  obtain ⟨l, v, d, r, hsub⟩ : ∃ l v d r, sub src q = node l v d r := by
    cases h : sub src q with
    | nil => rw [h] at hv; simp [isNil] at hv
    | node l v d r => exact ⟨l, v, d, r, rfl⟩
  have hfr := hi.fresh q (by simp [hq])
  have hre := hi.reach q (by simp [hq])
  obtain ⟨d1, hc1, hr1, hw1⟩ := cloneChild_spec src E q true l v d r s.dst qs hsub hi.dst hi.wf hre
    (by simpa using hfr [] true) (fun c => hfr [true] c)
  have hreach1 : ∀ p b u, q = p ++ b :: u → upd E q true p b = true := by
    intro p b u h
    rw [upd]; split
    · rfl
    · exact hre p b u h
  have hqq : ∀ c, q ++ [c] ≠ q := fun c => append_ne_self q [] c
  obtain ⟨d2, hc2, hr2, hw2⟩ := cloneChild_spec src (upd E q true) q false l v d r d1
    (qs ++ if l.isNil then [] else [q ++ [true]]) hsub hr1 hw1 hreach1
    (by rw [upd_other (by simp)]; simpa using hfr [] false)
    (fun c => by rw [upd_other (by intro h; exact hqq _ h.1)]; exact hfr [false] c)
  have hchl : childOf true (node l v d r) = l := rfl
  have hchr : childOf false (node l v d r) = r := rfl
  rw [hchl] at hc1
  rw [hchr] at hc2
  let E' := upd (upd E q true) q false
  let Q := (qs ++ if l.isNil then [] else [q ++ [true]]) ++ if r.isNil then [] else [q ++ [false]]
  have hE' : ∀ p b, E' p b = if p = q then true else E p b := by
    intro p b
    by_cases hp : p = q
    · subst hp; cases b <;> simp [E', upd]
    · simp [E', upd, hp]
  have hl : sub src (q ++ [true]) = l := by rw [sub_append, hsub]; simp [sub]
  have hr : sub src (q ++ [false]) = r := by rw [sub_append, hsub]; simp [sub]
  have hQmap : Q.map (sub src) = qs.map (sub src) ++ l.toList? ++ r.toList? := by
    simp only [Q, List.map_append, toList?_eq_map src q true l hl, toList?_eq_map src q false r hr]
  have hit : s.it = ⟨node l v d r, node l v d r :: qs.map (sub src)⟩ := by
    rw [hi.it, hq]; simp [mk, hsub]
  have hmemQ : ∀ x ∈ Q, x ∈ qs ∨ ∃ b, x = q ++ [b] ∧ (sub src x).isNil = false := by
    intro x hx
    simp only [Q, List.mem_append] at hx
    rcases hx with (hx | hx) | hx
    · exact .inl hx
    · right
      cases hn : l.isNil with
      | true => simp [hn] at hx
      | false => simp [hn] at hx; exact ⟨true, hx, by rw [hx, hl, hn]⟩
    · right
      cases hn : r.isNil with
      | true => simp [hn] at hx
      | false => simp [hn] at hx; exact ⟨false, hx, by rw [hx, hr, hn]⟩
  have hant := hi.anti
  rw [hq, List.pairwise_cons] at hant
  refine ⟨⟨mk (Q.map (sub src)), d2, Q, headOr s.current Q⟩, E', ?_, ?_, ?_⟩
  · have hb : cloneBody s = .ok { s with dst := d2, queue := Q, current := headOr s.current Q } := by
      simp only [cloneBody, hq, hit, hcur, hc1, hc2, Res.ok_bind, Res.pure_eq, Q]
    rw [hb]
    simp only [Res.ok_bind, Res.pure_eq]
    rw [hit, bfsNext_mk, ← hQmap]
    rfl
  · refine ⟨rfl, hr2, hw2, ?_, ?_, ?_, ?_, ?_, ?_⟩
    · intro x xs h
      simp only at h ⊢
      rw [h]; rfl
    · intro x hx
      rcases hmemQ x hx with h | ⟨b, _, h⟩
      · exact hi.valid x (by simp [hq, h])
      · exact h
    · intro x hx p b
      have hnq : x ++ p ≠ q ∧ E (x ++ p) b = false := by
        rcases hmemQ x hx with h | ⟨c, rfl, _⟩
        · refine ⟨?_, hi.fresh x (by simp [hq, h]) p b⟩
          intro he
          exact (hant.1 x h).2 ⟨p, he⟩
        · refine ⟨?_, ?_⟩
          · rw [List.append_assoc]; exact append_ne_self q p c
          · rw [List.append_assoc]; exact hfr _ b
      rw [hE', if_neg hnq.1]; exact hnq.2
    · have hqs := hant.2
      have hx : ∀ x ∈ qs, ∀ b, ¬ x <+: q ++ [b] ∧ ¬ q ++ [b] <+: x := by
        intro x hx b
        have := hant.1 x hx
        constructor
        · intro h
          rcases prefix_snoc h with h | h
          · exact this.2 h
          · exact this.1 (by rw [h]; exact List.prefix_append _ _)
        · intro h
          exact this.1 ((List.prefix_append _ _).trans h)
      have hlr : ∀ b c, b ≠ c → ¬ (q ++ [b] <+: q ++ [c]) := by
        intro b c hbc h
        rw [List.prefix_append_right_inj] at h
        simp at h; exact hbc h
      simp only [Q]
      rw [List.pairwise_append, List.pairwise_append]
      refine ⟨⟨hqs, by split <;> simp, ?_⟩, by split <;> simp, ?_⟩
      · intro a ha b hb
        cases hn : l.isNil with
        | true => simp [hn] at hb
        | false => simp [hn] at hb; subst hb; exact hx a ha _
      · intro a ha b hb
        cases hn : r.isNil with
        | true => simp [hn] at hb
        | false =>
          simp [hn] at hb; subst hb
          rcases List.mem_append.1 ha with ha | ha
          · exact hx a ha _
          · cases hn' : l.isNil with
            | true => simp [hn'] at ha
            | false =>
              simp [hn'] at ha; subst ha
              exact ⟨hlr _ _ (by simp), hlr _ _ (by simp)⟩
    · intro x hx p b u he
      rw [hE']
      split
      · rfl
      · rename_i hp
        rcases hmemQ x hx with h | ⟨c, rfl, _⟩
        · exact hi.reach x (by simp [hq, h]) p b u he
        · rcases List.eq_nil_or_concat u with rfl | ⟨u', c', rfl⟩
          · have := (List.append_inj' he rfl).1
            exact absurd this.symm hp
          · have : q ++ [c] = (p ++ b :: u') ++ [c'] := by rw [he]; simp
            exact hre p b u' (List.append_inj' this rfl).1
    · intro p hp
      rcases hi.done p hp with h | ⟨x, hx, hpre⟩
      · left; intro b; rw [hE']; split
        · rfl
        · exact h b
      · rw [hq] at hx
        rcases List.mem_cons.1 hx with rfl | hx
        · obtain ⟨w, rfl⟩ := hpre
          cases w with
          | nil => left; intro b; rw [hE']; simp
          | cons c w =>
            right
            refine ⟨x ++ [c], ?_, ⟨w, by simp⟩⟩
            have hcn : (sub src (x ++ [c])).isNil = false := by
              cases hn : sub src (x ++ [c]) with
              | node => rfl
              | nil =>
                have : sub src (x ++ c :: w) = nil := by
                  have e : x ++ c :: w = (x ++ [c]) ++ w := by simp
                  rw [e, sub_append, hn, sub_nil]
                rw [this] at hp; simp [isNil] at hp
            cases c with
            | true => rw [hl] at hcn; simp [Q, hcn]
            | false => rw [hr] at hcn; simp [Q, hcn]
        · right
          exact ⟨x, by simp [Q, hx], hpre⟩
  · simp only [hQmap, hq, List.map_cons, fsize_append, fsize_cons, fsize_toList?, hsub, size]
    omega

theorem clone_loop (src : Tree α) : ∀ (fuel : Nat) (s : CloneSt α) (E : Path → Bool → Bool),
    CInv src s E → fsize (s.queue.map (sub src)) ≤ fuel →
    ∃ s', cloneLoop fuel s = some (.ok s') ∧ s'.dst.root = relabel 0 src ∧ s'.dst.n = src.size := by
  intro fuel
  have hend : ∀ (s : CloneSt α) (E : Path → Bool → Bool), CInv src s E → s.queue = [] → ∀ fuel,
      cloneLoop fuel s = some (.ok s) ∧ s.dst.root = relabel 0 src ∧ s.dst.n = src.size := by
    intro s E hi hq fuel
    have hn : s.it.node.isNil = true := by rw [hi.it, hq]; rfl
    have hroot : s.dst.root = relabel 0 src := by
      rw [hi.dst]
      apply build_full
      intro p hp
      rcases hi.done p hp with h | ⟨q, hq', _⟩
      · simpa using h
      · rw [hq] at hq'; simp at hq'
    refine ⟨?_, hroot, ?_⟩
    · cases fuel <;> simp [cloneLoop, hn]
    · rw [hi.wf, hroot, relabel_size]
  induction fuel with
  | zero =>
    intro s E hi hle
    cases hq : s.queue with
    | nil => exact ⟨s, hend s E hi hq 0⟩
    | cons q qs =>
      obtain ⟨s', E', _, _, h3⟩ := clone_step src s E hi q qs hq
      omega
  | succ fuel ih =>
    intro s E hi hle
    cases hq : s.queue with
    | nil => exact ⟨s, hend s E hi hq _⟩
    | cons q qs =>
      obtain ⟨s1, E1, h1, h2, h3⟩ := clone_step src s E hi q qs hq
      obtain ⟨s', h4, h5⟩ := ih s1 E1 h2 (by omega)
      refine ⟨s', ?_, h5⟩
      have hn : s.it.node.isNil = false := by
        rw [hi.it, hq]
        simpa [mk] using hi.valid q (by simp [hq])
      rw [cloneLoop]
      simp only [hn, Bool.false_eq_true, if_false]
      rw [h1]
      exact h4

theorem copyCtor_spec (t : BT α) (hwf : t.WF) (hne : t.n ≠ 0) :
    t.copyCtor = .ok ⟨relabel 0 t.root, t.root.size⟩ := by
  obtain ⟨root, n⟩ := t
  unfold BT.WF at hwf
  simp only at hwf hne
  subst hwf
  cases root with
  | nil => simp [size] at hne
  | node l v d r =>
    rw [BT.copyCtor, if_neg hne]
    simp only
    obtain ⟨s', h1, h2, h3⟩ := clone_loop (node l v d r) (node l v d r).size
      ⟨Iter.start (node l v d r), ⟨.node .nil v 0 .nil, 1⟩, [[]], []⟩ (fun _ _ => false)
      { it := by simp [Iter.start, mk]
        dst := by simp [build]
        wf := rfl
        cur := by intro q qs h; injection h with h1 h2
        valid := by simp [isNil]
        fresh := by simp
        anti := by simp
        reach := by
          intro q hq p b u h
          simp at hq
          subst hq
          simp at h
        done := by
          intro p hp
          right
          exact ⟨[], by simp, List.nil_prefix⟩ }
      (by simp)
    rw [h1]
    simp only [← h2, ← h3]

end Fdapde.BinTree
