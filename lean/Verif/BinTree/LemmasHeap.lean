import Verif.BinTree.HeapSpec
import Verif.BinTree.Lemmas2
import Mathlib.Data.List.Perm.Subperm
/- Trees whose nodes are labelled with their addresses, and their relation to the heap. -/
namespace Fdapde.BinTree
variable {α : Type}
open Tree

/-- A tree whose values carry the address of their node. -/
abbrev ATree (α : Type) := Tree (Nat × α)

def addr : ATree α → Option Nat
  | nil => none
  | node _ v _ _ => some v.1

def addrs (t : ATree α) : List Nat := t.preorder.map Prod.fst

def strip : ATree α → Tree α
  | nil => nil
  | node l v d r => node (strip l) v.2 d (strip r)

def Rep (h : Mem α) : ATree α → Prop
  | nil => True
  | node l v d r => (∃ par, h[v.1]? = some (some ⟨v.2, par, addr l, addr r, d⟩)) ∧ Rep h l ∧ Rep h r

@[simp] theorem addrs_nil : addrs (nil : ATree α) = [] := rfl

@[simp] theorem addrs_node (l : ATree α) (v : Nat × α) (d : Nat) (r : ATree α) :
    addrs (node l v d r) = v.1 :: (addrs l ++ addrs r) := by simp [addrs, preorder]

theorem strip_size (t : ATree α) : (strip t).size = t.size := by
  induction t with
  | nil => rfl
  | node l v d r ihl ihr => simp [strip, size, ihl, ihr]

theorem strip_isNil (t : ATree α) : (strip t).isNil = t.isNil := by cases t <;> rfl

theorem strip_sub (t : ATree α) : ∀ p, strip (sub t p) = sub (strip t) p := by
  induction t with
  | nil => intro p; simp [sub_nil, strip]
  | node l v d r ihl ihr =>
    intro p
    cases p with
    | nil => simp
    | cons b p => cases b <;> simp [sub, strip, ihl, ihr]

theorem addrs_length (t : ATree α) : (addrs t).length = t.size := by simp [addrs, preorder_length]

theorem rep_frame {h h' : Mem α} (t : ATree α) (hr : Rep h t) (hf : ∀ a ∈ addrs t, h'[a]? = h[a]?) : Rep h' t := by
  induction t with
  | nil => trivial
  | node l v d r ihl ihr =>
    obtain ⟨⟨par, h1⟩, h2, h3⟩ := hr
    refine ⟨⟨par, by rw [hf _ (by simp)]; exact h1⟩, ihl h2 fun a ha => hf a (by simp [ha]), ihr h3 fun a ha => hf a (by simp [ha])⟩

theorem rep_live {h : Mem α} (t : ATree α) (hr : Rep h t) {a : Nat} (ha : a ∈ addrs t) : ∃ c, h[a]? = some (some c) := by
  induction t with
  | nil => simp at ha
  | node l v d r ihl ihr =>
    obtain ⟨⟨par, h1⟩, h2, h3⟩ := hr
    simp only [addrs_node, List.mem_cons, List.mem_append] at ha
    rcases ha with rfl | ha | ha
    · exact ⟨_, h1⟩
    · exact ihl h2 ha
    · exact ihr h3 ha

theorem rep_lt {h : Mem α} (t : ATree α) (hr : Rep h t) {a : Nat} (ha : a ∈ addrs t) : a < h.length := by
  obtain ⟨c, hc⟩ := rep_live t hr ha
  exact (List.getElem?_eq_some_iff.1 hc).1

theorem rep_points {h : Mem α} (t : ATree α) (hr : Rep h t) : Points h (addr t) (strip t) := by
  induction t with
  | nil => exact .nil
  | node l v d r ihl ihr =>
    obtain ⟨⟨par, h1⟩, h2, h3⟩ := hr
    exact Points.node v.1 ⟨v.2, par, addr l, addr r, d⟩ (strip l) (strip r) h1 (ihl h2) (ihr h3)

theorem mem_get {h : Mem α} {a : Nat} {c : Cell α} (hc : h[a]? = some (some c)) : h.get (some a) = .ok c := by
  simp [Mem.get, hc]

theorem rep_sub {h : Mem α} (t : ATree α) (hr : Rep h t) : ∀ p, Rep h (sub t p) := by
  induction t with
  | nil => intro p; rw [sub_nil]; trivial
  | node l v d r ihl ihr =>
    intro p
    cases p with
    | nil => simpa using hr
    | cons b p => cases b <;> simp only [sub]
                  · exact ihr hr.2.2 p
                  · exact ihl hr.2.1 p

theorem addrs_sub (t : ATree α) : ∀ p a, a ∈ addrs (sub t p) → a ∈ addrs t := by
  induction t with
  | nil => intro p a; rw [sub_nil]; exact id
  | node l v d r ihl ihr =>
    intro p a
    cases p with
    | nil => simp
    | cons b p =>
      cases b <;> simp only [sub, addrs_node, List.mem_cons, List.mem_append]
      · exact fun h => .inr (.inr (ihr p a h))
      · exact fun h => .inr (.inl (ihl p a h))

theorem nodup_sub (t : ATree α) (hn : (addrs t).Nodup) : ∀ p, (addrs (sub t p)).Nodup := by
  induction t with
  | nil => intro p; rw [sub_nil]; exact hn
  | node l v d r ihl ihr =>
    intro p
    simp only [addrs_node, List.nodup_cons, List.nodup_append] at hn
    cases p with
    | nil => simp only [sub_root, addrs_node, List.nodup_cons, List.nodup_append]; exact hn
    | cons b p =>
      cases b <;> simp only [sub]
      · exact ihr hn.2.2.1 p
      · exact ihl hn.2.1 p

theorem navigate_rep {h : Mem α} (t : ATree α) (hr : Rep h t) : ∀ p, (sub t p).isNil = false →
    navigate h (addr t) p = .ok (addr (sub t p)) := by
  induction t with
  | nil => intro p hp; rw [sub_nil] at hp; simp [isNil] at hp
  | node l v d r ihl ihr =>
    intro p hp
    obtain ⟨⟨par, h1⟩, h2, h3⟩ := hr
    cases p with
    | nil => simp [navigate]
    | cons b p =>
      rw [navigate]
      simp only [addr, mem_get h1]
      cases b
      · exact ihr h3 p hp
      · exact ihl h2 p hp

/-- Distinct positions hold distinct addresses, and navigation finds nothing but nodes of the tree. -/
theorem navigate_inv {h : Mem α} (t : ATree α) (hr : Rep h t) : ∀ p a, navigate h (addr t) p = .ok (some a) →
    ∃ l v d r, sub t p = node l v d r ∧ v.1 = a := by
  induction t with
  | nil =>
    intro p a hp
    cases p with
    | nil => simp [navigate, addr] at hp
    | cons b p => simp [navigate, addr, Mem.get] at hp
  | node l v d r ihl ihr =>
    intro p a hp
    obtain ⟨⟨par, h1⟩, h2, h3⟩ := hr
    cases p with
    | nil => simp [navigate, addr] at hp; exact ⟨l, v, d, r, by simp, hp⟩
    | cons b p =>
      rw [navigate] at hp
      simp only [addr, mem_get h1] at hp
      cases b
      · exact ihr h3 p a hp
      · exact ihl h2 p a hp

theorem mem_of_sub (t : ATree α) (p : Path) {l : ATree α} {v : Nat × α} {d : Nat} {r : ATree α} (h : sub t p = node l v d r) :
    v.1 ∈ addrs t := addrs_sub t p v.1 (by rw [h]; simp)

theorem path_unique (t : ATree α) (hn : (addrs t).Nodup) : ∀ (p q : Path) {l v d r l' v' d' r'},
    sub t p = node l v d r → sub t q = node l' v' d' r' → v.1 = v'.1 → p = q := by
  induction t with
  | nil => intro p q l v d r l' v' d' r' h; rw [sub_nil] at h; cases h
  | node tl tv td tr ihl ihr =>
    intro p q l v d r l' v' d' r' h h' hv
    simp only [addrs_node, List.nodup_cons, List.nodup_append, List.mem_append] at hn
    obtain ⟨hn1, hn2, hn3, hn4⟩ := hn
    have key : ∀ (b : Bool) (p : Path) {l v d r}, sub (node tl tv td tr) (b :: p) = node l v d r →
        v.1 ∈ addrs (if b then tl else tr) := by
      intro b p l v d r h
      cases b <;> exact mem_of_sub _ _ h
    cases p with
    | nil =>
      simp only [sub_root] at h
      injection h with _ hv0 _ _
      subst hv0
      cases q with
      | nil => rfl
      | cons c q =>
        have := key c q h'
        rw [← hv] at this
        exact absurd (by cases c; · exact .inr this
                         · exact .inl this) hn1
    | cons b p =>
      cases q with
      | nil =>
        simp only [sub_root] at h'
        injection h' with _ hv0 _ _
        subst hv0
        have := key b p h
        rw [hv] at this
        exact absurd (by cases b; · exact .inr this
                         · exact .inl this) hn1
      | cons c q =>
        have k1 := key b p h
        have k2 := key c q h'
        rw [← hv] at k2
        cases b <;> cases c
        · rw [ihr hn3 p q h h' hv]
        · exact absurd rfl (hn4 _ k2 _ k1)
        · exact absurd rfl (hn4 _ k1 _ k2)
        · rw [ihl hn2 p q h h' hv]

theorem sub_of_mem (t : ATree α) {a : Nat} (ha : a ∈ addrs t) : ∃ p l v d r, sub t p = node l v d r ∧ v.1 = a := by
  induction t with
  | nil => simp at ha
  | node tl tv td tr ihl ihr =>
    simp only [addrs_node, List.mem_cons, List.mem_append] at ha
    rcases ha with rfl | ha | ha
    · exact ⟨[], tl, tv, td, tr, by simp, rfl⟩
    · obtain ⟨p, l, v, d, r, h1, h2⟩ := ihl ha
      exact ⟨true :: p, l, v, d, r, h1, h2⟩
    · obtain ⟨p, l, v, d, r, h1, h2⟩ := ihr ha
      exact ⟨false :: p, l, v, d, r, h1, h2⟩

/-! ### clear -/

theorem addr_toList (t : ATree α) : (addr t).toList.map some = t.toList?.map addr := by cases t <;> rfl

theorem toList?_addrs (t : ATree α) : t.toList?.flatMap addrs = addrs t := by cases t <;> simp [toList?, isNil]

theorem mem_toList? {t u : Tree α} (h : u ∈ t.toList?) : u = t := by
  cases t <;> simp [toList?, isNil] at h
  exact h

theorem eraseLoop_spec : ∀ (fuel : Nat) (F : List (ATree α)) (h : Mem α), NonNil F → (∀ t ∈ F, Rep h t) →
    (F.flatMap addrs).Nodup → fsize F ≤ fuel →
    ∃ h', eraseLoop fuel h (F.map addr) ((F.map addr).headD none) = .ok h' ∧ h'.length = h.length ∧
      (∀ a ∈ F.flatMap addrs, h'[a]? = some none) ∧ ∀ a, a ∉ F.flatMap addrs → h'[a]? = h[a]? := by
  intro fuel
  induction fuel with
  | zero =>
    intro F h hF hr hn hs
    cases F with
    | nil => exact ⟨h, rfl, rfl, by simp, by simp⟩
    | cons t F =>
      cases t with
      | nil => have := hF nil (by simp); simp [isNil] at this
      | node l v d r => simp [fsize, size] at hs
  | succ fuel ih =>
    intro F h hF hr hn hs
    cases F with
    | nil => exact ⟨h, rfl, rfl, by simp, by simp⟩
    | cons t F =>
      cases t with
      | nil => have := hF nil (by simp); simp [isNil] at this
      | node l v d r =>
        obtain ⟨⟨par, h1⟩, h2, h3⟩ := hr _ (List.mem_cons_self ..)
        have hlt : v.1 < h.length := (List.getElem?_eq_some_iff.1 h1).1
        simp only [List.flatMap_cons, addrs_node, List.cons_append, List.nodup_cons] at hn
        obtain ⟨hv, hn⟩ := hn
        have hF2 : (l.toList? ++ (r.toList? ++ F)).flatMap addrs = addrs l ++ addrs r ++ F.flatMap addrs := by
          simp [List.flatMap_append, toList?_addrs]
        have hset : ∀ a, a ≠ v.1 → (h.set v.1 none)[a]? = h[a]? := fun a ha => List.getElem?_set_ne (Ne.symm ha)
        have hin : ∀ t ∈ l.toList? ++ (r.toList? ++ F), ∀ a ∈ addrs t, a ≠ v.1 := by
          intro t ht a ha he
          subst he
          apply hv
          rw [← hF2]
          exact List.mem_flatMap.2 ⟨t, ht, ha⟩
        obtain ⟨h', e1, e2, e3, e4⟩ := ih (l.toList? ++ (r.toList? ++ F)) (h.set v.1 none)
          (by
            refine NonNil.append (nonNil_toList? l) (NonNil.append (nonNil_toList? r) ?_)
            exact fun t ht => hF t (by simp [ht]))
          (by
            intro t ht
            refine rep_frame t ?_ fun a ha => hset a (hin t ht a ha)
            rcases List.mem_append.1 ht with ht | ht
            · rw [mem_toList? ht]; exact h2
            · rcases List.mem_append.1 ht with ht | ht
              · rw [mem_toList? ht]; exact h3
              · exact hr t (by simp [ht]))
          (by rw [hF2]; exact hn)
          (by
            simp only [fsize, List.map_append, List.sum_append, List.map_cons, List.sum_cons, size] at hs ⊢
            have hl : (l.toList?.map size).sum = l.size := by cases l <;> simp [toList?, isNil, size]
            have hr' : (r.toList?.map size).sum = r.size := by cases r <;> simp [toList?, isNil, size]
            omega)
        refine ⟨h', ?_, by rw [e2]; simp, ?_, ?_⟩
        · simp only [List.map_cons, addr, List.headD_cons]
          rw [eraseLoop]
          simp only [mem_get h1, addr_toList, ← List.map_append]
          exact e1
        · intro a ha
          simp only [List.flatMap_cons, addrs_node, List.cons_append, List.mem_cons] at ha
          rcases ha with rfl | ha
          · rw [e4 _ (by rw [hF2]; exact hv)]
            simp [hlt]
          · exact e3 a (by rw [hF2]; exact ha)
        · intro a ha
          simp only [List.flatMap_cons, addrs_node, List.cons_append, List.mem_cons, not_or] at ha
          rw [e4 a (by rw [hF2]; exact ha.2)]
          exact hset a ha.1

theorem clearTree_spec (t : ATree α) (h : Mem α) (hr : Rep h t) (hn : (addrs t).Nodup) :
    ∃ h', clearTree h ⟨addr t, t.size⟩ = .ok (h', ⟨none, 0⟩) ∧ h'.length = h.length ∧
      (∀ a ∈ addrs t, h'[a]? = some none) ∧ ∀ a, a ∉ addrs t → h'[a]? = h[a]? := by
  cases t with
  | nil => exact ⟨h, by simp [clearTree, size, addr], rfl, by simp, by simp⟩
  | node l v d r =>
    have hle : (node l v d r).size ≤ h.length := by
      rw [← addrs_length]
      have hsub : addrs (node l v d r) ⊆ List.range h.length := fun a ha => List.mem_range.2 (rep_lt _ hr ha)
      have := (List.subperm_of_subset hn hsub).length_le
      simpa using this
    obtain ⟨h', e1, e2, e3, e4⟩ := eraseLoop_spec (h.length + 1) [node l v d r] h (by intro t ht; simp at ht; subst ht; rfl)
      (by simpa using hr) (by simpa using hn) (by simp [fsize]; omega)
    refine ⟨h', ?_, e2, by simpa using e3, by simpa using e4⟩
    have hne : (node l v d r).size ≠ 0 := by simp [size]
    simp only [clearTree, if_neg hne]
    simp only [List.map_cons, List.map_nil, List.headD_cons] at e1
    rw [e1]
    rfl

/-! ### push -/

theorem strip_insert (lt : α → α → Bool) (a : Nat) (x : α) (t : ATree α) : ∀ k,
    strip (insert (fun p q : Nat × α => lt p.2 q.2) (a, x) k t) = insert lt x k (strip t) := by
  induction t with
  | nil => intro k; rfl
  | node l v d r ihl ihr =>
    intro k
    simp only [insert, strip]
    split <;> simp [strip, ihl, ihr]

theorem addrs_insert (lt : Nat × α → Nat × α → Bool) (a : Nat) (x : α) (t : ATree α) (k : Nat) :
    (addrs (insert lt (a, x) k t)).Perm (a :: addrs t) := by
  have h1 := insert_inorder_perm lt (a, x) t k
  have h2 := (inorder_perm (insert lt (a, x) k t)).symm.trans (h1.trans ((inorder_perm t).cons _))
  simpa [addrs] using h2.map Prod.fst

theorem pushLoop_spec (lt : α → α → Bool) (x : α) (t : ATree α) : ∀ (fuel : Nat) (h : Mem α) (k a : Nat),
    addr t = some a → Rep h t → (addrs t).Nodup → t.size ≤ fuel →
    ∃ h', pushLoop lt x fuel h (k + 1) a = .ok h' ∧ h'.length = h.length + 1 ∧
      Rep h' (insert (fun p q : Nat × α => lt p.2 q.2) (h.length, x) k t) ∧
      ∀ b, b ∉ addrs t → b ≠ h.length → h'[b]? = h[b]? := by
  induction t with
  | nil => intro fuel h k a ha; simp [addr] at ha
  | node l v d r ihl ihr =>
    intro fuel h k a ha hr hn hf
    simp only [addr, Option.some.injEq] at ha
    subst ha
    obtain ⟨⟨par, h1⟩, h2, h3⟩ := hr
    have hlt : v.1 < h.length := (List.getElem?_eq_some_iff.1 h1).1
    simp only [addrs_node, List.nodup_cons, List.nodup_append, List.mem_append, not_or] at hn
    obtain ⟨⟨hvl, hvr⟩, hnl, hnr, hlr⟩ := hn
    obtain ⟨fuel, rfl⟩ : ∃ f, fuel = f + 1 := ⟨fuel - 1, by simp [size] at hf; omega⟩
    have hsize : l.size ≤ fuel ∧ r.size ≤ fuel := by simp [size] at hf; omega
    -- the new node and its parent
    have hnewcase : ∀ c' : Cell α,
        (Mem.put h v.1 c' ++ [some (⟨x, some v.1, none, none, k + 1⟩ : Cell α)]).length = h.length + 1 ∧
        (Mem.put h v.1 c' ++ [some (⟨x, some v.1, none, none, k + 1⟩ : Cell α)])[v.1]? = some (some c') ∧
        (Mem.put h v.1 c' ++ [some (⟨x, some v.1, none, none, k + 1⟩ : Cell α)])[h.length]? = some (some ⟨x, some v.1, none, none, k + 1⟩) ∧
        ∀ b, b ≠ v.1 → b ≠ h.length → (Mem.put h v.1 c' ++ [some (⟨x, some v.1, none, none, k + 1⟩ : Cell α)])[b]? = h[b]? := by
      intro c'
      refine ⟨by simp [Mem.put], ?_, ?_, ?_⟩
      · rw [List.getElem?_append_left (by simpa [Mem.put] using hlt)]
        simp [Mem.put, hlt]
      · rw [List.getElem?_append_right (by simp [Mem.put])]
        simp [Mem.put]
      · intro b hb hb'
        by_cases hbl : b < h.length
        · rw [List.getElem?_append_left (by simpa [Mem.put] using hbl)]
          exact List.getElem?_set_ne (Ne.symm hb)
        · rw [List.getElem?_append_right (by simp [Mem.put]; omega), List.getElem?_eq_none (by simp [Mem.put]; omega),
            List.getElem?_eq_none (by omega)]
    rw [pushLoop, mem_get h1]
    simp only [insert]
    by_cases hc : lt x v.2 = true
    · simp only [hc, if_true]
      cases l with
      | nil =>
        obtain ⟨g1, g2, g3, g4⟩ := hnewcase ⟨v.2, par, some h.length, addr r, d⟩
        refine ⟨_, rfl, g1, ⟨⟨par, by simpa [insert, addr] using g2⟩, ?_, ?_⟩, ?_⟩
        · exact ⟨⟨some v.1, by simpa [addr] using g3⟩, trivial, trivial⟩
        · refine rep_frame r h3 fun b hb => g4 b (fun e => hvr (e ▸ hb)) ?_
          exact Nat.ne_of_lt (rep_lt r h3 hb)
        · intro b hb hb'
          simp only [addrs_node, List.mem_cons, not_or] at hb
          exact g4 b hb.1 hb'
      | node ll lv ld lr =>
        obtain ⟨h', e1, e2, e3, e4⟩ := ihl fuel h (k + 1) lv.1 rfl h2 hnl hsize.1
        refine ⟨h', e1, e2, ⟨⟨par, ?_⟩, e3, ?_⟩, ?_⟩
        · rw [e4 v.1 hvl (Nat.ne_of_lt hlt), h1]
          simp only [insert]
          split <;> rfl
        · refine rep_frame r h3 fun b hb => e4 b (fun hb' => hlr b hb' b hb rfl) (Nat.ne_of_lt (rep_lt r h3 hb))
        · intro b hb hb'
          simp only [addrs_node, List.mem_cons, List.mem_append, not_or] at hb
          refine e4 b ?_ hb'
          simp only [addrs_node, List.mem_cons, List.mem_append, not_or]
          exact hb.2.1
    · simp only [hc]
      cases r with
      | nil =>
        obtain ⟨g1, g2, g3, g4⟩ := hnewcase ⟨v.2, par, addr l, some h.length, d⟩
        refine ⟨_, rfl, g1, ⟨⟨par, by simpa [insert, addr] using g2⟩, ?_, ?_⟩, ?_⟩
        · refine rep_frame l h2 fun b hb => g4 b (fun e => hvl (e ▸ hb)) ?_
          exact Nat.ne_of_lt (rep_lt l h2 hb)
        · exact ⟨⟨some v.1, by simpa [addr] using g3⟩, trivial, trivial⟩
        · intro b hb hb'
          simp only [addrs_node, List.mem_cons, not_or] at hb
          exact g4 b hb.1 hb'
      | node rl rv rd rr =>
        obtain ⟨h', e1, e2, e3, e4⟩ := ihr fuel h (k + 1) rv.1 rfl h3 hnr hsize.2
        refine ⟨h', e1, e2, ⟨⟨par, ?_⟩, ?_, e3⟩, ?_⟩
        · rw [e4 v.1 hvr (Nat.ne_of_lt hlt), h1]
          simp only [insert]
          split <;> rfl
        · refine rep_frame l h2 fun b hb => e4 b (fun hb' => hlr b hb b hb' rfl) (Nat.ne_of_lt (rep_lt l h2 hb))
        · intro b hb hb'
          simp only [addrs_node, List.mem_cons, List.mem_append, not_or] at hb
          refine e4 b ?_ hb'
          simp only [addrs_node, List.mem_cons, List.mem_append, not_or]
          exact hb.2.2

theorem size_le_heap (t : ATree α) (h : Mem α) (hr : Rep h t) (hn : (addrs t).Nodup) : t.size ≤ h.length := by
  rw [← addrs_length]
  have hsub : addrs t ⊆ List.range h.length := fun a ha => List.mem_range.2 (rep_lt _ hr ha)
  have := (List.subperm_of_subset hn hsub).length_le
  simpa using this

theorem pushTree_spec (lt : α → α → Bool) (x : α) (t : ATree α) (h : Mem α) (hr : Rep h t) (hn : (addrs t).Nodup) :
    ∃ h' t', pushTree lt x h ⟨addr t, t.size⟩ = .ok (h', ⟨addr t', t'.size⟩) ∧ Rep h' t' ∧
      strip t' = insert lt x 0 (strip t) ∧ (addrs t').Perm (h.length :: addrs t) ∧ h'.length = h.length + 1 ∧
      ∀ b, b ∉ addrs t' → h'[b]? = h[b]? := by
  have hperm := addrs_insert (fun p q : Nat × α => lt p.2 q.2) h.length x t 0
  have hsz := insert_size (fun p q : Nat × α => lt p.2 q.2) (h.length, x) t 0
  cases ht : addr t with
  | none =>
    cases t with
    | node l v d r => simp [addr] at ht
    | nil =>
      refine ⟨h ++ [some ⟨x, none, none, none, 0⟩], node nil (h.length, x) 0 nil, ?_, ⟨⟨none, by simp [addr]⟩, trivial, trivial⟩,
        rfl, by simp, by simp, ?_⟩
      · simp [pushTree, size, addr]
      · intro b hb
        simp at hb
        by_cases hbl : b < h.length
        · rw [List.getElem?_append_left hbl]
        · rw [List.getElem?_append_right (by omega), List.getElem?_eq_none (by simp; omega), List.getElem?_eq_none (by omega)]
  | some a =>
    obtain ⟨h', e1, e2, e3, e4⟩ := pushLoop_spec lt x t (h.length + 1) h 0 a ht hr hn
      (by have := size_le_heap t h hr hn; omega)
    refine ⟨h', _, ?_, e3, strip_insert lt h.length x t 0, hperm, e2, ?_⟩
    · simp only [pushTree]
      rw [e1]
      simp only [Res.ok_bind, Res.pure_eq, hsz]
      cases t with
      | nil => simp [addr] at ht
      | node l v d r =>
        rw [← ht]
        simp only [insert]
        split <;> simp [addr]
    · intro b hb
      have hb' : b ∉ h.length :: addrs t := fun h' => hb (hperm.mem_iff.2 h')
      simp only [List.mem_cons, not_or] at hb'
      exact e4 b hb'.2 hb'.1

end Fdapde.BinTree
