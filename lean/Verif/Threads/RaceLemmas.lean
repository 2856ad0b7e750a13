import Verif.Threads.RaceSpec
namespace Fdapde.Threads
variable {tr : List Ev}

theorem snoc_cases {l : List Ev} {e a : Ev} {i : Nat} (h : (l ++ [e])[i]? = some a) :
    l[i]? = some a ∨ (i = l.length ∧ a = e) := by
  rcases Nat.lt_trichotomy i l.length with hi | hi | hi
  · rw [List.getElem?_append_left hi] at h; exact .inl h
  · subst hi
    rw [List.getElem?_append_right (Nat.le_refl _), Nat.sub_self] at h
    simp only [List.getElem?_cons_zero, Option.some.injEq] at h
    exact .inr ⟨rfl, h.symm⟩
  · rw [List.getElem?_eq_none (by simp; omega)] at h; cases h

theorem snoc_old {l m : List Ev} {a : Ev} {i : Nat} (h : l[i]? = some a) : (l ++ m)[i]? = some a := by
  rw [List.getElem?_append_left (List.getElem?_eq_some_iff.1 h).1]; exact h

theorem snoc_new (l : List Ev) (e : Ev) : (l ++ [e])[l.length]? = some e := by
  rw [List.getElem?_append_right (Nat.le_refl _), Nat.sub_self]; rfl

theorem get_lt {l : List Ev} {a : Ev} {i : Nat} (h : l[i]? = some a) : i < l.length := (List.getElem?_eq_some_iff.1 h).1

theorem HB.append {i j : Nat} (h : HB tr i j) (m : List Ev) : HB (tr ++ m) i j := by
  induction h with
  | program h hi hj e => exact .program h (snoc_old hi) (snoc_old hj) e
  | sync h hi hj => exact .sync h (snoc_old hi) (snoc_old hj)
  | trans _ _ h1 h2 => exact .trans h1 h2

/-- The event `i` happens before whatever the thread does next. -/
def Knows (tr : List Ev) (u : Thr) (i : Nat) : Prop := ∃ a e, tr[a]? = some e ∧ e.thr = u ∧ (i = a ∨ HB tr i a)

/-- The event `i` happens before whatever follows the next acquisition of the object. -/
def RelKnows (tr : List Ev) (o : SObj) (i : Nat) : Prop := ∃ k v, tr[k]? = some ⟨v, .rel o⟩ ∧ (i = k ∨ HB tr i k)

theorem Knows.append {u : Thr} {i : Nat} (h : Knows tr u i) (m : List Ev) : Knows (tr ++ m) u i := by
  obtain ⟨a, e, h1, h2, h3⟩ := h
  exact ⟨a, e, snoc_old h1, h2, h3.imp id fun h => h.append m⟩

theorem RelKnows.append {o : SObj} {i : Nat} (h : RelKnows tr o i) (m : List Ev) : RelKnows (tr ++ m) o i := by
  obtain ⟨a, e, h1, h3⟩ := h
  exact ⟨a, e, snoc_old h1, h3.imp id fun h => h.append m⟩

theorem knows_own {u : Thr} {k : Kind} {i : Nat} (h : tr[i]? = some ⟨u, k⟩) : Knows tr u i := ⟨i, _, h, rfl, .inl rfl⟩

theorem knows_new (u : Thr) (k : Kind) : Knows (tr ++ [⟨u, k⟩]) u tr.length := knows_own (snoc_new _ _)

theorem Knows.hb {u : Thr} {i : Nat} (h : Knows tr u i) (k : Kind) : HB (tr ++ [⟨u, k⟩]) i tr.length := by
  obtain ⟨a, e, h1, h2, h3⟩ := h
  have h4 : HB (tr ++ [⟨u, k⟩]) a tr.length := .program (get_lt h1) (snoc_old h1) (snoc_new _ _) h2
  rcases h3 with rfl | h3
  · exact h4
  · exact .trans (h3.append _) h4

theorem Knows.released {u : Thr} {i : Nat} (h : Knows tr u i) (o : SObj) : RelKnows (tr ++ [⟨u, .rel o⟩]) o i :=
  ⟨tr.length, u, snoc_new _ _, .inr (h.hb _)⟩

theorem RelKnows.acquired {o : SObj} {i : Nat} (h : RelKnows tr o i) (u : Thr) : Knows (tr ++ [⟨u, .acq o⟩]) u i := by
  obtain ⟨k, v, h1, h2⟩ := h
  have h3 : HB (tr ++ [⟨u, .acq o⟩]) k tr.length := .sync (get_lt h1) (snoc_old h1) (snoc_new _ _)
  refine ⟨tr.length, _, snoc_new _ _, rfl, .inr ?_⟩
  rcases h2 with rfl | h2
  · exact h3
  · exact .trans (h2.append _) h3

theorem Knows.trans {u : Thr} {i j : Nat} (h : Knows tr u j) (hij : i = j ∨ HB tr i j) : Knows tr u i := by
  obtain ⟨a, e, h1, h2, h3⟩ := h
  refine ⟨a, e, h1, h2, ?_⟩
  rcases hij with rfl | hij
  · exact h3
  · rcases h3 with rfl | h3
    · exact .inr hij
    · exact .inr (.trans hij h3)

/-- `i` is protected by the mutex: known to its holder, or released with it. -/
def Prot (tr : List Ev) (o : SObj) (owner : Option Thr) (i : Nat) : Prop :=
  match owner with
  | some u => Knows tr u i
  | none => RelKnows tr o i

theorem Prot.append {o : SObj} {w : Option Thr} {i : Nat} (h : Prot tr o w i) (m : List Ev) : Prot (tr ++ m) o w i := by
  cases w with
  | none => exact RelKnows.append h m
  | some u => exact Knows.append h m

theorem raceFree_snoc (h : RaceFree tr) (u : Thr) (k : Kind)
    (hk : ∀ (i : Nat) (a : Ev) (x : Loc), tr[i]? = some a → a.Accesses x → Ev.Accesses ⟨u, k⟩ x → (a.kind = .wr x ∨ k = .wr x) → Knows tr u i) :
    RaceFree (tr ++ [⟨u, k⟩]) := by
  intro i j a b x hij hi hj ha hb hw
  rcases snoc_cases hj with hj | ⟨rfl, rfl⟩
  · rcases snoc_cases hi with hi | ⟨rfl, rfl⟩
    · exact (h i j a b x hij hi hj ha hb hw).append _
    · have := get_lt hj; omega
  · rcases snoc_cases hi with hi | ⟨rfl, rfl⟩
    · exact (hk i a x hi ha hb hw).hb k
    · omega

theorem Disciplined.of_snoc {e : Ev} (h : Disciplined (tr ++ [e])) : Disciplined tr where
  noSync := fun c hc => h.noSync c (List.mem_append_left _ hc)
  use := by
    intro j c t hj
    obtain ⟨k, hk, h1⟩ := h.use j c t (snoc_old hj)
    refine ⟨k, hk, ?_⟩
    rcases snoc_cases h1 with h1 | ⟨rfl, -⟩
    · exact h1
    · have := get_lt hj; omega
  once := fun i j u v hi hj => h.once i j u v (snoc_old hi) (snoc_old hj)
  waited := by
    intro j c hj i hi d t ht
    obtain ⟨k, hk, h1⟩ := h.waited j c (snoc_old hj) i hi d t (snoc_old ht)
    refine ⟨k, hk, ?_⟩
    rcases snoc_cases h1 with h1 | ⟨rfl, -⟩
    · exact h1
    · have := get_lt hj; omega

end Fdapde.Threads
