import Verif.Utils.ErasureSpec
import Mathlib.Data.List.Basic
import Mathlib.Tactic.SplitIfs

/-! # Heap storage: lemmas -/

namespace Fdapde.Utils

variable {V : Type}

/-- A slot shows the value `o`. -/
def SlotOk (heap : List (Option V)) (s : Slot) (o : Option V) : Prop :=
  match s.ptr with
  | none => o = none
  | some p => s.fns = true ∧ ∃ v, heap[p]? = some (some v) ∧ o = some v

structure Inv (w : World V) (a : Vals V) : Prop where
  dead : ∀ x, w.vars x = none → a x = none
  alive : ∀ x s, w.vars x = some s → ∃ o, a x = some o ∧ SlotOk w.heap s o
  unique : ∀ x y p, w.Holds x p → w.Holds y p → x = y
  owned : ∀ p, w.Live p → ∃ x, w.Holds x p

theorem Inv.of_ne {w : World V} {a : Vals V} (h : Inv w a) {x : Nat} (hx : a x ≠ none) : ∃ s, w.vars x = some s := by
  cases hv : w.vars x with
  | none => exact absurd (h.dead x hv) hx
  | some s => exact ⟨s, rfl⟩

theorem Inv.of_none {w : World V} {a : Vals V} (h : Inv w a) {x : Nat} (hx : a x = none) : w.vars x = none := by
  cases hv : w.vars x with
  | none => rfl
  | some s => obtain ⟨o, ho, _⟩ := h.alive x s hv; rw [hx] at ho; cases ho

theorem setVar_self (w : World V) (heap : List (Option V)) (x : Nat) (s : Option Slot) : (w.setVar heap x s).vars x = s := by simp [World.setVar]
theorem setVar_other (w : World V) (heap : List (Option V)) (x z : Nat) (s : Option Slot) (h : z ≠ x) : (w.setVar heap x s).vars z = w.vars z := by
  simp [World.setVar, h]
theorem set_self (a : Vals V) (x : Nat) (o : Option (Option V)) : a.set x o x = o := by simp [Vals.set]
theorem set_other (a : Vals V) (x z : Nat) (o : Option (Option V)) (h : z ≠ x) : a.set x o z = a z := by simp [Vals.set, h]

/-- The heap after `if (ptr_) del(ptr_)`. -/
def freed (heap : List (Option V)) (s : Slot) : List (Option V) :=
  match s.ptr with
  | none => heap
  | some p => heap.set p none

theorem release_ok (heap : List (Option V)) (s : Slot) (o : Option V) (h : SlotOk heap s o) : release heap s = .ok (freed heap s) := by
  unfold SlotOk at h
  unfold release freed
  cases hp : s.ptr with
  | none => rfl
  | some p =>
      rw [hp] at h
      obtain ⟨h1, v, h2, _⟩ := h
      simp only [h1, if_true, delCell, h2]

theorem SlotOk.mono {heap heap' : List (Option V)} {s : Slot} {o : Option V} (h : SlotOk heap s o)
    (hh : ∀ p, s.ptr = some p → heap'[p]? = heap[p]?) : SlotOk heap' s o := by
  unfold SlotOk at *
  cases hp : s.ptr with
  | none => rw [hp] at h; exact h
  | some p => rw [hp] at h; dsimp only at h ⊢; rw [hh p hp]; exact h

theorem getElem?_append_lt {l : List (Option V)} {v : Option V} {p : Nat} {u : V} (h : l[p]? = some (some u)) : (l ++ [v])[p]? = l[p]? := by
  rw [List.getElem?_append_left]
  rw [List.getElem?_eq_some_iff] at h
  exact h.1

theorem freed_other (heap : List (Option V)) (s : Slot) (p : Nat) (h : s.ptr ≠ some p) : (freed heap s)[p]? = heap[p]? := by
  unfold freed
  cases hp : s.ptr with
  | none => rfl
  | some q =>
      rw [hp] at h
      exact List.getElem?_set_ne (fun e => h (by rw [e]))

/-- Ending the life of a variable. -/
theorem inv_destroy {w : World V} {a : Vals V} (h : Inv w a) {x : Nat} {s : Slot} (hx : w.vars x = some s) :
    Inv (w.setVar (freed w.heap s) x none) (a.set x none) := by
  have other : ∀ z p, z ≠ x → w.Holds z p → s.ptr ≠ some p := by
    intro z p hz hp e
    exact hz (h.unique z x p hp ⟨s, hx, e⟩)
  have hold : ∀ z p, (w.setVar (freed w.heap s) x none).Holds z p ↔ z ≠ x ∧ w.Holds z p := by
    intro z p
    by_cases hz : z = x
    · subst hz
      constructor
      · rintro ⟨t, ht, _⟩; rw [setVar_self] at ht; cases ht
      · rintro ⟨h1, _⟩; exact absurd rfl h1
    · constructor
      · rintro ⟨t, ht, hp⟩; rw [setVar_other _ _ _ _ _ hz] at ht; exact ⟨hz, t, ht, hp⟩
      · rintro ⟨_, t, ht, hp⟩; exact ⟨t, by rw [setVar_other _ _ _ _ _ hz]; exact ht, hp⟩
  refine ⟨?_, ?_, ?_, ?_⟩
  · intro z hz
    by_cases e : z = x
    · subst e; exact set_self _ _ _
    · rw [setVar_other _ _ _ _ _ e] at hz; rw [set_other _ _ _ _ e]; exact h.dead z hz
  · intro z t hz
    by_cases e : z = x
    · subst e; rw [setVar_self] at hz; cases hz
    · rw [setVar_other _ _ _ _ _ e] at hz
      obtain ⟨o, ho, hs⟩ := h.alive z t hz
      refine ⟨o, by rw [set_other _ _ _ _ e]; exact ho, hs.mono fun p hp => ?_⟩
      exact freed_other _ _ _ (other z p e ⟨t, hz, hp⟩)
  · intro y z p hy hz
    exact h.unique y z p ((hold y p).mp hy).2 ((hold z p).mp hz).2
  · rintro p ⟨v, hv⟩
    have hv' : (freed w.heap s)[p]? = some (some v) := hv
    have hne : s.ptr ≠ some p := by
      intro e
      unfold freed at hv'
      rw [e] at hv'
      dsimp only at hv'
      by_cases hlt : p < w.heap.length
      · rw [List.getElem?_set_self hlt] at hv'; cases hv'
      · rw [List.getElem?_eq_none (by simp; omega)] at hv'; cases hv'
    rw [freed_other _ _ _ hne] at hv'
    obtain ⟨z, hz⟩ := h.owned p ⟨v, hv'⟩
    refine ⟨z, (hold z p).mpr ⟨?_, hz⟩⟩
    rintro rfl
    obtain ⟨t, ht, hp⟩ := hz
    rw [hx] at ht
    cases ht
    exact hne hp

/-- Constructing a variable with a new object. -/
theorem inv_make {w : World V} {a : Vals V} (h : Inv w a) {x : Nat} (hx : w.vars x = none) (v : V) :
    Inv (w.setVar (w.heap ++ [some v]) x (some ⟨some w.heap.length, true⟩)) (a.set x (some (some v))) := by
  have fresh : ∀ z, ¬ w.Holds z w.heap.length := by
    rintro z ⟨t, ht, hp⟩
    obtain ⟨o, _, hs⟩ := h.alive z t ht
    unfold SlotOk at hs
    rw [hp] at hs
    obtain ⟨_, u, hu, _⟩ := hs
    rw [List.getElem?_eq_none (Nat.le_refl _)] at hu
    cases hu
  have hold : ∀ z p, (w.setVar (w.heap ++ [some v]) x (some ⟨some w.heap.length, true⟩)).Holds z p ↔
      (z = x ∧ p = w.heap.length) ∨ (z ≠ x ∧ w.Holds z p) := by
    intro z p
    by_cases hz : z = x
    · subst hz
      constructor
      · rintro ⟨t, ht, hp⟩
        rw [setVar_self] at ht
        cases ht
        cases hp
        exact Or.inl ⟨rfl, rfl⟩
      · rintro (⟨_, rfl⟩ | ⟨h1, _⟩)
        · exact ⟨_, setVar_self _ _ _ _, rfl⟩
        · exact absurd rfl h1
    · constructor
      · rintro ⟨t, ht, hp⟩; rw [setVar_other _ _ _ _ _ hz] at ht; exact Or.inr ⟨hz, t, ht, hp⟩
      · rintro (⟨h1, _⟩ | ⟨_, t, ht, hp⟩)
        · exact absurd h1 hz
        · exact ⟨t, by rw [setVar_other _ _ _ _ _ hz]; exact ht, hp⟩
  refine ⟨?_, ?_, ?_, ?_⟩
  · intro z hz
    by_cases e : z = x
    · subst e; rw [setVar_self] at hz; cases hz
    · rw [setVar_other _ _ _ _ _ e] at hz; rw [set_other _ _ _ _ e]; exact h.dead z hz
  · intro z t hz
    by_cases e : z = x
    · subst e
      rw [setVar_self] at hz
      cases hz
      exact ⟨some v, set_self _ _ _, rfl, v, by simp [World.setVar], rfl⟩
    · rw [setVar_other _ _ _ _ _ e] at hz
      obtain ⟨o, ho, hs⟩ := h.alive z t hz
      refine ⟨o, by rw [set_other _ _ _ _ e]; exact ho, hs.mono fun p hp => ?_⟩
      unfold SlotOk at hs
      rw [hp] at hs
      obtain ⟨_, u, hu, _⟩ := hs
      exact getElem?_append_lt hu
  · intro y z p hy hz
    rcases (hold y p).mp hy with ⟨h1, h2⟩ | ⟨h1, h2⟩ <;> rcases (hold z p).mp hz with ⟨h3, h4⟩ | ⟨h3, h4⟩
    · rw [h1, h3]
    · rw [h2] at h4; exact absurd h4 (fresh z)
    · rw [h4] at h2; exact absurd h2 (fresh y)
    · exact h.unique y z p h2 h4
  · rintro p ⟨u, hu⟩
    have hu' : (w.heap ++ [some v])[p]? = some (some u) := hu
    by_cases hp : p < w.heap.length
    · rw [List.getElem?_append_left hp] at hu'
      obtain ⟨z, hz⟩ := h.owned p ⟨u, hu'⟩
      refine ⟨z, (hold z p).mpr (Or.inr ⟨?_, hz⟩)⟩
      rintro rfl
      obtain ⟨t, ht, _⟩ := hz
      rw [hx] at ht
      cases ht
    · have hlt : p < (w.heap ++ [some v]).length := by
        rw [List.getElem?_eq_some_iff] at hu'
        exact hu'.1
      rw [List.length_append] at hlt
      simp only [List.length_cons, List.length_nil] at hlt
      exact ⟨x, (hold x p).mpr (Or.inl ⟨rfl, by omega⟩)⟩

/-- Constructing an empty variable. -/
theorem inv_empty {w : World V} {a : Vals V} (h : Inv w a) {x : Nat} (hx : w.vars x = none) (b : Bool) :
    Inv (w.setVar w.heap x (some ⟨none, b⟩)) (a.set x (some none)) := by
  have hold : ∀ z p, (w.setVar w.heap x (some ⟨none, b⟩)).Holds z p ↔ z ≠ x ∧ w.Holds z p := by
    intro z p
    by_cases hz : z = x
    · subst hz
      constructor
      · rintro ⟨t, ht, hp⟩; rw [setVar_self] at ht; cases ht; cases hp
      · rintro ⟨h1, _⟩; exact absurd rfl h1
    · constructor
      · rintro ⟨t, ht, hp⟩; rw [setVar_other _ _ _ _ _ hz] at ht; exact ⟨hz, t, ht, hp⟩
      · rintro ⟨_, t, ht, hp⟩; exact ⟨t, by rw [setVar_other _ _ _ _ _ hz]; exact ht, hp⟩
  refine ⟨?_, ?_, ?_, ?_⟩
  · intro z hz
    by_cases e : z = x
    · subst e; rw [setVar_self] at hz; cases hz
    · rw [setVar_other _ _ _ _ _ e] at hz; rw [set_other _ _ _ _ e]; exact h.dead z hz
  · intro z t hz
    by_cases e : z = x
    · subst e; rw [setVar_self] at hz; cases hz; exact ⟨none, set_self _ _ _, rfl⟩
    · rw [setVar_other _ _ _ _ _ e] at hz
      obtain ⟨o, ho, hs⟩ := h.alive z t hz
      exact ⟨o, by rw [set_other _ _ _ _ e]; exact ho, hs⟩
  · intro y z p hy hz
    exact h.unique y z p ((hold y p).mp hy).2 ((hold z p).mp hz).2
  · rintro p ⟨v, hv⟩
    obtain ⟨z, hz⟩ := h.owned p ⟨v, hv⟩
    refine ⟨z, (hold z p).mpr ⟨?_, hz⟩⟩
    rintro rfl
    obtain ⟨t, ht, _⟩ := hz
    rw [hx] at ht
    cases ht

/-- Moving from `y` into the dead variable `x`. -/
theorem inv_move {w : World V} {a : Vals V} (h : Inv w a) {x y : Nat} {s : Slot} (hx : w.vars x = none) (hy : w.vars y = some s) :
    Inv ((w.setVar w.heap y (some ⟨none, false⟩)).setVar w.heap x (some s)) ((a.set x (a y)).set y (some none)) := by
  have hxy : x ≠ y := by rintro rfl; rw [hx] at hy; cases hy
  have vx : ((w.setVar w.heap y (some ⟨none, false⟩)).setVar w.heap x (some s)).vars x = some s := setVar_self _ _ _ _
  have vy : ((w.setVar w.heap y (some ⟨none, false⟩)).setVar w.heap x (some s)).vars y = some ⟨none, false⟩ := by
    rw [setVar_other _ _ _ _ _ (Ne.symm hxy), setVar_self]
  have vz : ∀ z, z ≠ x → z ≠ y → ((w.setVar w.heap y (some ⟨none, false⟩)).setVar w.heap x (some s)).vars z = w.vars z := by
    intro z h1 h2
    rw [setVar_other _ _ _ _ _ h1, setVar_other _ _ _ _ _ h2]
  have ax : ((a.set x (a y)).set y (some none)) x = a y := by rw [set_other _ _ _ _ hxy, set_self]
  have ay : ((a.set x (a y)).set y (some none)) y = some none := set_self _ _ _
  have az : ∀ z, z ≠ x → z ≠ y → ((a.set x (a y)).set y (some none)) z = a z := by
    intro z h1 h2
    rw [set_other _ _ _ _ h2, set_other _ _ _ _ h1]
  have hold : ∀ z p, ((w.setVar w.heap y (some ⟨none, false⟩)).setVar w.heap x (some s)).Holds z p ↔
      (z = x ∧ w.Holds y p) ∨ (z ≠ x ∧ z ≠ y ∧ w.Holds z p) := by
    intro z p
    by_cases hz : z = x
    · subst hz
      constructor
      · rintro ⟨t, ht, hp⟩; rw [vx] at ht; cases ht; exact Or.inl ⟨rfl, s, hy, hp⟩
      · rintro (⟨_, t, ht, hp⟩ | ⟨h1, _⟩)
        · rw [hy] at ht; cases ht; exact ⟨s, vx, hp⟩
        · exact absurd rfl h1
    · by_cases hz' : z = y
      · subst hz'
        constructor
        · rintro ⟨t, ht, hp⟩; rw [vy] at ht; cases ht; cases hp
        · rintro (⟨h1, _⟩ | ⟨_, h1, _⟩)
          · exact absurd h1 hz
          · exact absurd rfl h1
      · constructor
        · rintro ⟨t, ht, hp⟩; rw [vz z hz hz'] at ht; exact Or.inr ⟨hz, hz', t, ht, hp⟩
        · rintro (⟨h1, _⟩ | ⟨_, _, t, ht, hp⟩)
          · exact absurd h1 hz
          · exact ⟨t, by rw [vz z hz hz']; exact ht, hp⟩
  refine ⟨?_, ?_, ?_, ?_⟩
  · intro z hz
    by_cases e : z = x
    · subst e; rw [vx] at hz; cases hz
    · by_cases e' : z = y
      · subst e'; rw [vy] at hz; cases hz
      · rw [vz z e e'] at hz; rw [az z e e']; exact h.dead z hz
  · intro z t hz
    by_cases e : z = x
    · subst e
      rw [vx] at hz
      cases hz
      obtain ⟨o, ho, hs⟩ := h.alive y s hy
      exact ⟨o, by rw [ax]; exact ho, hs⟩
    · by_cases e' : z = y
      · subst e'; rw [vy] at hz; cases hz; exact ⟨none, ay, rfl⟩
      · rw [vz z e e'] at hz
        obtain ⟨o, ho, hs⟩ := h.alive z t hz
        exact ⟨o, by rw [az z e e']; exact ho, hs⟩
  · intro u z p hu hz
    rcases (hold u p).mp hu with ⟨h1, h2⟩ | ⟨h1, h1', h2⟩ <;> rcases (hold z p).mp hz with ⟨h3, h4⟩ | ⟨h3, h3', h4⟩
    · rw [h1, h3]
    · exact absurd (h.unique _ _ _ h4 h2) h3'
    · exact absurd (h.unique _ _ _ h2 h4) h1'
    · exact h.unique _ _ _ h2 h4
  · rintro p ⟨v, hv⟩
    obtain ⟨z, hz⟩ := h.owned p ⟨v, hv⟩
    by_cases e : z = y
    · subst e; exact ⟨x, (hold x p).mpr (Or.inl ⟨rfl, hz⟩)⟩
    · refine ⟨z, (hold z p).mpr (Or.inr ⟨?_, e, hz⟩)⟩
      rintro rfl
      obtain ⟨t, ht, _⟩ := hz
      rw [hx] at ht
      cases ht

/-- Changing the object held by `x`. -/
theorem inv_modify {w : World V} {a : Vals V} (h : Inv w a) {x p : Nat} {s : Slot} {v : V} (hx : w.vars x = some s) (hp : s.ptr = some p)
    (hv : w.heap[p]? = some (some v)) (f : V → V) :
    Inv (w.setVar (w.heap.set p (some (f v))) x (some s)) (a.set x ((a x).map (Option.map f))) := by
  have hlt : p < w.heap.length := by rw [List.getElem?_eq_some_iff] at hv; exact hv.1
  have same : ∀ z, (w.setVar (w.heap.set p (some (f v))) x (some s)).vars z = w.vars z := by
    intro z
    by_cases e : z = x
    · subst e; rw [setVar_self, hx]
    · exact setVar_other _ _ _ _ _ e
  have hold : ∀ z q, (w.setVar (w.heap.set p (some (f v))) x (some s)).Holds z q ↔ w.Holds z q := by
    intro z q
    unfold World.Holds
    rw [same]
  refine ⟨?_, ?_, ?_, ?_⟩
  · intro z hz
    rw [same] at hz
    have e : z ≠ x := by rintro rfl; rw [hx] at hz; cases hz
    rw [set_other _ _ _ _ e]
    exact h.dead z hz
  · intro z t hz
    rw [same] at hz
    obtain ⟨o, ho, hs⟩ := h.alive z t hz
    by_cases e : z = x
    · subst e
      rw [hx] at hz
      cases hz
      unfold SlotOk at hs
      rw [hp] at hs
      obtain ⟨h1, u, h2, h3⟩ := hs
      rw [hv] at h2
      cases h2
      subst h3
      refine ⟨some (f v), by rw [set_self, ho]; rfl, ?_⟩
      unfold SlotOk
      rw [hp]
      exact ⟨h1, f v, List.getElem?_set_self hlt, rfl⟩
    · refine ⟨o, by rw [set_other _ _ _ _ e]; exact ho, hs.mono fun q hq => ?_⟩
      have : p ≠ q := by
        rintro rfl
        exact e (h.unique z x p ⟨t, hz, hq⟩ ⟨s, hx, hp⟩)
      exact List.getElem?_set_ne this
  · intro y z q hy hz
    exact h.unique y z q ((hold y q).mp hy) ((hold z q).mp hz)
  · rintro q ⟨u, hu⟩
    have hu' : (w.heap.set p (some (f v)))[q]? = some (some u) := hu
    have : w.Live q := by
      by_cases e : p = q
      · subst e; exact ⟨v, hv⟩
      · rw [List.getElem?_set_ne e] at hu'; exact ⟨u, hu'⟩
    obtain ⟨z, hz⟩ := h.owned q this
    exact ⟨z, (hold z q).mpr hz⟩

/-- A clone of a good slot, stored in a dead variable. -/
theorem inv_clone {w : World V} {a : Vals V} (h : Inv w a) {x : Nat} (hx : w.vars x = none) (s : Slot) (o : Option V) (hs : SlotOk w.heap s o) :
    ∃ heap' s', cloneSlot w.heap s = .ok (heap', s') ∧ Inv (w.setVar heap' x (some s')) (a.set x (some o)) := by
  unfold SlotOk at hs
  unfold cloneSlot
  cases hp : s.ptr with
  | none =>
      rw [hp] at hs
      dsimp only at hs
      subst hs
      exact ⟨_, _, rfl, inv_empty h hx s.fns⟩
  | some p =>
      rw [hp] at hs
      obtain ⟨h1, v, h2, h3⟩ := hs
      subst h3
      simp only [h1, if_true, h2]
      exact ⟨_, _, rfl, inv_make h hx v⟩

theorem setVar_setVar (w : World V) (heap heap' : List (Option V)) (x : Nat) (s s' : Option Slot) :
    (w.setVar heap x s).setVar heap' x s' = w.setVar heap' x s' := by
  unfold World.setVar
  congr 1
  funext z
  by_cases e : z = x <;> simp [e]

theorem set_set (a : Vals V) (x : Nat) (o o' : Option (Option V)) : (a.set x o).set x o' = a.set x o' := by
  funext z
  by_cases e : z = x <;> simp [Vals.set, e]

/-- One operation. -/
theorem exec_ok (w : World V) (a : Vals V) (h : Inv w a) (op : Op V) (hl : op.Legal a) : ∃ w', op.exec w = .ok w' ∧ Inv w' (op.effect a) := by
  cases op with
  | default x => exact ⟨_, rfl, inv_empty h (h.of_none hl) false⟩
  | make x v => exact ⟨_, rfl, inv_make h (h.of_none hl) v⟩
  | copyCtor x y =>
      obtain ⟨h1, h2⟩ := hl
      obtain ⟨s, hs⟩ := h.of_ne h2
      obtain ⟨o, ho, hso⟩ := h.alive y s hs
      obtain ⟨heap', s', e, hi⟩ := inv_clone h (h.of_none h1) s o hso
      refine ⟨w.setVar heap' x (some s'), ?_, ?_⟩
      · show (do let s ← w.slot y; let (heap, s) ← cloneSlot w.heap s; Res.ok (w.setVar heap x (some s))) = _
        unfold World.slot
        rw [hs, Res.ofOptionUB_some, Res.ok_bind, e, Res.ok_bind]
      · show Inv _ (a.set x (a y))
        rw [ho]
        exact hi
  | moveCtor x y =>
      obtain ⟨h1, h2⟩ := hl
      obtain ⟨s, hs⟩ := h.of_ne h2
      refine ⟨_, ?_, inv_move h (h.of_none h1) hs⟩
      show (do let s ← w.slot y; Res.ok ((w.setVar w.heap y (some ⟨none, false⟩)).setVar w.heap x (some s))) = _
      unfold World.slot
      rw [hs, Res.ofOptionUB_some, Res.ok_bind]
  | copyAssign x y =>
      obtain ⟨h1, h2, hxy⟩ := hl
      obtain ⟨t, ht⟩ := h.of_ne h1
      obtain ⟨s, hs⟩ := h.of_ne h2
      obtain ⟨o', _, hto⟩ := h.alive x t ht
      have hd := inv_destroy h ht
      have hs' : (w.setVar (freed w.heap t) x none).vars y = some s := by rw [setVar_other _ _ _ _ _ (Ne.symm hxy)]; exact hs
      obtain ⟨o, ho, hso⟩ := hd.alive y s hs'
      obtain ⟨heap', s', e, hi⟩ := inv_clone hd (setVar_self _ _ _ _) s o hso
      rw [setVar_setVar, set_set] at hi
      rw [set_other _ _ _ _ (Ne.symm hxy)] at ho
      refine ⟨w.setVar heap' x (some s'), ?_, ?_⟩
      · show (do
          let t ← w.slot x
          let s ← w.slot y
          let heap ← release w.heap t
          let (heap, s) ← cloneSlot heap s
          Res.ok (w.setVar heap x (some s))) = _
        unfold World.slot
        have e' : cloneSlot (freed w.heap t) s = .ok (heap', s') := e
        rw [ht, hs, Res.ofOptionUB_some, Res.ofOptionUB_some, Res.ok_bind, Res.ok_bind, release_ok _ _ _ hto, Res.ok_bind, e', Res.ok_bind]
      · show Inv _ (a.set x (a y))
        rw [ho]
        exact hi
  | moveAssign x y =>
      obtain ⟨h1, h2, hxy⟩ := hl
      obtain ⟨t, ht⟩ := h.of_ne h1
      obtain ⟨s, hs⟩ := h.of_ne h2
      obtain ⟨o', _, hto⟩ := h.alive x t ht
      have hd := inv_destroy h ht
      have hs' : (w.setVar (freed w.heap t) x none).vars y = some s := by rw [setVar_other _ _ _ _ _ (Ne.symm hxy)]; exact hs
      have hm := inv_move hd (setVar_self _ _ _ _) hs'
      refine ⟨(w.setVar (freed w.heap t) y (some ⟨none, false⟩)).setVar (freed w.heap t) x (some s), ?_, ?_⟩
      · show (do
          let t ← w.slot x
          let s ← w.slot y
          let heap ← release w.heap t
          Res.ok ((w.setVar heap y (some ⟨none, false⟩)).setVar heap x (some s))) = _
        unfold World.slot
        rw [ht, hs, Res.ofOptionUB_some, Res.ofOptionUB_some, Res.ok_bind, Res.ok_bind, release_ok _ _ _ hto, Res.ok_bind]
      · have e1 : ((w.setVar (freed w.heap t) x none).setVar (w.setVar (freed w.heap t) x none).heap y (some ⟨none, false⟩)).setVar
            (w.setVar (freed w.heap t) x none).heap x (some s) =
            (w.setVar (freed w.heap t) y (some ⟨none, false⟩)).setVar (freed w.heap t) x (some s) := by
          unfold World.setVar
          congr 1
          funext z
          by_cases ex : z = x
          · simp [ex]
          · by_cases ey : z = y <;> simp [ex, ey]
        have e2 : (((a.set x none).set x ((a.set x none) y)).set y (some none)) = (a.set x (a y)).set y (some none) := by
          rw [set_set, set_other _ _ _ _ (Ne.symm hxy)]
        rw [e1, e2] at hm
        exact hm
  | assign x v =>
      obtain ⟨t, ht⟩ := h.of_ne hl
      obtain ⟨o', _, hto⟩ := h.alive x t ht
      have hd := inv_make (inv_destroy h ht) (setVar_self _ _ _ _) v
      rw [setVar_setVar, set_set] at hd
      have hto' : SlotOk (w.heap ++ [some v]) t o' := hto.mono fun p hp => by
        unfold SlotOk at hto
        rw [hp] at hto
        obtain ⟨_, u, hu, _⟩ := hto
        exact getElem?_append_lt hu
      have e : freed (w.heap ++ [some v]) t = freed w.heap t ++ [some v] := by
        unfold freed
        unfold SlotOk at hto
        cases hp : t.ptr with
        | none => rfl
        | some p =>
            rw [hp] at hto
            obtain ⟨_, u, hu, _⟩ := hto
            rw [List.getElem?_eq_some_iff] at hu
            exact List.set_append_left _ _ hu.1
      have el : (freed w.heap t).length = w.heap.length := by
        unfold freed
        cases t.ptr <;> simp
      refine ⟨w.setVar (freed w.heap t ++ [some v]) x (some ⟨some w.heap.length, true⟩), ?_, ?_⟩
      · show (do
          let t ← w.slot x
          let heap ← release (w.heap ++ [some v]) t
          Res.ok (w.setVar heap x (some ⟨some w.heap.length, true⟩))) = _
        unfold World.slot
        rw [ht, Res.ofOptionUB_some, Res.ok_bind, release_ok _ _ _ hto', Res.ok_bind, e]
      · have el' : (w.setVar (freed w.heap t) x none).heap.length = w.heap.length := el
        rw [el'] at hd
        exact hd
  | destroy x =>
      obtain ⟨t, ht⟩ := h.of_ne hl
      obtain ⟨o', _, hto⟩ := h.alive x t ht
      refine ⟨_, ?_, inv_destroy h ht⟩
      show (do let t ← w.slot x; let heap ← release w.heap t; Res.ok (w.setVar heap x none)) = _
      unfold World.slot
      rw [ht, Res.ofOptionUB_some, Res.ok_bind, release_ok _ _ _ hto, Res.ok_bind]
  | modify x f =>
      obtain ⟨v, hv⟩ := hl
      obtain ⟨t, ht⟩ := h.of_ne (by rw [hv]; simp : a x ≠ none)
      obtain ⟨o, ho, hto⟩ := h.alive x t ht
      rw [hv] at ho
      cases ho
      unfold SlotOk at hto
      cases hp : t.ptr with
      | none => rw [hp] at hto; cases hto
      | some p =>
          rw [hp] at hto
          obtain ⟨_, u, hu, e⟩ := hto
          cases e
          refine ⟨_, ?_, inv_modify h ht hp hu f⟩
          show (do
            let t ← w.slot x
            match t.ptr with
            | none => .ub
            | some p =>
              match w.heap[p]? with
              | some (some v) => Res.ok (w.setVar (w.heap.set p (some (f v))) x (some t))
              | _ => .ub) = _
          unfold World.slot
          rw [ht, Res.ofOptionUB_some, Res.ok_bind]
          simp only [hp, hu]

theorem run_ok (ops : List (Op V)) (w : World V) (a : Vals V) (h : Inv w a) (hl : LegalHistory a ops) :
    ∃ w', runOps w ops = .ok w' ∧ Inv w' (effects a ops) := by
  induction ops generalizing w a with
  | nil => exact ⟨w, rfl, h⟩
  | cons op ops ih =>
      obtain ⟨h1, h2⟩ := hl
      obtain ⟨w1, e1, i1⟩ := exec_ok w a h op h1
      obtain ⟨w2, e2, i2⟩ := ih w1 _ i1 h2
      refine ⟨w2, ?_, i2⟩
      unfold runOps at *
      rw [foldRes_cons, e1, Res.ok_bind, e2]

theorem inv_start : Inv (World.empty : World V) fun _ => none := by
  refine ⟨fun _ _ => rfl, ?_, ?_, ?_⟩
  · intro x s h
    cases h
  · rintro x y p ⟨s, h, _⟩
    cases h
  · rintro p ⟨v, h⟩
    simp [World.empty] at h

end Fdapde.Utils
