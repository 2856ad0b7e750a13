import Verif.Utils.StorageSpec
import Mathlib.Data.Finset.Card
import Mathlib.Data.Finset.Image
import Mathlib.Logic.Equiv.Basic
import Mathlib.Tactic.Linarith

/-! # Properties of shared and non-owning storage (C106) -/

namespace Fdapde.Utils
variable {V : Type}

/-! ## Counting owners -/

/-- The cells of the heap count the owners; `n` gives the object named by an owner, `none` standing for a temporary. -/
structure Ok (heap : List (Option (V × Nat))) (vals : List V) (n : Option Nat → Option Nat) : Prop where
  len : heap.length = vals.length
  bound : ∀ i p, n i = some p → p < vals.length
  cell : ∀ p v, vals[p]? = some v → ∃ s : Finset (Option Nat), (∀ i, i ∈ s ↔ n i = some p) ∧
    heap[p]? = some (if s = ∅ then none else some (v, s.card))

theorem ok_owned {heap : List (Option (V × Nat))} {vals n} (h : Ok heap vals n) {i p} (hp : n i = some p) :
    ∃ v, ∃ s : Finset (Option Nat), vals[p]? = some v ∧ (∀ i, i ∈ s ↔ n i = some p) ∧ i ∈ s ∧ heap[p]? = some (some (v, s.card)) := by
  have hb := h.bound i p hp
  obtain ⟨s, hs, hc⟩ := h.cell p _ (List.getElem?_eq_getElem hb)
  have hi : i ∈ s := (hs i).2 hp
  exact ⟨_, s, List.getElem?_eq_getElem hb, hs, hi, by rw [hc, if_neg (Finset.ne_empty_of_mem hi)]⟩

theorem acquire_ok {heap : List (Option (V × Nat))} {vals n} (h : Ok heap vals n) (i : Option Nat) (hi : n i = none) (j : Option Nat) :
    ∃ heap', acquire heap (n j) = .ok heap' ∧ Ok heap' vals (Function.update n i (n j)) := by
  cases hj : n j with
  | none =>
    refine ⟨heap, rfl, ?_⟩
    rw [← hi, Function.update_eq_self]
    exact h
  | some p =>
    obtain ⟨v, s, hv, hs, hjs, hc⟩ := ok_owned h hj
    refine ⟨_, by rw [acquire, hc], by rw [List.length_set]; exact h.len, ?_, ?_⟩
    · intro k q hk
      by_cases hki : k = i
      · subst hki
        rw [Function.update_self] at hk
        cases hk
        exact h.bound j _ hj
      · rw [Function.update_of_ne hki] at hk
        exact h.bound k q hk
    · intro q w hw
      have hip : i ∉ s := fun hmem => by rw [hs, hi] at hmem; cases hmem
      by_cases hq : q = p
      · subst hq
        rw [hv] at hw
        cases hw
        refine ⟨insert i s, ?_, ?_⟩
        · intro k
          rw [Finset.mem_insert, hs]
          by_cases hki : k = i
          · subst hki; simp
          · simp [hki, Function.update_of_ne hki]
        · have hlt : q < heap.length := by rw [h.len]; exact h.bound j q hj
          rw [if_neg (Finset.insert_ne_empty _ _), Finset.card_insert_of_notMem hip, List.getElem?_set_self hlt]
      · obtain ⟨s', hs', hc'⟩ := h.cell q w hw
        refine ⟨s', ?_, by rw [List.getElem?_set_ne (Ne.symm hq)]; exact hc'⟩
        intro k
        rw [hs']
        by_cases hki : k = i
        · subst hki
          rw [Function.update_self, hi]
          constructor
          · intro hh; cases hh
          · intro hh; exact absurd (Option.some.inj hh).symm hq
        · rw [Function.update_of_ne hki]

theorem drop_ok {heap : List (Option (V × Nat))} {vals n} (h : Ok heap vals n) (i : Option Nat) :
    ∃ heap', drop heap (n i) = .ok heap' ∧ Ok heap' vals (Function.update n i none) := by
  cases hi : n i with
  | none =>
    refine ⟨heap, rfl, ?_⟩
    rw [← hi, Function.update_eq_self]
    exact h
  | some p =>
    obtain ⟨v, s, hv, hs, his, hc⟩ := ok_owned h hi
    refine ⟨_, by rw [drop, hc], by rw [List.length_set]; exact h.len, ?_, ?_⟩
    · intro k q hk
      by_cases hki : k = i
      · subst hki
        rw [Function.update_self] at hk
        cases hk
      · rw [Function.update_of_ne hki] at hk
        exact h.bound k q hk
    · intro q w hw
      by_cases hq : q = p
      · subst hq
        rw [hv] at hw
        cases hw
        refine ⟨s.erase i, ?_, ?_⟩
        · intro k
          rw [Finset.mem_erase, hs]
          by_cases hki : k = i
          · subst hki; simp
          · simp [hki, Function.update_of_ne hki]
        · have hlt : q < heap.length := by rw [h.len]; exact h.bound i q hi
          rw [List.getElem?_set_self hlt, Finset.card_erase_of_mem his]
          have hpos : 0 < s.card := Finset.card_pos.2 ⟨i, his⟩
          have e : s.erase i = ∅ ↔ s.card ≤ 1 := by
            rw [← Finset.card_eq_zero, Finset.card_erase_of_mem his]; omega
          simp only [e]
      · obtain ⟨s', hs', hc'⟩ := h.cell q w hw
        refine ⟨s', ?_, by rw [List.getElem?_set_ne (Ne.symm hq)]; exact hc'⟩
        intro k
        rw [hs']
        by_cases hki : k = i
        · subst hki
          rw [Function.update_self, hi]
          constructor
          · intro hh; exact absurd (Option.some.inj hh).symm hq
          · intro hh; cases hh
        · rw [Function.update_of_ne hki]

theorem swap_ok {heap : List (Option (V × Nat))} {vals n} (h : Ok heap vals n) (i j : Option Nat) :
    Ok heap vals (fun k => n (Equiv.swap i j k)) := by
  refine ⟨h.len, fun k p hk => h.bound _ p hk, fun p v hv => ?_⟩
  obtain ⟨s, hs, hc⟩ := h.cell p v hv
  refine ⟨s.map (Equiv.swap i j).toEmbedding, fun k => ?_, ?_⟩
  · rw [Finset.mem_map_equiv, Equiv.symm_swap, hs]
  · rw [Finset.card_map, hc]
    simp only [Finset.map_eq_empty]

theorem fresh_ok {heap : List (Option (V × Nat))} {vals n} (h : Ok heap vals n) (i : Option Nat) (hi : n i = none) (v : V) :
    Ok (heap ++ [some (v, 1)]) (vals ++ [v]) (Function.update n i (some heap.length)) := by
  refine ⟨by simp [h.len], ?_, ?_⟩
  · intro k q hk
    rw [List.length_append, List.length_singleton]
    by_cases hki : k = i
    · subst hki
      rw [Function.update_self] at hk
      cases hk
      rw [h.len]; omega
    · rw [Function.update_of_ne hki] at hk
      have := h.bound k q hk
      omega
  · intro p w hw
    by_cases hp : p < vals.length
    · rw [List.getElem?_append_left hp] at hw
      obtain ⟨s, hs, hc⟩ := h.cell p w hw
      refine ⟨s, fun k => ?_, by rw [List.getElem?_append_left (by rw [h.len]; exact hp), hc]⟩
      rw [hs]
      by_cases hki : k = i
      · subst hki
        rw [Function.update_self, hi]
        constructor
        · intro hh; cases hh
        · intro hh; have := Option.some.inj hh; rw [h.len] at this; omega
      · rw [Function.update_of_ne hki]
    · have hlt : p < (vals ++ [v]).length := (List.getElem?_eq_some_iff.1 hw).1
      rw [List.length_append, List.length_singleton] at hlt
      have hpe : p = vals.length := by omega
      subst hpe
      rw [List.getElem?_append_right (le_refl _), Nat.sub_self] at hw
      cases hw
      refine ⟨{i}, fun k => ?_, ?_⟩
      · rw [Finset.mem_singleton]
        by_cases hki : k = i
        · subst hki; simp [h.len]
        · rw [Function.update_of_ne hki]
          refine ⟨fun hh => absurd hh hki, fun hh => ?_⟩
          have := h.bound k _ hh
          omega
      · rw [if_neg (Finset.singleton_ne_empty i), Finset.card_singleton, ← h.len, List.getElem?_append_right (le_refl _), Nat.sub_self]
        rfl

theorem modify_ok {heap : List (Option (V × Nat))} {vals n} (h : Ok heap vals n) (i : Option Nat) (p : Nat) (hi : n i = some p) (f : V → V) :
    ∃ v c, heap[p]? = some (some (v, c)) ∧ Ok (heap.set p (some (f v, c))) (vals.modify p f) n := by
  obtain ⟨v, s, hv, hs, his, hc⟩ := ok_owned h hi
  have hb := h.bound i p hi
  refine ⟨v, s.card, hc, by rw [List.length_set, List.length_modify]; exact h.len,
    fun k q hk => by rw [List.length_modify]; exact h.bound k q hk, ?_⟩
  intro q w hw
  by_cases hq : q = p
  · subst hq
    rw [List.getElem?_modify_eq, hv] at hw
    cases hw
    exact ⟨s, hs, by rw [List.getElem?_set_self (by rw [h.len]; exact hb), if_neg (Finset.ne_empty_of_mem his)]⟩
  · rw [List.getElem?_modify_ne _ _ (Ne.symm hq)] at hw
    obtain ⟨s', hs', hc'⟩ := h.cell q w hw
    exact ⟨s', hs', by rw [List.getElem?_set_ne (Ne.symm hq)]; exact hc'⟩

/-- The object named by every variable; there is no temporary between operations. -/
def names (name : Nat → Option (Option Nat)) : Option Nat → Option Nat
  | none => none
  | some x => (name x).join

structure SInv (w : SWorld V) (a : Refs V) : Prop where
  vars : w.vars = a.name
  ok : Ok w.heap a.vals (names a.name)

theorem names_set (a : Refs V) (x : Nat) (s : Option (Option Nat)) :
    names (a.set x s).name = Function.update (names a.name) (some x) s.join := by
  funext k
  cases k with
  | none => simp [names]
  | some z =>
    by_cases hz : z = x
    · subst hz; simp [names, Refs.set]
    · rw [Function.update_of_ne (by simpa using hz)]; simp [names, Refs.set, hz]

theorem sstep (w : SWorld V) (a : Refs V) (h : SInv w a) (op : SOp V) (hl : op.Legal a) :
    ∃ w', op.exec w = .ok w' ∧ SInv w' (op.effect a) := by
  obtain ⟨hv, ok⟩ := h
  have slot : ∀ x s, a.name x = some s → w.slot x = .ok s := by
    intro x s hx; unfold SWorld.slot; rw [hv, hx]; rfl
  have setVar : ∀ heap x s, (w.setVar heap x s).vars = (a.set x s).name := by
    intro heap x s; simp only [SWorld.setVar, Refs.set, hv]
  have nm : ∀ x s, a.name x = some s → names a.name (some x) = s := by
    intro x s hx; simp only [names, hx, Option.join]; rfl
  have dead : ∀ x, a.name x = none → names a.name (some x) = none := by
    intro x hx; simp [names, hx]
  cases op with
  | default x =>
    refine ⟨_, rfl, setVar _ _ _, ?_⟩
    show Ok w.heap a.vals (names (a.set x (some none)).name)
    have e : names (a.set x (some none)).name = names a.name := by
      rw [names_set]
      have := dead x hl
      conv_rhs => rw [← Function.update_eq_self (some x) (names a.name), this]
      rfl
    rw [e]; exact ok
  | make x v =>
    refine ⟨_, rfl, ?_, ?_⟩
    · show (w.setVar _ _ _).vars = _
      rw [setVar, ok.len]; rfl
    · have := fresh_ok ok (some x) (dead x hl) v
      show Ok _ _ (names (a.set x (some (some a.vals.length))).name)
      rw [names_set]
      rw [ok.len] at this
      exact this
  | copyCtor x y =>
    obtain ⟨hx, hy⟩ := hl
    obtain ⟨s, hs⟩ := Option.ne_none_iff_exists'.1 hy
    obtain ⟨heap', h1, h2⟩ := acquire_ok ok (some x) (dead x hx) (some y)
    rw [nm y s hs] at h1 h2
    refine ⟨w.setVar heap' x (some s), ?_, ?_, ?_⟩
    · show (do let s ← w.slot y; let heap ← acquire w.heap s; .ok (w.setVar heap x (some s))) = _
      rw [slot y s hs, Res.ok_bind, h1, Res.ok_bind]
    · rw [setVar, ← hs]; rfl
    · show Ok _ _ (names (a.set x (a.name y)).name)
      rw [names_set, hs]; exact h2
  | moveCtor x y =>
    obtain ⟨hx, hy⟩ := hl
    obtain ⟨s, hs⟩ := Option.ne_none_iff_exists'.1 hy
    have hxy : x ≠ y := by rintro rfl; exact hy hx
    refine ⟨(w.setVar w.heap y (some none)).setVar w.heap x (some s), ?_, ?_, ?_⟩
    · show (do let s ← w.slot y; .ok ((w.setVar w.heap y (some none)).setVar w.heap x (some s))) = _
      rw [slot y s hs, Res.ok_bind]
    · simp only [SWorld.setVar, SOp.effect, Refs.set, hv, hs]
    · have := swap_ok ok (some x) (some y)
      show Ok _ _ (names ((a.set y (some none)).set x (a.name y)).name)
      rw [names_set, names_set, hs]
      refine cast (congrArg (Ok _ _) ?_) this
      symm; funext k
      by_cases hkx : k = some x
      · subst hkx; rw [Function.update_self, Equiv.swap_apply_left, nm y s hs]; rfl
      · rw [Function.update_of_ne hkx]
        by_cases hky : k = some y
        · subst hky; rw [Function.update_self, Equiv.swap_apply_right, dead x hx]; rfl
        · rw [Function.update_of_ne hky, Equiv.swap_apply_of_ne_of_ne hkx hky]
  | copyAssign x y =>
    obtain ⟨hx, hy⟩ := hl
    obtain ⟨t, ht⟩ := Option.ne_none_iff_exists'.1 hx
    obtain ⟨s, hs⟩ := Option.ne_none_iff_exists'.1 hy
    obtain ⟨h1, e1, o1⟩ := acquire_ok ok none rfl (some y)
    rw [nm y s hs] at e1 o1
    have o2 := swap_ok o1 none (some x)
    obtain ⟨h3, e3, o3⟩ := drop_ok o2 none
    have et : Function.update (names a.name) none s (Equiv.swap none (some x) none) = t := by
      rw [Equiv.swap_apply_left, Function.update_of_ne (by simp), nm x t ht]
    rw [et] at e3
    refine ⟨w.setVar h3 x (some s), ?_, ?_, ?_⟩
    · show (do let t ← w.slot x; let s ← w.slot y; let heap ← acquire w.heap s; let heap ← drop heap t; .ok (w.setVar heap x (some s))) = _
      rw [slot x t ht, Res.ok_bind, slot y s hs, Res.ok_bind, e1, Res.ok_bind, e3, Res.ok_bind]
    · rw [setVar, ← hs]; rfl
    · show Ok _ _ (names (a.set x (a.name y)).name)
      rw [names_set, hs]
      refine cast (congrArg (Ok _ _) ?_) o3
      symm; funext k
      by_cases hk : k = none
      · subst hk; rw [Function.update_self, Function.update_of_ne (by simp)]; rfl
      · rw [Function.update_of_ne hk]
        by_cases hkx : k = some x
        · subst hkx; rw [Function.update_self, Equiv.swap_apply_right, Function.update_self]; rfl
        · rw [Function.update_of_ne hkx, Equiv.swap_apply_of_ne_of_ne hk hkx, Function.update_of_ne hk]
  | moveAssign x y =>
    obtain ⟨hx, hy⟩ := hl
    obtain ⟨t, ht⟩ := Option.ne_none_iff_exists'.1 hx
    obtain ⟨s, hs⟩ := Option.ne_none_iff_exists'.1 hy
    by_cases hxy : x = y
    · subst hxy
      refine ⟨w, ?_, ?_, ?_⟩
      · show (do let t ← w.slot x; let s ← w.slot x; if x = x then .ok w else do
              let heap ← drop w.heap t; .ok ((w.setVar heap x (some none)).setVar heap x (some s))) = _
        rw [slot x t ht, Res.ok_bind, Res.ok_bind, if_pos rfl]
      · rw [hv]; funext z; simp only [SOp.effect, Refs.set]; split_ifs with hz <;> simp [hz]
      · show Ok _ _ (names ((a.set x (some none)).set x (a.name x)).name)
        have e : ((a.set x (some none)).set x (a.name x)).name = a.name := by
          funext z; simp only [Refs.set]; split_ifs with hz <;> simp [hz]
        rw [e]; exact ok
    · obtain ⟨h1, e1, o1⟩ := drop_ok ok (some x)
      rw [nm x t ht] at e1
      have o2 := swap_ok o1 (some x) (some y)
      refine ⟨(w.setVar h1 y (some none)).setVar h1 x (some s), ?_, ?_, ?_⟩
      · show (do let t ← w.slot x; let s ← w.slot y; if x = y then .ok w else do
              let heap ← drop w.heap t; .ok ((w.setVar heap y (some none)).setVar heap x (some s))) = _
        rw [slot x t ht, Res.ok_bind, slot y s hs, Res.ok_bind, if_neg hxy, e1, Res.ok_bind]
      · simp only [SWorld.setVar, SOp.effect, Refs.set, hv, hs]
      · show Ok _ _ (names ((a.set y (some none)).set x (a.name y)).name)
        rw [names_set, names_set, hs]
        refine cast (congrArg (Ok _ _) ?_) o2
        symm; funext k
        by_cases hkx : k = some x
        · subst hkx
          rw [Function.update_self, Equiv.swap_apply_left, Function.update_of_ne (by simpa using Ne.symm hxy), nm y s hs]; rfl
        · rw [Function.update_of_ne hkx]
          by_cases hky : k = some y
          · subst hky; rw [Function.update_self, Equiv.swap_apply_right, Function.update_self]; rfl
          · rw [Function.update_of_ne hky, Equiv.swap_apply_of_ne_of_ne hkx hky, Function.update_of_ne hkx]
  | assign x v =>
    obtain ⟨t, ht⟩ := Option.ne_none_iff_exists'.1 hl
    have o1 := fresh_ok ok none rfl v
    have o2 := swap_ok o1 none (some x)
    obtain ⟨h3, e3, o3⟩ := drop_ok o2 none
    have et : Function.update (names a.name) none (some w.heap.length) (Equiv.swap none (some x) none) = t := by
      rw [Equiv.swap_apply_left, Function.update_of_ne (by simp), nm x t ht]
    rw [et] at e3
    refine ⟨w.setVar h3 x (some (some w.heap.length)), ?_, ?_, ?_⟩
    · show (do let t ← w.slot x; let heap ← drop (w.heap ++ [some (v, 1)]) t; .ok (w.setVar heap x (some (some w.heap.length)))) = _
      rw [slot x t ht, Res.ok_bind, e3, Res.ok_bind]
    · rw [setVar, ok.len]; rfl
    · show Ok _ _ (names (a.set x (some (some a.vals.length))).name)
      rw [names_set]
      refine cast (congrArg (Ok _ _) ?_) o3
      symm; funext k
      by_cases hk : k = none
      · subst hk; rw [Function.update_self, Function.update_of_ne (by simp)]; rfl
      · rw [Function.update_of_ne hk]
        by_cases hkx : k = some x
        · subst hkx; rw [Function.update_self, Equiv.swap_apply_right, Function.update_self, ok.len]; rfl
        · rw [Function.update_of_ne hkx, Equiv.swap_apply_of_ne_of_ne hk hkx, Function.update_of_ne hk]
  | destroy x =>
    obtain ⟨t, ht⟩ := Option.ne_none_iff_exists'.1 hl
    obtain ⟨h1, e1, o1⟩ := drop_ok ok (some x)
    rw [nm x t ht] at e1
    refine ⟨w.setVar h1 x none, ?_, setVar _ _ _, ?_⟩
    · show (do let t ← w.slot x; let heap ← drop w.heap t; .ok (w.setVar heap x none)) = _
      rw [slot x t ht, Res.ok_bind, e1, Res.ok_bind]
    · show Ok _ _ (names (a.set x none).name)
      rw [names_set]; exact o1
  | modify x f =>
    obtain ⟨p, hp⟩ := hl
    obtain ⟨v, c, hc, o⟩ := modify_ok ok (some x) p (nm x _ hp) f
    refine ⟨⟨w.heap.set p (some (f v, c)), w.vars⟩, ?_, ?_, ?_⟩
    · simp only [SOp.exec, slot x _ hp, Res.ok_bind, hc]
    · simp only [SOp.effect, hp]; exact hv
    · simp only [SOp.effect, hp]; exact o

theorem srun (ops : List (SOp V)) : ∀ (w : SWorld V) (a : Refs V), SInv w a → SLegal a ops →
    ∃ w', runSOps w ops = .ok w' ∧ SInv w' (seffects a ops) := by
  induction ops with
  | nil => exact fun w a h _ => ⟨w, rfl, h⟩
  | cons op ops ih =>
    intro w a h hl
    obtain ⟨w1, e1, h1⟩ := sstep w a h op hl.1
    obtain ⟨w2, e2, h2⟩ := ih w1 _ h1 hl.2
    refine ⟨w2, ?_, h2⟩
    rw [runSOps, foldRes_cons, e1, Res.ok_bind]
    exact e2

theorem sinv_start : SInv (SWorld.empty : SWorld V) Refs.start :=
  ⟨rfl, rfl, fun i p h => by cases i <;> simp [names, Refs.start] at h, fun p v h => by simp [Refs.start] at h⟩

/-- C106: any legal history on shared storages, self-assignments included, runs without undefined behaviour; variables show the
current value of the object they name under reference semantics, so that copies share the object and a change through one is seen through
all the others; and at every time an object is alive exactly when some variable names it. -/
theorem C106_shared (ops : List (SOp V)) (h : SLegal Refs.start ops) :
    ∃ w, runSOps SWorld.empty ops = .ok w ∧
      (∀ x, w.view x = ((seffects Refs.start ops).name x).map (Option.map fun p => (seffects Refs.start ops).vals[p]?)) ∧
      ∀ p, w.Live p ↔ ∃ x, (seffects Refs.start ops).name x = some (some p) := by
  obtain ⟨w, e, hi⟩ := srun ops _ _ sinv_start h
  refine ⟨w, e, fun x => ?_, fun p => ?_⟩
  · unfold SWorld.view
    rw [hi.vars]
    cases hx : (seffects Refs.start ops).name x with
    | none => rfl
    | some s =>
      cases s with
      | none => rfl
      | some p =>
        obtain ⟨v, s, hv, _, _, hc⟩ := ok_owned hi.ok (i := some x) (p := p) (by simp [names, hx])
        simp [hc, hv]
  · constructor
    · rintro ⟨⟨v, c⟩, hvc⟩
      have hlt := (List.getElem?_eq_some_iff.1 hvc).1
      rw [hi.ok.len] at hlt
      obtain ⟨s, hs, hc⟩ := hi.ok.cell p _ (List.getElem?_eq_getElem hlt)
      rw [hvc] at hc
      have hne : s.Nonempty := by
        rw [Finset.nonempty_iff_ne_empty]
        rintro rfl
        simp at hc
      obtain ⟨i, hi'⟩ := hne
      have := (hs i).1 hi'
      cases i with
      | none => simp [names] at this
      | some x =>
        simp only [names] at this
        refine ⟨x, ?_⟩
        cases hx : (seffects Refs.start ops).name x with
        | none => rw [hx] at this; cases this
        | some s => rw [hx] at this; simp only [Option.join] at this; rw [show s = some p from this]
    · rintro ⟨x, hx⟩
      obtain ⟨v, s, _, _, _, hc⟩ := ok_owned hi.ok (i := some x) (p := p) (by simp [names, hx])
      exact ⟨_, hc⟩

/-! ## Non-owning storage -/

structure NInv (w : NWorld V) (a : NRefs V) : Prop where
  objs : w.objs = a.objs
  vars : ∀ x, w.vars x = (a.name x).map (Option.map Target.obj)

theorem nstep (w : NWorld V) (a : NRefs V) (h : NInv w a) (op : NOp V) (hl : op.Legal a) :
    ∃ w', op.exec w = .ok w' ∧ NInv w' (op.effect a) := by
  obtain ⟨ho, hv⟩ := h
  have slot : ∀ x s, a.name x = some s → w.slot x = .ok (s.map Target.obj) := by
    intro x s hx; unfold NWorld.slot; rw [hv, hx]; rfl
  have setVar : ∀ x (s : Option (Option Nat)), NInv (w.setVar x (s.map (Option.map Target.obj))) (a.set x s) := by
    intro x s
    refine ⟨ho, fun z => ?_⟩
    simp only [NWorld.setVar, NRefs.set]
    split_ifs
    · rfl
    · exact hv z
  have setObj : ∀ o v, NInv (w.setObj o v) (a.put o v) := by
    intro o v
    refine ⟨?_, hv⟩
    simp only [NWorld.setObj, NRefs.put, ho]
  cases op with
  | create o v => exact ⟨_, rfl, setObj _ _⟩
  | finish o => exact ⟨_, rfl, setObj _ _⟩
  | change o f =>
    obtain ⟨v, hv'⟩ := Option.ne_none_iff_exists'.1 hl
    refine ⟨w.setObj o (some (f v)), by simp only [NOp.exec, ho, hv', Res.ofOptionUB_some, Res.ok_bind], ?_⟩
    have := setObj o (some (f v))
    simp only [NOp.effect, hv', Option.map_some]
    exact this
  | default x => exact ⟨_, rfl, setVar x (some none)⟩
  | make x o => exact ⟨_, rfl, setVar x (some (some o))⟩
  | copyCtor x y c =>
    obtain ⟨hx, hy, rfl⟩ := hl
    obtain ⟨s, hs⟩ := Option.ne_none_iff_exists'.1 hy
    refine ⟨_, by simp only [NOp.exec, slot y s hs, Res.ok_bind]; rfl, ?_⟩
    have := setVar x (some s)
    simp only [NOp.effect, hs]
    exact this
  | moveCtor x y =>
    obtain ⟨hx, hy⟩ := hl
    obtain ⟨s, hs⟩ := Option.ne_none_iff_exists'.1 hy
    refine ⟨_, by simp only [NOp.exec, slot y s hs, Res.ok_bind]; rfl, ?_⟩
    have := setVar x (some s)
    simp only [NOp.effect, hs]
    exact this
  | assignVar x y =>
    obtain ⟨hx, hy⟩ := hl
    obtain ⟨t, ht⟩ := Option.ne_none_iff_exists'.1 hx
    obtain ⟨s, hs⟩ := Option.ne_none_iff_exists'.1 hy
    refine ⟨_, by simp only [NOp.exec, slot x t ht, slot y s hs, Res.ok_bind]; rfl, ?_⟩
    have := setVar x (some s)
    simp only [NOp.effect, hs]
    exact this
  | assign x o =>
    obtain ⟨hx, _⟩ := hl
    obtain ⟨t, ht⟩ := Option.ne_none_iff_exists'.1 hx
    exact ⟨_, by simp only [NOp.exec, slot x t ht, Res.ok_bind]; rfl, setVar x (some (some o))⟩
  | destroy x =>
    obtain ⟨t, ht⟩ := Option.ne_none_iff_exists'.1 hl
    exact ⟨_, by simp only [NOp.exec, slot x t ht, Res.ok_bind]; rfl, setVar x none⟩
  | modify x f =>
    obtain ⟨o, hx, hob⟩ := hl
    obtain ⟨v, hv'⟩ := Option.ne_none_iff_exists'.1 hob
    refine ⟨w.setObj o (some (f v)), ?_, ?_⟩
    · simp only [NOp.exec, slot x _ hx, Res.ok_bind, Option.map_some, ho, hv', Res.ofOptionUB_some]
    · have := setObj o (some (f v))
      simp only [NOp.effect, hx, hv', Option.map_some]
      exact this

theorem nrun (ops : List (NOp V)) : ∀ (w : NWorld V) (a : NRefs V), NInv w a → NLegal a ops →
    ∃ w', runNOps w ops = .ok w' ∧ NInv w' (neffects a ops) := by
  induction ops with
  | nil => exact fun w a h _ => ⟨w, rfl, h⟩
  | cons op ops ih =>
    intro w a h hl
    obtain ⟨w1, e1, h1⟩ := nstep w a h op hl.1
    obtain ⟨w2, e2, h2⟩ := ih w1 _ h1 hl.2
    refine ⟨w2, ?_, h2⟩
    rw [runNOps, foldRes_cons, e1, Res.ok_bind]
    exact e2

/-- C106: with non-owning storage, copied as the wrapper copies it, every variable stands for the object of the user it was made
from, calls act on that very object, and every call made while the object is alive is defined. -/
theorem C106_non_owning_partial (ops : List (NOp V)) (h : NLegal NRefs.start ops) :
    ∃ w, runNOps NWorld.empty ops = .ok w ∧ w.objs = (neffects NRefs.start ops).objs ∧
      ∀ x, w.vars x = ((neffects NRefs.start ops).name x).map (Option.map Target.obj) := by
  obtain ⟨w, e, hi⟩ := nrun ops NWorld.empty NRefs.start ⟨rfl, fun _ => rfl⟩ h
  exact ⟨w, e, hi.objs, hi.vars⟩

/-- C106: creating, copying, moving, assigning and destroying non-owning storages never creates, changes or ends an object. -/
theorem C106_non_owning_quiet (w w' : NWorld V) (op : NOp V) (hq : op.Quiet) (h : op.exec w = .ok w') : w'.objs = w.objs := by
  cases op with
  | create | finish | change | modify => exact absurd hq (by simp [NOp.Quiet])
  | default x | make x o => cases h; rfl
  | copyCtor x y c | moveCtor x y | assign x y | destroy x =>
    simp only [NOp.exec, Res.bind_eq_ok] at h
    obtain ⟨s, _, h⟩ := h
    cases h; rfl
  | assignVar x y =>
    simp only [NOp.exec, Res.bind_eq_ok] at h
    obtain ⟨s, _, t, _, h⟩ := h
    cases h; rfl

/-- C106: a call after the end of the object is undefined behaviour: nothing keeps it alive. -/
theorem C106_non_owning_dangling (v : V) (f : V → V) :
    runNOps NWorld.empty [.create 0 v, .make 0 0, .copyCtor 1 0 true, .finish 0, .modify 1 f] = .ub := by
  simp [runNOps, foldRes, NOp.exec, NWorld.empty, NWorld.setVar, NWorld.setObj, NWorld.slot, Res.ofOptionUB]

/-- C106 (finding): a `non_owning_storage` constructed from another one that is not const points to that storage and not to its
object: the constructor from an arbitrary `T&` is preferred to the copy constructor. -/
theorem C106_bug_nonconst_copy (v : V) (f : V → V) :
    runNOps NWorld.empty [.create 0 v, .make 0 0, .copyCtor 1 0 false, .modify 1 f] = .ub := by
  simp [runNOps, foldRes, NOp.exec, NWorld.empty, NWorld.setVar, NWorld.setObj, NWorld.slot, Res.ofOptionUB]

/-! ## The hypotheses are met -/

def demoS : List (SOp Nat) :=
  [.make 0 7, .copyCtor 1 0, .modify 1 (· + 1), .copyAssign 0 0, .moveAssign 1 1, .default 2, .moveAssign 2 0, .assign 1 20, .destroy 0]

example : SLegal Refs.start demoS := by
  simp [demoS, SLegal, SOp.Legal, SOp.effect, Refs.set, Refs.start]
example : (seffects Refs.start demoS).vals = [8, 20] ∧ (seffects Refs.start demoS).name 2 = some (some 0) ∧
    (seffects Refs.start demoS).name 1 = some (some 1) := by
  simp [demoS, seffects, SOp.effect, Refs.set, Refs.start, List.modify]
example : ∃ w, runSOps SWorld.empty demoS = .ok w ∧ w.heap = [some (8, 1), some (20, 1)] := ⟨_, rfl, rfl⟩
example : ∃ w, runSOps SWorld.empty (demoS ++ [.destroy 2]) = .ok w ∧ w.heap = [none, some (20, 1)] := ⟨_, rfl, rfl⟩

def demoN : List (NOp Nat) :=
  [.create 0 7, .make 0 0, .copyCtor 1 0 true, .modify 1 (· + 1), .change 0 (· * 2), .default 2, .assignVar 2 1, .destroy 0, .finish 0]

example : NLegal NRefs.start demoN := by
  simp [demoN, NLegal, NOp.Legal, NOp.effect, NRefs.set, NRefs.put, NRefs.start]

end Fdapde.Utils
