import Verif.IO.CsvLemmas
import Mathlib.Algebra.BigOperators.Group.List.Basic
import Mathlib.Algebra.Order.Ring.Rat
import Mathlib.Algebra.Order.Ring.Int

/-! # Properties of the CSV reader (C71, C72, C73) -/

namespace Fdapde.IO

variable {K : Type}

/-! ## Splitting lines -/

/-- **C71.** For every non-empty separator and every string the splitting loop ends (within one turn more than the string has
characters), gives at least one token, the tokens joined by the separator are the string, and no token contains the separator. -/
theorem C71_split (sep s : List Char) (hs : sep ≠ []) :
    ∃ l, splitLoop sep (s.length + 1) s = some l ∧ l ≠ [] ∧ sep.intercalate l = s ∧ ∀ t ∈ l, ¬ sep <:+: t :=
  splitLoop_ok sep hs _ s (Nat.lt_succ_self _)

/-- **C71.** Splitting a line made of comma-free fields gives back the fields. -/
theorem C71_fields (fields : List (List Char)) (h : fields ≠ []) (hp : ∀ t ∈ fields, ',' ∉ t) :
    splitComma (csvLine fields) = fields := splitComma_line fields h hp

/-- **C71.** `remove_char` keeps exactly the characters which are not in the list, in order. -/
theorem C71_remove (cs s : List Char) : removeChars cs s = s.filter (fun c => c ∉ cs) := removeChars_eq cs s

/-- With an empty separator the loop never ends: the hypothesis of C71 is needed. -/
theorem C71_empty_separator (s : List Char) (k : Nat) : splitLoop [] k s = none := by
  induction k generalizing s with
  | zero => rfl
  | succ k ih =>
      have h : find [] s = some 0 := by cases s <;> rfl
      unfold splitLoop
      rw [h]
      simp [ih]

example : splitLoop ", ".toList 20 "a, b,,  c".toList = some ["a".toList, "b,".toList, " c".toList] := by decide +kernel
example : splitComma "\"\",\"x\",,NA".toList = ["\"\"".toList, "\"x\"".toList, [], "NA".toList] := by decide +kernel
example : removeChars filter "\" 1 2\"".toList = "12".toList := by decide +kernel

/-! ## Dense files -/

theorem token_cell (nan : K) (num : List Char → Option K) (t : List Char) (v : K) (h : CellIs nan num t v) (old : Option K) :
    token nan num t old = some v := by
  unfold CellIs at h
  unfold token reserved
  simp only [removeChars_stripped, List.mem_cons, List.not_mem_nil, or_false]
  by_cases hr : stripped t = "NA".toList ∨ stripped t = "NaN".toList ∨ stripped t = "nan".toList
  · rw [if_pos hr] at h ⊢
    rw [h]
  · rw [if_neg hr] at h ⊢
    rw [h]

theorem fill_row (nan : K) (num : List Char → Option K) (t0 : List Char) (ts : List (List Char)) (vs : List K)
    (hv : List.Forall₂ (CellIs nan num) ts vs) (m : List (List (Option K))) (i : Nat)
    (hm : m[i]? = some (List.replicate vs.length none)) :
    ∀ j, j ≤ vs.length → foldRes (fun m col => setCell m i (col - 1) (token nan num ((t0 :: ts).getD col []) (getCell m i (col - 1))))
      m ((List.range j).map (· + 1)) = .ok (m.set i ((vs.take j).map some ++ List.replicate (vs.length - j) none)) := by
  have hi : i < m.length := by
    rw [List.getElem?_eq_some_iff] at hm
    exact hm.1
  intro j
  induction j with
  | zero =>
      intro _
      have : m.set i (List.replicate vs.length none) = m := by
        rw [List.getElem?_eq_some_iff] at hm
        obtain ⟨h1, h2⟩ := hm
        rw [← h2, List.set_getElem_self]
      simp [foldRes_nil, this]
  | succ j ih =>
      intro hj
      rw [List.range_succ, List.map_append, foldRes_append, ih (by omega), Res.ok_bind]
      rw [List.map_cons, List.map_nil, foldRes_cons]
      have hlen : ts.length = vs.length := hv.length_eq
      have htok : ∀ old, token nan num ((t0 :: ts).getD (j + 1) []) old = some vs[j] := by
        intro old
        have e : (t0 :: ts).getD (j + 1) [] = ts[j]'(by omega) := by
          simp [List.getD, List.getElem?_eq_getElem (by omega : j < ts.length)]
        rw [e]
        apply token_cell
        exact List.Forall₂.get hv (by omega) (by omega)
      have hget : (m.set i ((vs.take j).map some ++ List.replicate (vs.length - j) none))[i]? =
          some ((vs.take j).map some ++ List.replicate (vs.length - j) none) := by
        rw [List.getElem?_set_self hi]
      have hset : setCell (m.set i ((vs.take j).map some ++ List.replicate (vs.length - j) none)) i (j + 1 - 1) (some vs[j]) =
          .ok (m.set i ((vs.take (j + 1)).map some ++ List.replicate (vs.length - (j + 1)) none)) := by
        unfold setCell
        rw [hget]
        have hl : j + 1 - 1 < ((vs.take j).map some ++ List.replicate (vs.length - j) none : List (Option K)).length := by
          simp
          omega
        show (if j + 1 - 1 < ((vs.take j).map some ++ List.replicate (vs.length - j) none : List (Option K)).length then
          Res.ok ((m.set i _).set i _) else Res.ub) = _
        rw [if_pos hl, List.set_set]
        congr 2
        have e1 : List.replicate (vs.length - j) (none : Option K) = none :: List.replicate (vs.length - (j + 1)) none := by
          rw [show vs.length - j = (vs.length - (j + 1)) + 1 by omega, List.replicate_succ]
        rw [e1, List.set_append_right _ _ (by simp)]
        have e2 : j + 1 - 1 - ((vs.take j).map some).length = 0 := by simp; omega
        have e3 : vs.take (j + 1) = vs.take j ++ [vs[j]] := (List.take_concat_get' vs j (by omega)).symm
        rw [e2, List.set_cons_zero, e3, List.map_append, List.append_assoc]
        rfl
      rw [htok, hset, Res.ok_bind, foldRes_nil]

theorem fill_rows (nan : K) (num : List Char → Option K) (c : Nat) (data : List (List (List Char))) (vals : List (List K))
    (hp : ∀ ts ∈ data, ∀ t ∈ ts, ',' ∉ t) (hc : ∀ vs ∈ vals, vs.length = c)
    (hv : List.Forall₂ (fun ts vs => ∃ t0 ts', ts = t0 :: ts' ∧ List.Forall₂ (CellIs nan num) ts' vs) data vals) :
    ∀ done : List (List (Option K)), foldRes (denseLine nan num) (done ++ List.replicate data.length (List.replicate c none))
      ((List.range' done.length data.length).zip (data.map csvLine)) = .ok (done ++ vals.map (·.map some)) := by
  induction hv with
  | nil => intro done; simp [foldRes_nil]
  | @cons ts vs data vals h1 _ ih =>
      intro done
      obtain ⟨t0, ts', rfl, h2⟩ := h1
      have hvs : vs.length = c := hc vs (by simp)
      have hlen : ts'.length = vs.length := h2.length_eq
      rw [List.length_cons, List.range'_succ, List.map_cons, List.zip_cons_cons, foldRes_cons]
      have hsp : splitComma (csvLine (t0 :: ts')) = t0 :: ts' := splitComma_line _ (by simp) (hp _ (by simp))
      have hrow := fill_row nan num t0 ts' vs h2 (done ++ List.replicate (data.length + 1) (List.replicate c none)) done.length (by
        rw [List.getElem?_append_right (Nat.le_refl _)]
        simp [hvs]) vs.length (Nat.le_refl _)
      have hstep : denseLine nan num (done ++ List.replicate (data.length + 1) (List.replicate c none)) (done.length, csvLine (t0 :: ts')) =
          .ok ((done ++ [vs.map some]) ++ List.replicate data.length (List.replicate c none)) := by
        unfold denseLine
        rw [hsp]
        have e : (t0 :: ts').length - 1 = vs.length := by simp [hlen]
        rw [e]
        refine Eq.trans hrow ?_
        congr 1
        rw [List.set_append_right _ _ (Nat.le_refl _), Nat.sub_self, List.replicate_succ, List.set_cons_zero]
        simp
      rw [hstep, Res.ok_bind]
      have := ih (fun ts hts => hp ts (by simp [hts])) (fun vs hvs => hc vs (by simp [hvs])) (done ++ [vs.map some])
      rw [show (done ++ [vs.map some]).length = done.length + 1 by simp] at this
      refine Eq.trans this ?_
      simp

theorem parseDense_eq (nan : K) (num : List Char → Option K) (text hd r : List Char) (ls : List (List Char))
    (h1 : getline text = some (hd, r)) (h2 : readLines (text.length + 1) r = ls) :
    parseDense nan num text = (fun m => ⟨ls.length, (splitComma hd).length - 1, m⟩) <$>
      foldRes (denseLine nan num) (List.replicate ls.length (List.replicate ((splitComma hd).length - 1) none))
        ((List.range ls.length).zip ls) := by
  unfold parseDense
  simp only [h1, Option.getD_some, h2]

/-- **C72.** For every text file whose first line has `c + 1` fields and whose data lines have `c + 1` fields each (free of commas
and newlines), the parsed matrix has one row per data line and `c` columns, and its entry `(i, j)` is the value of field `j + 1` of
data line `i`: not-a-number for `NA`, `NaN`, `nan` (blanks and quotes being ignored), the number spelled otherwise. -/
theorem C72_dense (nan : K) (num : List Char → Option K) (c : Nat) (header : List (List Char)) (data : List (List (List Char)))
    (vals : List (List K)) (text : List Char) (ht : IsText (csvLine header :: data.map csvLine) text)
    (hh : header.length = c + 1) (hph : ∀ t ∈ header, Plain t) (hp : ∀ ts ∈ data, ∀ t ∈ ts, Plain t)
    (hc : ∀ vs ∈ vals, vs.length = c)
    (hv : List.Forall₂ (fun ts vs => ∃ t0 ts', ts = t0 :: ts' ∧ List.Forall₂ (CellIs nan num) ts' vs) data vals) :
    parseDense nan num text = .ok ⟨data.length, c, vals.map (·.map some)⟩ := by
  obtain ⟨r, h1, h2⟩ := text_head ht
  have e1 : splitComma (csvLine header) = header := splitComma_line header (by
    intro e; rw [e] at hh; simp at hh) (fun t h => (hph t h).1)
  rw [parseDense_eq nan num text _ _ _ h1 h2, e1, hh]
  have := fill_rows nan num c data vals (fun ts h t h' => (hp ts h t h').1) hc hv []
  simp only [List.length_nil, List.nil_append, ← List.range_eq_range'] at this
  rw [List.length_map, Nat.add_sub_cancel, this]
  rfl

/-- Bug: an empty field (a usual way to write a missing value) leaves the cell of the matrix unwritten; reading it later gives an
indeterminate value instead of not-a-number. -/
theorem C72_bug_empty_field (nan : K) (num : List Char → Option K) (hn : num [] = none) :
    parseDense nan num "\"\",\"V1\"\n1,\n".toList = .ok ⟨1, 1, [[none]]⟩ := by
  have e4 : splitComma "1,".toList = ["1".toList, []] := by decide +kernel
  have e6 : removeChars filter [] ∉ reserved := by decide +kernel
  rw [parseDense_eq nan num _ "\"\",\"V1\"".toList "1,\n".toList ["1,".toList] (by decide +kernel) (by decide +kernel)]
  have e3 : (splitComma "\"\",\"V1\"".toList).length - 1 = 1 := by decide +kernel
  have e7 : denseLine nan num [[none]] (0, "1,".toList) = .ok [[none]] := by
    unfold denseLine
    simp only [e4]
    show Res.bind (setCell [[none]] 0 0 (token nan num [] none)) _ = _
    have : token nan num [] none = none := by
      unfold token
      simp only [if_neg e6]
      have : removeChars filter [] = [] := rfl
      rw [this, hn]
    rw [this]
    rfl
  rw [e3]
  show _ <$> Res.bind (denseLine nan num [[none]] (0, "1,".toList)) _ = _
  rw [e7]
  rfl

/-- Bug: with Windows line ends the last field keeps its carriage return, so that a missing value `NA` in the last column is not
recognised: it is read as the number the string `"NA\r"` gives, which is 0 for `operator>>`. -/
theorem C72_bug_carriage_return (nan : K) (num : List Char → Option K) (zero : K) (hn : num "NA\r".toList = some zero) :
    parseDense nan num "\"\",\"V1\"\r\n1,NA\r\n".toList = .ok ⟨1, 1, [[some zero]]⟩ := by
  have e4 : splitComma "1,NA\r".toList = ["1".toList, "NA\r".toList] := by decide +kernel
  have e5 : removeChars filter "NA\r".toList = "NA\r".toList := by decide +kernel
  have e6 : "NA\r".toList ∉ reserved := by decide +kernel
  rw [parseDense_eq nan num _ "\"\",\"V1\"\r".toList "1,NA\r\n".toList ["1,NA\r".toList] (by decide +kernel) (by decide +kernel)]
  have e3 : (splitComma "\"\",\"V1\"\r".toList).length - 1 = 1 := by decide +kernel
  have e7 : denseLine nan num [[none]] (0, "1,NA\r".toList) = .ok [[some zero]] := by
    unfold denseLine
    simp only [e4]
    show Res.bind (setCell [[none]] 0 0 (token nan num "NA\r".toList none)) _ = _
    have : token nan num "NA\r".toList none = some zero := by
      unfold token
      simp only [e5, if_neg e6, hn]
    rw [this]
    rfl
  rw [e3]
  show _ <$> Res.bind (denseLine nan num [[none]] (0, "1,NA\r".toList)) _ = _
  rw [e7]
  rfl

/-- Integers spelled by digits, for the examples. -/
def natNum (t : List Char) : Option ℚ :=
  if t = [] then none else some (t.foldl (fun v c => if c.isDigit then 10 * v + (c.toNat - 48 : Nat) else v) 0)

example : parseDense (-1) natNum "\"\",\"a\",\"b\"\n\"1\",12, 5\n\"2\",NA,\"7\"".toList =
    .ok ⟨2, 2, [[some 12, some 5], [some (-1), some 7]]⟩ := by decide +kernel

/-! ## Sparse files -/

/-- A data line denotes the triplet `(r, c, v)`: fields 1, 2 and 3 spell row, column (counted from 1) and value. -/
def LineIs (nan : K) (num : List Char → Option K) (int : List Char → Option Int) (fields : List (List Char)) (t : Int × Int × K) : Prop :=
  ∃ f0 f1 f2 f3 fs, fields = f0 :: f1 :: f2 :: f3 :: fs ∧ int (stripped f1) = some t.1 ∧ int (stripped f2) = some t.2.1 ∧
    CellIs nan num f3 t.2.2

theorem spLine_ok (nan : K) (num : List Char → Option K) (int : List Char → Option Int) (s : SpSt K) (fields : List (List Char))
    (hp : ∀ t ∈ fields, ',' ∉ t) (t : Int × Int × K) (h : LineIs nan num int fields t) :
    spLine nan num int s (csvLine fields) =
      .ok ⟨t.1, t.2.1, max s.nRow t.1, max s.nCol t.2.1, t.2.2, s.trip ++ [(t.1 - 1, t.2.1 - 1, t.2.2)]⟩ := by
  obtain ⟨f0, f1, f2, f3, fs, rfl, h1, h2, h3⟩ := h
  have e := splitComma_line (f0 :: f1 :: f2 :: f3 :: fs) (by simp) hp
  unfold spLine
  rw [e]
  simp only [removeChars_stripped, h1, h2, Option.getD_some, token_cell nan num f3 t.2.2 h3]
  have m1 : (if s.nRow < t.1 then t.1 else s.nRow) = max s.nRow t.1 := by
    by_cases h : s.nRow < t.1
    · rw [if_pos h, max_eq_right h.le]
    · rw [if_neg h, max_eq_left (not_lt.1 h)]
  have m2 : (if s.nCol < t.2.1 then t.2.1 else s.nCol) = max s.nCol t.2.1 := by
    by_cases h : s.nCol < t.2.1
    · rw [if_pos h, max_eq_right h.le]
    · rw [if_neg h, max_eq_left (not_lt.1 h)]
  rw [m1, m2]

theorem spLines_ok (nan : K) (num : List Char → Option K) (int : List Char → Option Int) (data : List (List (List Char)))
    (trips : List (Int × Int × K)) (hp : ∀ ts ∈ data, ∀ t ∈ ts, ',' ∉ t) (hv : List.Forall₂ (LineIs nan num int) data trips) :
    ∀ s : SpSt K, ∃ s', foldRes (spLine nan num int) s (data.map csvLine) = .ok s' ∧
      s'.trip = s.trip ++ trips.map (fun t => (t.1 - 1, t.2.1 - 1, t.2.2)) ∧
      s'.nRow = trips.foldl (fun n t => max n t.1) s.nRow ∧ s'.nCol = trips.foldl (fun n t => max n t.2.1) s.nCol := by
  induction hv with
  | nil => intro s; exact ⟨s, rfl, by simp, rfl, rfl⟩
  | @cons fields t data trips h1 _ ih =>
      intro s
      have h := spLine_ok nan num int s fields (hp _ (by simp)) t h1
      obtain ⟨s', g1, g2, g3, g4⟩ := ih (fun ts hts => hp ts (by simp [hts]))
        ⟨t.1, t.2.1, max s.nRow t.1, max s.nCol t.2.1, t.2.2, s.trip ++ [(t.1 - 1, t.2.1 - 1, t.2.2)]⟩
      refine ⟨s', ?_, ?_, g3, g4⟩
      · rw [List.map_cons, foldRes_cons, h, Res.ok_bind]
        exact g1
      · rw [g2]
        simp

theorem le_foldl_max {α : Type} (f : α → Int) (l : List α) : ∀ n : Int, n ≤ l.foldl (fun n t => max n (f t)) n ∧
    ∀ t ∈ l, f t ≤ l.foldl (fun n t => max n (f t)) n := by
  induction l with
  | nil => intro n; exact ⟨le_refl _, fun t ht => absurd ht (by simp)⟩
  | cons a l ih =>
      intro n
      obtain ⟨h1, h2⟩ := ih (max n (f a))
      refine ⟨le_trans (le_max_left _ _) h1, ?_⟩
      intro t ht
      rcases List.mem_cons.1 ht with rfl | ht
      · exact le_trans (le_max_right _ _) h1
      · exact h2 t ht

theorem foldl_max_mem {α : Type} (f : α → Int) (l : List α) : ∀ n : Int, l.foldl (fun n t => max n (f t)) n = n ∨
    ∃ t ∈ l, l.foldl (fun n t => max n (f t)) n = f t := by
  induction l with
  | nil => intro n; exact Or.inl rfl
  | cons a l ih =>
      intro n
      rw [List.foldl_cons]
      rcases ih (max n (f a)) with h | ⟨t, ht, h⟩
      · rcases max_choice n (f a) with e | e
        · rw [e] at h
          exact Or.inl (by rw [e]; exact h)
        · exact Or.inr ⟨a, by simp, by rw [e] at h; rw [e]; exact h⟩
      · exact Or.inr ⟨t, by simp [ht], h⟩

theorem spEntry_sum [AddCommMonoid K] (l : List (Int × Int × K)) (i j : Nat) :
    spEntry l i j = ((l.filter fun t => t.1 = (i : Int) ∧ t.2.1 = (j : Int)).map (·.2.2)).sum := by
  have key : ∀ (l : List (Int × Int × K)) (v : K), l.foldl (fun v t => if t.1 = (i : Int) ∧ t.2.1 = (j : Int) then v + t.2.2 else v) v =
      v + ((l.filter fun t => t.1 = (i : Int) ∧ t.2.1 = (j : Int)).map (·.2.2)).sum := by
    intro l
    induction l with
    | nil => intro v; simp
    | cons t l ih =>
        intro v
        rw [List.foldl_cons, ih]
        by_cases h : t.1 = (i : Int) ∧ t.2.1 = (j : Int)
        · rw [if_pos h, List.filter_cons_of_pos (by simpa using h), List.map_cons, List.sum_cons, add_assoc]
        · rw [if_neg h, List.filter_cons_of_neg (by simpa using h)]
  unfold spEntry
  rw [key, zero_add]

/-- **C73.** For every text file whose first line has four fields and whose data lines denote the triplets `trips` with positive row
and column numbers, the parsed matrix has as many rows (columns) as the largest row (column) number, and its entry `(i, j)` is the
sum of the values listed for row `i + 1` and column `j + 1`. -/
theorem C73_sparse [AddCommMonoid K] (nan : K) (num : List Char → Option K) (int : List Char → Option Int)
    (header : List (List Char)) (data : List (List (List Char))) (trips : List (Int × Int × K)) (text : List Char)
    (ht : IsText (csvLine header :: data.map csvLine) text) (hh : header.length = 4) (hph : ∀ t ∈ header, Plain t)
    (hp : ∀ ts ∈ data, ∀ t ∈ ts, Plain t) (hv : List.Forall₂ (LineIs nan num int) data trips)
    (hpos : ∀ t ∈ trips, 1 ≤ t.1 ∧ 1 ≤ t.2.1) :
    ∃ nRow nCol m, parseSparse nan num int text = .ok (nRow, nCol, m) ∧
      ((trips = [] ∧ nRow = 0 ∧ nCol = 0) ∨
        ((∃ t ∈ trips, t.1 = nRow) ∧ (∀ t ∈ trips, t.1 ≤ nRow) ∧ (∃ t ∈ trips, t.2.1 = nCol) ∧ ∀ t ∈ trips, t.2.1 ≤ nCol)) ∧
      ∀ i j : Nat, m i j = ((trips.filter fun t => t.1 = (i : Int) + 1 ∧ t.2.1 = (j : Int) + 1).map (·.2.2)).sum := by
  obtain ⟨r, h1, h2⟩ := text_head ht
  have e1 : splitComma (csvLine header) = header := splitComma_line header (by
    intro e; rw [e] at hh; simp at hh) (fun t h => (hph t h).1)
  obtain ⟨s, g1, g2, g3, g4⟩ := spLines_ok nan num int data trips (fun ts h t h' => (hp ts h t h').1) hv ⟨0, 0, 0, 0, 0, []⟩
  have b1 := le_foldl_max (fun t : Int × Int × K => t.1) trips 0
  have b2 := le_foldl_max (fun t : Int × Int × K => t.2.1) trips 0
  have hall : (s.trip.all fun t => 0 ≤ t.1 ∧ t.1 < s.nRow ∧ 0 ≤ t.2.1 ∧ t.2.1 < s.nCol) = true := by
    rw [List.all_eq_true, g2, g3, g4]
    intro t ht
    simp only [List.nil_append, List.mem_map] at ht
    obtain ⟨u, hu, rfl⟩ := ht
    have p := hpos u hu
    have q1 := b1.2 u hu
    have q2 := b2.2 u hu
    simp only [decide_eq_true_eq]
    omega
  refine ⟨s.nRow, s.nCol, spEntry s.trip, ?_, ?_, ?_⟩
  · unfold parseSparse
    simp only [h1, Option.getD_some, h2, e1, hh]
    rw [if_neg (by simp), g1, Res.ok_bind, if_pos hall]
  · cases trips with
    | nil => exact Or.inl ⟨rfl, g3, g4⟩
    | cons a l =>
        have pa := hpos a (by simp)
        refine Or.inr ⟨?_, ?_, ?_, ?_⟩
        · rw [g3]
          rcases foldl_max_mem (fun t : Int × Int × K => t.1) (a :: l) 0 with h | ⟨t, ht, h⟩
          · have := b1.2 a (by simp)
            rw [h] at this
            omega
          · exact ⟨t, ht, h.symm⟩
        · rw [g3]; exact b1.2
        · rw [g4]
          rcases foldl_max_mem (fun t : Int × Int × K => t.2.1) (a :: l) 0 with h | ⟨t, ht, h⟩
          · have := b2.2 a (by simp)
            rw [h] at this
            omega
          · exact ⟨t, ht, h.symm⟩
        · rw [g4]; exact b2.2
  · intro i j
    rw [spEntry_sum, g2, List.nil_append, List.filter_map, List.map_map]
    congr 1
    have : ((fun t : Int × Int × K => decide (t.1 = (i : Int) ∧ t.2.1 = (j : Int))) ∘ fun t : Int × Int × K => (t.1 - 1, t.2.1 - 1, t.2.2)) =
        fun t : Int × Int × K => decide (t.1 = (i : Int) + 1 ∧ t.2.1 = (j : Int) + 1) := by
      funext t
      simp only [Function.comp, decide_eq_decide]
      omega
    rw [this]
    rfl

/-- **C73.** A first line without exactly four fields throws. -/
theorem C73_header [AddCommMonoid K] (nan : K) (num : List Char → Option K) (int : List Char → Option Int) (header : List (List Char))
    (lines : List (List Char)) (text : List Char) (ht : IsText (csvLine header :: lines) text) (h0 : header ≠ [])
    (hh : header.length ≠ 4) (hph : ∀ t ∈ header, Plain t) : parseSparse nan num int text = .throws := by
  obtain ⟨r, h1, h2⟩ := text_head ht
  have e1 : splitComma (csvLine header) = header := splitComma_line header h0 (fun t h => (hph t h).1)
  have hl : 0 < header.length := List.length_pos_iff.2 h0
  unfold parseSparse
  simp only [h1, Option.getD_some, e1]
  rw [if_pos (by omega)]

/-- Bug: in a sparse file an empty value field repeats the value of the previous line. -/
theorem C73_bug_stale_value (nan : K) (num : List Char → Option K) (int : List Char → Option Int) (s : SpSt K) (f0 f1 f2 : List Char)
    (r c : Int) (h0 : ',' ∉ f0) (h1 : ',' ∉ f1) (h2 : ',' ∉ f2) (hr : int (stripped f1) = some r) (hc : int (stripped f2) = some c)
    (hn : num [] = none) :
    ∃ s', spLine nan num int s (csvLine [f0, f1, f2, []]) = .ok s' ∧ s'.trip = s.trip ++ [(r - 1, c - 1, s.val)] := by
  have e := splitComma_line [f0, f1, f2, []] (by simp) (by
    intro t ht
    simp only [List.mem_cons, List.not_mem_nil, or_false] at ht
    rcases ht with rfl | rfl | rfl | rfl
    · exact h0
    · exact h1
    · exact h2
    · simp)
  have e6 : removeChars filter [] ∉ reserved := by decide +kernel
  have ht : token nan num [] (some s.val) = some s.val := by
    unfold token
    simp only [if_neg e6]
    have : removeChars filter [] = [] := rfl
    rw [this, hn]
  unfold spLine
  rw [e]
  simp only [removeChars_stripped, hr, hc, Option.getD_some, ht]
  exact ⟨_, rfl, rfl⟩

/-- Bug: a zero-based sparse file (row or column number 0) makes the reader build a triplet at a negative position, which is
undefined behaviour. -/
theorem C73_bug_zero_based : parseSparse (-1) natNum (fun t => (natNum t).map (·.num)) "\"\",i,j,x\n1,0,1,5\n".toList = .ub := by
  have h : (parseSparse (-1) natNum (fun t => (natNum t).map (·.num)) "\"\",i,j,x\n1,0,1,5\n".toList).bind (fun _ => Res.ok ()) = .ub := by
    decide +kernel
  cases e : parseSparse (-1) natNum (fun t => (natNum t).map (·.num)) "\"\",i,j,x\n1,0,1,5\n".toList with
  | ok r => rw [e] at h; cases h
  | throws => rw [e] at h; cases h
  | ub => rfl

example : ((parseSparse (-1) natNum (fun t => (natNum t).map (·.num)) "\"\",i,j,x\n1,2,1,5\n2,2,1,7\n3,1,3,NA".toList).bind
    fun r => Res.ok (r.1, r.2.1, r.2.2 1 0, r.2.2 0 2, r.2.2 0 0)) = Res.ok (2, 3, 12, -1, 0) := by decide +kernel

end Fdapde.IO
