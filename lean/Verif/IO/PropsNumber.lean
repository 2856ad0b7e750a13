import Verif.IO.LemmasNumber
import Verif.IO.PropsCsv
import Verif.Float.Round
/-!
# C157: numbers in text files
-/
namespace Fdapde.IO
open Fdapde.Fp

variable {K : Type}

/-! ### Every text is read the same way -/

/-- What a field gives to a cell that was not written before. -/
def cellOf (nan : K) (num : List Char → Option K) (t : List Char) : Option K :=
  if stripped t = "NA".toList ∨ stripped t = "NaN".toList ∨ stripped t = "nan".toList then some nan else num (stripped t)

theorem token_none (nan : K) (num : List Char → Option K) (t : List Char) : token nan num t none = cellOf nan num t := by
  unfold token cellOf reserved
  simp only [removeChars_stripped, List.mem_cons, List.not_mem_nil, or_false]
  split
  · rfl
  · cases num (stripped t) <;> rfl

/-- The cells of a line with `c` columns: one for each field after the first one, the others are not written. -/
def rowOf (nan : K) (num : List Char → Option K) (c : Nat) (fields : List (List Char)) : List (Option K) :=
  (fields.tail.map (cellOf nan num)) ++ List.replicate (c - fields.tail.length) none

theorem fill_any (nan : K) (num : List Char → Option K) (t0 : List Char) (ts : List (List Char)) (c : Nat) (m : List (List (Option K))) (i : Nat)
    (hm : m[i]? = some (List.replicate c none)) :
    ∀ j, j ≤ ts.length → j ≤ c → foldRes (fun m col => setCell m i (col - 1) (token nan num ((t0 :: ts).getD col []) (getCell m i (col - 1))))
      m ((List.range j).map (· + 1)) = .ok (m.set i ((ts.take j).map (cellOf nan num) ++ List.replicate (c - j) none)) := by
  have hi : i < m.length := by
    rw [List.getElem?_eq_some_iff] at hm
    exact hm.1
  intro j
  induction j with
  | zero =>
      intro _ _
      have : m.set i (List.replicate c none) = m := by
        rw [List.getElem?_eq_some_iff] at hm
        obtain ⟨h1, h2⟩ := hm
        rw [← h2, List.set_getElem_self]
      simp [foldRes_nil, this]
  | succ j ih =>
      intro hj hjc
      rw [List.range_succ, List.map_append, foldRes_append, ih (by omega) (by omega), Res.ok_bind]
      rw [List.map_cons, List.map_nil, foldRes_cons]
      have hget : (m.set i ((ts.take j).map (cellOf nan num) ++ List.replicate (c - j) none))[i]? =
          some ((ts.take j).map (cellOf nan num) ++ List.replicate (c - j) none) := by
        rw [List.getElem?_set_self hi]
      have hold : getCell (m.set i ((ts.take j).map (cellOf nan num) ++ List.replicate (c - j) none)) i (j + 1 - 1) = none := by
        unfold getCell
        rw [hget]
        have : ((ts.take j).map (cellOf nan num) ++ List.replicate (c - j) none)[j + 1 - 1]? = some none := by
          have e0 : j + 1 - 1 - ((ts.take j).map (cellOf nan num)).length = 0 := by simp; omega
          rw [List.getElem?_append_right (by simp), e0, show c - j = (c - (j + 1)) + 1 by omega, List.replicate_succ]
          rfl
        show (((ts.take j).map (cellOf nan num) ++ List.replicate (c - j) none)[j + 1 - 1]?).join = none
        rw [this]
        rfl
      have htok : token nan num ((t0 :: ts).getD (j + 1) []) none = cellOf nan num (ts[j]'(by omega)) := by
        have e : (t0 :: ts).getD (j + 1) [] = ts[j]'(by omega) := by
          simp [List.getD, List.getElem?_eq_getElem (by omega : j < ts.length)]
        rw [e, token_none]
      rw [hold, htok]
      have hset : setCell (m.set i ((ts.take j).map (cellOf nan num) ++ List.replicate (c - j) none)) i (j + 1 - 1) (cellOf nan num (ts[j]'(by omega))) =
          .ok (m.set i ((ts.take (j + 1)).map (cellOf nan num) ++ List.replicate (c - (j + 1)) none)) := by
        unfold setCell
        rw [hget]
        have hl : j + 1 - 1 < ((ts.take j).map (cellOf nan num) ++ List.replicate (c - j) none : List (Option K)).length := by
          simp
          omega
        show (if j + 1 - 1 < ((ts.take j).map (cellOf nan num) ++ List.replicate (c - j) none : List (Option K)).length then
          Res.ok ((m.set i _).set i _) else Res.ub) = _
        rw [if_pos hl, List.set_set]
        congr 2
        have e1 : List.replicate (c - j) (none : Option K) = none :: List.replicate (c - (j + 1)) none := by
          rw [show c - j = (c - (j + 1)) + 1 by omega, List.replicate_succ]
        rw [e1, List.set_append_right _ _ (by simp)]
        have e2 : j + 1 - 1 - ((ts.take j).map (cellOf nan num)).length = 0 := by simp; omega
        have e3 : ts.take (j + 1) = ts.take j ++ [ts[j]] := (List.take_concat_get' ts j (by omega)).symm
        rw [e2, List.set_cons_zero, e3, List.map_append, List.append_assoc]
        rfl
      rw [hset, Res.ok_bind, foldRes_nil]

theorem line_any (nan : K) (num : List Char → Option K) (fields : List (List Char)) (hne : fields ≠ []) (hp : ∀ t ∈ fields, ',' ∉ t) (c : Nat)
    (m : List (List (Option K))) (i : Nat) (hm : m[i]? = some (List.replicate c none)) :
    denseLine nan num m (i, csvLine fields) = if fields.length ≤ c + 1 then .ok (m.set i (rowOf nan num c fields)) else .ub := by
  obtain ⟨t0, ts, rfl⟩ := List.exists_cons_of_ne_nil hne
  unfold denseLine
  rw [splitComma_line _ hne hp]
  have e : (t0 :: ts).length - 1 = ts.length := by simp
  rw [e]
  split
  · rename_i h
    have hc : ts.length ≤ c := by simpa using h
    refine Eq.trans (fill_any nan num t0 ts c m i hm ts.length le_rfl hc) ?_
    simp [rowOf]
  · rename_i h
    have hc : c < ts.length := by simpa using h
    have h1 := fill_any nan num t0 ts c m i hm c hc.le le_rfl
    have e2 : (List.range ts.length).map (· + 1) = (List.range c).map (· + 1) ++ ((c + 1) :: ((List.range' (c + 1) (ts.length - (c + 1))).map (· + 1))) := by
      have : List.range ts.length = List.range c ++ c :: List.range' (c + 1) (ts.length - (c + 1)) := by
        rw [List.range_eq_range', List.range_eq_range', show ts.length = c + (ts.length - c) by omega, ← List.range'_append_1]
        congr 1
        rw [show ts.length - c = (ts.length - (c + 1)) + 1 by omega, zero_add, List.range'_succ]
        congr 2
        omega
      rw [this, List.map_append, List.map_cons]
    rw [e2, foldRes_append]
    refine Eq.trans (congrArg (· >>= _) h1) ?_
    rw [Res.ok_bind, foldRes_cons]
    have hi : i < m.length := by
      rw [List.getElem?_eq_some_iff] at hm
      exact hm.1
    have : ∀ v, setCell (m.set i ((ts.take c).map (cellOf nan num) ++ List.replicate (c - c) none)) i (c + 1 - 1) v = .ub := by
      intro v
      unfold setCell
      rw [List.getElem?_set_self hi]
      have : ¬ c + 1 - 1 < ((ts.take c).map (cellOf nan num) ++ List.replicate (c - c) none : List (Option K)).length := by
        simp
      exact if_neg this
    rw [this]
    rfl

theorem lines_any (nan : K) (num : List Char → Option K) (c : Nat) (data : List (List (List Char)))
    (hne : ∀ ts ∈ data, ts ≠ []) (hp : ∀ ts ∈ data, ∀ t ∈ ts, ',' ∉ t) :
    ∀ done : List (List (Option K)), foldRes (denseLine nan num) (done ++ List.replicate data.length (List.replicate c none))
      ((List.range' done.length data.length).zip (data.map csvLine)) =
        if ∀ ts ∈ data, ts.length ≤ c + 1 then .ok (done ++ data.map (rowOf nan num c)) else .ub := by
  induction data with
  | nil => intro done; simp [foldRes_nil]
  | cons ts data ih =>
      intro done
      rw [List.length_cons, List.range'_succ, List.map_cons, List.zip_cons_cons, foldRes_cons]
      have h := line_any nan num ts (hne _ (by simp)) (hp _ (by simp)) c (done ++ List.replicate (data.length + 1) (List.replicate c none)) done.length (by
        rw [List.getElem?_append_right (Nat.le_refl _)]
        simp)
      rw [h]
      by_cases hts : ts.length ≤ c + 1
      · rw [if_pos hts, Res.ok_bind]
        have e : (done ++ List.replicate (data.length + 1) (List.replicate c none)).set done.length (rowOf nan num c ts) =
            (done ++ [rowOf nan num c ts]) ++ List.replicate data.length (List.replicate c none) := by
          rw [List.set_append_right _ _ (Nat.le_refl _), Nat.sub_self, List.replicate_succ, List.set_cons_zero]
          simp
        rw [e]
        have := ih (fun t ht => hne t (by simp [ht])) (fun t ht => hp t (by simp [ht])) (done ++ [rowOf nan num c ts])
        rw [show (done ++ [rowOf nan num c ts]).length = done.length + 1 by simp] at this
        rw [this]
        simp [hts]
      · rw [if_neg hts, if_neg fun h => hts (h ts (by simp))]
        rfl

/-- **C157**, every text: the first line gives the number of columns, every other line a row; a field gives its value to its cell, cells without a field are not
written, and a line with more fields than the first one is undefined behaviour. -/
theorem C157_dense_any (nan : K) (num : List Char → Option K) (header : List (List Char)) (data : List (List (List Char))) (text : List Char)
    (ht : IsText (csvLine header :: data.map csvLine) text) (hh : header ≠ []) (hph : ∀ t ∈ header, Plain t) (hd : ∀ ts ∈ data, ts ≠ [])
    (hp : ∀ ts ∈ data, ∀ t ∈ ts, Plain t) :
    ((∀ ts ∈ data, ts.length ≤ header.length) →
      parseDense nan num text = .ok ⟨data.length, header.length - 1, data.map (rowOf nan num (header.length - 1))⟩) ∧
    ((∃ ts ∈ data, header.length < ts.length) → parseDense nan num text = .ub) := by
  obtain ⟨r, h1, h2⟩ := text_head ht
  have e1 : splitComma (csvLine header) = header := splitComma_line header hh (fun t h => (hph t h).1)
  have hl : 0 < header.length := List.length_pos_of_ne_nil hh
  have key := lines_any nan num (header.length - 1) data hd (fun ts h t h' => (hp ts h t h').1) []
  simp only [List.length_nil, List.nil_append, ← List.range_eq_range'] at key
  rw [parseDense_eq nan num text _ _ _ h1 h2, e1, List.length_map, key, show header.length - 1 + 1 = header.length by omega]
  constructor
  · intro h
    rw [if_pos h]
    rfl
  · rintro ⟨ts, hts, h⟩
    rw [if_neg fun h' => absurd (h' ts hts) (by omega)]
    rfl

/-- Every text that is not empty is of this form. -/
theorem C157_texts (text : List Char) (h : text ≠ []) : ∃ (header : List (List Char)) (data : List (List (List Char))),
    IsText (csvLine header :: data.map csvLine) text ∧ header ≠ [] ∧ (∀ t ∈ header, Plain t) ∧ (∀ ts ∈ data, ts ≠ []) ∧ ∀ ts ∈ data, ∀ t ∈ ts, Plain t := by
  have lines : ∀ (n : Nat) (text : List Char), text.length ≤ n → ∃ ls, IsText ls text ∧ (text ≠ [] → ls ≠ []) := by
    intro n
    induction n with
    | zero =>
      intro text ht
      have : text = [] := List.eq_nil_of_length_eq_zero (by omega)
      subst this
      exact ⟨[], .nil, fun h => absurd rfl h⟩
    | succ n ih =>
      intro text ht
      by_cases hn : '\n' ∈ text
      · obtain ⟨a, b, rfl, ha⟩ := List.append_of_mem hn |> fun _ => List.eq_append_cons_of_mem hn
        obtain ⟨ls, hls, -⟩ := ih b (by simp at ht; omega)
        exact ⟨a :: ls, .cons a ls b ha hls, fun _ => by simp⟩
      · by_cases h0 : text = []
        · subst h0
          exact ⟨[], .nil, fun h => absurd rfl h⟩
        · exact ⟨[text], .last text h0 hn, fun _ => by simp⟩
  have noNl : ∀ {ls : List (List Char)} {text : List Char}, IsText ls text → ∀ l ∈ ls, '\n' ∉ l := by
    intro ls text h
    induction h with
    | nil => intro l hl; simp at hl
    | last l _ hn => intro l' hl; simp at hl; rw [hl]; exact hn
    | cons l ls t hn _ ih =>
      intro l' hl
      rcases List.mem_cons.1 hl with rfl | hl
      · exact hn
      · exact ih l' hl
  have fields : ∀ l : List Char, '\n' ∉ l → ∃ fs, csvLine fs = l ∧ fs ≠ [] ∧ ∀ t ∈ fs, Plain t := by
    intro l hl
    obtain ⟨fs, -, h2, h3, h4⟩ := splitLoop_ok [','] (by simp) (l.length + 1) l (Nat.lt_succ_self _)
    refine ⟨fs, h3, h2, fun t ht => ⟨fun hc => h4 t ht ?_, fun hc => hl ?_⟩⟩
    · obtain ⟨a, b, e⟩ := List.append_of_mem hc
      exact ⟨a, b, by simp [e]⟩
    · rw [← h3]
      exact mem_intercalate ht hc
  obtain ⟨ls, h1, h2⟩ := lines _ text le_rfl
  have h3 := noNl h1
  obtain ⟨l, ls, rfl⟩ := List.exists_cons_of_ne_nil (h2 h)
  obtain ⟨header, e1, e2, e3⟩ := fields l (h3 l (by simp))
  have : ∃ data : List (List (List Char)), data.map csvLine = ls ∧ (∀ ts ∈ data, ts ≠ []) ∧ ∀ ts ∈ data, ∀ t ∈ ts, Plain t := by
    have h4 : ∀ l' ∈ ls, '\n' ∉ l' := fun l' hl => h3 l' (by simp [hl])
    clear h1 h2 h3
    induction ls with
    | nil => exact ⟨[], rfl, by simp, by simp⟩
    | cons l' ls ih =>
      obtain ⟨data, d1, d2, d3⟩ := ih fun l hl => h4 l (by simp [hl])
      obtain ⟨fs, f1, f2, f3⟩ := fields l' (h4 l' (by simp))
      refine ⟨fs :: data, by simp [f1, d1], ?_, ?_⟩
      · intro ts hts
        rcases List.mem_cons.1 hts with rfl | hts
        · exact f2
        · exact d2 ts hts
      · intro ts hts
        rcases List.mem_cons.1 hts with rfl | hts
        · exact f3
        · exact d3 ts hts
  obtain ⟨data, d1, d2, d3⟩ := this
  exact ⟨header, data, by rw [e1, d1]; exact h1, e2, e3, d2, d3⟩

/-- **C157 fails for blank lines**: an empty line between the others, or at the end of the file after the last newline, is counted as a row, of which no cell is
written. -/
theorem C157_bug_blank_line (nan : K) (num : List Char → Option K) (c : Nat) : rowOf nan num c [[]] = List.replicate c none := by
  simp [rowOf]

/-! ### Decimal numbers -/

/-- **C157**, decimal numbers: sign, digits, a point and digits, an exponent. -/
theorem C157_number {sg esg : List Char} {b eb : Bool} (hs : SignIs sg b) (hes : SignIs esg eb) (i f x : List Char) (hi : ∀ c ∈ i, c.isDigit = true)
    (hf : ∀ c ∈ f, c.isDigit = true) (hx : ∀ c ∈ x, c.isDigit = true) (hif : i ≠ []) (hxn : x ≠ []) (e : Char) (he : e = 'e' ∨ e = 'E')
    (rest : List Char) (hr : ∀ c ∈ rest.head?, c.isDigit = false) :
    number (sg ++ i ++ '.' :: f ++ e :: esg ++ x ++ rest) =
      some ((if b then -1 else 1) * (digitsVal (i ++ f) : ℚ) * (10 : ℚ) ^ ((if eb then -(digitsVal x : ℤ) else digitsVal x) - (f.length : ℤ))) ∧
    ((∀ c ∈ rest.head?, c ≠ 'e' ∧ c ≠ 'E') →
      number (sg ++ i ++ '.' :: f ++ rest) = some ((if b then -1 else 1) * (digitsVal (i ++ f) : ℚ) * (10 : ℚ) ^ (-(f.length : ℤ)))) ∧
    ((∀ c ∈ rest.head?, c ≠ 'e' ∧ c ≠ 'E' ∧ c ≠ '.') → number (sg ++ i ++ rest) = some ((if b then -1 else 1) * (digitsVal i : ℚ))) := by
  have hie : ¬ i ++ f = [] := by simp [hif]
  have hed : e.isDigit = false := by rcases he with rfl | rfl <;> decide
  have tail : ∀ r : List Char, (∀ c ∈ r.head?, c.isDigit = false) → number (sg ++ i ++ '.' :: f ++ r) =
      (exponentOf r).map fun q => (if b then -1 else 1) * (digitsVal (i ++ f) : ℚ) * (10 : ℚ) ^ (q - (f.length : ℤ)) := by
    intro r hr
    have h1 : signOf (sg ++ (i ++ ('.' :: f ++ r))) = (b, i ++ ('.' :: f ++ r)) := signOf_text hs (digit_head hi hif)
    have h2 := takeWhile_digits (x := i) (r := '.' :: f ++ r) hi (by simp)
    have h3 := takeWhile_digits (x := f) (r := r) hf hr
    have h4 : fractionOf ('.' :: f ++ r) = (f, r) := by
      show ((f ++ r).takeWhile Char.isDigit, (f ++ r).dropWhile Char.isDigit) = (f, r)
      rw [h3.1, h3.2]
    have e1 : sg ++ i ++ '.' :: f ++ r = sg ++ (i ++ ('.' :: f ++ r)) := by simp
    unfold number
    rw [e1, h1]
    simp only [h2.1, h2.2, h4, if_neg hie]
  refine ⟨?_, fun hr' => ?_, fun hr' => ?_⟩
  · have e1 : sg ++ i ++ '.' :: f ++ e :: esg ++ x ++ rest = sg ++ i ++ '.' :: f ++ (e :: (esg ++ (x ++ rest))) := by simp
    rw [e1, tail _ (by simp [hed])]
    have h1 : signOf (esg ++ (x ++ rest)) = (eb, x ++ rest) := signOf_text hes (digit_head hx hxn)
    have h2 := takeWhile_digits hx hr
    unfold exponentOf
    simp only [if_pos he, h1, h2.1, if_neg hxn]
    rfl
  · rw [tail _ hr]
    have : exponentOf rest = some 0 := by
      cases rest with
      | nil => rfl
      | cons c r =>
        have := hr' c (by simp)
        exact if_neg (by tauto)
    rw [this]
    simp
  · have h1 : signOf (sg ++ (i ++ rest)) = (b, i ++ rest) := signOf_text hs (digit_head hi hif)
    have h2 := takeWhile_digits hi hr
    have h4 : fractionOf rest = ([], rest) := by
      cases rest with
      | nil => rfl
      | cons c r =>
        have := hr' c (by simp)
        unfold fractionOf
        split
        · rename_i h; exact absurd (List.cons.inj h).1 this.2.2
        · rfl
    have h5 : exponentOf rest = some 0 := by
      cases rest with
      | nil => rfl
      | cons c r =>
        have := hr' c (by simp)
        exact if_neg (by tauto)
    unfold number
    rw [List.append_assoc, h1]
    simp only [h2.1, h2.2, h4, List.append_nil, if_neg hif, h5]
    simp

/-- Digits have the value they are written for. -/
theorem C157_digitText (n : Nat) : digitsVal (digitText n) = n := digitsVal_text n

theorem signIs_int (z : Int) : SignIs (if z < 0 then ['-'] else []) (decide (z < 0)) := by
  by_cases h : z < 0
  · rw [if_pos h, decide_eq_true h]; exact .minus
  · rw [if_neg h, decide_eq_false h]; exact .none

/-- **C157**, scientific notation. -/
theorem C157_scientific (neg : Bool) (m : Nat) (e : Int) : number (scientific neg m e) = some ((if neg then -1 else 1) * (m : ℚ) * (10 : ℚ) ^ e) := by
  have hd := digitText_digits m
  have hs : SignIs (if neg = true then ['-'] else []) neg := by cases neg; exacts [.none, .minus]
  set z := e + (((digitText m).drop 1).length : Int) with hz
  have h := (C157_number hs (signIs_int z) ((digitText m).take 1) ((digitText m).drop 1) (digitText z.natAbs) (fun c hc => hd c (List.mem_of_mem_take hc))
    (fun c hc => hd c (List.mem_of_mem_drop hc)) (digitText_digits _) (by
      intro h0
      have := digitText_ne m
      cases h1 : digitText m with
      | nil => exact this h1
      | cons a l => rw [h1] at h0; simp at h0) (digitText_ne _) 'e' (Or.inl rfl) [] (by simp)).1
  rw [List.take_append_drop, digitsVal_text, digitsVal_text, List.append_nil] at h
  have e1 : scientific neg m e = (if neg = true then ['-'] else []) ++ (digitText m).take 1 ++ '.' :: (digitText m).drop 1 ++
      'e' :: (if z < 0 then ['-'] else []) ++ digitText z.natAbs := by
    simp [scientific, intText, hz]
  rw [e1, h]
  congr 3
  by_cases h0 : z < 0
  · rw [decide_eq_true h0, if_pos rfl]
    omega
  · rw [decide_eq_false h0, if_neg Bool.false_ne_true]
    omega

/-! ### Doubles -/

theorem number_ne {t : List Char} {q : ℚ} (h : number t = some q) : ∃ c s, t = c :: s ∧ t.dropWhile isSpace = t := by
  cases t with
  | nil => exact absurd h (by simp [number, signOf, fractionOf])
  | cons c s =>
    refine ⟨c, s, rfl, ?_⟩
    by_cases hc : isSpace c = true
    · exfalso
      have hcs : c = ' ' ∨ c = '\t' ∨ c = '\n' ∨ c = '\r' ∨ c = Char.ofNat 11 ∨ c = Char.ofNat 12 := by
        unfold isSpace at hc
        simp only [Bool.or_eq_true, decide_eq_true_eq] at hc
        rcases hc with ((((h | h) | h) | h) | h) | h
        · exact Or.inl h
        · exact Or.inr (Or.inl h)
        · exact Or.inr (Or.inr (Or.inl h))
        · exact Or.inr (Or.inr (Or.inr (Or.inl h)))
        · exact Or.inr (Or.inr (Or.inr (Or.inr (Or.inl (by rw [← h, Char.ofNat_toNat])))))
        · exact Or.inr (Or.inr (Or.inr (Or.inr (Or.inr (by rw [← h, Char.ofNat_toNat])))))
      have : number (c :: s) = none := by
        rcases hcs with rfl | rfl | rfl | rfl | rfl | rfl <;> rfl
      rw [this] at h
      exact absurd h (by simp)
    · rw [List.dropWhile_cons_of_neg hc]

theorem readDouble_number {t : List Char} {q : ℚ} (h : number t = some q) : readDouble t = some (toDouble q) := by
  obtain ⟨c, s, rfl, h2⟩ := number_ne h
  unfold readDouble
  rw [h2]
  simp only
  rw [h]

/-- **C157**, doubles: every decimal number with at least 17 significant digits that is the nearest one with as many digits to a double is read as this double. -/
theorem C157_digits {x : ℝ} (hx : Format x) (hr : |x| < 2 ^ 1024) (t : List Char) (neg : Bool) (m : Nat) (e : ℤ) (hm : 10 ^ 16 ≤ m)
    (hq : number t = some ((if neg then -1 else 1) * (m : ℚ) * (10 : ℚ) ^ e)) (hn : |(if neg then -1 else 1) * (m : ℝ) * (10 : ℝ) ^ e - x| ≤ (10 : ℝ) ^ e / 2) :
    readDouble t = some (.fin x) := by
  rw [readDouble_number hq, toDouble]
  have hc : (((if neg then -1 else 1) * (m : ℚ) * (10 : ℚ) ^ e : ℚ) : ℝ) = (if neg then -1 else 1) * (m : ℝ) * (10 : ℝ) ^ e := by
    cases neg <;> push_cast <;> simp
  rw [hc]
  have he : (0 : ℝ) < (10 : ℝ) ^ e := by positivity
  have hm' : (10 : ℝ) ^ 16 ≤ m := by exact_mod_cast hm
  have habs : |(if neg then -1 else 1) * (m : ℝ) * (10 : ℝ) ^ e| = m * (10 : ℝ) ^ e := by
    cases neg <;> simp [abs_mul, abs_of_pos he]
  have hf := fit_of_close hx (q := (if neg then -1 else 1) * (m : ℝ) * (10 : ℝ) ^ e) (by
    rw [habs]
    refine hn.trans ?_
    have := mul_le_mul_of_nonneg_right hm' he.le
    norm_num at this ⊢
    linarith)
  rw [hf, if_pos hr]

/-- **C157**, writing: a double written with 17 significant digits is read again as the same double. -/
theorem C157_write17 {x : ℝ} (hx : Format x) (hr : |x| < 2 ^ 1024) : readDouble (write17 x) = some (.fin x) := by
  unfold write17
  by_cases h0 : x = 0
  · rw [if_pos h0, h0]
    have : number ['0'] = some 0 := by decide +kernel
    rw [readDouble_number this, toDouble]
    simp [fit_zero]
  · rw [if_neg h0]
    have hp : 0 < |x| := abs_pos.2 h0
    set e := Int.log 10 |x| - 16 with he
    have hpe : (0 : ℝ) < (10 : ℝ) ^ e := by positivity
    have h1 : (10 : ℝ) ^ (Int.log 10 |x|) ≤ |x| := Int.zpow_log_le_self (by norm_num) hp
    have e1 : (10 : ℝ) ^ (Int.log 10 |x|) = 10 ^ 16 * (10 : ℝ) ^ e := by
      rw [show Int.log 10 |x| = 16 + e by omega, zpow_add₀ (by norm_num)]
      norm_cast
    rw [e1] at h1
    have h2 : (10 : ℝ) ^ 16 ≤ |x| / (10 : ℝ) ^ e := (le_div_iff₀ hpe).2 h1
    have h3 : (10 : ℤ) ^ 16 ≤ nearest (|x| / (10 : ℝ) ^ e) := by
      have := nearest_mono h2
      rwa [show ((10 : ℝ) ^ 16) = ((10 ^ 16 : ℤ) : ℝ) by norm_num, nearest_int] at this
    have h4 : (((nearest (|x| / (10 : ℝ) ^ e)).toNat : ℕ) : ℤ) = nearest (|x| / (10 : ℝ) ^ e) := Int.toNat_of_nonneg (by linarith [h3, (by norm_num : (0 : ℤ) ≤ 10 ^ 16)])
    refine C157_digits hx hr _ (decide (x < 0)) _ e (by
      have : ((10 ^ 16 : ℕ) : ℤ) ≤ ((nearest (|x| / (10 : ℝ) ^ e)).toNat : ℕ) := by rw [h4]; exact_mod_cast h3
      exact_mod_cast this) (C157_scientific _ _ _) ?_
    have h5 : (((nearest (|x| / (10 : ℝ) ^ e)).toNat : ℕ) : ℝ) = (nearest (|x| / (10 : ℝ) ^ e) : ℝ) := by
      exact_mod_cast congrArg (Int.cast (R := ℝ)) h4
    rw [h5]
    have h6 := nearest_err (|x| / (10 : ℝ) ^ e)
    have h7 : abs ((nearest (|x| / (10 : ℝ) ^ e) : ℝ) * (10 : ℝ) ^ e - |x|) ≤ (10 : ℝ) ^ e / 2 := by
      have : (nearest (|x| / (10 : ℝ) ^ e) : ℝ) * (10 : ℝ) ^ e - |x| = ((nearest (|x| / (10 : ℝ) ^ e) : ℝ) - |x| / (10 : ℝ) ^ e) * (10 : ℝ) ^ e := by
        field_simp
      rw [this, abs_mul, abs_of_pos hpe]
      nlinarith
    by_cases hneg : x < 0
    · simp only [decide_eq_true hneg, if_true]
      rw [abs_of_neg hneg] at h7 ⊢
      rw [show (-1 : ℝ) * (nearest (-x / (10 : ℝ) ^ e) : ℝ) * (10 : ℝ) ^ e - x = -((nearest (-x / (10 : ℝ) ^ e) : ℝ) * (10 : ℝ) ^ e - -x) by ring, abs_neg]
      exact h7
    · simp only [decide_eq_false hneg, Bool.false_eq_true, if_false]
      rw [abs_of_nonneg (not_lt.1 hneg)] at h7 ⊢
      rw [one_mul]
      exact h7

/-! ### Files -/

/-- The characters of a number. -/
def Numeral (c : Char) : Prop := c.isDigit = true ∨ c = '-' ∨ c = '.' ∨ c = 'e'

theorem write17_chars (x : ℝ) : ∀ c ∈ write17 x, Numeral c := by
  have hd : ∀ n, ∀ c ∈ digitText n, Numeral c := fun n c hc => Or.inl (digitText_digits n c hc)
  have hs : ∀ (p : Prop) [Decidable p], ∀ c ∈ (if p then ['-'] else []), Numeral c := by
    intro p _ c hc
    split at hc
    · rw [List.mem_singleton] at hc; exact Or.inr (Or.inl hc)
    · simp at hc
  unfold write17
  split
  · intro c hc
    rw [List.mem_singleton] at hc
    rw [hc]
    exact Or.inl (by decide)
  · intro c hc
    unfold scientific intText at hc
    simp only [List.mem_append, List.mem_cons] at hc
    rcases hc with ((hc | hc) | rfl | hc) | rfl | hc | hc
    · exact hs _ c hc
    · exact hd _ c (List.mem_of_mem_take hc)
    · exact Or.inr (Or.inr (Or.inl rfl))
    · exact hd _ c (List.mem_of_mem_drop hc)
    · exact Or.inr (Or.inr (Or.inr rfl))
    · exact hs _ c hc
    · exact hd _ c hc

theorem numerals_plain {t : List Char} (h : ∀ c ∈ t, Numeral c) : Plain t ∧ stripped t = t ∧ t ≠ "NA".toList ∧ t ≠ "NaN".toList ∧ t ≠ "nan".toList := by
  have no : ∀ c, ¬ Numeral c → c ∉ t := fun c hc hm => hc (h c hm)
  refine ⟨⟨no _ (by unfold Numeral; decide), no _ (by unfold Numeral; decide)⟩, ?_, ?_, ?_, ?_⟩
  · unfold stripped
    rw [List.filter_eq_self]
    intro c hc
    have h1 := no ' ' (by unfold Numeral; decide)
    have h2 := no '"' (by unfold Numeral; decide)
    have : c ≠ ' ' ∧ c ≠ '"' := ⟨fun e => h1 (e ▸ hc), fun e => h2 (e ▸ hc)⟩
    simpa using this
  · rintro rfl; exact no 'N' (by unfold Numeral; decide) (by decide)
  · rintro rfl; exact no 'N' (by unfold Numeral; decide) (by decide)
  · rintro rfl; exact no 'n' (by unfold Numeral; decide) (by decide)

/-- Doubles that a file keeps: finite ones and not-a-number. -/
def Savable : Dbl → Prop
  | .fin x => Format x ∧ |x| < 2 ^ 1024
  | .inf _ => False
  | .nan => True

theorem writeDouble_cell {d : Dbl} (h : Savable d) : Plain (writeDouble d) ∧ CellIs Dbl.nan readDouble (writeDouble d) d := by
  cases d with
  | fin x =>
    obtain ⟨h1, h2, h3, h4, h5⟩ := numerals_plain (write17_chars x)
    refine ⟨h1, ?_⟩
    show CellIs Dbl.nan readDouble (write17 x) (.fin x)
    unfold CellIs
    rw [h2, if_neg (by tauto)]
    exact C157_write17 h.1 h.2
  | inf b => exact absurd h id
  | nan => exact ⟨⟨by decide, by decide⟩, by unfold CellIs; rw [if_pos (Or.inr (Or.inl (by decide)))]⟩

/-- **C157**, files: a matrix of finite doubles and not-a-numbers, written row by row with a label for every row and 17 significant digits, is read back exactly. -/
theorem C157_file (c : Nat) (header : List (List Char)) (hh : header.length = c + 1) (hph : ∀ t ∈ header, Plain t) (rows : List (List Char × List Dbl))
    (hl : ∀ r ∈ rows, Plain r.1) (hc : ∀ r ∈ rows, r.2.length = c) (hv : ∀ r ∈ rows, ∀ d ∈ r.2, Savable d) (text : List Char)
    (ht : IsText (csvLine header :: rows.map fun r => csvLine (r.1 :: r.2.map writeDouble)) text) :
    parseDense Dbl.nan readDouble text = .ok ⟨rows.length, c, rows.map fun r => r.2.map some⟩ := by
  have := C72_dense Dbl.nan readDouble c header (rows.map fun r => r.1 :: r.2.map writeDouble) (rows.map fun r => r.2) text
    (by rw [List.map_map]; exact ht) hh hph ?_ ?_ ?_
  · rw [this, List.length_map, List.map_map]
    rfl
  · intro ts hts t htt
    obtain ⟨r, hr, rfl⟩ := List.mem_map.1 hts
    rcases List.mem_cons.1 htt with rfl | htt
    · exact hl r hr
    · obtain ⟨d, hd, rfl⟩ := List.mem_map.1 htt
      exact (writeDouble_cell (hv r hr d hd)).1
  · intro vs hvs
    obtain ⟨r, hr, rfl⟩ := List.mem_map.1 hvs
    exact hc r hr
  · rw [List.forall₂_map_left_iff, List.forall₂_map_right_iff, List.forall₂_same]
    intro r hr
    refine ⟨_, _, rfl, ?_⟩
    rw [List.forall₂_map_left_iff, List.forall₂_same]
    exact fun d hd => (writeDouble_cell (hv r hr d hd)).2

/-! ### Where it fails -/

/-- **C157 fails for words**: a field that does not start with a digit, a sign, a point or white space, and is not one of the three markers, is read as zero, without
a warning: `Inf`, `null`, `N/A`, `#N/A`, `missing`. -/
theorem C157_bug_word (c : Char) (s : List Char) (hd : c.isDigit = false) (h1 : c ≠ '+') (h2 : c ≠ '-') (h3 : c ≠ '.') (h4 : isSpace c = false) :
    readDouble (c :: s) = some (.fin 0) := by
  have hs : signOf (c :: s) = (false, c :: s) := by
    have := signOf_text SignIs.none (r := c :: s) (by intro c' hc; have : c = c' := by simpa using hc
                                                      subst this; exact ⟨h1, h2⟩)
    simpa using this
  have hf : fractionOf (c :: s) = ([], c :: s) := by
    unfold fractionOf
    split
    · rename_i h; exact absurd (List.cons.inj h).1 h3
    · rfl
  have hn : number (c :: s) = none := by
    unfold number
    rw [hs]
    simp [hd, hf]
  unfold readDouble
  rw [List.dropWhile_cons_of_neg (by simp [h4])]
  simp only
  rw [hn]

/-- Infinite values are written as words, or as a sign and a word, and read as zero. -/
theorem C157_bug_infinite (b : Bool) : readDouble (writeDouble (.inf b)) = some (.fin 0) := by
  cases b
  · exact C157_bug_word 'I' _ (by decide) (by decide) (by decide) (by decide) (by decide)
  · have h1 : ("-Inf".toList).dropWhile isSpace = '-' :: "Inf".toList := by decide
    have h2 : number ('-' :: "Inf".toList) = none := by decide +kernel
    show readDouble "-Inf".toList = _
    unfold readDouble
    rw [h1]
    simp only
    rw [h2]

/-- **C157 fails for numbers out of range**: they are read as the largest double, and are not infinite. -/
theorem C157_bug_overflow (t : List Char) (q : ℚ) (h : number t = some q) (hq : (2 : ℝ) ^ 1024 ≤ q) : readDouble t = some (.fin largest) := by
  have h1 : (2 : ℝ) ^ 1024 ≤ fit q := by
    have h2 := fit_mono hq
    have h3 : fit ((2 : ℝ) ^ 1024) = (2 : ℝ) ^ 1024 := by
      have := fit_format (format_zpow (e := 1024) (by norm_num))
      rwa [show ((2 : ℝ) ^ (1024 : ℤ)) = (2 : ℝ) ^ 1024 from zpow_natCast 2 1024] at this
    rwa [h3] at h2
  have hp : (0 : ℝ) < (2 : ℝ) ^ 1024 := by positivity
  rw [readDouble_number h, toDouble, if_neg (by rw [not_lt]; exact h1.trans (le_abs_self _)), if_neg (by rw [not_lt]; exact hp.le.trans hq)]

/-- **C157 fails for 16 digits**: the number with 16 significant digits nearest to the double after 1 is 1, and is read as 1. -/
theorem C157_bug_digits : Format (1 + 2⁻¹ ^ 52) ∧ |(1 : ℝ) - (1 + 2⁻¹ ^ 52)| ≤ (10 : ℝ) ^ (-15 : ℤ) / 2 ∧ number "1.000000000000000".toList = some 1 ∧
    readDouble "1.000000000000000".toList = some (.fin 1) ∧ (1 : ℝ) ≠ 1 + 2⁻¹ ^ 52 := by
  have hn : number "1.000000000000000".toList = some 1 := by decide +kernel
  refine ⟨⟨2 ^ 52 + 1, -52, by norm_num, by norm_num, by norm_num⟩, by norm_num [abs_of_neg], hn, ?_, by norm_num⟩
  rw [readDouble_number hn, toDouble]
  have : fit ((1 : ℚ) : ℝ) = 1 := by
    rw [Rat.cast_one]
    exact fit_format ⟨1, 0, by norm_num, by norm_num, by norm_num⟩
  rw [this, if_pos]
  rw [abs_one]
  exact one_lt_pow₀ (by norm_num) (by norm_num)

/-! ### Indices -/

/-- **C157**, indices of sparse files: integers of 64 bits are read as they are written, whatever follows that is not a digit. -/
theorem C157_index (z : Int) (h : -2 ^ 63 ≤ z ∧ z < 2 ^ 63) (rest : List Char) (hr : ∀ c ∈ rest.head?, c.isDigit = false) :
    readIndex (intText z ++ rest) = some z := by
  have hd := digitText_digits z.natAbs
  have hsg := signOf_text (signIs_int z) (digit_head (r := rest) hd (digitText_ne _))
  have htw := takeWhile_digits hd hr
  have e1 : intText z ++ rest = (if z < 0 then ['-'] else []) ++ (digitText z.natAbs ++ rest) := by simp [intText]
  have hsp : (intText z ++ rest).dropWhile isSpace = intText z ++ rest := by
    rw [e1]
    by_cases hz : z < 0
    · rw [if_pos hz]
      rfl
    · rw [if_neg hz, List.nil_append]
      obtain ⟨c, l, hc⟩ := List.exists_cons_of_ne_nil (digitText_ne z.natAbs)
      rw [hc, List.cons_append]
      refine List.dropWhile_cons_of_neg ?_
      have : c.isDigit = true := hd c (by rw [hc]; simp)
      intro hs
      have hn : c.toNat < 48 := by
        unfold isSpace at hs
        simp only [Bool.or_eq_true, decide_eq_true_eq] at hs
        rcases hs with ((((h | h) | h) | h) | h) | h
        · rw [h]; decide
        · rw [h]; decide
        · rw [h]; decide
        · rw [h]; decide
        · omega
        · omega
      have h48 : 48 ≤ c.toNat := by
        unfold Char.isDigit at this
        simp only [Bool.and_eq_true, decide_eq_true_eq] at this
        exact this.1
      omega
  have hne : intText z ++ rest ≠ [] := by
    unfold intText
    simp [digitText_ne]
  obtain ⟨c, l, hcl⟩ := List.exists_cons_of_ne_nil hne
  unfold readIndex
  rw [hsp, hcl]
  simp only
  rw [← hcl, e1, hsg]
  simp only
  rw [htw.1, digitsVal_text]
  congr 1
  by_cases hz : z < 0
  · rw [decide_eq_true hz, if_pos rfl]
    omega
  · rw [decide_eq_false hz, if_neg Bool.false_ne_true]
    omega

/-! ### Examples -/

example : number "-12.5e-1,".toList = some (-5 / 4) ∧ number "1.e2".toList = some 100 ∧ number ".5".toList = some (1 / 2) ∧ number "7abc".toList = some 7 ∧ number "1e".toList = none := by
  decide +kernel

example : scientific true 12500000000000000 (-15) = "-1.2500000000000000e1".toList := by decide +kernel

example : readIndex "42\r".toList = some 42 ∧ readIndex "-9223372036854775809".toList = some (-2 ^ 63) ∧ readIndex "x".toList = some 0 := by decide +kernel

/-- A file with a third and a not-a-number. -/
example (t : List Char) (ht : IsText [csvLine [[], "a".toList, "b".toList], csvLine ("1".toList :: [Dbl.fin (fit (1 / 3)), Dbl.nan].map writeDouble)] t) :
    parseDense Dbl.nan readDouble t = .ok ⟨1, 2, [[some (.fin (fit (1 / 3))), some .nan]]⟩ := by
  refine C157_file 2 [[], "a".toList, "b".toList] rfl (by unfold Plain; decide) [("1".toList, [Dbl.fin (fit (1 / 3)), Dbl.nan])] ?_ ?_ ?_ t ht
  · intro r hr
    rw [List.mem_singleton] at hr
    subst hr
    exact ⟨by decide, by decide⟩
  · intro r hr
    rw [List.mem_singleton] at hr
    subst hr
    rfl
  · intro r hr d hd
    rw [List.mem_singleton] at hr
    subst hr
    have : d = Dbl.fin (fit (1 / 3)) ∨ d = Dbl.nan := by simpa using hd
    rcases this with rfl | rfl
    · refine ⟨fit_isFormat _, ?_⟩
      rw [abs_of_nonneg (fit_nonneg (by norm_num))]
      have h1 : fit (1 / 3) ≤ fit 1 := fit_mono (by norm_num)
      have h2 : fit 1 = 1 := fit_format ⟨1, 0, by norm_num, by norm_num, by norm_num⟩
      exact lt_of_le_of_lt (h1.trans_eq h2) (one_lt_pow₀ (by norm_num) (by norm_num))
    · trivial

end Fdapde.IO
