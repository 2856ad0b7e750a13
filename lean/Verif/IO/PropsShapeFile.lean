import Verif.IO.ShapeFile
import Verif.IO.CsvLemmas
import Verif.IO.PropsShp
import Verif.IO.PropsDbf
/- C118: opening a folder with a shapefile. -/
namespace Fdapde.IO

theorem findFrom_append (pat p s : List Char) :
    findFrom pat (p ++ s) p.length = match find pat s with
      | some k => p.length + k
      | none => npos := by
  unfold findFrom
  rw [if_pos (by simp), List.drop_left]
  cases find pat s <;> rfl

/-- The scan for the last slash. -/
theorem nameStart_spec (name : List Char) (hn : '/' ∉ name) : ∀ (comps : List (List Char)) (pre : List Char) (k : Nat),
    (∀ c ∈ comps, '/' ∉ c) → comps.length < k →
    (pre ++ ((comps.map fun c => c ++ ['/']).flatten ++ name)).length < npos →
    nameStart (pre ++ ((comps.map fun c => c ++ ['/']).flatten ++ name)) k pre.length =
      some (pre.length + (comps.map fun c => c ++ ['/']).flatten.length) := by
  intro comps
  induction comps with
  | nil =>
    intro pre k _ hk hl
    obtain ⟨k, rfl⟩ : ∃ j, k = j + 1 := ⟨k - 1, by simp at hk; omega⟩
    rw [List.map_nil, List.flatten_nil, List.nil_append, nameStart, findFrom_append, find_char_none hn]
    simp
  | cons c comps ih =>
    intro pre k hc hk hl
    obtain ⟨k, rfl⟩ : ∃ j, k = j + 1 := ⟨k - 1, by simp at hk; omega⟩
    have e : pre ++ (((c :: comps).map fun c => c ++ ['/']).flatten ++ name) =
        (pre ++ (c ++ ['/'])) ++ ((comps.map fun c => c ++ ['/']).flatten ++ name) := by simp
    have hf : findFrom ['/'] (pre ++ (((c :: comps).map fun c => c ++ ['/']).flatten ++ name)) pre.length = pre.length + c.length := by
      rw [findFrom_append]
      have : ((c :: comps).map fun c => c ++ ['/']).flatten ++ name = c ++ '/' :: ((comps.map fun c => c ++ ['/']).flatten ++ name) := by simp
      rw [this, find_char_mem (hc c (by simp))]
    have hlen : pre.length + c.length < npos := by
      rw [e] at hl
      simp only [List.length_append, List.length_cons, List.length_nil] at hl
      omega
    rw [nameStart, hf, if_neg (by omega)]
    have := ih (pre ++ (c ++ ['/'])) k (fun d hd => hc d (by simp [hd])) (by simp at hk; omega) (by rw [← e]; exact hl)
    rw [← e] at this
    have hl2 : (pre ++ (c ++ ['/'])).length = pre.length + c.length + 1 := by simp [Nat.add_assoc]
    rw [hl2] at this
    rw [this]
    simp
    omega

/-- C118: the name of the parts is the last component of the path of the folder. -/
theorem C118_name (comps : List (List Char)) (name : List Char) (hc : ∀ c ∈ comps, '/' ∉ c) (hn : '/' ∉ name)
    (hl : ((comps.map fun c => c ++ ['/']).flatten ++ name).length < npos) :
    fileName ((comps.map fun c => c ++ ['/']).flatten ++ name) = some (.ok name) := by
  have hk : comps.length ≤ (comps.map fun c => c ++ ['/']).flatten.length := by
    clear hc hl
    induction comps with
    | nil => simp
    | cons c cs ih => simp only [List.map_cons, List.flatten_cons, List.length_append, List.length_cons, List.length_nil]; omega
  have := nameStart_spec name hn comps [] (((comps.map fun c => c ++ ['/']).flatten ++ name).length + 1) hc
    (by rw [List.length_append]; omega) hl
  rw [fileName]
  simp only [List.nil_append, List.length_nil, Nat.zero_add] at this
  rw [this, Option.map_some, substr, if_pos (by simp), List.drop_left]
  congr 2
  exact List.take_of_length_le (by rw [List.length_append] at hl; omega)

/-- C118: the constructor reads `folder/name.shp`, `folder/name.dbf` and `folder/name.prj`, and what it holds is what the readers give for
these files; a file which is missing leaves the part empty. -/
theorem C118_open (fs : Files) (comps : List (List Char)) (name folder : List Char) (hc : ∀ c ∈ comps, '/' ∉ c) (hn : '/' ∉ name)
    (hf : folder = (comps.map fun c => c ++ ['/']).flatten ++ name) (hl : folder.length < npos)
    (shp : List Byte) (dbf : List Byte) (s : ShpFile) (d : Dbf) (g : List Char)
    (h1 : fs.bin (folder ++ "/".toList ++ name ++ ".shp".toList) = some shp) (h2 : shpReader shp = some (.ok s))
    (h3 : fs.bin (folder ++ "/".toList ++ name ++ ".dbf".toList) = some dbf) (h4 : dbfReader dbf = .ok d)
    (h5 : (fs.text (folder ++ "/".toList ++ name ++ ".prj".toList) = none ∧ g = "UNDEFINED".toList) ∨
      ∃ t, fs.text (folder ++ "/".toList ++ name ++ ".prj".toList) = some t ∧ gcsFile t = .ok g) :
    openShapeFile fs folder = some (.ok ⟨folder, some s, some d, g⟩) := by
  have p : ∀ ext : List Char, partPath folder name ext = folder ++ "/".toList ++ name ++ ('.' :: ext) := by
    intro ext
    have : "/".toList = ['/'] := rfl
    rw [this]
    simp [partPath]
  have hname : fileName folder = some (.ok name) := by rw [hf]; exact C118_name comps name hc hn (by rw [← hf]; exact hl)
  rw [openShapeFile, hname, Option.bind_some]
  have e1 : load shpReader (fs.bin (partPath folder name "shp".toList)) = some (.ok (some s)) := by
    rw [p]
    have : ('.' :: "shp".toList) = ".shp".toList := rfl
    rw [this, h1, load, h2]; rfl
  have e2 : load (fun b => some (dbfReader b)) (fs.bin (partPath folder name "dbf".toList)) = some (.ok (some d)) := by
    rw [p]
    have : ('.' :: "dbf".toList) = ".dbf".toList := rfl
    rw [this, h3, load, h4]; rfl
  have e3 : loadGcs (fs.text (partPath folder name "prj".toList)) = .ok g := by
    rw [p]
    have : ('.' :: "prj".toList) = ".prj".toList := rfl
    rw [this]
    rcases h5 with ⟨h, rfl⟩ | ⟨t, h, h'⟩
    · rw [h]; rfl
    · rw [h]; exact h'
  change openParts fs folder name = _
  rw [openParts, e1, e2, Option.bind_some, Option.map_some, Res.ok_bind, Res.ok_bind, e3]
  rfl

/-- C118: the coordinate system is the quoted text after the first `GEOGCS[`. -/
theorem C118_gcs (pre name rest : List Char) (hp : ∀ k < pre.length, ¬ "GEOGCS".toList <+: (pre ++ "GEOGCS[\"".toList ++ name ++ '"' :: rest).drop k)
    (hn : '"' ∉ name) (hl : (pre ++ "GEOGCS[\"".toList ++ name ++ '"' :: rest).length < npos) :
    gcsOf (pre ++ "GEOGCS[\"".toList ++ name ++ '"' :: rest) = .ok name := by
  set line := pre ++ "GEOGCS[\"".toList ++ name ++ '"' :: rest with hline
  have hd : line.drop pre.length = "GEOGCS".toList ++ ("[\"".toList ++ (name ++ '"' :: rest)) := by
    have : "GEOGCS[\"".toList = "GEOGCS".toList ++ "[\"".toList := rfl
    rw [hline, this]
    simp only [List.append_assoc]
    rw [List.drop_left]
  have h1 : findFrom "GEOGCS".toList line 0 = pre.length := by
    unfold findFrom
    rw [if_pos (Nat.zero_le _), List.drop_zero]
    cases h : find "GEOGCS".toList line with
    | none =>
      exact absurd (by rw [hd]; exact List.prefix_append _ _) (find_none h pre.length)
    | some j =>
      obtain ⟨_, h2, h3⟩ := find_some h
      simp only [Nat.zero_add]
      rcases Nat.lt_trichotomy j pre.length with h4 | h4 | h4
      · exact absurd h2 (hp j h4)
      · exact h4
      · exact absurd (by rw [hd]; exact List.prefix_append _ _) (h3 _ h4)
  have hlen : line.length = pre.length + 8 + name.length + 1 + rest.length := by
    rw [hline]
    simp only [List.length_append, List.length_cons]
    have : "GEOGCS[\"".toList.length = 8 := rfl
    omega
  unfold npos at hl
  have h8 : "GEOGCS[\"".toList.length = 8 := rfl
  have hi : (findFrom "GEOGCS".toList line 0 + "GEOGCS[\"".toList.length) % 2 ^ 64 = pre.length + 8 := by
    rw [h1, h8, Nat.mod_eq_of_lt (by omega)]
  have h2 : findFrom ['"'] line (pre.length + 8) = pre.length + 8 + name.length := by
    have e : line = (pre ++ "GEOGCS[\"".toList) ++ (name ++ '"' :: rest) := by rw [hline]; simp
    have el : (pre ++ "GEOGCS[\"".toList).length = pre.length + 8 := by rw [List.length_append, h8]
    rw [e, ← el, findFrom_append, find_char_mem hn]
  unfold gcsOf
  simp only
  rw [hi, h2, substr, if_pos (by omega)]
  have h3 : (pre.length + 8 + name.length + 2 ^ 64 - (pre.length + 8)) % 2 ^ 64 = name.length := by omega
  rw [h3]
  have e : line = (pre ++ "GEOGCS[\"".toList) ++ (name ++ '"' :: rest) := by rw [hline]; simp
  have el : (pre ++ "GEOGCS[\"".toList).length = pre.length + 8 := by rw [List.length_append, h8]
  rw [e, ← el, List.drop_left, List.take_left]

/-- C118: printing shows the kind of the records (without z and m), their number, the bounding box and the fields of the table; the printed
size is twice the declared length of the file in bytes. -/
theorem C118_print_partial (f : ShapeFile) (s : ShpFile) (d : Dbf) (hs : f.shp = some s) (hd : f.dbf = some d) (hf : d.fields ≠ [])
    (h0 : 0 ≤ s.header.fileLength) (hl : s.header.fileLength < 2 ^ 30) :
    ∃ p, f.print = .ok p ∧ p.nRecords = s.points.length + s.polylines.length + s.polygons.length + s.multipoints.length ∧
      p.bbox = s.header.bbox.take 4 ∧ p.fields = d.fields.map (fun x => (x.name, x.type)) ∧ p.fileSize = 2 * s.header.fileLength ∧
      (s.header.shapeType = 1 → p.shapeType = "POINT".toList) ∧ (s.header.shapeType = 3 → p.shapeType = "POLYLINE".toList) ∧
      (s.header.shapeType = 5 → p.shapeType = "POLYGON".toList) ∧ (s.header.shapeType = 8 → p.shapeType = "MULTIPOINT".toList) := by
  have hp : printFields d.descriptors = .ok (d.fields.map (fun x => (x.name, x.type))) := by
    unfold printFields
    rw [if_neg (by simpa [Dbf.descriptors] using hf)]
    rfl
  refine ⟨⟨typeName s.header.shapeType, s.header.fileLength * 2, s.nRecords, s.header.bbox.take 4, d.fields.map (fun x => (x.name, x.type))⟩,
    ?_, rfl, rfl, rfl, Int.mul_comm _ _, ?_⟩
  · unfold ShapeFile.print
    rw [hs]
    simp only
    have hl : f.fieldList = d.descriptors := by unfold ShapeFile.fieldList; rw [hd]
    rw [if_pos (by omega), hl, hp, Res.map_ok]
  · refine ⟨?_, ?_, ?_, ?_⟩ <;> intro h <;> (change typeName s.header.shapeType = _; rw [h]; rfl)

/-- Opening a folder whose path ends with a slash looks for files with an empty name: `data/roads/` reads `data/roads//.shp`. -/
theorem C118_bug_trailing_slash (comps : List (List Char)) (hc : ∀ c ∈ comps, '/' ∉ c)
    (hl : ((comps.map fun c => c ++ ['/']).flatten).length < npos) :
    fileName ((comps.map fun c => c ++ ['/']).flatten) = some (.ok []) := by
  have := C118_name comps [] hc (by simp) (by simpa using hl)
  simpa using this

/-- A `.prj` file whose first line does not contain `GEOGCS` and is shorter than seven characters (for instance an empty file) makes the
constructor throw `std::out_of_range`: `npos + 8` wraps to 7, a position beyond the end of the line. -/
theorem C118_bug_prj (line : List Char) (h : find "GEOGCS".toList line = none) (hl : line.length < 7) : gcsOf line = .throws := by
  have h1 : findFrom "GEOGCS".toList line 0 = npos := by
    unfold findFrom
    rw [if_pos (Nat.zero_le _), List.drop_zero, h]
  have h8 : "GEOGCS[\"".toList.length = 8 := rfl
  have hi : (findFrom "GEOGCS".toList line 0 + "GEOGCS[\"".toList.length) % 2 ^ 64 = 7 := by
    rw [h1, h8]; rfl
  unfold gcsOf
  simp only
  rw [hi, substr, if_neg (by omega)]

/-- Printing a shapefile shows twice the size of the file: the length in the header is converted from 16-bit words to bytes when it is
read, and multiplied by two again.  For a well-formed file of points. -/
theorem C118_bug_file_size (d : Dim) (box : List F64) (hbox : box.length = 8) (records : List (Int × Pt))
    (hn : ∀ r ∈ records, Fits 32 r.1) (hlen : 100 + (encBody (d.code 1) (encPoint d) records).length < 2 ^ 30) (folder g : List Char)
    (t : Dbf) (ht : t.fields ≠ []) :
    ∃ s p, shpReader (encFile (d.code 1) box (encBody (d.code 1) (encPoint d) records)) = some (.ok s) ∧
      ShapeFile.print ⟨folder, some s, some t, g⟩ = .ok p ∧
      p.fileSize = 2 * ((100 + (encBody (d.code 1) (encPoint d) records).length : Nat) : Int) := by
  have h := C75_points d box hbox records [] hn (by omega)
  rw [List.append_nil] at h
  obtain ⟨p, e, _, _, _, hp, _⟩ := C118_print_partial
    ⟨folder, some ⟨fileHeader (d.code 1) box (encBody (d.code 1) (encPoint d) records), records.map (pointOf d), [], [], []⟩, some t, g⟩
    _ t rfl rfl ht (by simp [fileHeader]; omega) (by simp [fileHeader]; omega)
  refine ⟨_, p, h, e, ?_⟩
  rw [hp]
  simp [fileHeader]

/-- Printing a shapefile whose table has no fields (or is missing) reads outside of the vector of the fields. -/
theorem C118_bug_no_fields (f : ShapeFile) (h : f.dbf = none ∨ ∃ d, f.dbf = some d ∧ d.fields = []) : f.print = .ub := by
  have : printFields f.fieldList = .ub := by
    unfold ShapeFile.fieldList
    rcases h with h | ⟨d, h, h2⟩
    · rw [h]; rfl
    · rw [h]; simp [Dbf.descriptors, h2, printFields]
  unfold ShapeFile.print
  cases f.shp with
  | none => rfl
  | some s =>
    simp only
    split_ifs
    · rw [this]; rfl
    · rfl

/-- The kind of records with z or m is printed as an empty string. -/
theorem C118_bug_type_name (d : Dim) (base : Int) (hb : base = 1 ∨ base = 3 ∨ base = 5 ∨ base = 8) (hd : d ≠ .xy) : typeName (d.code base) = [] := by
  rcases hb with rfl | rfl | rfl | rfl <;> cases d <;> first | exact absurd rfl hd | decide

/-- The size of the file is doubled in a 32 bit integer: printing a shapefile whose header declares at least 2^30, or less than -2^30, is
undefined.  The header counts 16-bit words, so that files of 2 GB are enough. -/
theorem C118_bug_print_overflow (f : ShapeFile) (s : ShpFile) (hs : f.shp = some s) (h : 2 ^ 30 ≤ s.header.fileLength ∨ s.header.fileLength < -2 ^ 30) :
    f.print = .ub := by
  unfold ShapeFile.print
  rw [hs]
  simp only
  rw [if_neg (by omega)]

/-! ### The hypotheses are met -/

example : fileName "data/roads".toList = some (.ok "roads".toList) :=
  C118_name ["data".toList] "roads".toList (by decide) (by decide) (by decide)

example : gcsOf "PROJCS[\"x\",GEOGCS[\"WGS 84\",DATUM[]]]".toList = .ok "WGS 84".toList := by decide +kernel

example : gcsOf "".toList = .throws := C118_bug_prj _ (by decide) (by decide)

/-- A folder with two of the files. -/
example : ∃ (fs : Files) (f : ShapeFile), openShapeFile fs "data/roads".toList = some (.ok f) ∧ f.gcs = "UNDEFINED".toList := by
  have h := C75_points .xy (List.replicate 8 0) rfl [] [] (by simp) (by decide)
  have hd : dbfReader (encDbf [3, 1, 2, 3] (List.replicate 20 0) demoFields demoRecords ++ [0x1A]) =
      .ok ⟨[⟨[73, 68], 78, 2⟩, ⟨[78, 65, 77, 69], 67, 3⟩],
        [([73, 68], [[49, 48], [49, 55]]), ([78, 65, 77, 69], [[97, 98, 99], [120, 121, 122]])]⟩ := by decide +kernel
  generalize encFile (Dim.xy.code 1) _ _ ++ [] = shp at h
  generalize encDbf [3, 1, 2, 3] (List.replicate 20 0) demoFields demoRecords ++ [0x1A] = dbf at hd
  have h1 : (if "data/roads/roads.shp".toList = "data/roads/roads.shp".toList then some shp else some dbf) = some shp := if_pos rfl
  have h2 : (if "data/roads/roads.dbf".toList = "data/roads/roads.shp".toList then some shp else some dbf) = some dbf := if_neg (by decide)
  exact ⟨⟨fun p => if p = "data/roads/roads.shp".toList then some shp else some dbf, fun _ => none⟩, _,
    C118_open _ ["data".toList] "roads".toList "data/roads".toList (by decide) (by decide) rfl (by decide) shp dbf _ _ _ h1 h h2 hd
      (Or.inl ⟨rfl, rfl⟩), rfl⟩

end Fdapde.IO
