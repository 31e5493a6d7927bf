import Verif.Props.Reader
import Verif.Lemmas.CsvQuote
import Verif.Spec.ReaderHistory

/-!
# C111, C112 : quoting, line endings, and the `TensorReader` object over time
-/
namespace TD.Props
open TD Tensor Spec reader
variable {α : Type}

/-- **C111**: two files that spell the same rows - whatever fields are quoted, however the lines end, wherever blank
lines stand - are read alike, also when the rows are malformed. -/
theorem C111_same_rows (pyFloat : List Char → Option α) (path content content' : List Char)
    (rows : List (List (List Char))) (shape : Option (List Nat)) (h : CsvOf content rows) (h' : CsvOf content' rows) :
    reader.read pyFloat path content shape = reader.read pyFloat path content' shape := by
  unfold reader.read reader.readAs
  rw [csvRows_spec h, csvRows_spec h']

/-- **C111**: a file spells at most one table. -/
theorem C111_unambiguous (content : List Char) (rows rows' : List (List (List Char))) (h : CsvOf content rows)
    (h' : CsvOf content rows') : rows = rows' :=
  (csvRows_spec h).symm.trans (csvRows_spec h')

/-- Every field between quotes. -/
def quote (f : List Char) : List Char := '"' :: (f.flatMap (fun c => if c = '"' then ['"', '"'] else [c]) ++ ['"'])

/-- All rows with all fields quoted. -/
def quoteAll (rows : List (List (List Char))) : List Char := unlines (rows.map fun r => commas (r.map quote))

/-- **C111**: quoting every field spells any table without carriage returns and without empty rows: fields may hold
commas, quotes and newlines. -/
theorem C111_quote_all (rows : List (List (List Char))) (hne : rows ≠ []) (hr : ∀ r ∈ rows, r ≠ [])
    (hcr : ∀ r ∈ rows, ∀ f ∈ r, '\r' ∉ f) : CsvOf (quoteAll rows) rows := by
  have hq : ∀ f, '\r' ∉ f → '\r' ∉ quote f := by
    intro f hf hm
    simp only [quote, List.mem_cons, List.mem_append, List.not_mem_nil, or_false] at hm
    rcases hm with hm | hm | hm
    · exact absurd hm (by decide)
    · obtain ⟨c, hc, hm⟩ := List.mem_flatMap.1 hm
      split at hm
      · simp at hm
      · rw [List.mem_singleton] at hm
        exact hf (hm ▸ hc)
    · exact absurd hm (by decide)
  have hblank : ∀ r ∈ rows, commas (r.map quote) ≠ [] := by
    intro r hr'
    obtain ⟨f, fs, rfl⟩ := List.exists_cons_of_ne_nil (hr r hr')
    cases fs <;> simp [commas, quote]
  unfold quoteAll
  refine ⟨rows.map fun r : List (List Char) => commas (r.map quote), lines_unlines (by simpa using hne) ?_, ?_⟩
  · intro l hl
    obtain ⟨r, hr', rfl⟩ := List.mem_map.1 hl
    refine not_mem_commas (by decide) fun w hw => ?_
    obtain ⟨f, hf, rfl⟩ := List.mem_map.1 hw
    exact hq f (hcr r hr' f hf)
  · rw [List.filter_eq_self.2]
    · rw [List.forall₂_map_left_iff, List.forall₂_same]
      intro r hr'
      refine ⟨hblank r hr', hr r hr', _, rfl, ?_⟩
      rw [List.forall₂_map_left_iff, List.forall₂_same]
      exact fun f _ => .quoted f
    · intro l hl
      obtain ⟨r, hr', rfl⟩ := List.mem_map.1 hl
      exact decide_eq_true (hblank r hr')

/-- **C111** (round trip): the nonzero entries of a tensor, written with every field quoted, in any order, are read
back as the tensor; here the printed values may hold any character but a carriage return. -/
theorem C111_round_trip [Zero α] [DecidableEq α] (pyFloat : List Char → Option α) (fmt : α → List Char)
    (hfmt : ∀ x, pyFloat (fmt x) = some x ∧ '\r' ∉ fmt x) (path : List Char) (hp : Supported path) (T : Tensor α)
    (hT : 1 ≤ T.order) (rows : List (List Nat)) (hrows : rows.Perm ((indices T.shape).filter fun i => T.at_ i ≠ 0))
    (hne : rows ≠ []) :
    fullData pyFloat path (quoteAll (rows.map fun i => i.map (Nat.toDigits 10) ++ [fmt (T.at_ i)])) (some T.shape) =
      .ok T := by
  have hin : ∀ i ∈ rows, InB T.shape i := fun i hi =>
    mem_indices.1 (List.mem_filter.1 (hrows.mem_iff.1 hi)).1
  have hf : FileOf pyFloat T.order (quoteAll (rows.map fun i => i.map (Nat.toDigits 10) ++ [fmt (T.at_ i)]))
      (rows.map fun i => (i, T.at_ i)) := by
    refine ⟨hT, by simpa using hne, _, C111_quote_all _ (by simpa using hne) ?_ ?_, ?_⟩
    · intro r hr
      obtain ⟨i, -, rfl⟩ := List.mem_map.1 hr
      simp
    · intro r hr f hf
      obtain ⟨i, -, rfl⟩ := List.mem_map.1 hr
      rcases List.mem_append.1 hf with hf | hf
      · obtain ⟨n, -, rfl⟩ := List.mem_map.1 hf
        exact fun hc => digit_not_special (Nat.isDigit_of_mem_toDigits (by norm_num) (by norm_num) hc) (by simp)
      · rw [List.mem_singleton] at hf
        subst hf
        exact (hfmt _).2
    · rw [List.forall₂_map_left_iff, List.forall₂_map_right_iff, List.forall₂_same]
      intro i hi
      refine ⟨i.map (Nat.toDigits 10), fmt (T.at_ i), rfl, by rw [List.length_map]; exact (hin i hi).length, ?_, (hfmt _).1⟩
      refine ints_iff.1 ?_
      rw [List.map_map]
      exact List.map_congr_left fun c _ => pyInt_digits c
  obtain ⟨S, hS, hs, he⟩ := C35_read_shape pyFloat T.order path _ _ T.shape hp hf rfl (by
      intro e he
      obtain ⟨i, hi, rfl⟩ := List.mem_map.1 he
      exact hin i hi)
  rw [hS]
  congr 1
  refine ext_at hs fun i hi => ?_
  rw [hs] at hi
  rw [he i hi]
  exact lastValue_written hrows i hi

/-- **C111** (stray quotes): a quote that is part of a coordinate field - because a blank precedes it, as in
`0, "1", 5`, or because it is doubled inside quotes - makes `read` raise. -/
theorem C111_stray_quote (pyFloat : List Char → Option α) (path content : List Char)
    (first : List (List Char)) (rest : List (List (List Char))) (shape : Option (List Nat))
    (h : CsvOf content (first :: rest)) (row : List (List Char)) (hrow : row ∈ first :: rest) (m : Nat)
    (hm : m < first.length - 1) (f : List Char) (hf : row[m]? = some f) (hq : '"' ∈ f) :
    ∃ e, reader.read pyFloat path content shape = .error e := by
  cases hr : reader.read pyFloat path content shape with
  | error e => exact ⟨e, rfl⟩
  | ok sp =>
      exfalso
      obtain ⟨-, first', rest', h1, h2, -⟩ := (C39_accepts_iff_partial pyFloat path content shape).1 ⟨sp, hr⟩
      rw [csvRows_spec h] at h1
      obtain ⟨rfl, rfl⟩ := List.cons.inj h1
      obtain ⟨g, i, hg, hi⟩ := (h2 row hrow).1 m hm
      rw [hf] at hg
      cases hg
      have := pyInt_chars (pyInt_iff.2 hi) '"' hq
      revert this
      unfold intChar
      decide

/-- The blank before the quote makes it part of the field. -/
example : CsvOf "0, \"1\",5".toList [["0".toList, " \"1\"".toList, "5".toList]] := by
  refine ⟨["0, \"1\",5".toList], .last _ (by decide), ?_⟩
  exact .cons ⟨by decide, by decide, ["0".toList, " \"1\"".toList, "5".toList], rfl,
    .cons (.plain _ (by decide) (by decide) (by decide)) (.cons (.plain _ (by decide) (by decide) (by decide))
      (.cons (.plain _ (by decide) (by decide) (by decide)) .nil))⟩ .nil

/-- **C111** (unclosed quote): a quoted field that is not closed extends to the end of the file; the file is read as if
the quote were closed there. -/
theorem C111_unclosed_quote (pyFloat : List Char → Option α) (path content closed : List Char)
    (lines : List (List Char)) (rows : List (List (List Char))) (texts row : List (List Char)) (f : List Char)
    (shape : Option (List Nat)) (hrows : List.Forall₂ RowText (lines.filter (· ≠ [])) rows)
    (hrow : List.Forall₂ FieldText texts row)
    (hc : Lines content (lines ++ [commas (texts ++ ['"' :: f.flatMap (fun c => if c = '"' then ['"', '"'] else [c])])]))
    (hcl : CsvOf closed (rows ++ [row ++ [f]])) :
    reader.read pyFloat path content shape = reader.read pyFloat path closed shape := by
  have : (csvRows content).filter (fun r => r.length ≠ 0) = rows ++ [row ++ [f]] := by
    rw [csvRows, universal_lines hc, csvGo_records_append _ hrows, csvGo_unclosed hrow]
    simp
  unfold reader.read reader.readAs
  rw [this, csvRows_spec hcl]

example : reader.read pyInt "a.csv".toList "0,0,1\n1,1,\"5\n".toList none = .ok ⟨[[0, 0], [1, 1]], [1, 5], [2, 2]⟩ ∧
    reader.read pyInt "a.csv".toList "0,0,1\n1,1,\"5\n0,1,7".toList none = .error .valueError := by
  constructor <;> decide +kernel

/-! ### The object over time -/

/-- What a `read` that finds `c` and is given `sh` builds. -/
def built (pyFloat : List Char → Option α) (path : List Char) (a : Option (List Char) × Option (List Nat)) :
    Option (Sparse α) :=
  a.1.bind fun c => (reader.read pyFloat path c a.2).toOption

theorem runReader_spec (pyFloat : List Char → Option α) (path : List Char) : ∀ (steps : List ReaderStep) (fs : Files)
    (r : TensorReader α), r.path = path → r.type = fileType path →
    (runReader pyFloat fs r steps).2.1.sparse =
        (((attempts path fs steps).filterMap (built pyFloat path)).getLast?).or r.sparse ∧
      (runReader pyFloat fs r steps).2.1.full =
        (((attempts path fs steps).filterMap (built pyFloat path)).getLast?).or r.full ∧
      (runReader pyFloat fs r steps).2.2 = (attempts path fs steps).map fun a =>
        match a.1 with
        | none => some .fileNotFound
        | some c => match reader.read pyFloat path c a.2 with
          | .error e => some e
          | .ok _ => none
  | [], fs, r, _, _ => by simp [runReader, attempts]
  | .write p c :: steps, fs, r, h1, h2 => by
      rw [runReader, attempts]
      exact runReader_spec pyFloat path steps _ r h1 h2
  | .remove p :: steps, fs, r, h1, h2 => by
      rw [runReader, attempts]
      exact runReader_spec pyFloat path steps _ r h1 h2
  | .read sh :: steps, fs, r, h1, h2 => by
      rw [runReader, attempts]
      cases hc : fs path with
      | none =>
          have hr : r.read pyFloat fs sh = (r, some .fileNotFound) := by simp [TensorReader.read, h1, hc]
          obtain ⟨a, b, c⟩ := runReader_spec pyFloat path steps fs r h1 h2
          rw [hr]
          refine ⟨?_, ?_, ?_⟩
          · rw [List.filterMap_cons_none (by simp [built])]; exact a
          · rw [List.filterMap_cons_none (by simp [built])]; exact b
          · rw [List.map_cons, ← c]
      | some txt =>
          cases hs : reader.read pyFloat path txt sh with
          | error e =>
              have hs' : readAs pyFloat r.type txt sh = .error e := by rw [h2]; exact hs
              have hr : r.read pyFloat fs sh = (r, some e) := by simp only [TensorReader.read, h1, hc, hs']
              obtain ⟨a, b, c⟩ := runReader_spec pyFloat path steps fs r h1 h2
              rw [hr]
              have hb : built pyFloat path (some txt, sh) = none := by simp [built, hs, Except.toOption]
              refine ⟨?_, ?_, ?_⟩
              · rw [List.filterMap_cons_none hb]; exact a
              · rw [List.filterMap_cons_none hb]; exact b
              · rw [List.map_cons, ← c]; simp [hs]
          | ok st =>
              have hs' : readAs pyFloat r.type txt sh = .ok st := by rw [h2]; exact hs
              have hr : r.read pyFloat fs sh = ({ r with sparse := some st, full := some st }, none) := by
                simp only [TensorReader.read, h1, hc, hs']
              obtain ⟨a, b, c⟩ := runReader_spec pyFloat path steps fs { r with sparse := some st, full := some st } h1 h2
              rw [hr]
              have hb : built pyFloat path (some txt, sh) = some st := by simp [built, hs, Except.toOption]
              refine ⟨?_, ?_, ?_⟩
              · rw [List.filterMap_cons_some hb, a, List.getLast?_cons]
                cases ((attempts path fs steps).filterMap (built pyFloat path)).getLast? <;> simp
              · rw [List.filterMap_cons_some hb, b, List.getLast?_cons]
                cases ((attempts path fs steps).filterMap (built pyFloat path)).getLast? <;> simp
              · rw [List.map_cons, ← c]; simp [hs]

/-- **C112**: whatever happens to the files and however often `read` is called, `sparse_data` and `full_data` of a
reader are those of its last successful call, for the contents the file had then and the shape given then; they are
`None` if no call has succeeded. -/
theorem C112_last_success [Zero α] (pyFloat : List Char → Option α) (path : List Char) (fs : Files)
    (steps : List ReaderStep) :
    let r := (runReader pyFloat fs (.new path) steps).2.1
    let good := (attempts path fs steps).filterMap fun a =>
      a.1.bind fun c => (reader.read pyFloat path c a.2).toOption
    r.sparseData = good.getLast? ∧ r.fullData = good.getLast?.map toDense := by
  obtain ⟨a, b, -⟩ := runReader_spec pyFloat path steps fs (.new path) rfl rfl
  refine ⟨a.trans ?_, ?_⟩
  · simp only [TensorReader.new, Option.or_none]; rfl
  · change Option.map _ _ = _
    rw [b]
    simp only [TensorReader.new, Option.or_none]; rfl

/-- **C112** (what each call raises): `FileNotFoundError` if there is no such file, even when its extension is not
supported; else what reading the contents of that moment raises, independently of what was read before. -/
theorem C112_outcomes (pyFloat : List Char → Option α) (path : List Char) (fs : Files) (steps : List ReaderStep) :
    (runReader pyFloat fs (.new path) steps).2.2 = (attempts path fs steps).map fun a =>
      match a.1 with
      | none => some .fileNotFound
      | some c => match reader.read pyFloat path c a.2 with
        | .error e => some e
        | .ok _ => none :=
  (runReader_spec pyFloat path steps fs (.new path) rfl rfl).2.2

/-- **C112** (data): if the file described `entries` when `read()` was called and no later call succeeded, `full_data`
evaluates to the described tensor, although the file may have changed or vanished since. -/
theorem C112_data [Zero α] (pyFloat : List Char → Option α) (path : List Char) (fs : Files) (N : Nat) (content : List Char)
    (entries : List (List Nat × α)) (before after : List ReaderStep) (hp : Supported path)
    (hfile : before.foldl filesAfter fs path = some content) (hf : FileOf pyFloat N content entries)
    (hafter : ∀ a ∈ attempts path (before.foldl filesAfter fs) after, ∀ c, a.1 = some c →
      ∃ e, reader.read pyFloat path c a.2 = .error e) :
    ∃ T, (runReader pyFloat fs (.new path) (before ++ .read none :: after)).2.1.fullData = some (.ok T) ∧
      T.order = N ∧ (∀ i, InB T.shape i → T.at_ i = lastValue entries i) ∧ ∀ e ∈ entries, InB T.shape e.1 := by
  obtain ⟨sp, T, h1, -, -, h2, h3, h4, h5⟩ := C35_read pyFloat N path content entries hp hf
  refine ⟨T, ?_, h3, h4, h5⟩
  rw [(C112_last_success pyFloat path fs _).2]
  have happ : ∀ (bs : List ReaderStep) (fs : Files) (rest : List ReaderStep), attempts path fs (bs ++ rest) =
      attempts path fs bs ++ attempts path (bs.foldl filesAfter fs) rest := by
    intro bs
    induction bs with
    | nil => intros; rfl
    | cons b bs ih =>
        intro fs rest
        cases b <;> simp only [List.cons_append, attempts, ih, List.foldl_cons, filesAfter]
  rw [happ, attempts, hfile, List.filterMap_append, List.filterMap_cons_some (b := sp) (by simp [h1, Except.toOption])]
  have hnil : (attempts path (before.foldl filesAfter fs) after).filterMap (fun a =>
      a.1.bind fun c => (reader.read pyFloat path c a.2).toOption) = [] := by
    rw [List.filterMap_eq_nil_iff]
    intro a ha
    cases hc : a.1 with
    | none => rfl
    | some c =>
        obtain ⟨e, he⟩ := hafter a ha c hc
        simp [he, Except.toOption]
  rw [hnil]
  simp only [List.getLast?_append, List.getLast?_singleton, Option.some_or, Option.map_some]
  unfold reader.fullData at h2
  rw [h1, ok_bind] at h2
  rw [h2]

/-- The file is written, read, overwritten with something malformed, read again (raising `ValueError`) and removed:
the first data stay. -/
example : let path := "a.csv".toList
    let steps : List ReaderStep := [.read none, .write path "0,0,1\n1,1,2".toList, .read none, .write path "0,x,1".toList, .read none,
      .remove path, .read none]
    let h := runReader pyInt (fun _ => none) (.new path) steps
    h.2.2 = [some .fileNotFound, none, some .valueError, some .fileNotFound] ∧
      h.2.1.sparseData = some ⟨[[0, 0], [1, 1]], [1, 2], [2, 2]⟩ := by
  decide +kernel

end TD.Props
