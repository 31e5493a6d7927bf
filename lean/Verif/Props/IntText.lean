import Verif.Props.Csv

/-! # C131 : how the coordinates of a file may be written -/
namespace TD.Props
open TD Tensor Spec reader
variable {α : Type}

/-- The value written by a text is unique. -/
theorem intText_unique {s : List Char} {i j : Int} (h : IntText s i) (h' : IntText s j) : i = j :=
  Option.some.inj ((pyInt_iff.2 h).symm.trans (pyInt_iff.2 h'))

/-- Two rows of a table say the same: as many fields, the same coordinates however they are written, and a last field with the
same value. -/
def SameRow (pyFloat : List Char → Option α) (r r' : List (List Char)) : Prop :=
  ∃ fields fields' v v', r = fields ++ [v] ∧ r' = fields' ++ [v'] ∧
    List.Forall₂ (fun f f' => ∃ i, IntText f i ∧ IntText f' i) fields fields' ∧ pyFloat v = pyFloat v'

theorem entry_same {pyFloat : List Char → Option α} {r r' : List (List Char)} (h : SameRow pyFloat r r') {order : Nat}
    (ho : order + 1 = r.length) : entry pyFloat order r = entry pyFloat order r' := by
  obtain ⟨fields, fields', v, v', rfl, rfl, hf, hv⟩ := h
  have hl := hf.length_eq
  simp only [List.length_append, List.length_singleton, Nat.add_right_cancel_iff] at ho
  have hi : ∀ m ∈ List.range order, intField (fields ++ [v]) m = intField (fields' ++ [v']) m := by
    intro m hm
    have hm := List.mem_range.1 hm
    unfold intField
    rw [List.getElem?_append_left (by omega), List.getElem?_append_left (by omega), List.getElem?_eq_getElem (by omega),
      List.getElem?_eq_getElem (by omega)]
    obtain ⟨i, h1, h2⟩ := (List.forall₂_iff_get.1 hf).2 m (by omega) (by omega)
    have e1 := pyInt_iff.2 h1
    have e2 := pyInt_iff.2 h2
    simp only [List.get_eq_getElem] at e1 e2
    simp only [e1, e2]
  have hm : ∀ l : List Nat, (∀ m ∈ l, intField (fields ++ [v]) m = intField (fields' ++ [v']) m) →
      l.mapM (intField (fields ++ [v])) = l.mapM (intField (fields' ++ [v'])) := by
    intro l hl
    induction l with
    | nil => rfl
    | cons a l ih => rw [List.mapM_cons, List.mapM_cons, hl a (by simp), ih fun m hm => hl m (by simp [hm])]
  unfold entry
  rw [hm _ hi]
  simp only [List.getLast?_append, List.getLast?_singleton, Option.some_or, hv]

/-- **C131**: two files whose rows all have `N + 1` fields and say the same, row by row - the coordinates may be surrounded by
blanks, carry a `+`, leading zeros or underscores between digits - are read alike. -/
theorem C131_same_numbers (pyFloat : List Char → Option α) (path content content' : List Char) (N : Nat)
    (rows rows' : List (List (List Char))) (shape : Option (List Nat)) (h : CsvOf content rows) (h' : CsvOf content' rows')
    (hN : ∀ r ∈ rows, r.length = N + 1) (hs : List.Forall₂ (SameRow pyFloat) rows rows') :
    reader.read pyFloat path content shape = reader.read pyFloat path content' shape := by
  have hlen : ∀ r r', SameRow pyFloat r r' → r.length = r'.length := by
    rintro r r' ⟨fields, fields', v, v', rfl, rfl, hf, -⟩
    simp [hf.length_eq]
  have hN' : ∀ r ∈ rows', r.length = N + 1 := by
    intro r hr
    obtain ⟨k, hk, rfl⟩ := List.mem_iff_getElem.1 hr
    have hk' : k < rows.length := by rw [hs.length_eq]; exact hk
    have := hlen _ _ ((List.forall₂_iff_get.1 hs).2 k hk' hk)
    simp only [List.get_eq_getElem] at this
    rw [← this]
    exact hN _ (List.getElem_mem _)
  unfold reader.read reader.readAs
  rw [csvRows_spec h, csvRows_spec h']
  cases hs with
  | nil => rfl
  | @cons r r' rest rest' hr hrest =>
      have e1 : r.length - 1 = N := by rw [hN r (by simp)]; rfl
      have e2 : r'.length - 1 = N := by rw [hN' r' (by simp)]; rfl
      have key : ∀ {l l' : List (List (List Char))}, List.Forall₂ (SameRow pyFloat) l l' → (∀ r ∈ l, r.length = N + 1) →
          l.mapM (entry pyFloat N) = l'.mapM (entry pyFloat N) := by
        intro l l' hf hl
        induction hf with
        | nil => rfl
        | cons h1 _ ih =>
            rw [List.mapM_cons, List.mapM_cons, entry_same h1 (hl _ (by simp)).symm, ih fun r hr => hl r (by simp [hr])]
      simp only [e1, e2, key (.cons hr hrest) hN]

/-- **C131** (exactness): a coordinate is accepted exactly when it is written as an integer, and then has that value; any
other text - a decimal point, an exponent, a second sign, a blank inside, two underscores in a row, nothing at all - makes `read`
raise `ValueError`. -/
theorem C131_coordinate (pyFloat : List Char → Option α) (path content f v : List Char) (x : α) (hp : Supported path)
    (h : CsvOf content [[f, v]]) (hx : pyFloat v = some x) (shape : Option (List Nat)) :
    (∀ i, IntText f i → ∃ dims, (shape = none → dims = [i + 1]) ∧ ((∀ s, shape = some s → s.length = 1) →
      reader.read pyFloat path content shape = .ok ⟨[[i]], [x], dims⟩)) ∧
    ((∀ i, ¬ IntText f i) → reader.read pyFloat path content shape = .error .valueError) := by
  have ht : fileType path = "csv".toList ∨ fileType path = "txt".toList := fileType_supported hp
  have hr : (csvRows content).filter (fun r => r.length ≠ 0) = [[f, v]] := csvRows_spec h
  constructor
  · intro i hi
    have hi := pyInt_iff.2 hi
    have he : entry pyFloat 1 [f, v] = .ok ([i], x) := by
      simp [entry, intField, hi, hx, List.range_succ, List.mapM_cons, ok_bind, pure, Except.pure]
    refine ⟨maxDim shape 1 [([i], x)], ?_, fun hsh => ?_⟩
    · rintro rfl
      simp [maxDim, maxOf, List.range_succ]
    · unfold reader.read reader.readAs
      rw [if_pos ht, hr]
      have hm : [[f, v]].mapM (entry pyFloat 1) = .ok [([i], x)] := by
        rw [List.mapM_cons, he, ok_bind]; rfl
      simp only [List.length_cons, List.length_nil, Nat.zero_add, Nat.add_sub_cancel, hm, ok_bind]
      rw [if_neg]
      · rfl
      · rw [not_not]
        cases shape with
        | none => rfl
        | some s => simpa [maxDim] using hsh s rfl
  · intro hi
    have hn : pyInt f = none := by
      cases e : pyInt f with
      | none => rfl
      | some i => exact absurd (pyInt_iff.1 e) (hi i)
    have he : entry pyFloat 1 [f, v] = .error .valueError := by
      simp [entry, intField, hn, List.range_succ, List.mapM_cons, error_bind]
    unfold reader.read reader.readAs
    rw [if_pos ht, hr]
    simp only [List.length_cons, List.length_nil, Nat.zero_add, Nat.add_sub_cancel, List.mapM_cons, he, error_bind]

/-- One row with `N` coordinates and a value is read, or raises `ValueError`. -/
theorem entry_table (pyFloat : List Char → Option α) (fields : List (List Char)) (v : List Char) :
    (∃ is x, entry pyFloat fields.length (fields ++ [v]) = .ok (is, x) ∧ List.Forall₂ IntText fields is ∧ pyFloat v = some x) ∨
    (entry pyFloat fields.length (fields ++ [v]) = .error .valueError ∧ ((∃ f ∈ fields, ∀ i, ¬ IntText f i) ∨ pyFloat v = none)) := by
  have hfield : ∀ m (hm : m < fields.length), intField (fields ++ [v]) m =
      match pyInt fields[m] with | none => .error .valueError | some i => .ok i := by
    intro m hm
    unfold intField
    rw [List.getElem?_append_left hm, List.getElem?_eq_getElem hm]
    rfl
  have key : ∀ (k : Nat), k ≤ fields.length →
      (∃ is, (List.range' k (fields.length - k)).mapM (intField (fields ++ [v])) = .ok is ∧ List.Forall₂ IntText (fields.drop k) is) ∨
      ((List.range' k (fields.length - k)).mapM (intField (fields ++ [v])) = .error .valueError ∧
        ∃ f ∈ fields, ∀ i, ¬ IntText f i) := by
    intro k hk
    obtain ⟨d, rfl⟩ : ∃ d, k = fields.length - d := ⟨fields.length - k, by omega⟩
    induction d with
    | zero =>
        left
        refine ⟨[], ?_, ?_⟩
        · simp
          rfl
        · simp
    | succ d ih =>
        by_cases hd : fields.length ≤ d
        · have h1 : fields.length - (d + 1) = fields.length - d := by omega
          rw [h1]
          exact ih (by omega)
        have hlt : fields.length - (d + 1) < fields.length := by omega
        have h2 : fields.length - (d + 1) + 1 = fields.length - d := by omega
        have h3 : fields.length - (fields.length - (d + 1)) = (fields.length - (fields.length - d)) + 1 := by omega
        rw [h3, List.range'_succ, h2, List.mapM_cons, hfield _ hlt, List.drop_eq_getElem_cons hlt, h2]
        cases e : pyInt fields[fields.length - (d + 1)] with
        | none =>
            right
            refine ⟨rfl, _, List.getElem_mem hlt, fun i hi => ?_⟩
            rw [pyInt_iff.2 hi] at e
            cases e
        | some i =>
            rcases ih (by omega) with ⟨is, h4, h5⟩ | ⟨h4, h5⟩
            · left
              refine ⟨i :: is, ?_, .cons (pyInt_iff.1 e) h5⟩
              rw [ok_bind, h4, ok_bind]; rfl
            · right
              refine ⟨?_, h5⟩
              rw [ok_bind, h4]; rfl
  have hrange : List.range fields.length = List.range' 0 (fields.length - 0) := by rw [List.range_eq_range', Nat.sub_zero]
  unfold entry
  rw [hrange]
  rcases key 0 (by omega) with ⟨is, h1, h2⟩ | ⟨h1, h2⟩
  · rw [h1, ok_bind]
    simp only [List.getLast?_append, List.getLast?_singleton, Option.some_or]
    cases e : pyFloat v with
    | none => exact Or.inr ⟨rfl, Or.inr rfl⟩
    | some x => exact Or.inl ⟨is, x, rfl, h2, rfl⟩
  · rw [h1]
    exact Or.inr ⟨rfl, Or.inl h2⟩

/-- What an admissible row says: `N` coordinates and a value. -/
def RowSays (pyFloat : List Char → Option α) (row : List (List Char)) (is : List Int) (x : α) : Prop :=
  ∃ fields v, row = fields ++ [v] ∧ List.Forall₂ IntText fields is ∧ pyFloat v = some x

theorem entries_table (pyFloat : List Char → Option α) (N : Nat) (rows : List (List (List Char))) (hN : ∀ r ∈ rows, r.length = N + 1) :
    (∃ es, rows.mapM (entry pyFloat N) = .ok es ∧ List.Forall₂ (fun row e => RowSays pyFloat row e.1 e.2) rows es) ∨
    (rows.mapM (entry pyFloat N) = .error .valueError ∧ ∃ row ∈ rows, ∀ is x, ¬ RowSays pyFloat row is x) := by
  induction rows with
  | nil => exact Or.inl ⟨[], rfl, .nil⟩
  | cons r rest ih =>
      have hr : r.length = N + 1 := hN r (by simp)
      obtain ⟨fields, v, rfl⟩ : ∃ fields v, r = fields ++ [v] := by
        have hne : r ≠ [] := by intro e; rw [e] at hr; simp at hr
        exact ⟨r.dropLast, r.getLast hne, (List.dropLast_append_getLast hne).symm⟩
      obtain rfl : fields.length = N := by simpa using hr
      rw [List.mapM_cons]
      rcases entry_table pyFloat fields v with ⟨is, x, h1, h2, h3⟩ | ⟨h1, h2⟩
      · rcases ih fun r hr => hN r (by simp [hr]) with ⟨es, h4, h5⟩ | ⟨h4, row, hrow, h5⟩
        · left
          refine ⟨(is, x) :: es, ?_, .cons ⟨fields, v, rfl, h2, h3⟩ h5⟩
          rw [h1, ok_bind, h4, ok_bind]; rfl
        · right
          refine ⟨?_, row, by simp [hrow], h5⟩
          rw [h1, ok_bind, h4]; rfl
      · right
        refine ⟨by rw [h1]; rfl, fields ++ [v], by simp, ?_⟩
        rintro is x ⟨fields', v', e, hf, hv⟩
        obtain ⟨rfl, e2⟩ := List.append_inj' e rfl
        cases e2
        rcases h2 with ⟨f, hf', hno⟩ | hno
        · obtain ⟨k, hk, rfl⟩ := List.getElem_of_mem hf'
          have := (List.forall₂_iff_get.1 hf).2 k hk ((List.forall₂_iff_get.1 hf).1 ▸ hk)
          exact hno _ this
        · rw [hno] at hv; cases hv

/-- **C131** (tables of any size): a table whose rows have `N` coordinates and a value is read exactly when every coordinate is
written as an integer and every value as a number, and the coordinates and values read are those written, row by row; otherwise
`read` raises `ValueError`. -/
theorem C131_table (pyFloat : List Char → Option α) (path content : List Char) (N : Nat) (rows : List (List (List Char)))
    (shape : Option (List Nat)) (hp : Supported path) (h : CsvOf content rows) (hne : rows ≠ []) (hN : ∀ r ∈ rows, r.length = N + 1)
    (hs : ∀ s, shape = some s → s.length = N) :
    ((∀ row ∈ rows, ∃ is x, RowSays pyFloat row is x) → ∃ sp, reader.read pyFloat path content shape = .ok sp ∧
      List.Forall₂ (fun row e => RowSays pyFloat row e.1 e.2) rows (sp.indices.zip sp.values) ∧
      sp.indices.length = rows.length ∧ sp.values.length = rows.length) ∧
    ((∃ row ∈ rows, ∀ is x, ¬ RowSays pyFloat row is x) → reader.read pyFloat path content shape = .error .valueError) := by
  have ht : fileType path = "csv".toList ∨ fileType path = "txt".toList := fileType_supported hp
  have hr : (csvRows content).filter (fun r => r.length ≠ 0) = rows := csvRows_spec h
  obtain ⟨first, rest, rfl⟩ : ∃ first rest, rows = first :: rest := by
    cases rows with
    | nil => exact absurd rfl hne
    | cons a b => exact ⟨a, b, rfl⟩
  have hf : first.length - 1 = N := by rw [hN first (by simp)]; rfl
  have hread : reader.read pyFloat path content shape = (do
      let es ← (first :: rest).mapM (entry pyFloat N)
      if (maxDim shape N es).length ≠ N then .error .valueError
      else .ok ⟨es.map Prod.fst, es.map Prod.snd, maxDim shape N es⟩) := by
    unfold reader.read reader.readAs
    rw [if_pos ht, hr]
    simp only [hf]
  have hd : ∀ es : List (List Int × α), (maxDim shape N es).length = N := by
    intro es
    unfold maxDim
    cases shape with
    | none => simp
    | some s => simpa using hs s rfl
  rw [hread]
  rcases entries_table pyFloat N (first :: rest) hN with ⟨es, h1, h2⟩ | ⟨h1, row, hrow, h2⟩
  · refine ⟨fun _ => ⟨_, by rw [h1, ok_bind, if_neg (by rw [not_not]; exact hd es)], ?_, ?_, ?_⟩, ?_⟩
    · have hz : ∀ es : List (List Int × α), (es.map Prod.fst).zip (es.map Prod.snd) = es := by
        intro es
        induction es with
        | nil => rfl
        | cons a l ih => rw [List.map_cons, List.map_cons, List.zip_cons_cons, ih]
      show List.Forall₂ _ _ ((es.map Prod.fst).zip (es.map Prod.snd))
      rw [hz]
      exact h2
    · simpa using h2.length_eq.symm
    · simpa using h2.length_eq.symm
    · rintro ⟨row, hrow, hno⟩
      obtain ⟨k, hk, rfl⟩ := List.getElem_of_mem hrow
      exact absurd ((List.forall₂_iff_get.1 h2).2 k hk (h2.length_eq ▸ hk)) (hno _ _)
  · refine ⟨fun hall => ?_, fun _ => by rw [h1]; rfl⟩
    obtain ⟨is, x, hh⟩ := hall row hrow
    exact absurd hh (h2 is x)

/-! Different ways to write 12, and texts that write no integer. -/
example : IntText "12".toList 12 ∧ IntText "\t+0_012 \x0b".toList 12 ∧ IntText " -7\r\n".toList (-7) ∧
    (∀ i, ¬ IntText "1.0".toList i) ∧ (∀ i, ¬ IntText "1__2".toList i) ∧ (∀ i, ¬ IntText "+ 1".toList i) ∧
    (∀ i, ¬ IntText "1e3".toList i) ∧ (∀ i, ¬ IntText "".toList i) ∧ ∀ i, ¬ IntText "_1".toList i := by
  simp only [← pyInt_iff]
  refine ⟨by decide +kernel, by decide +kernel, by decide +kernel, ?_, ?_, ?_, ?_, ?_, ?_⟩
  all_goals
    intro i h
    revert h
    rw [show pyInt _ = none from by decide +kernel]
    simp

example : reader.read pyInt "a.csv".toList "0, 1,5\n12,3,7".toList none = reader.read pyInt "a.csv".toList "+0,0_1,5\n1_2, 03,7".toList none := by
  have c : CsvOf "0, 1,5\n12,3,7".toList _ := csvOf_plain (lines := ["0, 1,5".toList, "12,3,7".toList])
    (lines_unlines (ls := ["0, 1,5".toList, "12,3,7".toList]) (by decide) (by decide)) (by decide) (by decide)
  have c' : CsvOf "+0,0_1,5\n1_2, 03,7".toList _ := csvOf_plain (lines := ["+0,0_1,5".toList, "1_2, 03,7".toList])
    (lines_unlines (ls := ["+0,0_1,5".toList, "1_2, 03,7".toList]) (by decide) (by decide)) (by decide) (by decide)
  refine C131_same_numbers pyInt _ _ _ 2 [["0".toList, " 1".toList, "5".toList], ["12".toList, "3".toList, "7".toList]]
    [["+0".toList, "0_1".toList, "5".toList], ["1_2".toList, " 03".toList, "7".toList]] none c c' (by decide) ?_
  have w : ∀ {f f' : List Char} (i : Int), pyInt f = some i → pyInt f' = some i → ∃ i, IntText f i ∧ IntText f' i :=
    fun i h h' => ⟨i, pyInt_iff.1 h, pyInt_iff.1 h'⟩
  exact .cons ⟨["0".toList, " 1".toList], ["+0".toList, "0_1".toList], _, _, rfl, rfl,
      .cons (w 0 (by decide +kernel) (by decide +kernel)) (.cons (w 1 (by decide +kernel) (by decide +kernel)) .nil), rfl⟩
    (.cons ⟨["12".toList, "3".toList], ["1_2".toList, " 03".toList], _, _, rfl, rfl,
      .cons (w 12 (by decide +kernel) (by decide +kernel)) (.cons (w 3 (by decide +kernel) (by decide +kernel)) .nil), rfl⟩ .nil)

/-- Both cases of `C131_table` occur: a table of two rows with two coordinates that is read, and one with a decimal point. -/
example : (∃ sp, reader.read pyInt "a.csv".toList "0, 1,5\n1_2,-3,7".toList none = .ok sp ∧ sp.indices.zip sp.values = [([0, 1], 5), ([12, -3], 7)]) ∧
    reader.read pyInt "a.csv".toList "0,1.0,5\n2,3,7".toList none = .error .valueError := by
  have c : CsvOf "0, 1,5\n1_2,-3,7".toList _ := csvOf_plain (lines := ["0, 1,5".toList, "1_2,-3,7".toList])
    (lines_unlines (ls := ["0, 1,5".toList, "1_2,-3,7".toList]) (by decide) (by decide)) (by decide) (by decide)
  have c' : CsvOf "0,1.0,5\n2,3,7".toList _ := csvOf_plain (lines := ["0,1.0,5".toList, "2,3,7".toList])
    (lines_unlines (ls := ["0,1.0,5".toList, "2,3,7".toList]) (by decide) (by decide)) (by decide) (by decide)
  have w : ∀ {f : List Char} (i : Int), pyInt f = some i → IntText f i := fun i h => pyInt_iff.1 h
  constructor
  · obtain ⟨sp, h1, h2, -⟩ := (C131_table pyInt "a.csv".toList _ 2 [["0".toList, " 1".toList, "5".toList], ["1_2".toList, "-3".toList, "7".toList]]
      none ⟨"a".toList, Or.inl rfl⟩ c (by simp) (by decide) (by simp)).1 (by
        intro row hrow
        simp only [List.mem_cons, List.not_mem_nil, or_false] at hrow
        rcases hrow with rfl | rfl
        · exact ⟨[0, 1], 5, ["0".toList, " 1".toList], "5".toList, rfl,
            .cons (w 0 (by decide +kernel)) (.cons (w 1 (by decide +kernel)) .nil), by decide +kernel⟩
        · exact ⟨[12, -3], 7, ["1_2".toList, "-3".toList], "7".toList, rfl,
            .cons (w 12 (by decide +kernel)) (.cons (w (-3) (by decide +kernel)) .nil), by decide +kernel⟩)
    exact ⟨sp, h1, by
      have : reader.read pyInt "a.csv".toList "0, 1,5\n1_2,-3,7".toList none = .ok ⟨[[0, 1], [12, -3]], [5, 7], [13, 2]⟩ := by decide +kernel
      cases this.symm.trans h1
      rfl⟩
  · refine (C131_table pyInt "a.csv".toList _ 2 [["0".toList, "1.0".toList, "5".toList], ["2".toList, "3".toList, "7".toList]]
      none ⟨"a".toList, Or.inl rfl⟩ c' (by simp) (by decide) (by simp)).2 ⟨["0".toList, "1.0".toList, "5".toList], by simp, ?_⟩
    rintro is x ⟨fields, v, e, hf, -⟩
    obtain ⟨rfl, -⟩ := List.append_inj' (s₁ := ["0".toList, "1.0".toList]) e rfl
    cases hf with
    | cons _ hf => cases hf with
      | cons h _ =>
        have := pyInt_iff.2 h
        rw [show pyInt "1.0".toList = none from by decide +kernel] at this
        cases this

end TD.Props
