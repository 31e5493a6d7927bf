import Mathlib.Algebra.Ring.Int.Defs
import Verif.Lemmas.Reader

/-!
# C35 - C39 : `TensorReader`
-/
namespace TD.Props
open TD Tensor Spec reader
variable {α : Type}

/-- **C35**: reading a well-formed file gives the entries in file order (`sparse_data`) and the dense tensor
whose entry at `i` is the value on the last row naming `i`, or 0. -/
theorem C35_read [Zero α] (pyFloat : List Char → Option α) (N : Nat) (path content : List Char)
    (entries : List (List Nat × α)) (hp : Supported path) (hf : FileOf pyFloat N content entries) :
    ∃ sp T, reader.read pyFloat path content = .ok sp ∧
      sp.indices = entries.map (fun e => e.1.map fun c : Nat => (c : Int)) ∧ sp.values = entries.map Prod.snd ∧
      fullData pyFloat path content = .ok T ∧ T.order = N ∧
      (∀ i, InB T.shape i → T.at_ i = lastValue entries i) ∧ ∀ e ∈ entries, InB T.shape e.1 := by
  have h := read_ok hp hf none (by simp)
  obtain ⟨h1, h2, -⟩ := topDims_spec hf.2.1 (FileOf.lengths hf)
  refine ⟨_, ofFn (topDims N entries) (lastValue entries), h, rfl, rfl, ?_, h1, fun i hi => at_ofFn _ hi, h2⟩
  unfold fullData
  rw [h, ok_bind]
  exact toDense_ok h2

/-- **C35** (given shape): the same with `full_shape`, when every coordinate lies inside it. -/
theorem C35_read_shape [Zero α] (pyFloat : List Char → Option α) (N : Nat) (path content : List Char)
    (entries : List (List Nat × α)) (s : List Nat) (hp : Supported path)
    (hf : FileOf pyFloat N content entries) (hs : s.length = N) (hb : ∀ e ∈ entries, InB s e.1) :
    ∃ T, fullData pyFloat path content (some s) = .ok T ∧ T.shape = s ∧
      ∀ i, InB s i → T.at_ i = lastValue entries i := by
  have h := read_ok hp hf (some s) (fun s' e => by cases e; exact hs)
  refine ⟨ofFn s (lastValue entries), ?_, rfl, fun i hi => at_ofFn _ hi⟩
  unfold fullData
  rw [h, ok_bind]
  exact toDense_ok hb

/-- **C36**: the inferred shape is the smallest that contains every entry. -/
theorem C36_inferred_shape [Zero α] (pyFloat : List Char → Option α) (N : Nat) (path content : List Char)
    (entries : List (List Nat × α)) (hp : Supported path) (hf : FileOf pyFloat N content entries) :
    ∃ T, fullData pyFloat path content = .ok T ∧ (∀ e ∈ entries, InB T.shape e.1) ∧
      (∀ m < N, ∃ e ∈ entries, T.shape.getD m 0 = e.1.getD m 0 + 1) ∧
      ∀ s', (∀ e ∈ entries, InB s' e.1) → ∀ m < N, T.shape.getD m 0 ≤ s'.getD m 0 := by
  have h := read_ok hp hf none (by simp)
  obtain ⟨h1, h2, h3⟩ := topDims_spec hf.2.1 (FileOf.lengths hf)
  refine ⟨ofFn (topDims N entries) (lastValue entries), ?_, h2, h3, fun s' hs' m hm => ?_⟩
  · unfold fullData
    rw [h, ok_bind]
    exact toDense_ok h2
  · obtain ⟨e, he, hee⟩ := h3 m hm
    have hl := (FileOf.lengths hf) e he
    have := (InB_iff_getD.1 (hs' e he)).2 m (by rw [← (hs' e he).length, hl]; exact hm)
    change (topDims N entries).getD m 0 ≤ _
    omega

theorem lastValue_perm [Zero α] {es es' : List (List Nat × α)} (h : es.Perm es') (hnd : (es.map Prod.fst).Nodup)
    (i : List Nat) : lastValue es i = lastValue es' i := by
  have hone : ∀ {l : List (List Nat × α)}, (l.map Prod.fst).Nodup → (l.filter fun e => e.1 = i).length ≤ 1 := by
    intro l hl
    have hc : (l.filter fun e => e.1 = i).length = (l.map Prod.fst).count i := by
      rw [List.count_eq_countP, List.countP_map, List.countP_eq_length_filter]
      congr 2
      funext e
      exact (beq_eq_decide _ _).symm
    rw [hc]
    exact List.nodup_iff_count_le_one.1 hl i
  have hf := h.filter fun e => decide (e.1 = i)
  have h1 := hone hnd
  unfold lastValue
  have : (es.filter fun e => e.1 = i) = es'.filter fun e => e.1 = i := by
    generalize (es.filter fun e => decide (e.1 = i)) = a at hf h1 ⊢
    match a, hf, h1 with
    | [], hf, _ => rw [List.nil_perm.1 hf]
    | [x], hf, _ => rw [List.singleton_perm.1 hf]
    | x :: y :: r, _, h1 => simp at h1
  rw [this]

theorem topDims_perm {N : Nat} {es es' : List (List Nat × α)} (hne : es ≠ []) (hl : ∀ e ∈ es, e.1.length = N)
    (h : es.Perm es') : topDims N es = topDims N es' := by
  have hne' : es' ≠ [] := by rintro rfl; exact hne h.eq_nil
  have hl' : ∀ e ∈ es', e.1.length = N := fun e he => hl e (h.mem_iff.2 he)
  obtain ⟨a1, a2, a3⟩ := topDims_spec hne hl
  obtain ⟨b1, b2, b3⟩ := topDims_spec hne' hl'
  apply List.ext_getElem (by rw [a1, b1])
  intro m h1 h2
  have hm : m < N := by omega
  obtain ⟨e, he, hee⟩ := a3 m hm
  obtain ⟨e', he', hee'⟩ := b3 m hm
  have x1 := (InB_iff_getD.1 (b2 e (h.mem_iff.1 he))).2 m (by omega)
  have x2 := (InB_iff_getD.1 (a2 e' (h.mem_iff.2 he'))).2 m (by omega)
  rw [List.getD_eq_getElem _ _ h1] at hee x2
  rw [List.getD_eq_getElem _ _ h2] at hee' x1
  omega

/-- **C37**: permuting rows with distinct coordinates, and inserting or removing blank lines (both are
changes of the text that keep the list of entries up to permutation), gives the same dense tensor. -/
theorem C37_row_order [Zero α] (pyFloat : List Char → Option α) (N : Nat) (path content content' : List Char)
    (entries entries' : List (List Nat × α)) (hp : Supported path)
    (hf : FileOf pyFloat N content entries) (hf' : FileOf pyFloat N content' entries')
    (hperm : entries.Perm entries') (hnd : (entries.map Prod.fst).Nodup) :
    ∃ T, fullData pyFloat path content = .ok T ∧ fullData pyFloat path content' = .ok T := by
  refine ⟨ofFn (topDims N entries) (lastValue entries), ?_, ?_⟩
  · unfold fullData
    rw [read_ok hp hf none (by simp), ok_bind]
    exact toDense_ok (topDims_spec hf.2.1 (FileOf.lengths hf)).2.1
  · unfold fullData
    rw [read_ok hp hf' none (by simp), ok_bind]
    refine (toDense_ok (topDims_spec hf'.2.1 (FileOf.lengths hf')).2.1).trans ?_
    rw [topDims_perm hf.2.1 (FileOf.lengths hf) hperm]
    congr 2
    funext i
    exact (lastValue_perm hperm hnd i).symm

/-- **C37** (blank lines): two texts whose lines differ only by blank lines and by the way they are ended are read
alike, also when they are malformed.  (Without quotes; for quoted fields see C111.) -/
theorem C37_blank_lines (pyFloat : List Char → Option α) (path content content' : List Char)
    (lines lines' : List (List Char)) (shape : Option (List Nat)) (hc : Lines content lines) (hc' : Lines content' lines')
    (h1 : ∀ l ∈ lines, '\n' ∉ l ∧ '"' ∉ l) (h2 : ∀ l ∈ lines', '\n' ∉ l ∧ '"' ∉ l)
    (h : lines.filter (· ≠ []) = lines'.filter (· ≠ [])) :
    reader.read pyFloat path content shape = reader.read pyFloat path content' shape := by
  unfold reader.read reader.readAs
  rw [csvRows_spec (csvOf_plain hc (fun l hl => (h1 l hl).1) fun l hl => (h1 l hl).2),
    csvRows_spec (csvOf_plain hc' (fun l hl => (h2 l hl).1) fun l hl => (h2 l hl).2), h]

example : Lines "0,1,5\r\n\r\n1,0,7\r".toList ["0,1,5".toList, [], "1,0,7".toList, []] ∧
    Lines "0,1,5\n1,0,7".toList ["0,1,5".toList, "1,0,7".toList] :=
  ⟨.crlf "0,1,5".toList _ _ (by decide) (.crlf [] _ _ (by decide) (.cr "1,0,7".toList _ _ (by decide) (by decide)
    (.last [] (by decide)))), .lf "0,1,5".toList _ _ (by decide) (.last _ (by decide))⟩

/-! ### Writing and reading back -/

/-- One row `i0,...,iN,value`; `fmt` prints a value. -/
def writeRow (fmt : α → List Char) (e : List Nat × α) : List Char :=
  commas (e.1.map (fun c => Nat.toDigits 10 c) ++ [fmt e.2])

/-- The rows, one per line. -/
def writeFile (fmt : α → List Char) (entries : List (List Nat × α)) : List Char :=
  unlines (entries.map (writeRow fmt))

theorem not_mem_commas {c : Char} (hc : c ≠ ',') : ∀ {ws : List (List Char)}, (∀ w ∈ ws, c ∉ w) → c ∉ commas ws
  | [], _ => by simp [commas]
  | [w], h => h w (by simp)
  | w :: v :: ws, h => by
      rw [commas]
      · simp only [List.mem_append, List.mem_cons, not_or]
        exact ⟨h w (by simp), hc, not_mem_commas hc fun u hu => h u (by simp [hu])⟩
      · simp

theorem commas_ne_nil {w : List Char} (hw : w ≠ []) : ∀ ws, commas (ws ++ [w]) ≠ []
  | [] => by simpa [commas] using hw
  | [v] => by simp [commas]
  | v :: u :: ws => by simp [commas]

theorem digit_not_special {c : Char} (h : c.isDigit = true) : c ∉ [',', '\n', '\r', '"'] := by
  intro hc
  simp only [List.mem_cons, List.not_mem_nil, or_false] at hc
  rcases hc with rfl | rfl | rfl | rfl <;> exact absurd h (by decide)

theorem writeFile_is {pyFloat : List Char → Option α} {fmt : α → List Char}
    {N : Nat} {entries : List (List Nat × α)}
    (hfmt : ∀ e ∈ entries, pyFloat (fmt e.2) = some e.2 ∧ fmt e.2 ≠ [] ∧ ∀ c ∈ fmt e.2, c ∉ [',', '\n', '\r', '"']) (hN : 1 ≤ N) (hne : entries ≠ [])
    (hl : ∀ e ∈ entries, e.1.length = N) : FileOf pyFloat N (writeFile fmt entries) entries := by
  have hfields : ∀ e ∈ entries, ∀ f ∈ e.1.map (fun c => Nat.toDigits 10 c) ++ [fmt e.2],
      ∀ c ∈ f, c ∉ [',', '\n', '\r', '"'] := by
    intro e he f hf
    rcases List.mem_append.1 hf with hf | hf
    · obtain ⟨n, -, rfl⟩ := List.mem_map.1 hf
      exact fun c hc => digit_not_special (Nat.isDigit_of_mem_toDigits (by norm_num) (by norm_num) hc)
    · rw [List.mem_singleton] at hf
      subst hf
      exact (hfmt e he).2.2
  have hno : ∀ e ∈ entries, ∀ c ∈ ['\n', '\r', '"'], c ∉ writeRow fmt e := by
    intro e he c hc
    refine not_mem_commas (by rintro rfl; simp at hc) fun w hw hcw => hfields e he w hw c hcw ?_
    exact List.mem_cons_of_mem _ hc
  have hfil : (entries.map (writeRow fmt)).filter (· ≠ []) = entries.map (writeRow fmt) := by
    rw [List.filter_eq_self]
    intro l hl'
    obtain ⟨e, he, rfl⟩ := List.mem_map.1 hl'
    exact decide_eq_true (commas_ne_nil (hfmt e he).2.1 _)
  refine ⟨hN, hne, _, csvOf_plain (lines := entries.map (writeRow fmt))
    (lines_unlines (by simpa using hne) ?_) ?_ ?_, ?_⟩
  · intro l hl'
    obtain ⟨e, he, rfl⟩ := List.mem_map.1 hl'
    exact hno e he _ (by simp)
  · intro l hl'
    obtain ⟨e, he, rfl⟩ := List.mem_map.1 hl'
    exact hno e he _ (by simp)
  · intro l hl'
    obtain ⟨e, he, rfl⟩ := List.mem_map.1 hl'
    exact hno e he _ (by simp)
  · rw [hfil, List.map_map, List.forall₂_map_left_iff, List.forall₂_same]
    intro e he
    refine ⟨e.1.map (fun c => Nat.toDigits 10 c), fmt e.2, ?_, by simpa using hl e he, ?_, (hfmt e he).1⟩
    · exact splitAll_commas (by simp) fun w hw hcw => hfields e he w hw _ hcw (by simp)
    · refine ints_iff.1 ?_
      rw [List.map_map]
      exact List.map_congr_left fun c _ => pyInt_digits c

theorem lastValue_written [Zero α] [DecidableEq α] {T : Tensor α} {rows : List (List Nat)}
    (hrows : rows.Perm ((indices T.shape).filter fun i => T.at_ i ≠ 0)) (i : List Nat)
    (hi : InB T.shape i) : lastValue (rows.map fun i => (i, T.at_ i)) i = T.at_ i := by
  unfold lastValue
  have hfl : ((rows.map fun i => (i, T.at_ i)).filter fun e => e.1 = i).map Prod.snd =
      (rows.filter (· = i)).map T.at_ := by
    rw [List.filter_map, List.map_map]
    rfl
  rw [hfl]
  by_cases hz : T.at_ i = 0
  · have : rows.filter (· = i) = [] := by
      rw [List.filter_eq_nil_iff]
      intro j hj
      have := (List.mem_filter.1 (hrows.mem_iff.1 hj)).2
      simp only [ne_eq, decide_eq_true_eq] at this ⊢
      rintro rfl
      exact this hz
    rw [this, hz]; rfl
  · have hi' : i ∈ rows := hrows.mem_iff.2 (List.mem_filter.2 ⟨mem_indices.2 hi, by simpa using hz⟩)
    have hne' : (rows.filter (· = i)) ≠ [] := by
      rw [ne_eq, List.filter_eq_nil_iff]
      intro h
      exact h i hi' (by simp)
    have hall : ∀ x ∈ (rows.filter (· = i)).map T.at_, x = T.at_ i := by
      intro x hx
      obtain ⟨j, hj, rfl⟩ := List.mem_map.1 hx
      have := (List.mem_filter.1 hj).2
      rw [decide_eq_true_eq] at this
      rw [this]
    rw [List.getLast?_eq_getLast_of_ne_nil (by simpa using hne')]
    exact hall _ (List.getLast_mem _)

/-- **C38**: writing the nonzero entries of a tensor, in any order, and reading the file back with the
tensor's shape gives the tensor.  `fmt`/`pyFloat` are any printer and parser that are inverse on the nonzero values of the tensor. -/
theorem C38_round_trip [Zero α] [DecidableEq α] (pyFloat : List Char → Option α) (fmt : α → List Char)
    (path : List Char) (hp : Supported path) (T : Tensor α) (hT : 1 ≤ T.order)
    (hfmt : ∀ i, InB T.shape i → T.at_ i ≠ 0 → pyFloat (fmt (T.at_ i)) = some (T.at_ i) ∧ fmt (T.at_ i) ≠ [] ∧
      ∀ c ∈ fmt (T.at_ i), c ∉ [',', '\n', '\r', '"'])
    (rows : List (List Nat))
    (hrows : rows.Perm ((indices T.shape).filter fun i => T.at_ i ≠ 0)) (hne : rows ≠ []) :
    fullData pyFloat path (writeFile fmt (rows.map fun i => (i, T.at_ i))) (some T.shape) = .ok T := by
  have hin : ∀ i ∈ rows, InB T.shape i := fun i hi =>
    mem_indices.1 (List.mem_filter.1 (hrows.mem_iff.1 hi)).1
  have hnd : rows.Nodup := hrows.nodup_iff.2 ((nodup_indices _).filter _)
  have hf : FileOf pyFloat T.order (writeFile fmt (rows.map fun i => (i, T.at_ i)))
      (rows.map fun i => (i, T.at_ i)) :=
    writeFile_is (by
      intro e he
      obtain ⟨i, hi, rfl⟩ := List.mem_map.1 he
      exact hfmt i (hin i hi) (by simpa using (List.mem_filter.1 (hrows.mem_iff.1 hi)).2)) hT (by simpa using hne) (by
      intro e he
      obtain ⟨i, hi, rfl⟩ := List.mem_map.1 he
      exact (hin i hi).length)
  obtain ⟨S, hS, hs, he⟩ := C35_read_shape pyFloat T.order path _ _ T.shape hp hf rfl (by
      intro e he
      obtain ⟨i, hi, rfl⟩ := List.mem_map.1 he
      exact hin i hi)
  rw [hS]
  congr 1
  refine ext_at hs fun i hi => ?_
  rw [hs] at hi
  rw [he i hi]
  exact lastValue_written hrows i hi

/-- Values that are naturals printed in decimal satisfy the printer/parser hypothesis, `data.csv` is a
supported path and a 2x2 tensor with a zero entry has nonzero entries to write. -/
example : (∀ x : Nat, ((fun s => (pyInt s).map Int.toNat) (Nat.toDigits 10 x) = some x ∧
      Nat.toDigits 10 x ≠ [] ∧ ∀ c ∈ Nat.toDigits 10 x, c ∉ [',', '\n', '\r', '"'])) ∧
    Supported "data.csv".toList ∧
    ((indices [2, 2]).filter fun i => (ofFn [2, 2] fun i => i.getD 0 0 + i.getD 1 0 : Tensor Nat).at_ i ≠ 0) ≠ [] := by
  refine ⟨fun x => ⟨by simp [pyInt_digits], Nat.toDigits_ne_nil, ?_⟩, ⟨"data".toList, Or.inl rfl⟩, by decide +kernel⟩
  exact fun c hc => digit_not_special (Nat.isDigit_of_mem_toDigits (by norm_num) (by norm_num) hc)

/-- A well-formed file with a duplicate coordinate, a blank line, a quoted value, a quoted coordinate with a newline
in it, and lines ended in different ways. -/
example : FileOf pyInt 2 "0,1,\"5\"\r\n\n\"1\n\", 0,7\r0,1,6".toList [([0, 1], 5), ([1, 0], 7), ([0, 1], 6)] := by
  refine ⟨by norm_num, by simp, [["0".toList, "1".toList, "5".toList], ["1\n".toList, " 0".toList, "7".toList],
    ["0".toList, "1".toList, "6".toList]], ⟨["0,1,\"5\"".toList, [], "\"1\n\", 0,7".toList, "0,1,6".toList],
      .crlf "0,1,\"5\"".toList _ _ (by decide) (.lf [] _ _ (by decide) (.cr "\"1\n\", 0,7".toList _ _ (by decide) (by decide)
        (.last _ (by decide)))), ?_⟩, ?_⟩
  · have hfil : (["0,1,\"5\"".toList, [], "\"1\n\", 0,7".toList, "0,1,6".toList] : List (List Char)).filter (· ≠ []) =
      ["0,1,\"5\"".toList, "\"1\n\", 0,7".toList, "0,1,6".toList] := rfl
    rw [hfil]
    refine .cons ⟨by decide, by decide, ["0".toList, "1".toList, "\"5\"".toList], rfl, .cons (.plain _ (by decide) (by decide) (by decide))
        (.cons (.plain _ (by decide) (by decide) (by decide)) (.cons (.quoted "5".toList) .nil))⟩
      (.cons ⟨by decide, by decide, ["\"1\n\"".toList, " 0".toList, "7".toList], rfl, .cons (.quoted "1\n".toList)
        (.cons (.plain _ (by decide) (by decide) (by decide)) (.cons (.plain _ (by decide) (by decide) (by decide)) .nil))⟩
      (.cons (rowText_plain (by decide) (by decide) (by decide)) .nil))
  · exact .cons ⟨["0".toList, "1".toList], "5".toList, rfl, rfl, ints_iff.1 (by decide +kernel), by decide +kernel⟩
      (.cons ⟨["1\n".toList, " 0".toList], "7".toList, rfl, rfl, ints_iff.1 (by decide +kernel), by decide +kernel⟩
      (.cons ⟨["0".toList, "1".toList], "6".toList, rfl, rfl, ints_iff.1 (by decide +kernel), by decide +kernel⟩ .nil))

/-! ### Rejection -/

theorem mapM_ok_iff {β γ : Type} {f : β → Res γ} {l : List β} :
    (∃ r, l.mapM f = .ok r) ↔ ∀ x ∈ l, ∃ y, f x = .ok y := by
  induction l with
  | nil => simp [pure, Except.pure]
  | cons x l ih =>
      rw [List.mapM_cons]
      cases hx : f x with
      | error e =>
          rw [error_bind]
          simp [hx]
      | ok y =>
          rw [ok_bind]
          constructor
          · rintro ⟨r, hr⟩ z hz
            cases hl : l.mapM f with
            | error e => rw [hl] at hr; cases hr
            | ok ys =>
                rcases List.mem_cons.1 hz with rfl | hz
                · exact ⟨y, hx⟩
                · exact ih.1 ⟨ys, hl⟩ z hz
          · intro h
            obtain ⟨ys, hys⟩ := ih.2 fun z hz => h z (by simp [hz])
            exact ⟨y :: ys, by rw [hys]; rfl⟩

theorem entry_ok_iff (pyFloat : List Char → Option α) (order : Nat) (e : List (List Char)) :
    (∃ x, entry pyFloat order e = .ok x) ↔
      (∀ m < order, ∃ f i, e[m]? = some f ∧ pyInt f = some i) ∧ ∃ v x, e.getLast? = some v ∧ pyFloat v = some x := by
  have hi : (∃ r, (List.range order).mapM (intField e) = .ok r) ↔
      ∀ m < order, ∃ f i, e[m]? = some f ∧ pyInt f = some i := by
    rw [mapM_ok_iff]
    simp only [List.mem_range]
    refine forall_congr' fun m => forall_congr' fun _ => ?_
    unfold intField
    constructor
    · rintro ⟨y, hy⟩
      split at hy
      · cases hy
      · rename_i f hf
        split at hy
        · cases hy
        · rename_i i hi
          exact ⟨f, i, hf, hi⟩
    · rintro ⟨f, i, h1, h2⟩
      exact ⟨i, by simp only [h1, h2]⟩
  rw [← hi]
  unfold entry
  constructor
  · rintro ⟨x, hx⟩
    cases hm : (List.range order).mapM (intField e) with
    | error er => rw [hm] at hx; cases hx
    | ok r =>
        rw [hm, ok_bind] at hx
        refine ⟨⟨r, rfl⟩, ?_⟩
        split at hx
        · cases hx
        · rename_i f hf
          split at hx
          · cases hx
          · rename_i v hv
            exact ⟨f, v, hf, hv⟩
  · rintro ⟨⟨r, hr⟩, v, x, h1, h2⟩
    exact ⟨(r, x), by rw [hr, ok_bind]; simp only [h1, h2]⟩

/-- **C39**, the exact acceptance condition of `read`: the extension is `csv` or `txt`; there is a non-blank
row; in *every* non-blank row the first `order` fields exist and are integers and the last field is a number
(`order` = fields of the first row minus one); a given shape has `order` dimensions.  In particular unsupported
extensions, empty files, non-integer coordinates, non-numeric values and rows shorter than `order` are
rejected.  Missing: a row may have *more* fields than the first one, or exactly one field less, see
`C39_ragged_rows_accepted_false`. -/
theorem C39_accepts_iff_partial (pyFloat : List Char → Option α) (path content : List Char)
    (shape : Option (List Nat)) :
    (∃ sp, reader.read pyFloat path content shape = .ok sp) ↔
      (fileType path = "csv".toList ∨ fileType path = "txt".toList) ∧
      ∃ first rest, (csvRows content).filter (fun r => r.length ≠ 0) = first :: rest ∧
        (∀ r ∈ first :: rest, (∀ m < first.length - 1, ∃ f i, r[m]? = some f ∧ IntText f i) ∧
          ∃ v x, r.getLast? = some v ∧ pyFloat v = some x) ∧
        ∀ s, shape = some s → s.length = first.length - 1 := by
  simp only [← pyInt_iff]
  unfold reader.read reader.readAs
  by_cases ht : fileType path = "csv".toList ∨ fileType path = "txt".toList
  · rw [if_pos ht]
    simp only [ht, true_and]
    cases hr : (csvRows content).filter (fun r => r.length ≠ 0) with
    | nil => simp
    | cons first rest =>
        simp only
        have hd : ∀ es : List (List Int × α), (maxDim shape (first.length - 1) es).length = first.length - 1 ↔
            ∀ s, shape = some s → s.length = first.length - 1 := by
          intro es
          cases shape with
          | none => simp [maxDim]
          | some s => simp [maxDim]
        constructor
        · rintro ⟨sp, hsp⟩
          cases hm : (first :: rest).mapM (entry pyFloat (first.length - 1)) with
          | error e => rw [hm] at hsp; cases hsp
          | ok es =>
              rw [hm, ok_bind] at hsp
              split at hsp
              · cases hsp
              · rename_i hlen
                refine ⟨first, rest, rfl, fun r hr => ?_, (hd es).1 (not_not.1 hlen)⟩
                exact (entry_ok_iff pyFloat _ r).1 (mapM_ok_iff.1 ⟨es, hm⟩ r hr)
        · rintro ⟨first', rest', h0, h1, h2⟩
          obtain ⟨rfl, rfl⟩ := List.cons.inj h0
          obtain ⟨es, hes⟩ := mapM_ok_iff.2 fun r hr => (entry_ok_iff pyFloat _ r).2 (h1 r hr)
          rw [hes, ok_bind, if_neg (not_not.2 ((hd es).2 h2))]
          exact ⟨_, rfl⟩
  · rw [if_neg ht]
    constructor
    · rintro ⟨_, h⟩; cases h
    · intro h; exact absurd h.1 ht

/-- **C39**, the same condition in the words of the specification: for a file name ending in `.ext` and contents that spell `rows`
(`CsvOf`: quoting, line endings and blank lines as Python's `csv` reads them), reading succeeds exactly when the extension is `csv` or
`txt`, there is a row, every row starts with `order` integers and ends in a number, and a given shape has `order` dimensions.  Missing: as
above, rows need not have as many fields as the first. -/
theorem C39_rows_accepted_iff_partial (pyFloat : List Char → Option α) (stem ext content : List Char) (rows : List (List (List Char)))
    (shape : Option (List Nat)) (hdot : '.' ∉ ext) (hc : CsvOf content rows) :
    (∃ sp, reader.read pyFloat (stem ++ '.' :: ext) content shape = .ok sp) ↔
      (ext = "csv".toList ∨ ext = "txt".toList) ∧
      ∃ first rest, rows = first :: rest ∧
        (∀ r ∈ rows, (∀ m < first.length - 1, ∃ f i, r[m]? = some f ∧ IntText f i) ∧ ∃ v x, r.getLast? = some v ∧ pyFloat v = some x) ∧
        ∀ s, shape = some s → s.length = first.length - 1 := by
  have e : fileType (stem ++ '.' :: ext) = ext := splitAll_append_last hdot stem
  rw [C39_accepts_iff_partial, e, csvRows_spec hc]
  refine and_congr_right fun _ => ⟨?_, ?_⟩
  · rintro ⟨first, rest, rfl, h⟩; exact ⟨first, rest, rfl, h⟩
  · rintro ⟨first, rest, rfl, h⟩; exact ⟨first, rest, rfl, h⟩

/-- **C39**: an unsupported extension raises `ArgumentError`, whatever the file contains. -/
theorem C39_unsupported_extension (pyFloat : List Char → Option α) (stem ext content : List Char)
    (shape : Option (List Nat)) (hdot : '.' ∉ ext) (h1 : ext ≠ "csv".toList) (h2 : ext ≠ "txt".toList) :
    reader.read pyFloat (stem ++ '.' :: ext) content shape = .error .argumentError := by
  have : fileType (stem ++ '.' :: ext) = ext := splitAll_append_last hdot stem
  unfold reader.read reader.readAs
  rw [this, if_neg (by rintro (h | h); exacts [h1 h, h2 h])]

/-- **C39**: a file without any non-blank line raises `IndexError`. -/
theorem C39_empty_file (pyFloat : List Char → Option α) (path content : List Char) (n : Nat)
    (shape : Option (List Nat)) (hp : Supported path) (hc : Lines content (List.replicate n [])) :
    reader.read pyFloat path content shape = .error .indexError := by
  unfold reader.read reader.readAs
  rw [if_pos (fileType_supported hp), csvRows_spec (csvOf_plain hc (by simp [List.mem_replicate]) (by simp [List.mem_replicate]))]
  simp

/-- **C39**: a coordinate outside the given shape makes the evaluation of `full_data` raise. -/
theorem C39_out_of_shape [Zero α] (pyFloat : List Char → Option α) (N : Nat) (path content : List Char)
    (entries : List (List Nat × α)) (s : List Nat) (hp : Supported path)
    (hf : FileOf pyFloat N content entries) (hs : s.length = N) (hb : ∃ e ∈ entries, ¬ InB s e.1) :
    fullData pyFloat path content (some s) = .error .invalidArgument := by
  unfold fullData
  rw [read_ok hp hf (some s) (fun s' e => by cases e; exact hs), ok_bind]
  exact toDense_error hb

/-- **C39**: a negative coordinate makes the evaluation of `full_data` raise. -/
theorem C39_negative_coordinate [Zero α] (pyFloat : List Char → Option α) (path content : List Char)
    (shape : Option (List Nat)) (sp : Sparse α) (h : reader.read pyFloat path content shape = .ok sp)
    (i : List Int) (hi : i ∈ sp.indices) (c : Int) (hc : c ∈ i) (hneg : c < 0) :
    fullData pyFloat path content shape = .error .invalidArgument := by
  unfold fullData
  rw [h, ok_bind]
  unfold toDense
  have hb : inBounds sp.dims i = false := by
    rw [← Bool.not_eq_true]
    intro hh
    unfold inBounds at hh
    rw [Bool.and_eq_true, decide_eq_true_eq, List.all_eq_true] at hh
    obtain ⟨k, hk, rfl⟩ := List.mem_iff_getElem.1 hc
    have := hh.2 (i[k], sp.dims[k]'(by omega)) (by
      rw [List.mem_iff_getElem]; exact ⟨k, by simp; omega, by simp⟩)
    simp at this
    omega
  have : sp.indices.all (inBounds sp.dims) = false := by
    rw [List.all_eq_false]
    exact ⟨i, hi, by simp [hb]⟩
  rw [if_pos]
  simp [this]

example : ∃ sp, reader.read pyInt "a.csv".toList "0,-1,3\n1,1,2".toList none = .ok sp ∧
    [0, -1] ∈ sp.indices := by
  exact ⟨⟨[[0, -1], [1, 1]], [3, 2], [2, 2]⟩, by decide +kernel, by simp⟩

/-- **C39** is false: rows with more fields than the first (the surplus is ignored) and rows with one field less
(the last field is used both as coordinate and as value) are accepted. -/
theorem C39_ragged_rows_accepted_false :
    reader.read pyInt "a.csv".toList "0,0,1\n1,1,5,2".toList none = .ok ⟨[[0, 0], [1, 1]], [1, 2], [2, 2]⟩ ∧
    reader.read pyInt "a.csv".toList "0,0,1\n1,1".toList none = .ok ⟨[[0, 0], [1, 1]], [1, 1], [2, 2]⟩ := by
  constructor <;> decide +kernel

end TD.Props
