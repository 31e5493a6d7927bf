import Verif.Model.Reader
import Verif.Spec.Coord

/-!
# The `csv.reader` machine and line endings
-/
namespace TD
open Spec reader

/-! ### Line endings -/

theorem universal_append {l : List Char} (h : '\r' ∉ l) (t : List Char) : universal false (l ++ t) = l ++ universal false t := by
  induction l with
  | nil => rfl
  | cons c l ih =>
      simp only [List.mem_cons, not_or] at h
      simp [universal, Ne.symm h.1, ih h.2]

theorem universal_true {t : List Char} (h : t.head? ≠ some '\n') : universal true t = universal false t := by
  cases t with
  | nil => rfl
  | cons c t =>
      simp only [List.head?_cons, ne_eq, Option.some.injEq] at h
      simp [universal, h]

theorem Spec.Lines.ne_nil {t : List Char} {ls : List (List Char)} (h : Lines t ls) : ls ≠ [] := by
  cases h <;> simp

theorem universal_lines {content : List Char} {lines : List (List Char)} (h : Lines content lines) :
    universal false content = unlines lines := by
  have key : ∀ (l : List Char) (ls : List (List Char)), ls ≠ [] → unlines (l :: ls) = l ++ '\n' :: unlines ls := by
    intro l ls hl
    obtain ⟨x, xs, rfl⟩ := List.exists_cons_of_ne_nil hl
    rfl
  induction h with
  | last l h => simpa [unlines, universal] using universal_append h []
  | lf l t ls h ht ih => rw [universal_append h, key _ _ ht.ne_nil, ← ih]; simp [universal]
  | crlf l t ls h ht ih => rw [universal_append h, key _ _ ht.ne_nil, ← ih]; simp [universal]
  | cr l t ls h hh ht ih => rw [universal_append h, key _ _ ht.ne_nil, ← ih]; simp [universal, universal_true hh]

theorem lines_unlines : ∀ {ls : List (List Char)}, ls ≠ [] → (∀ l ∈ ls, '\r' ∉ l) → Lines (unlines ls) ls
  | [], h, _ => absurd rfl h
  | [l], _, h => .last l (h l (by simp))
  | l :: m :: ls, _, h => .lf l _ _ (h l (by simp)) (lines_unlines (by simp) fun x hx => h x (by simp [hx]))

/-! ### Fields and rows -/

/-- What happens when a field `f` is complete and `r` follows. -/
def csvEnd (row : List (List Char)) (f : List Char) : List Char → List (List (List Char))
  | [] => [row ++ [f]]
  | c :: r => if c = '\n' then (row ++ [f]) :: csvGo .startRecord [] [] r else csvGo .startField (row ++ [f]) [] r

/-- Nothing, a comma or a newline follows. -/
def FieldEnd (r : List Char) : Prop := r = [] ∨ (∃ r', r = ',' :: r') ∨ ∃ r', r = '\n' :: r'

theorem csvGo_inField (row : List (List Char)) {f : List Char} (h1 : ',' ∉ f) (h2 : '\n' ∉ f) :
    ∀ (g r : List Char), FieldEnd r → csvGo .inField row g (f ++ r) = csvEnd row (g ++ f) r := by
  induction f with
  | nil =>
      rintro g r (rfl | ⟨r, rfl⟩ | ⟨r, rfl⟩) <;> simp [csvGo, csvEnd]
  | cons c f ih =>
      intro g r hr
      simp only [List.mem_cons, not_or] at h1 h2
      rw [List.cons_append, csvGo, if_neg (Ne.symm h2.1), if_neg (Ne.symm h1.1), ih h1.2 h2.2 _ _ hr]
      simp

theorem csvGo_inQuoted (row : List (List Char)) (f : List Char) : ∀ (g r : List Char),
    csvGo .inQuoted row g (f.flatMap (fun c => if c = '"' then ['"', '"'] else [c]) ++ '"' :: r) =
      csvGo .quoteInQuoted row (g ++ f) r := by
  induction f with
  | nil => intro g r; simp [csvGo]
  | cons c f ih =>
      intro g r
      by_cases hc : c = '"'
      · subst hc
        simp only [List.flatMap_cons, if_pos, List.cons_append, List.nil_append]
        rw [csvGo, if_pos rfl, csvGo, if_pos rfl, ih]
        simp
      · simp only [List.flatMap_cons, if_neg hc, List.cons_append, List.nil_append]
        rw [csvGo, if_neg hc, ih]
        simp

theorem csvGo_field {w f : List Char} (h : FieldText w f) (row : List (List Char)) {r : List Char} (hr : FieldEnd r) :
    csvGo .startField row [] (w ++ r) = csvEnd row f r := by
  cases h with
  | plain _ h1 h2 h3 =>
      cases w with
      | nil => rcases hr with rfl | ⟨r, rfl⟩ | ⟨r, rfl⟩ <;> simp [csvGo, csvEnd]
      | cons c w =>
          simp only [List.mem_cons, not_or] at h1 h2
          simp only [List.head?_cons, ne_eq, Option.some.injEq] at h3
          rw [List.cons_append, csvGo, if_neg (Ne.symm h2.1), if_neg h3, if_neg (Ne.symm h1.1),
            csvGo_inField row h1.2 h2.2 _ _ hr]
          rfl
  | quoted =>
      rw [List.cons_append, csvGo, if_neg (by decide), if_pos rfl, List.append_assoc, List.singleton_append,
        csvGo_inQuoted]
      rcases hr with rfl | ⟨r, rfl⟩ | ⟨r, rfl⟩ <;> simp [csvGo, csvEnd]

/-- What happens when the record `row` is complete and `r` follows. -/
def csvRest (row : List (List Char)) : List Char → List (List (List Char))
  | [] => [row]
  | _ :: r => row :: csvGo .startRecord [] [] r

theorem csvGo_row : ∀ {texts row : List (List Char)}, List.Forall₂ FieldText texts row → row ≠ [] →
    ∀ (row0 : List (List Char)) {r : List Char}, (r = [] ∨ ∃ r', r = '\n' :: r') →
      csvGo .startField row0 [] (commas texts ++ r) = csvRest (row0 ++ row) r
  | [], _, h, hne, _, _, _ => by cases h; exact absurd rfl hne
  | [w], _, .cons (b := f) hw .nil, _, row0, r, hr => by
      rw [commas, csvGo_field hw row0 (by rcases hr with h | h; exacts [.inl h, .inr (.inr h)])]
      rcases hr with rfl | ⟨r, rfl⟩ <;> simp [csvEnd, csvRest]
  | w :: v :: ws, _, .cons (b := f) hw ht, _, row0, r, hr => by
      have hc : commas (w :: v :: ws) = w ++ ',' :: commas (v :: ws) := rfl
      rw [hc, List.append_assoc, List.cons_append, csvGo_field hw row0 (.inr (.inl ⟨_, rfl⟩)), csvEnd,
        if_neg (by decide), csvGo_row ht (by cases ht; simp) _ hr]
      simp

theorem Spec.FieldText.head {w f : List Char} (h : FieldText w f) : w.head? ≠ some '\n' := by
  cases h with
  | plain _ h1 h2 h3 =>
      intro h
      exact h2 (List.mem_of_head? h)
  | quoted => simp

theorem Spec.RowText.head {line : List Char} {row : List (List Char)} (h : RowText line row) : line.head? ≠ some '\n' := by
  obtain ⟨h1, h2, texts, rfl, h4⟩ := h
  match texts, h4 with
  | [], h4 => simp [commas]
  | [w], .cons hw _ => exact hw.head
  | w :: v :: ws, .cons hw _ =>
      have hc : commas (w :: v :: ws) = w ++ ',' :: commas (v :: ws) := rfl
      rw [hc]
      cases w with
      | nil => simp
      | cons c w => simpa using hw.head

theorem csvGo_record {line : List Char} {row : List (List Char)} (h : RowText line row) {r : List Char}
    (hr : r = [] ∨ ∃ r', r = '\n' :: r') : csvGo .startRecord [] [] (line ++ r) = csvRest row r := by
  have hh := h.head
  obtain ⟨h1, h2, texts, rfl, h4⟩ := h
  have := csvGo_row h4 h2 [] hr
  rw [List.nil_append] at this
  rw [← this]
  obtain ⟨c, l, hl⟩ := List.exists_cons_of_ne_nil h1
  rw [hl] at hh ⊢
  simp only [List.head?_cons, ne_eq, Option.some.injEq] at hh
  rw [List.cons_append, csvGo, csvGo, if_neg hh, if_neg hh]

theorem csvGo_records : ∀ {lines : List (List Char)} {rows : List (List (List Char))},
    List.Forall₂ RowText (lines.filter (· ≠ [])) rows →
    (csvGo .startRecord [] [] (unlines lines)).filter (fun r => r.length ≠ 0) = rows
  | [], _, h => by cases h; simp [unlines, csvGo]
  | [l], rows, h => by
      by_cases hl : l = []
      · subst hl
        simp only [ne_eq, not_true_eq_false, decide_false, Bool.false_eq_true, not_false_eq_true,
          List.filter_cons_of_neg, List.filter_nil, List.forall₂_nil_left_iff] at h
        subst h
        simp [unlines, csvGo]
      · rw [List.filter_cons_of_pos (by simpa using hl), List.filter_nil] at h
        obtain ⟨row, rs, hr, ht, rfl⟩ := List.forall₂_cons_left_iff.1 h
        cases ht
        have := csvGo_record hr (r := []) (.inl rfl)
        rw [List.append_nil] at this
        rw [unlines, this, csvRest]
        have := hr.2.1
        simp [this]
  | l :: m :: ls, rows, h => by
      have hu : unlines (l :: m :: ls) = l ++ '\n' :: unlines (m :: ls) := rfl
      rw [hu]
      by_cases hl : l = []
      · subst hl
        rw [List.filter_cons_of_neg (by simp)] at h
        rw [List.nil_append, csvGo, if_pos rfl, List.filter_cons_of_neg (by simp)]
        exact csvGo_records h
      · rw [List.filter_cons_of_pos (by simpa using hl)] at h
        obtain ⟨row, rs, hr, ht, rfl⟩ := List.forall₂_cons_left_iff.1 h
        rw [csvGo_record hr (.inr ⟨_, rfl⟩), csvRest, List.filter_cons_of_pos (by simpa using hr.2.1),
          csvGo_records ht]

/-- `csv.reader` gives the rows the file spells. -/
theorem csvRows_spec {content : List Char} {rows : List (List (List Char))} (h : CsvOf content rows) :
    (csvRows content).filter (fun r => r.length ≠ 0) = rows := by
  obtain ⟨lines, h1, h2⟩ := h
  rw [csvRows, universal_lines h1]
  exact csvGo_records h2

end TD
