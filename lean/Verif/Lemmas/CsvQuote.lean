import Verif.Lemmas.Reader

/-!
# Quotes: what `csv.reader` and `int()` do with them
-/
namespace TD
open Spec reader
variable {α : Type}

theorem unlines_cons {l : List Char} {ls : List (List Char)} (h : ls ≠ []) :
    unlines (l :: ls) = l ++ '\n' :: unlines ls := by
  obtain ⟨x, xs, rfl⟩ := List.exists_cons_of_ne_nil h
  rfl

/-- Complete rows first, then anything. -/
theorem csvGo_records_append : ∀ {lines : List (List Char)} {rows : List (List (List Char))} (l : List Char),
    List.Forall₂ RowText (lines.filter (· ≠ [])) rows →
    (csvGo .startRecord [] [] (unlines (lines ++ [l]))).filter (fun r => r.length ≠ 0) =
      rows ++ (csvGo .startRecord [] [] l).filter (fun r => r.length ≠ 0)
  | [], _, l, h => by cases h; rfl
  | m :: ls, rows, l, h => by
      rw [List.cons_append, unlines_cons (by simp)]
      by_cases hm : m = []
      · subst hm
        rw [List.filter_cons_of_neg (by simp)] at h
        rw [List.nil_append, csvGo, if_pos rfl, List.filter_cons_of_neg (by simp)]
        exact csvGo_records_append l h
      · rw [List.filter_cons_of_pos (by simpa using hm)] at h
        obtain ⟨row, rs, hr, ht, rfl⟩ := List.forall₂_cons_left_iff.1 h
        rw [csvGo_record hr (.inr ⟨_, rfl⟩), csvRest, List.filter_cons_of_pos (by simpa using hr.2.1),
          csvGo_records_append l ht, List.cons_append]

theorem csvGo_open (row : List (List Char)) (f : List Char) : ∀ (g : List Char),
    csvGo .inQuoted row g (f.flatMap (fun c => if c = '"' then ['"', '"'] else [c])) = [row ++ [g ++ f]] := by
  induction f with
  | nil => intro g; simp [csvGo]
  | cons c f ih =>
      intro g
      by_cases hc : c = '"'
      · subst hc
        simp only [List.flatMap_cons, if_pos, List.cons_append, List.nil_append]
        rw [csvGo, if_pos rfl, csvGo, if_pos rfl, ih]
        simp
      · simp only [List.flatMap_cons, if_neg hc, List.cons_append, List.nil_append]
        rw [csvGo, if_neg hc, ih]
        simp

theorem commas_append {w : List Char} : ∀ {ws : List (List Char)}, ws ≠ [] → commas (ws ++ [w]) = commas ws ++ ',' :: w
  | [], h => absurd rfl h
  | [v], _ => rfl
  | v :: u :: ws, _ => by
      have h := commas_append (w := w) (ws := u :: ws) (by simp)
      change v ++ ',' :: commas (u :: ws ++ [w]) = (v ++ ',' :: commas (u :: ws)) ++ ',' :: w
      rw [h]
      simp

/-- Fields first, then anything. -/
theorem csvGo_fields_append : ∀ {texts row : List (List Char)}, List.Forall₂ FieldText texts row →
    ∀ (row0 : List (List Char)) (w : List Char),
      csvGo .startField row0 [] (commas (texts ++ [w])) = csvGo .startField (row0 ++ row) [] w
  | [], _, .nil, row0, w => by simp [commas]
  | v :: ws, _, .cons (b := f) hv ht, row0, w => by
      have : commas (v :: ws ++ [w]) = v ++ ',' :: commas (ws ++ [w]) := by
        cases ws <;> rfl
      rw [this, csvGo_field hv row0 (.inr (.inl ⟨_, rfl⟩)), csvEnd, if_neg (by decide), csvGo_fields_append ht]
      simp

theorem csvGo_start {t : List Char} (hne : t ≠ []) (hh : t.head? ≠ some '\n') :
    csvGo .startRecord [] [] t = csvGo .startField [] [] t := by
  obtain ⟨c, l, rfl⟩ := List.exists_cons_of_ne_nil hne
  simp only [List.head?_cons, ne_eq, Option.some.injEq] at hh
  rw [csvGo, csvGo, if_neg hh, if_neg hh]

/-- A last row whose last field is quoted and never closed. -/
theorem csvGo_unclosed {texts row : List (List Char)} (h : List.Forall₂ FieldText texts row) (f : List Char) :
    csvGo .startRecord [] [] (commas (texts ++ ['"' :: f.flatMap (fun c => if c = '"' then ['"', '"'] else [c])])) =
      [row ++ [f]] := by
  rw [csvGo_start, csvGo_fields_append h, csvGo, if_neg (by decide), if_pos rfl, csvGo_open]
  · simp
  · cases texts with
    | nil => simp [commas]
    | cons v ws => cases ws <;> simp [commas]
  · match texts, h with
    | [], _ => simp [commas]
    | v :: ws, .cons hv _ =>
        have : ∀ w : List Char, commas (v :: ws ++ [w]) = v ++ ',' :: commas (ws ++ [w]) := by
          intro w; cases ws <;> rfl
        rw [this]
        cases v with
        | nil => simp
        | cons c v => simpa using hv.head

/-! ### `int()` -/

/-- Characters that may occur in an integer literal. -/
def intChar (c : Char) : Prop := isWs c = true ∨ c.isDigit = true ∨ c = '_' ∨ c = '+' ∨ c = '-'

theorem digitsAux_chars : ∀ (l : List Char) (acc : Nat) (prev : Bool) (n : Nat), digitsAux acc prev l = some n →
    ∀ c ∈ l, intChar c
  | [], _, _, _, _ => by simp
  | c :: l, acc, prev, n, h => by
      intro x hx
      rw [digitsAux] at h
      by_cases hc : c = '_'
      · rw [if_pos hc] at h
        cases prev with
        | false => simp at h
        | true =>
            rcases List.mem_cons.1 hx with rfl | hx
            · exact .inr (.inr (.inl hc))
            · exact digitsAux_chars l _ _ n h x hx
      · rw [if_neg hc] at h
        by_cases hd : c.isDigit = true
        · rw [if_pos hd] at h
          rcases List.mem_cons.1 hx with rfl | hx
          · exact .inr (.inl hd)
          · exact digitsAux_chars l _ _ n h x hx
        · rw [if_neg hd] at h
          cases h

theorem mem_of_strip {c : Char} {s : List Char} (hc : c ∈ s) (hw : isWs c = false) :
    c ∈ ((s.dropWhile isWs).reverse.dropWhile isWs).reverse := by
  have key : ∀ {l : List Char}, c ∈ l → c ∈ l.dropWhile isWs := by
    intro l hl
    have := List.takeWhile_append_dropWhile (p := isWs) (l := l)
    rw [← this] at hl
    rcases List.mem_append.1 hl with h | h
    · have := List.all_takeWhile (p := isWs) (l := l); rw [List.all_eq_true] at this; have := this c h; rw [hw] at this; cases this
    · exact h
  rw [List.mem_reverse]
  exact key (List.mem_reverse.2 (key hc))

/-- `int()` accepts white space, digits, underscores and signs only. -/
theorem pyInt_chars {s : List Char} {i : Int} (h : pyInt s = some i) : ∀ c ∈ s, intChar c := by
  intro c hc
  by_cases hw : isWs c = true
  · exact .inl hw
  · have hm := mem_of_strip hc (by simpa using hw)
    unfold pyInt at h
    simp only at h
    split at h
    · rename_i r e
      rw [e] at hm
      rcases List.mem_cons.1 hm with rfl | hm
      · exact .inr (.inr (.inr (.inr rfl)))
      · obtain ⟨n, hn, -⟩ := Option.map_eq_some_iff.1 h
        exact digitsAux_chars _ _ _ _ hn c hm
    · rename_i r e
      rw [e] at hm
      rcases List.mem_cons.1 hm with rfl | hm
      · exact .inr (.inr (.inr (.inl rfl)))
      · obtain ⟨n, hn, -⟩ := Option.map_eq_some_iff.1 h
        exact digitsAux_chars _ _ _ _ hn c hm
    · obtain ⟨n, hn, -⟩ := Option.map_eq_some_iff.1 h
      exact digitsAux_chars _ _ _ _ hn c hm

end TD
