import Verif.Lemmas.IntText
import Verif.Lemmas.Csv
import Verif.Lemmas.Einsum
import Verif.Lemmas.Ttm
import Mathlib.Tactic.NormNum

namespace TD
open Spec Tensor reader
variable {α : Type}

theorem splitAll_no' {sep : Char} {w : List Char} (h : sep ∉ w) : tf.splitAll sep w = [w] := by
  induction w with
  | nil => rfl
  | cons c w ih =>
      simp only [List.mem_cons, not_or] at h
      simp only [tf.splitAll, if_neg (Ne.symm h.1), ih h.2]

theorem splitAll_cons' {sep : Char} {w r : List Char} (h : sep ∉ w) :
    tf.splitAll sep (w ++ sep :: r) = w :: tf.splitAll sep r := by
  induction w with
  | nil => simp [tf.splitAll]
  | cons c w ih =>
      simp only [List.mem_cons, not_or] at h
      simp only [List.cons_append, tf.splitAll, if_neg (Ne.symm h.1), ih h.2]

theorem splitAll_commas : ∀ {ws : List (List Char)}, ws ≠ [] → (∀ w ∈ ws, ',' ∉ w) →
    tf.splitAll ',' (commas ws) = ws
  | [], h, _ => absurd rfl h
  | [w], _, h => splitAll_no' (h w (by simp))
  | w :: v :: ws, _, h => by
      rw [commas, splitAll_cons' (h w (by simp)), splitAll_commas (by simp) (fun u hu => h u (by simp [hu]))]
      simp

theorem splitAll_unlines : ∀ {ws : List (List Char)}, ws ≠ [] → (∀ w ∈ ws, '\n' ∉ w) →
    tf.splitAll '\n' (unlines ws) = ws
  | [], h, _ => absurd rfl h
  | [w], _, h => splitAll_no' (h w (by simp))
  | w :: v :: ws, _, h => by
      rw [unlines, splitAll_cons' (h w (by simp)), splitAll_unlines (by simp) (fun u hu => h u (by simp [hu]))]
      simp

theorem splitAll_ne_nil (sep : Char) (w : List Char) : tf.splitAll sep w ≠ [] := by
  cases w with
  | nil => simp [tf.splitAll]
  | cons c w =>
      simp only [tf.splitAll]
      split
      · simp
      · split <;> simp

theorem splitAll_append_last {sep : Char} {w : List Char} (h : sep ∉ w) (stem : List Char) :
    (tf.splitAll sep (stem ++ sep :: w)).getLastD [] = w := by
  induction stem with
  | nil => simp [tf.splitAll, splitAll_no' h]
  | cons c stem ih =>
      simp only [List.cons_append, tf.splitAll]
      obtain ⟨x, xs, hx⟩ := List.exists_cons_of_ne_nil (splitAll_ne_nil sep (stem ++ sep :: w))
      rw [hx] at ih ⊢
      split
      · simpa using ih
      · cases xs with
        | nil =>
            exfalso
            -- the split has at least two parts
            have : ∀ st : List Char, 2 ≤ (tf.splitAll sep (st ++ sep :: w)).length := by
              intro st
              induction st with
              | nil => simp [tf.splitAll, splitAll_no' h]
              | cons d st ihst =>
                  simp only [List.cons_append, tf.splitAll]
                  split
                  · simp; omega
                  · obtain ⟨y, ys, hy⟩ := List.exists_cons_of_ne_nil (splitAll_ne_nil sep (st ++ sep :: w))
                    rw [hy] at ihst ⊢
                    simpa using ihst
            have := this stem
            rw [hx] at this
            simp at this
        | cons y ys => simpa using ih

theorem fileType_supported {path : List Char} (h : Supported path) :
    fileType path = "csv".toList ∨ fileType path = "txt".toList := by
  obtain ⟨stem, rfl | rfl⟩ := h
  · left
    exact splitAll_append_last (sep := '.') (w := ['c', 's', 'v']) (by decide) stem
  · right
    exact splitAll_append_last (sep := '.') (w := ['t', 'x', 't']) (by decide) stem

/-! ### Rows -/

theorem splitAll_mem {sep : Char} : ∀ (l : List Char), ∀ w ∈ tf.splitAll sep l, sep ∉ w ∧ ∀ c ∈ w, c ∈ l
  | [], w, hw => by simp [tf.splitAll] at hw; subst hw; simp
  | c :: l, w, hw => by
      have ih := splitAll_mem (sep := sep) l
      rw [tf.splitAll] at hw
      split at hw
      · rcases List.mem_cons.1 hw with rfl | hw
        · simp
        · exact ⟨(ih w hw).1, fun x hx => List.mem_cons_of_mem _ ((ih w hw).2 x hx)⟩
      · rename_i hc
        obtain ⟨x, xs, hx⟩ := List.exists_cons_of_ne_nil (splitAll_ne_nil sep l)
        rw [hx] at hw ih
        rcases List.mem_cons.1 hw with rfl | hw
        · have := ih x (by simp)
          refine ⟨by simp [this.1, Ne.symm hc], fun y hy => ?_⟩
          rcases List.mem_cons.1 hy with rfl | hy
          · simp
          · exact List.mem_cons_of_mem _ (this.2 y hy)
        · have := ih w (by simp [hw])
          exact ⟨this.1, fun x hx => List.mem_cons_of_mem _ (this.2 x hx)⟩

theorem commas_splitAll : ∀ (l : List Char), commas (tf.splitAll ',' l) = l
  | [] => rfl
  | c :: l => by
      have ih := commas_splitAll l
      obtain ⟨x, xs, hx⟩ := List.exists_cons_of_ne_nil (splitAll_ne_nil ',' l)
      rw [tf.splitAll]
      rw [hx] at ih ⊢
      split
      · rename_i hc
        subst hc
        change [] ++ ',' :: commas (x :: xs) = _
        rw [ih]; rfl
      · cases xs with
        | nil => simpa [commas] using ih
        | cons y ys =>
            change (c :: x) ++ ',' :: commas (y :: ys) = _
            rw [← ih]; rfl

/-- A line without quotes spells the fields between its commas. -/
theorem rowText_plain {l : List Char} (hne : l ≠ []) (hn : '\n' ∉ l) (hq : '"' ∉ l) : RowText l (tf.splitAll ',' l) := by
  refine ⟨hne, splitAll_ne_nil _ _, tf.splitAll ',' l, (commas_splitAll l).symm, List.forall₂_same.2 fun w hw => ?_⟩
  have h := splitAll_mem l w hw
  exact .plain w h.1 (fun hc => hn (h.2 _ hc)) fun hc => hq (h.2 _ (List.mem_of_head? hc))

theorem csvOf_plain {content : List Char} {lines : List (List Char)} (hc : Lines content lines)
    (hn : ∀ l ∈ lines, '\n' ∉ l) (hq : ∀ l ∈ lines, '"' ∉ l) :
    CsvOf content ((lines.filter (· ≠ [])).map (tf.splitAll ',')) := by
  refine ⟨lines, hc, ?_⟩
  rw [List.forall₂_map_right_iff, List.forall₂_same]
  intro l hl
  obtain ⟨h1, h2⟩ := List.mem_filter.1 hl
  exact rowText_plain (by simpa using h2) (hn l h1) (hq l h1)

theorem ints_iff {fields : List (List Char)} {e : List Nat} :
    fields.map pyInt = e.map (fun c : Nat => some (c : Int)) ↔ List.Forall₂ (fun f (c : Nat) => IntText f (c : Int)) fields e := by
  simp only [← pyInt_iff]
  rw [← List.forall₂_eq_eq_eq, List.forall₂_map_left_iff, List.forall₂_map_right_iff]

theorem RowFor.length {pyFloat : List Char → Option α} {N : Nat} {row : List (List Char)} {e : List Nat × α}
    (h : RowFor pyFloat N row e) : row.length - 1 = N := by
  obtain ⟨fields, v, rfl, h, -⟩ := h
  simp [h]

theorem entry_row {pyFloat : List Char → Option α} {N : Nat} {row : List (List Char)} {e : List Nat × α}
    (h : RowFor pyFloat N row e) :
    entry pyFloat N row = .ok (e.1.map (fun c : Nat => (c : Int)), e.2) := by
  obtain ⟨fields, v, rfl, hN, h1, h2⟩ := h
  replace h1 := ints_iff.2 h1
  have hlen : e.1.length = N := by
    have := congrArg List.length h1
    simpa [hN] using this.symm
  unfold entry
  have : (List.range N).mapM (intField (fields ++ [v])) =
      .ok ((List.range N).map fun m => ((e.1.getD m 0 : Nat) : Int)) := by
    apply mapM_ok
    intro m hm
    have hm' : m < fields.length := by simpa [hN] using hm
    have hm2 : m < e.1.length := by omega
    have hp : pyInt fields[m] = some ((e.1[m] : Nat) : Int) := by
      have := congrArg (fun l => l[m]?) h1
      simpa [hm', hm2] using this
    rw [intField, List.getElem?_append_left hm', List.getElem?_eq_getElem hm']
    simp only [hp]
    rw [List.getD_eq_getElem _ _ hm2]
  rw [this, ok_bind]
  simp only [List.getLast?_append, List.getLast?_singleton, Option.some_or, h2]
  congr 2
  have := congrArg (List.map fun c : Nat => (c : Int)) (map_getD_range e.1 N hlen)
  rwa [List.map_map] at this

theorem mapM_forall₂ {β γ δ : Type} {R : β → γ → Prop} {f : β → Res δ} {g : γ → δ}
    (hR : ∀ a b, R a b → f a = .ok (g b)) {l : List β} {l' : List γ} (h : List.Forall₂ R l l') :
    l.mapM f = .ok (l'.map g) := by
  induction h with
  | nil => rfl
  | cons h _ ih => rw [List.mapM_cons, hR _ _ h, ok_bind, ih]; rfl

theorem maxOf_spec {l : List Int} (hne : l ≠ []) : maxOf l ∈ l ∧ ∀ x ∈ l, x ≤ maxOf l := by
  obtain ⟨x, xs, rfl⟩ := List.exists_cons_of_ne_nil hne
  simp only [maxOf]
  clear hne
  induction xs generalizing x with
  | nil => simp
  | cons y ys ih =>
      obtain ⟨h1, h2⟩ := ih (max x y)
      rw [List.foldl_cons]
      refine ⟨?_, ?_⟩
      · rcases List.mem_cons.1 h1 with h | h
        · rw [h]
          rcases max_choice x y with e | e <;> simp [e]
        · simp [h]
      · intro z hz
        rcases List.mem_cons.1 hz with rfl | hz
        · exact le_trans (le_max_left z y) (h2 _ (by simp))
        · rcases List.mem_cons.1 hz with rfl | hz
          · exact le_trans (le_max_right x z) (h2 _ (by simp))
          · exact h2 z (by simp [hz])

/-- Inferred shape: one more than the largest coordinate. -/
def topDims (N : Nat) (entries : List (List Nat × α)) : List Nat :=
  (List.range N).map fun m => (maxOf (entries.map fun e => ((e.1.getD m 0 : Nat) : Int)) + 1).toNat

theorem read_ok {pyFloat : List Char → Option α} {N : Nat} {path content : List Char}
    {entries : List (List Nat × α)} (hp : Supported path) (hf : FileOf pyFloat N content entries)
    (shape : Option (List Nat)) (hs : ∀ s, shape = some s → s.length = N) :
    reader.read pyFloat path content shape = .ok ⟨entries.map fun e => e.1.map fun c : Nat => (c : Int),
      entries.map Prod.snd, ((shape.getD (topDims N entries)).map fun d : Nat => (d : Int))⟩ := by
  obtain ⟨hN, hne, rows, hc, hF⟩ := hf
  unfold reader.read reader.readAs
  rw [if_pos (fileType_supported hp), csvRows_spec hc]
  obtain ⟨e0, es, rfl⟩ := List.exists_cons_of_ne_nil hne
  obtain ⟨r0, rs, hr0, hrs, rfl⟩ := List.forall₂_cons_right_iff.1 hF
  simp only
  rw [RowFor.length hr0]
  have hmap : (r0 :: rs).mapM (entry pyFloat N) =
      .ok ((e0 :: es).map fun e => (e.1.map (fun c : Nat => (c : Int)), e.2)) :=
    mapM_forall₂ (fun _ _ h => entry_row h) hF
  rw [hmap, ok_bind]
  have hd : maxDim shape N ((e0 :: es).map fun e => (e.1.map (fun c : Nat => (c : Int)), e.2)) =
      ((shape.getD (topDims N (e0 :: es))).map fun d : Nat => (d : Int)) := by
    cases shape with
    | some s => rfl
    | none =>
        simp only [maxDim, Option.getD_none, topDims, List.map_map]
        apply List.map_congr_left
        intro m _
        have hh : ((e0 :: es).map ((fun e => e.1.getD m 0) ∘ fun e : List Nat × α =>
            (e.1.map (fun c : Nat => (c : Int)), e.2))) =
            (e0 :: es).map fun e => ((e.1.getD m 0 : Nat) : Int) := by
          apply List.map_congr_left
          intro e _
          simp only [Function.comp_apply]
          by_cases hm : m < e.1.length
          · rw [List.getD_eq_getElem _ _ (by simpa using hm), List.getD_eq_getElem _ _ hm]; simp
          · rw [List.getD_eq_default _ _ (by simpa using hm), List.getD_eq_default _ _ (by simpa using hm)]; rfl
        rw [hh]
        have h0 : 0 ≤ maxOf ((e0 :: es).map fun e => ((e.1.getD m 0 : Nat) : Int)) := by
          obtain ⟨hm, -⟩ := maxOf_spec (l := (e0 :: es).map fun e => ((e.1.getD m 0 : Nat) : Int)) (by simp)
          obtain ⟨e, -, he⟩ := List.mem_map.1 hm
          rw [← he]; omega
        simp only [Function.comp_apply]
        omega
  rw [hd, if_neg]
  · simp [List.map_map, Function.comp_def]
  · cases shape with
    | none => simp [topDims]
    | some s => simpa using hs s rfl

end TD

namespace TD
open Spec Tensor reader
variable {α : Type}

theorem inBounds_iff {s i : List Nat} :
    inBounds (s.map fun d : Nat => (d : Int)) (i.map fun c : Nat => (c : Int)) = true ↔ InB s i := by
  unfold inBounds
  rw [Bool.and_eq_true, decide_eq_true_eq]
  simp only [List.length_map]
  constructor
  · rintro ⟨hl, h⟩
    rw [InB_iff_getElem]
    refine ⟨hl, fun k h1 h2 => ?_⟩
    rw [List.all_eq_true] at h
    have := h ((i[k] : Int), (s[k] : Int)) (by
      rw [List.mem_iff_getElem]
      exact ⟨k, by simp; omega, by simp⟩)
    simp at this
    exact this
  · intro h
    refine ⟨h.length, ?_⟩
    rw [List.all_eq_true]
    intro p hp
    obtain ⟨k, hk, rfl⟩ := List.mem_iff_getElem.1 hp
    have hk' : k < i.length ∧ k < s.length := by simpa using hk
    have := (InB_iff_getElem.1 h).2 k hk'.1 hk'.2
    simp
    omega

theorem find?_reverse {β : Type} (p : β → Bool) (l : List β) : l.reverse.find? p = (l.filter p).getLast? := by
  rw [← List.head?_filter, List.filter_reverse, List.head?_reverse]

theorem toDense_ok [Zero α] {entries : List (List Nat × α)} {s : List Nat} (h : ∀ e ∈ entries, InB s e.1) :
    toDense ⟨entries.map fun e => e.1.map fun c : Nat => (c : Int), entries.map Prod.snd,
      s.map fun d : Nat => (d : Int)⟩ = .ok (ofFn s (lastValue entries)) := by
  unfold toDense
  have h1 : ((s.map fun d : Nat => (d : Int)).any (· < 0)) = false := by
    rw [List.any_eq_false]
    intro x hx
    obtain ⟨d, -, rfl⟩ := List.mem_map.1 hx
    simp
  have h2 : ((entries.map fun e => e.1.map fun c : Nat => (c : Int)).all
      (inBounds (s.map fun d : Nat => (d : Int)))) = true := by
    rw [List.all_eq_true]
    intro x hx
    obtain ⟨e, he, rfl⟩ := List.mem_map.1 hx
    exact inBounds_iff.2 (h e he)
  simp only [h1, h2, Bool.not_true, Bool.or_false, Bool.false_eq_true, if_false, List.map_map]
  have h3 : s.map (Int.toNat ∘ fun d : Nat => (d : Int)) = s := by
    conv_rhs => rw [← List.map_id s]
    apply List.map_congr_left; intro d _; simp
  have h4 : (entries.map ((fun i => i.map Int.toNat) ∘ fun e => e.1.map fun c : Nat => (c : Int))).zip
      (entries.map Prod.snd) = entries := by
    have : entries.map ((fun i => i.map Int.toNat) ∘ fun e => e.1.map fun c : Nat => (c : Int)) =
        entries.map Prod.fst := by
      apply List.map_congr_left
      intro e _
      simp only [Function.comp_apply, List.map_map]
      conv_rhs => rw [← List.map_id e.1]
      apply List.map_congr_left; intro d _; simp
    rw [this]
    exact (List.zip_of_prod rfl rfl).symm
  rw [h3, h4]
  congr 2
  funext i
  rw [find?_reverse]
  unfold lastValue
  rw [List.getLast?_map]

theorem toDense_error [Zero α] {entries : List (List Nat × α)} {s : List Nat} (h : ∃ e ∈ entries, ¬ InB s e.1) :
    toDense ⟨entries.map fun e => e.1.map fun c : Nat => (c : Int), entries.map Prod.snd,
      s.map fun d : Nat => (d : Int)⟩ = .error .invalidArgument := by
  unfold toDense
  obtain ⟨e, he, hb⟩ := h
  have h2 : ((entries.map fun e => e.1.map fun c : Nat => (c : Int)).all
      (inBounds (s.map fun d : Nat => (d : Int)))) = false := by
    rw [List.all_eq_false]
    exact ⟨_, List.mem_map.2 ⟨e, he, rfl⟩, fun hh => hb (inBounds_iff.1 hh)⟩
  rw [if_pos]
  simp only [h2, Bool.not_false, Bool.or_true]

theorem topDims_spec {N : Nat} {entries : List (List Nat × α)} (hne : entries ≠ [])
    (hl : ∀ e ∈ entries, e.1.length = N) :
    (topDims N entries).length = N ∧ (∀ e ∈ entries, InB (topDims N entries) e.1) ∧
      ∀ m < N, ∃ e ∈ entries, (topDims N entries).getD m 0 = e.1.getD m 0 + 1 := by
  have key : ∀ m, ∃ e ∈ entries, (maxOf (entries.map fun e => ((e.1.getD m 0 : Nat) : Int)) + 1).toNat =
      e.1.getD m 0 + 1 ∧ ∀ e' ∈ entries, e'.1.getD m 0 ≤ e.1.getD m 0 := by
    intro m
    obtain ⟨hm, hmax⟩ := maxOf_spec (l := entries.map fun e => ((e.1.getD m 0 : Nat) : Int)) (by simpa using hne)
    obtain ⟨e, he, hee⟩ := List.mem_map.1 hm
    refine ⟨e, he, by rw [← hee]; omega, fun e' he' => ?_⟩
    have := hmax _ (List.mem_map.2 ⟨e', he', rfl⟩)
    rw [← hee] at this
    omega
  have hg : ∀ m < N, (topDims N entries).getD m 0 =
      (maxOf (entries.map fun e => ((e.1.getD m 0 : Nat) : Int)) + 1).toNat := by
    intro m hm
    unfold topDims
    rw [List.getD_eq_getElem _ _ (by simpa using hm)]
    simp
  have hlen : (topDims N entries).length = N := by simp [topDims]
  refine ⟨hlen, fun e he => ?_, fun m hm => ?_⟩
  · rw [InB_iff_getD]
    refine ⟨by rw [hlen, hl e he], fun m hm => ?_⟩
    rw [hlen] at hm
    obtain ⟨e', he', h1, h2⟩ := key m
    rw [hg m hm, h1]
    have := h2 e he
    omega
  · obtain ⟨e', he', h1, h2⟩ := key m
    exact ⟨e', he', by rw [hg m hm, h1]⟩

theorem FileOf.lengths {pyFloat : List Char → Option α} {N : Nat} {content : List Char}
    {entries : List (List Nat × α)} (hf : FileOf pyFloat N content entries) :
    ∀ e ∈ entries, e.1.length = N := by
  obtain ⟨-, -, rows, -, hF⟩ := hf
  induction hF with
  | nil => simp
  | cons h _ ih =>
      intro e he
      rcases List.mem_cons.1 he with rfl | he
      · obtain ⟨fields, v, -, hN, h1, -⟩ := h
        replace h1 := ints_iff.2 h1
        have := congrArg List.length h1
        simpa [hN] using this.symm
      · exact ih e he

/-! ### Decimal numerals -/

theorem digitsAux_digits : ∀ (l : List Char) (acc : Nat), l ≠ [] → (∀ c ∈ l, c.isDigit) →
    ∀ prev, digitsAux acc prev l = some (Nat.ofDigitChars 10 l acc)
  | [c], acc, _, h, prev => by
      have hc : c.isDigit = true := h c (by simp)
      have hne : c ≠ '_' := by rintro rfl; simp at hc
      simp [digitsAux, hne, hc, Nat.ofDigitChars_cons, Nat.ofDigitChars_nil]
  | c :: d :: l, acc, _, h, prev => by
      have hc : c.isDigit = true := h c (by simp)
      have hne : c ≠ '_' := by rintro rfl; simp at hc
      rw [digitsAux, if_neg hne, if_pos hc, Nat.ofDigitChars_cons,
        digitsAux_digits (d :: l) _ (by simp) (fun x hx => h x (by simp [List.mem_cons.1 hx]))]

theorem dropWhile_digits {l : List Char} (h : ∀ c ∈ l, c.isDigit) : l.dropWhile isWs = l := by
  cases l with
  | nil => rfl
  | cons c l =>
      have hc : c.isDigit = true := h c (by simp)
      have : isWs c = false := by
        unfold isWs
        have h1 : c ≠ ' ' := by rintro rfl; simp at hc
        have h2 : 48 ≤ c.toNat := by
          simp only [Char.isDigit, Bool.and_eq_true, decide_eq_true_eq] at hc
          exact hc.1
        simp [h1]
        omega
      simp [this]

theorem pyInt_digits (n : Nat) : pyInt (Nat.toDigits 10 n) = some (n : Int) := by
  have hd : ∀ c ∈ Nat.toDigits 10 n, c.isDigit := fun c hc => Nat.isDigit_of_mem_toDigits (by norm_num) (by norm_num) hc
  unfold pyInt
  have h1 : ((Nat.toDigits 10 n).dropWhile isWs).reverse.dropWhile isWs = (Nat.toDigits 10 n).reverse := by
    rw [dropWhile_digits hd, dropWhile_digits (by simpa using hd)]
  simp only [h1, List.reverse_reverse]
  have h2 := digitsAux_digits (Nat.toDigits 10 n) 0 Nat.toDigits_ne_nil hd false
  rw [Nat.ofDigitChars_toDigits (by norm_num) (by norm_num)] at h2
  have hne : ∀ c r, Nat.toDigits 10 n = c :: r → c ≠ '-' ∧ c ≠ '+' := by
    intro c r e
    have hc := hd c (by rw [e]; simp)
    constructor <;> rintro rfl <;> simp at hc
  split
  · rename_i r e; exact absurd rfl (hne _ _ e).1
  · rename_i r e; exact absurd rfl (hne _ _ e).2
  · rw [h2]; rfl

end TD
