import Mathlib.Tactic.IntervalCases
import Verif.Model.Reader
import Verif.Spec.IntText

/-! # `int()` and the written form of integers -/
namespace TD
open Spec reader

theorem isWs_iff {c : Char} : isWs c = true ↔ c ∈ blanks := by
  unfold isWs blanks
  constructor
  · intro h
    simp only [Bool.or_eq_true, Bool.and_eq_true, decide_eq_true_eq] at h
    rcases h with h | ⟨h1, h2⟩
    · simp [h]
    · have : c = Char.ofNat c.toNat := (Char.ofNat_toNat c).symm
      rw [this]
      generalize c.toNat = n at h1 h2
      interval_cases n <;> decide
  · intro h
    simp only [List.mem_cons, List.not_mem_nil, or_false] at h
    rcases h with h | h | h | h | h | h <;> subst h <;> decide

theorem isDigit_iff {c : Char} : c.isDigit = true ↔ c ∈ decimals := by
  constructor
  · intro h
    simp only [Char.isDigit, Bool.and_eq_true, decide_eq_true_eq] at h
    obtain ⟨h1, h2⟩ := h
    have h1 : 48 ≤ c.toNat := h1
    have h2 : c.toNat ≤ 57 := h2
    have : c = Char.ofNat c.toNat := (Char.ofNat_toNat c).symm
    rw [this]
    generalize c.toNat = n at h1 h2
    interval_cases n <;> decide
  · intro h
    simp only [decimals, List.mem_cons, List.not_mem_nil, or_false] at h
    rcases h with h | h | h | h | h | h | h | h | h | h <;> subst h <;> decide

theorem digit_value {c : Char} (h : c ∈ decimals) : c.toNat - '0'.toNat = decimals.idxOf c := by
  simp only [decimals, List.mem_cons, List.not_mem_nil, or_false] at h
  rcases h with h | h | h | h | h | h | h | h | h | h <;> subst h <;> decide

def decStep (v : Nat) (c : Char) : Nat := 10 * v + decimals.idxOf c

theorem digitsAux_iff : ∀ (l : List Char) (acc : Nat) (prev : Bool) (n : Nat), digitsAux acc prev l = some n ↔
    ∃ g groups, (prev = false → g ≠ []) ∧ (∀ c ∈ g, c ∈ decimals) ∧ (∀ g ∈ groups, g ≠ [] ∧ ∀ c ∈ g, c ∈ decimals) ∧
      l = List.intercalate ['_'] (g :: groups) ∧ n = (g ++ groups.flatten).foldl decStep acc := by
  have hsep : ∀ (g : List Char) (g' : List Char) groups, List.intercalate ['_'] (g :: g' :: groups) = g ++ '_' :: List.intercalate ['_'] (g' :: groups) := by
    intro g g' groups
    simp [List.intercalate]
  have hone : ∀ g : List Char, List.intercalate ['_'] [g] = g := by intro g; simp [List.intercalate]
  have hus : '_' ∉ decimals := by decide
  intro l
  induction l with
  | nil =>
      intro acc prev n
      constructor
      · intro h
        cases prev with
        | false => simp [digitsAux] at h
        | true =>
            simp only [digitsAux, if_true, Option.some.injEq] at h
            exact ⟨[], [], by simp, by simp, by simp, by simp [hone], by simp [h]⟩
      · rintro ⟨g, groups, h1, h2, h3, h4, h5⟩
        cases groups with
        | nil =>
            rw [hone] at h4
            subst h4
            cases prev with
            | false => simp at h1
            | true => simp [digitsAux, h5]
        | cons g' groups => rw [hsep] at h4; simp at h4
  | cons c r ih =>
      intro acc prev n
      rw [digitsAux]
      by_cases hc : c = '_'
      · rw [if_pos hc]
        subst hc
        cases prev with
        | false =>
            simp only [Bool.false_eq_true, if_false, reduceCtorEq, false_iff]
            rintro ⟨g, groups, h1, h2, h3, h4, h5⟩
            cases g with
            | nil => simp at h1
            | cons d g =>
                have : ('_' : Char) = d := by
                  cases groups with
                  | nil => rw [hone] at h4; exact (List.cons.inj h4).1
                  | cons g' groups => rw [hsep] at h4; exact (List.cons.inj h4).1
                exact hus (this ▸ h2 d (by simp))
        | true =>
            rw [if_pos rfl, ih]
            constructor
            · rintro ⟨g, groups, h1, h2, h3, h4, h5⟩
              refine ⟨[], g :: groups, by simp, by simp, ?_, by rw [hsep, h4]; rfl, by simpa using h5⟩
              intro x hx
              rcases List.mem_cons.1 hx with rfl | hx
              · exact ⟨h1 rfl, h2⟩
              · exact h3 x hx
            · rintro ⟨g, groups, h1, h2, h3, h4, h5⟩
              cases g with
              | cons d g =>
                  have : ('_' : Char) = d := by
                    cases groups with
                    | nil => rw [hone] at h4; exact (List.cons.inj h4).1
                    | cons g' groups => rw [hsep] at h4; exact (List.cons.inj h4).1
                  exact absurd (this ▸ h2 d (by simp)) hus
              | nil =>
                  cases groups with
                  | nil => rw [hone] at h4; cases h4
                  | cons g' groups =>
                      rw [hsep] at h4
                      refine ⟨g', groups, fun _ => (h3 g' (by simp)).1, (h3 g' (by simp)).2, fun x hx => h3 x (by simp [hx]),
                        (List.cons.inj h4).2, by simpa using h5⟩
      · rw [if_neg hc]
        by_cases hd : c.isDigit = true
        · rw [if_pos hd, ih]
          have hd' := isDigit_iff.1 hd
          have hv : 10 * acc + (c.toNat - '0'.toNat) = decStep acc c := by rw [digit_value hd']; rfl
          rw [hv]
          constructor
          · rintro ⟨g, groups, h1, h2, h3, h4, h5⟩
            refine ⟨c :: g, groups, by simp, fun x hx => ?_, h3, ?_, by simpa using h5⟩
            · rcases List.mem_cons.1 hx with rfl | hx
              · exact hd'
              · exact h2 x hx
            · rw [h4]
              cases groups with
              | nil => simp only [hone]
              | cons g' groups => simp only [hsep, List.cons_append]
          · rintro ⟨g, groups, h1, h2, h3, h4, h5⟩
            cases g with
            | nil =>
                cases groups with
                | nil => rw [hone] at h4; cases h4
                | cons g' groups => rw [hsep] at h4; exact absurd (List.cons.inj h4).1 hc
            | cons d g =>
                have hh : c = d ∧ r = List.intercalate ['_'] (g :: groups) := by
                  cases groups with
                  | nil => rw [hone] at h4 ⊢; exact List.cons.inj h4
                  | cons g' groups => rw [hsep] at h4 ⊢; exact List.cons.inj h4
                obtain ⟨rfl, hr⟩ := hh
                exact ⟨g, groups, by simp, fun x hx => h2 x (by simp [hx]), h3, hr, by simpa using h5⟩
        · rw [if_neg hd]
          simp only [reduceCtorEq, false_iff]
          rintro ⟨g, groups, h1, h2, h3, h4, h5⟩
          cases g with
          | nil =>
              cases groups with
              | nil => rw [hone] at h4; cases h4
              | cons g' groups => rw [hsep] at h4; exact absurd (List.cons.inj h4).1 hc
          | cons d g =>
              have : c = d := by
                cases groups with
                | nil => rw [hone] at h4; exact (List.cons.inj h4).1
                | cons g' groups => rw [hsep] at h4; exact (List.cons.inj h4).1
              exact hd (isDigit_iff.2 (this ▸ h2 d (by simp)))

/-- The digits part of an integer literal. -/
def DigitText (l : List Char) (n : Nat) : Prop :=
  ∃ groups : List (List Char), l = List.intercalate ['_'] groups ∧ groups ≠ [] ∧ (∀ g ∈ groups, g ≠ [] ∧ ∀ c ∈ g, c ∈ decimals) ∧
    n = decValue groups.flatten

theorem digits_iff {l : List Char} {n : Nat} : digitsAux 0 false l = some n ↔ DigitText l n := by
  rw [digitsAux_iff]
  constructor
  · rintro ⟨g, groups, h1, h2, h3, h4, h5⟩
    refine ⟨g :: groups, h4, by simp, fun x hx => ?_, by rw [h5]; rfl⟩
    rcases List.mem_cons.1 hx with rfl | hx
    · exact ⟨h1 rfl, h2⟩
    · exact h3 x hx
  · rintro ⟨groups, h1, h2, h3, h4⟩
    cases groups with
    | nil => simp at h2
    | cons g groups =>
        exact ⟨g, groups, fun _ => (h3 g (by simp)).1, (h3 g (by simp)).2, fun x hx => h3 x (by simp [hx]), h1,
          by rw [h4]; rfl⟩

theorem DigitText.edges {l : List Char} {n : Nat} (h : DigitText l n) :
    (∃ c, l.head? = some c ∧ c ∈ decimals) ∧ ∃ c, l.getLast? = some c ∧ c ∈ decimals := by
  obtain ⟨groups, rfl, h2, h3, -⟩ := h
  constructor
  · cases groups with
    | nil => simp at h2
    | cons g groups =>
        obtain ⟨hg, hd⟩ := h3 g (by simp)
        cases g with
        | nil => simp at hg
        | cons c g =>
            refine ⟨c, ?_, hd c (by simp)⟩
            cases groups <;> simp [List.intercalate]
  · induction groups with
    | nil => simp at h2
    | cons g groups ih =>
        cases groups with
        | nil =>
            obtain ⟨hg, hd⟩ := h3 g (by simp)
            refine ⟨g.getLast hg, ?_, hd _ (List.getLast_mem hg)⟩
            simp [List.intercalate, List.getLast?_eq_some_getLast hg]
        | cons g' groups =>
            obtain ⟨c, e1, e2⟩ := ih (by simp) fun x hx => h3 x (by simp [List.mem_cons.1 hx])
            refine ⟨c, ?_, e2⟩
            have : List.intercalate ['_'] (g :: g' :: groups) = (g ++ ['_']) ++ List.intercalate ['_'] (g' :: groups) := by
              simp [List.intercalate]
            rw [this, List.getLast?_append, e1]
            rfl

/-- Removing blanks on both sides. -/
theorem strip_eq {pre mid post : List Char} (h1 : ∀ c ∈ pre, c ∈ blanks) (h2 : ∀ c ∈ post, c ∈ blanks)
    (h3 : ∃ c, mid.head? = some c ∧ c ∉ blanks) (h4 : ∃ c, mid.getLast? = some c ∧ c ∉ blanks) :
    (((pre ++ mid ++ post).dropWhile isWs).reverse.dropWhile isWs).reverse = mid := by
  have key : ∀ (pre mid : List Char), (∀ c ∈ pre, c ∈ blanks) → (∃ c, mid.head? = some c ∧ c ∉ blanks) →
      (pre ++ mid).dropWhile isWs = mid := by
    intro pre mid h1 h3
    rw [List.dropWhile_append_of_pos fun c hc => isWs_iff.2 (h1 c hc)]
    obtain ⟨c, e1, e2⟩ := h3
    cases mid with
    | nil => simp at e1
    | cons d mid =>
        obtain rfl : d = c := by simpa using e1
        have : ¬ isWs d = true := fun h => e2 (isWs_iff.1 h)
        rw [List.dropWhile_cons_of_neg this]
  have hm : mid ≠ [] := by rintro rfl; obtain ⟨c, e, -⟩ := h3; simp at e
  rw [List.append_assoc, key pre (mid ++ post) h1, List.reverse_append, key, List.reverse_reverse]
  · simpa using h2
  · obtain ⟨c, e, hc⟩ := h4
    exact ⟨c, by rw [List.head?_reverse]; exact e, hc⟩
  · obtain ⟨c, e, hc⟩ := h3
    exact ⟨c, by rw [List.head?_append, e]; rfl, hc⟩

theorem strip_split (s : List Char) : ∃ pre post, s = pre ++ ((s.dropWhile isWs).reverse.dropWhile isWs).reverse ++ post ∧
    (∀ c ∈ pre, c ∈ blanks) ∧ ∀ c ∈ post, c ∈ blanks := by
  have ht : ∀ l : List Char, ∀ c ∈ l.takeWhile isWs, c ∈ blanks := fun l c hc => by
    have := List.all_takeWhile (p := isWs) (l := l)
    rw [List.all_eq_true] at this
    exact isWs_iff.1 (this c hc)
  refine ⟨s.takeWhile isWs, ((s.dropWhile isWs).reverse.takeWhile isWs).reverse, ?_, ht s, fun c hc => ht _ c (List.mem_reverse.1 hc)⟩
  rw [List.append_assoc, ← List.reverse_append, List.takeWhile_append_dropWhile, List.reverse_reverse,
    List.takeWhile_append_dropWhile]

theorem decimals_not_blank {c : Char} (h : c ∈ decimals) : c ∉ blanks ∧ c ≠ '-' ∧ c ≠ '+' := by
  simp only [decimals, List.mem_cons, List.not_mem_nil, or_false] at h
  rcases h with h | h | h | h | h | h | h | h | h | h <;> subst h <;> decide

/-- `int()` reads exactly the written forms of integers. -/
theorem pyInt_iff {s : List Char} {i : Int} : pyInt s = some i ↔ IntText s i := by
  constructor
  · intro h
    obtain ⟨pre, post, e, hp, hq⟩ := strip_split s
    unfold pyInt at h
    simp only at h
    generalize ((s.dropWhile isWs).reverse.dropWhile isWs).reverse = m at h e
    have fin : ∀ (sign r : List Char) (n : Nat), m = sign ++ r → digitsAux 0 false r = some n →
        ((sign = [] ∨ sign = ['+']) ∧ i = (n : Int) ∨ sign = ['-'] ∧ i = -(n : Int)) → IntText s i := by
      intro sign r n hm hd hs
      obtain ⟨groups, g1, g2, g3, g4⟩ := digits_iff.1 hd
      refine ⟨pre, sign, post, groups, ?_, hp, hq, g2, g3, by rw [← g4]; exact hs⟩
      rw [e, hm, g1]
      simp only [List.append_assoc]
    split at h
    · rename_i r
      obtain ⟨n, hn, rfl⟩ := Option.map_eq_some_iff.1 h
      exact fin ['-'] r n rfl hn (.inr ⟨rfl, rfl⟩)
    · rename_i r
      obtain ⟨n, hn, rfl⟩ := Option.map_eq_some_iff.1 h
      exact fin ['+'] r n rfl hn (.inl ⟨.inr rfl, rfl⟩)
    · obtain ⟨n, hn, rfl⟩ := Option.map_eq_some_iff.1 h
      exact fin [] m n rfl hn (.inl ⟨.inl rfl, rfl⟩)
  · rintro ⟨pre, sign, post, groups, rfl, hp, hq, g2, g3, hs⟩
    have hd : DigitText (List.intercalate ['_'] groups) (decValue groups.flatten) := ⟨groups, rfl, g2, g3, rfl⟩
    obtain ⟨⟨c, c1, c2⟩, d, d1, d2⟩ := hd.edges
    have hn := digits_iff.2 hd
    generalize List.intercalate ['_'] groups = l at hn c1 d1
    have hstrip : (((pre ++ sign ++ l ++ post).dropWhile isWs).reverse.dropWhile isWs).reverse = sign ++ l := by
      rw [List.append_assoc pre sign l]
      refine strip_eq hp hq ?_ ⟨d, by rw [List.getLast?_append, d1]; rfl, (decimals_not_blank d2).1⟩
      rcases hs with ⟨rfl | rfl, -⟩ | ⟨rfl, -⟩
      · exact ⟨c, c1, (decimals_not_blank c2).1⟩
      · exact ⟨'+', rfl, by decide⟩
      · exact ⟨'-', rfl, by decide⟩
    unfold pyInt
    simp only [hstrip]
    rcases hs with ⟨rfl | rfl, rfl⟩ | ⟨rfl, rfl⟩
    · cases l with
      | nil => simp at c1
      | cons x l =>
          obtain rfl : x = c := by simpa using c1
          obtain ⟨-, n1, n2⟩ := decimals_not_blank c2
          split
          · rename_i r e; exact absurd (List.cons.inj e).1 n1
          · rename_i r e; exact absurd (List.cons.inj e).1 n2
          · rename_i r _ _
            rw [List.nil_append, hn]; rfl
    · simp [hn]
    · simp [hn]

end TD
