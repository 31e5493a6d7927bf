import Mathlib.Tactic.Ring
import Mathlib.Tactic.FieldSimp
import Mathlib.Algebra.Field.Power
import Verif.Model.FloatText
import Verif.Spec.FloatText
import Verif.Lemmas.IntText

/-! # `float()` and the written form of numbers -/
namespace TD
open Spec reader

theorem decValue_append (a b : List Char) : decValue (a ++ b) = decValue a * 10 ^ b.length + decValue b := by
  have key : ∀ (b : List Char) (v : Nat), b.foldl (fun v c => 10 * v + decimals.idxOf c) v =
      v * 10 ^ b.length + b.foldl (fun v c => 10 * v + decimals.idxOf c) 0 := by
    intro b
    induction b with
    | nil => intro v; simp
    | cons c b ih =>
        intro v
        simp only [List.foldl_cons, List.length_cons]
        rw [ih, ih (10 * 0 + _)]
        ring
  unfold decValue
  rw [List.foldl_append, key]

theorem filter_intercalate {groups : List (List Char)} (h : ∀ g ∈ groups, ∀ c ∈ g, c ∈ decimals) :
    (List.intercalate ['_'] groups).filter Char.isDigit = groups.flatten := by
  have hg : ∀ g : List Char, (∀ c ∈ g, c ∈ decimals) → g.filter Char.isDigit = g := fun g hg =>
    List.filter_eq_self.2 fun c hc => isDigit_iff.2 (hg c hc)
  induction groups with
  | nil => rfl
  | cons g groups ih =>
      cases groups with
      | nil => simp [List.intercalate, hg g (h g (by simp))]
      | cons g' groups =>
          have : List.intercalate ['_'] (g :: g' :: groups) = g ++ '_' :: List.intercalate ['_'] (g' :: groups) := by
            simp [List.intercalate]
          rw [this, List.filter_append, hg g (h g (by simp)), List.filter_cons_of_neg (by decide),
            ih fun x hx => h x (by simp [List.mem_cons.1 hx])]
          rfl

theorem digitPart_iff {l : List Char} {n k : Nat} :
    digitPart l = some (n, k) ↔ ∃ ds, DigitsText l ds ∧ n = decValue ds ∧ k = ds.length := by
  unfold digitPart
  constructor
  · intro h
    split at h
    · rename_i hl
      obtain ⟨rfl, rfl⟩ := Prod.mk.inj (Option.some.inj h)
      exact ⟨[], .inl ⟨hl, rfl⟩, rfl, rfl⟩
    · obtain ⟨m, hm, e⟩ := Option.map_eq_some_iff.1 h
      obtain ⟨rfl, rfl⟩ := Prod.mk.inj e
      obtain ⟨groups, rfl, g2, g3, g4⟩ := digits_iff.1 hm
      exact ⟨groups.flatten, .inr ⟨groups, g2, g3, rfl, rfl⟩, g4, by rw [filter_intercalate fun g hg => (g3 g hg).2]⟩
  · rintro ⟨ds, ⟨rfl, rfl⟩ | ⟨groups, g2, g3, rfl, rfl⟩, rfl, rfl⟩
    · rfl
    · have hd : DigitText (List.intercalate ['_'] groups) (decValue groups.flatten) := ⟨groups, rfl, g2, g3, rfl⟩
      rw [if_neg, digits_iff.2 hd, Option.map_some, filter_intercalate fun g hg => (g3 g hg).2]
      intro e
      obtain ⟨⟨c, c1, -⟩, -⟩ := hd.edges
      rw [e] at c1
      simp at c1

/-- The characters of a run of digits. -/
theorem Spec.DigitsText.chars {l ds : List Char} (h : DigitsText l ds) : ∀ c ∈ l, c ∈ decimals ∨ c = '_' := by
  rcases h with ⟨rfl, -⟩ | ⟨groups, -, g3, rfl, -⟩
  · simp
  · clear ds
    induction groups with
    | nil => simp [List.intercalate]
    | cons g groups ih =>
        intro c hc
        cases groups with
        | nil =>
            simp only [List.intercalate, List.intersperse, List.flatten_cons, List.flatten_nil, List.append_nil] at hc
            exact .inl ((g3 g (by simp)).2 c hc)
        | cons g' groups =>
            have : List.intercalate ['_'] (g :: g' :: groups) = g ++ '_' :: List.intercalate ['_'] (g' :: groups) := by
              simp [List.intercalate]
            rw [this] at hc
            rcases List.mem_append.1 hc with hc | hc
            · exact .inl ((g3 g (by simp)).2 c hc)
            · rcases List.mem_cons.1 hc with hc | hc
              · exact .inr hc
              · exact ih (fun x hx => g3 x (by simp [List.mem_cons.1 hx])) c hc

theorem Spec.DigitsText.eq_nil {l ds : List Char} (h : DigitsText l ds) (hd : ds = []) : l = [] := by
  rcases h with ⟨h, -⟩ | ⟨groups, g2, g3, -, rfl⟩
  · exact h
  · cases groups with
    | nil => simp at g2
    | cons g groups =>
        have := (g3 g (by simp)).1
        simp only [List.flatten_cons, List.append_eq_nil_iff] at hd
        exact absurd hd.1 this

theorem Spec.DigitsText.edges {l ds : List Char} (h : DigitsText l ds) (hd : ds ≠ []) :
    (∃ c, l.head? = some c ∧ c ∈ decimals) ∧ ∃ c, l.getLast? = some c ∧ c ∈ decimals := by
  rcases h with ⟨-, h⟩ | ⟨groups, g2, g3, rfl, rfl⟩
  · exact absurd h hd
  · exact DigitText.edges (n := decValue groups.flatten) ⟨groups, rfl, g2, g3, rfl⟩

theorem cutAt_none {seps l a : List Char} : cutAt seps l = (a, none) ↔ l = a ∧ ∀ c ∈ a, c ∉ seps := by
  induction l generalizing a with
  | nil =>
      simp only [cutAt, Prod.mk.injEq, and_true]
      constructor
      · rintro rfl; simp
      · rintro ⟨h, -⟩; exact h
  | cons c l ih =>
      rw [cutAt]
      split
      · rename_i hc
        simp only [Prod.mk.injEq, reduceCtorEq, and_false, false_iff, not_and]
        rintro rfl h
        exact h c (by simp) hc
      · rename_i hc
        rcases e : cutAt seps l with ⟨x, y⟩
        simp only [Prod.mk.injEq]
        constructor
        · rintro ⟨rfl, rfl⟩
          obtain ⟨rfl, h⟩ := ih.1 e
          exact ⟨rfl, by simpa [hc] using h⟩
        · rintro ⟨rfl, h⟩
          have := ih.2 ⟨rfl, fun c hc => h c (by simp [hc])⟩
          rw [this] at e
          obtain ⟨rfl, rfl⟩ := Prod.mk.inj e
          exact ⟨rfl, rfl⟩

theorem cutAt_some {seps l a b : List Char} :
    cutAt seps l = (a, some b) ↔ ∃ c ∈ seps, l = a ++ c :: b ∧ ∀ c ∈ a, c ∉ seps := by
  induction l generalizing a with
  | nil => simp [cutAt]
  | cons c l ih =>
      rw [cutAt]
      split
      · rename_i hc
        simp only [Prod.mk.injEq, Option.some.injEq]
        constructor
        · rintro ⟨rfl, rfl⟩; exact ⟨c, hc, rfl, by simp⟩
        · rintro ⟨d, hd, e, h⟩
          cases a with
          | nil => exact ⟨rfl, (List.cons.inj e).2⟩
          | cons x a =>
              obtain rfl : c = x := (List.cons.inj e).1
              exact absurd hc (h c (by simp))
      · rename_i hc
        rcases e : cutAt seps l with ⟨x, y⟩
        simp only [Prod.mk.injEq]
        constructor
        · rintro ⟨rfl, rfl⟩
          obtain ⟨d, hd, rfl, h⟩ := ih.1 e
          exact ⟨d, hd, rfl, by simpa [hc] using h⟩
        · rintro ⟨d, hd, e', h⟩
          cases a with
          | nil => exact absurd ((List.cons.inj e').1 ▸ hd) hc
          | cons z a =>
              obtain ⟨rfl, rfl⟩ := List.cons.inj e'
              have := ih.2 ⟨d, hd, rfl, fun c hc => h c (by simp [hc])⟩
              rw [this] at e
              obtain ⟨rfl, rfl⟩ := Prod.mk.inj e
              exact ⟨rfl, rfl⟩

theorem cutSign_split (l : List Char) : ∃ sign, l = sign ++ (cutSign l).2 ∧ SignText sign (cutSign l).1 := by
  unfold cutSign
  split
  · exact ⟨['-'], rfl, .inr ⟨rfl, rfl⟩⟩
  · exact ⟨['+'], rfl, .inl ⟨.inr rfl, rfl⟩⟩
  · exact ⟨[], rfl, .inl ⟨.inl rfl, rfl⟩⟩

theorem cutSign_eq {sign l : List Char} {neg : Bool} (h : SignText sign neg)
    (hl : l.head? ≠ some '-' ∧ l.head? ≠ some '+') : cutSign (sign ++ l) = (neg, l) := by
  rcases h with ⟨rfl | rfl, rfl⟩ | ⟨rfl, rfl⟩
  · rw [List.nil_append]
    unfold cutSign
    split
    · exact absurd rfl hl.1
    · exact absurd rfl hl.2
    · rfl
  · rfl
  · rfl

/-- A run of digits as `digitsAux` reads it. -/
theorem digitsAux_text {l : List Char} {n : Nat} :
    digitsAux 0 false l = some n ↔ ∃ ds, ds ≠ [] ∧ DigitsText l ds ∧ n = decValue ds := by
  rw [digits_iff]
  constructor
  · rintro ⟨groups, rfl, g2, g3, rfl⟩
    refine ⟨groups.flatten, ?_, .inr ⟨groups, g2, g3, rfl, rfl⟩, rfl⟩
    cases groups with
    | nil => simp at g2
    | cons g groups => simp [(g3 g (by simp)).1]
  · rintro ⟨ds, h, ⟨-, h'⟩ | ⟨groups, g2, g3, rfl, rfl⟩, rfl⟩
    · exact absurd h' h
    · exact ⟨groups, rfl, g2, g3, rfl⟩

theorem head_ne_of_digit {l : List Char} (h : ∃ c, l.head? = some c ∧ c ∈ decimals) :
    l.head? ≠ some '-' ∧ l.head? ≠ some '+' := by
  obtain ⟨c, e, hc⟩ := h
  obtain ⟨-, h1, h2⟩ := decimals_not_blank hc
  rw [e]
  exact ⟨fun h => h1 (Option.some.inj h), fun h => h2 (Option.some.inj h)⟩

theorem exponent_none {e : Int} : exponent none = some e ↔ e = 0 := by
  simp [exponent, eq_comm]

theorem exponent_some {l : List Char} {e : Int} : exponent (some l) = some e ↔
    ∃ sign digits ds neg, l = sign ++ digits ∧ SignText sign neg ∧ DigitsText digits ds ∧ ds ≠ [] ∧
      e = (if neg then -1 else 1) * (decValue ds : Int) := by
  constructor
  · intro h
    obtain ⟨sign, hl, hs⟩ := cutSign_split l
    simp only [exponent] at h
    generalize cutSign l = p at h hl hs
    obtain ⟨neg, r⟩ := p
    obtain ⟨n, hn, rfl⟩ := Option.map_eq_some_iff.1 h
    obtain ⟨ds, h1, h2, rfl⟩ := digitsAux_text.1 hn
    refine ⟨sign, r, ds, neg, hl, hs, h2, h1, ?_⟩
    cases neg <;> simp
  · rintro ⟨sign, digits, ds, neg, rfl, hs, h2, h1, rfl⟩
    simp only [exponent, cutSign_eq hs (head_ne_of_digit (h2.edges h1).1)]
    rw [digitsAux_text.2 ⟨ds, h1, h2, rfl⟩]
    cases neg <;> simp

/-- The body of a number: digits, perhaps a point and digits, perhaps an exponent. -/
def BodyText (l : List Char) (q : ℚ) : Prop :=
  ∃ (whole frac expo dWhole dFrac : List Char) (e : Int), l = whole ++ frac ++ expo ∧ DigitsText whole dWhole ∧
    (frac = [] ∧ dFrac = [] ∨ ∃ l, frac = '.' :: l ∧ DigitsText l dFrac) ∧ dWhole ++ dFrac ≠ [] ∧ ExponentText expo e ∧
    q = (decValue (dWhole ++ dFrac) : ℚ) * (10 : ℚ) ^ (e - dFrac.length)

theorem decimals_no_sep {c : Char} (h : c ∈ decimals ∨ c = '_') : c ∉ ['.'] ∧ c ∉ ['e', 'E'] := by
  rcases h with h | rfl
  · simp only [decimals, List.mem_cons, List.not_mem_nil, or_false] at h
    rcases h with h | h | h | h | h | h | h | h | h | h <;> subst h <;> decide
  · decide

theorem decimal_iff {l : List Char} {q : ℚ} : decimal l = some q ↔ BodyText l q := by
  constructor
  · intro h
    unfold decimal at h
    rcases e1 : cutAt ['e', 'E'] l with ⟨m, ex⟩
    rcases e2 : cutAt ['.'] m with ⟨ip, fp⟩
    simp only [e1, e2, Option.bind_eq_bind, Option.bind_eq_some_iff, Prod.exists] at h
    obtain ⟨i, ni, hi, f, nf, hf, e, he, h⟩ := h
    split at h
    · cases h
    rename_i hn
    obtain ⟨dw, hw, rfl, rfl⟩ := digitPart_iff.1 hi
    obtain ⟨df, hdf, rfl, rfl⟩ := digitPart_iff.1 hf
    have hq := (Option.some.inj h).symm
    rw [← decValue_append] at hq
    have hne : dw ++ df ≠ [] := by
      intro h0
      apply hn
      rw [← List.length_append, h0]; rfl
    have hm : ∃ frac, m = ip ++ frac ∧ (frac = [] ∧ df = [] ∨ ∃ l, frac = '.' :: l ∧ DigitsText l df) := by
      cases fp with
      | none =>
          obtain ⟨rfl, -⟩ := cutAt_none.1 e2
          refine ⟨[], by simp, .inl ⟨rfl, ?_⟩⟩
          rcases hdf with ⟨-, h⟩ | ⟨groups, g2, g3, h, -⟩
          · exact h
          · have : DigitText ([] : List Char) _ := ⟨groups, h, g2, g3, rfl⟩
            obtain ⟨⟨c, c1, -⟩, -⟩ := this.edges
            simp at c1
      | some b =>
          obtain ⟨c, hc, rfl, -⟩ := cutAt_some.1 e2
          obtain rfl : c = '.' := by simpa using hc
          exact ⟨'.' :: b, rfl, .inr ⟨b, rfl, hdf⟩⟩
    obtain ⟨frac, rfl, hfrac⟩ := hm
    have hx : ∃ expo, l = ip ++ frac ++ expo ∧ ExponentText expo e := by
      cases ex with
      | none =>
          obtain ⟨rfl, -⟩ := cutAt_none.1 e1
          exact ⟨[], by simp, .inl ⟨rfl, exponent_none.1 he⟩⟩
      | some b =>
          obtain ⟨c, hc, rfl, -⟩ := cutAt_some.1 e1
          obtain ⟨sign, digits, ds, neg, rfl, hs, h2, h1, h3⟩ := exponent_some.1 he
          exact ⟨c :: (sign ++ digits), rfl, .inr ⟨c, sign, digits, ds, neg, rfl, by simpa using hc, hs, h2, h1, h3⟩⟩
    obtain ⟨expo, rfl, hexpo⟩ := hx
    exact ⟨ip, frac, expo, dw, df, e, rfl, hw, hfrac, hne, hexpo, hq⟩
  · rintro ⟨whole, frac, expo, dw, df, e, rfl, hw, hfrac, hne, hexpo, rfl⟩
    have hm : ∀ c ∈ whole ++ frac, c ∉ ['e', 'E'] := by
      intro c hc
      rcases List.mem_append.1 hc with hc | hc
      · exact (decimals_no_sep (hw.chars c hc)).2
      · rcases hfrac with ⟨rfl, -⟩ | ⟨l, rfl, hl⟩
        · simp at hc
        · rcases List.mem_cons.1 hc with rfl | hc
          · decide
          · exact (decimals_no_sep (hl.chars c hc)).2
    have hdot : ∃ fp, cutAt ['.'] (whole ++ frac) = (whole, fp) ∧ DigitsText (fp.getD []) df := by
      rcases hfrac with ⟨rfl, rfl⟩ | ⟨l, rfl, hl⟩
      · exact ⟨none, cutAt_none.2 ⟨by simp, fun c hc => (decimals_no_sep (hw.chars c hc)).1⟩, .inl ⟨rfl, rfl⟩⟩
      · exact ⟨some l, cutAt_some.2 ⟨'.', by simp, rfl, fun c hc => (decimals_no_sep (hw.chars c hc)).1⟩, hl⟩
    have hex : ∃ ex, cutAt ['e', 'E'] (whole ++ frac ++ expo) = (whole ++ frac, ex) ∧ exponent ex = some e := by
      rcases hexpo with ⟨rfl, rfl⟩ | ⟨mark, sign, digits, ds, neg, rfl, hk, hs, h2, h1, h3⟩
      · exact ⟨none, cutAt_none.2 ⟨by simp, hm⟩, rfl⟩
      · exact ⟨some (sign ++ digits), cutAt_some.2 ⟨mark, by simpa using hk, rfl, hm⟩,
          exponent_some.2 ⟨sign, digits, ds, neg, rfl, hs, h2, h1, h3⟩⟩
    obtain ⟨fp, e2, hfp⟩ := hdot
    obtain ⟨ex, e1, he⟩ := hex
    unfold decimal
    simp only [e1, e2, digitPart_iff.2 ⟨dw, hw, rfl, rfl⟩, digitPart_iff.2 ⟨df, hfp, rfl, rfl⟩, he, Option.bind_eq_bind,
      Option.bind_some]
    rw [if_neg, ← decValue_append]
    rw [← List.length_append]
    simpa using hne

/-- The first and last characters of the body of a number. -/
theorem BodyText.edges {l : List Char} {q : ℚ} (h : BodyText l q) :
    (∃ c, l.head? = some c ∧ (c ∈ decimals ∨ c = '.')) ∧ ∃ c, l.getLast? = some c ∧ (c ∈ decimals ∨ c = '.') := by
  obtain ⟨whole, frac, expo, dw, df, e, rfl, hw, hfrac, hne, hexpo, -⟩ := h
  have h1 : (∃ c, (whole ++ frac).head? = some c ∧ (c ∈ decimals ∨ c = '.')) ∧
      ∃ c, (whole ++ frac).getLast? = some c ∧ (c ∈ decimals ∨ c = '.') := by
    by_cases hdw : dw = []
    · have := hw.eq_nil hdw
      subst this hdw
      rw [List.nil_append] at hne
      rcases hfrac with ⟨-, h⟩ | ⟨l, rfl, hl⟩
      · exact absurd h hne
      · obtain ⟨-, c, c1, c2⟩ := hl.edges hne
        exact ⟨⟨'.', rfl, .inr rfl⟩, c, by rw [List.nil_append, List.getLast?_cons, c1]; rfl, .inl c2⟩
    · obtain ⟨⟨c, c1, c2⟩, d, d1, d2⟩ := hw.edges hdw
      refine ⟨⟨c, by rw [List.head?_append, c1]; rfl, .inl c2⟩, ?_⟩
      rcases hfrac with ⟨rfl, -⟩ | ⟨l, rfl, hl⟩
      · exact ⟨d, by simpa using d1, .inl d2⟩
      · by_cases hdf : df = []
        · have := hl.eq_nil hdf
          subst this
          exact ⟨'.', by simp, .inr rfl⟩
        · obtain ⟨-, x, x1, x2⟩ := hl.edges hdf
          exact ⟨x, by rw [List.getLast?_append, List.getLast?_cons, x1]; rfl, .inl x2⟩
  obtain ⟨⟨c, c1, c2⟩, d, d1, d2⟩ := h1
  refine ⟨⟨c, by rw [List.head?_append, c1]; rfl, c2⟩, ?_⟩
  rcases hexpo with ⟨rfl, -⟩ | ⟨mark, sign, digits, ds, neg, rfl, -, -, h2, h1, -⟩
  · exact ⟨d, by simpa using d1, d2⟩
  · obtain ⟨-, x, x1, x2⟩ := h2.edges h1
    refine ⟨x, ?_, .inl x2⟩
    rw [List.getLast?_append, List.getLast?_cons, List.getLast?_append, x1]
    rfl

theorem numEdge {c : Char} (h : c ∈ decimals ∨ c = '.') :
    c ∉ blanks ∧ c ≠ '-' ∧ c ≠ '+' ∧ c.toLower ≠ 'i' ∧ c.toLower ≠ 'n' := by
  rcases h with h | rfl
  · simp only [decimals, List.mem_cons, List.not_mem_nil, or_false] at h
    rcases h with h | h | h | h | h | h | h | h | h | h <;> subst h <;> decide
  · decide

theorem Spec.SignText.head {sign l : List Char} {neg : Bool} (h : SignText sign neg) (hl : ∃ c, l.head? = some c ∧ c ∉ blanks) :
    ∃ c, (sign ++ l).head? = some c ∧ c ∉ blanks := by
  rcases h with ⟨rfl | rfl, -⟩ | ⟨rfl, -⟩
  · exact hl
  · exact ⟨'+', rfl, by decide⟩
  · exact ⟨'-', rfl, by decide⟩

/-- Stripping and taking off the sign. -/
theorem strip_sign {pre sign l post : List Char} {neg : Bool} (hp : ∀ c ∈ pre, c ∈ blanks) (hq : ∀ c ∈ post, c ∈ blanks)
    (hs : SignText sign neg) (h1 : ∃ c, l.head? = some c ∧ c ∉ blanks ∧ c ≠ '-' ∧ c ≠ '+')
    (h2 : ∃ c, l.getLast? = some c ∧ c ∉ blanks) :
    cutSign ((((pre ++ sign ++ l ++ post).dropWhile isWs).reverse.dropWhile isWs).reverse) = (neg, l) := by
  obtain ⟨c, c1, c2, c3, c4⟩ := h1
  obtain ⟨d, d1, d2⟩ := h2
  rw [List.append_assoc pre sign l, strip_eq hp hq (hs.head ⟨c, c1, c2⟩)
    ⟨d, by rw [List.getLast?_append, d1]; rfl, d2⟩, cutSign_eq hs]
  rw [c1]
  exact ⟨fun h => c3 (Option.some.inj h), fun h => c4 (Option.some.inj h)⟩

theorem toLower_word {c l : Char} (hl : l ∈ "infinitynan".toList) : c.toLower = l ↔ c = l ∨ c = l.toUpper := by
  by_cases hc : c.toNat < 128
  · have e : c = Char.ofNat c.toNat := (Char.ofNat_toNat c).symm
    rw [e]
    generalize c.toNat = n at hc
    have key : ∀ l ∈ "infinitynan".toList, ∀ n < 128,
        (Char.ofNat n).toLower = l ↔ Char.ofNat n = l ∨ Char.ofNat n = l.toUpper := by decide +kernel
    exact key l hl n hc
  · have h1 : c.toLower = c := by
      unfold Char.toLower
      rw [dif_neg]
      rintro ⟨-, h⟩
      have : c.toNat ≤ 90 := h
      omega
    rw [h1]
    constructor
    · exact .inl
    · rintro (h | h)
      · exact h
      · exfalso
        have key : ∀ l ∈ "infinitynan".toList, l.toUpper.toNat < 128 := by decide +kernel
        exact hc (h ▸ key l hl)

theorem map_toLower {w : List Char} (hw : ∀ l ∈ w, l ∈ "infinitynan".toList) {word : List Char} :
    word.map Char.toLower = w ↔ List.Forall₂ (fun c l => c = l ∨ c = l.toUpper) word w := by
  induction w generalizing word with
  | nil => simp
  | cons l w ih =>
      cases word with
      | nil => simp
      | cons c word =>
          rw [List.map_cons, List.cons.injEq, List.forall₂_cons, toLower_word (hw l (by simp)), ih fun x hx => hw x (by simp [hx])]

/-- The words `float()` knows. -/
theorem word_edges {w : List Char} (hw : w = "inf".toList ∨ w = "infinity".toList ∨ w = "nan".toList) {word : List Char}
    (h : word.map Char.toLower = w) : (∃ c, word.head? = some c ∧ c ∉ blanks ∧ c ≠ '-' ∧ c ≠ '+') ∧
      ∃ c, word.getLast? = some c ∧ c ∉ blanks := by
  have hl : ∀ l ∈ w, l ∈ "infinitynan".toList := by rcases hw with rfl | rfl | rfl <;> decide
  have hb : ∀ l ∈ "infinitynan".toList, (l ∉ blanks ∧ l ≠ '-' ∧ l ≠ '+') ∧ l.toUpper ∉ blanks ∧ l.toUpper ≠ '-' ∧ l.toUpper ≠ '+' := by
    decide +kernel
  have hm : ∀ c ∈ word, c ∉ blanks ∧ c ≠ '-' ∧ c ≠ '+' := by
    intro c hc
    have : c.toLower ∈ w := by rw [← h]; exact List.mem_map_of_mem hc
    rcases (toLower_word (hl _ this)).1 rfl with e | e
    · rw [e]; exact (hb _ (hl _ this)).1
    · rw [e]; exact (hb _ (hl _ this)).2
  have hne : word ≠ [] := by
    rintro rfl
    rcases hw with rfl | rfl | rfl <;> exact absurd h (by decide)
  refine ⟨⟨word.head hne, List.head?_eq_some_head hne, hm _ (List.head_mem hne)⟩, word.getLast hne,
    List.getLast?_eq_some_getLast hne, (hm _ (List.getLast_mem hne)).1⟩

theorem num_iff_body {s : List Char} {q : ℚ} : NumText s q ↔ ∃ pre sign body post neg q0, s = pre ++ sign ++ body ++ post ∧
    (∀ c ∈ pre, c ∈ blanks) ∧ (∀ c ∈ post, c ∈ blanks) ∧ SignText sign neg ∧ BodyText body q0 ∧ q = if neg then -q0 else q0 := by
  constructor
  · rintro ⟨pre, sign, whole, frac, expo, post, dw, df, neg, e, rfl, hp, hq, hs, h1, h2, h3, h4, h5⟩
    refine ⟨pre, sign, whole ++ frac ++ expo, post, neg, _, by simp only [List.append_assoc], hp, hq, hs,
      ⟨whole, frac, expo, dw, df, e, rfl, h1, h2, h3, h4, rfl⟩, ?_⟩
    rw [h5]
    cases neg <;> simp
  · rintro ⟨pre, sign, body, post, neg, q0, rfl, hp, hq, hs, ⟨whole, frac, expo, dw, df, e, rfl, h1, h2, h3, h4, rfl⟩, rfl⟩
    refine ⟨pre, sign, whole, frac, expo, post, dw, df, neg, e, by simp only [List.append_assoc], hp, hq, hs, h1, h2, h3, h4, ?_⟩
    cases neg <;> simp

/-- What `float()` does, in terms of the stripped text without its sign. -/
theorem pyFloat_cases (s : List Char) : ∃ pre sign body post neg, s = pre ++ sign ++ body ++ post ∧
    (∀ c ∈ pre, c ∈ blanks) ∧ (∀ c ∈ post, c ∈ blanks) ∧ SignText sign neg ∧
    pyFloat s = if body.map Char.toLower = "inf".toList ∨ body.map Char.toLower = "infinity".toList then some (.inf neg)
      else if body.map Char.toLower = "nan".toList then some .nan
      else (decimal body).map fun q => .num (if neg then -q else q) := by
  obtain ⟨pre, post, e, hp, hq⟩ := strip_split s
  generalize hm : ((s.dropWhile isWs).reverse.dropWhile isWs).reverse = m at e
  obtain ⟨sign, h1, h2⟩ := cutSign_split m
  refine ⟨pre, sign, (cutSign m).2, post, (cutSign m).1, ?_, hp, hq, h2, ?_⟩
  · rw [e, List.append_assoc pre sign, ← h1]
  · unfold pyFloat
    simp only [hm]

theorem pyFloat_num {s : List Char} {q : ℚ} : pyFloat s = some (.num q) ↔ NumText s q := by
  rw [num_iff_body]
  constructor
  · intro h
    obtain ⟨pre, sign, body, post, neg, e, hp, hq, hs, h'⟩ := pyFloat_cases s
    rw [h] at h'
    split at h'
    · cases h'
    split at h'
    · cases h'
    obtain ⟨q0, hd, e'⟩ := Option.map_eq_some_iff.1 h'.symm
    exact ⟨pre, sign, body, post, neg, q0, e, hp, hq, hs, decimal_iff.1 hd, (Lit.num.inj e').symm⟩
  · rintro ⟨pre, sign, body, post, neg, q0, rfl, hp, hq, hs, hb, rfl⟩
    obtain ⟨⟨c, c1, c2⟩, d, d1, d2⟩ := hb.edges
    obtain ⟨a1, a2, a3, a4, a5⟩ := numEdge c2
    have hcut := strip_sign hp hq hs ⟨c, c1, a1, a2, a3⟩ ⟨d, d1, (numEdge d2).1⟩
    unfold pyFloat
    simp only [hcut]
    have hhead : ∀ w : List Char, body.map Char.toLower = w → w.head? = some c.toLower := by
      rintro w rfl
      rw [List.head?_map, c1]; rfl
    rw [if_neg, if_neg, decimal_iff.2 hb]
    · rfl
    · intro h
      exact a5 (Option.some.inj (hhead _ h)).symm
    · rintro (h | h)
      · exact a4 (Option.some.inj (hhead _ h)).symm
      · exact a4 (Option.some.inj (hhead _ h)).symm

theorem word_iff {s w : List Char} {neg : Bool} (hw : ∀ l ∈ w, l ∈ "infinitynan".toList) : WordText s w neg ↔
    ∃ pre sign body post, s = pre ++ sign ++ body ++ post ∧ (∀ c ∈ pre, c ∈ blanks) ∧ (∀ c ∈ post, c ∈ blanks) ∧
      SignText sign neg ∧ body.map Char.toLower = w := by
  unfold WordText
  simp only [map_toLower hw]

theorem pyFloat_inf {s : List Char} {neg : Bool} :
    pyFloat s = some (.inf neg) ↔ WordText s "inf".toList neg ∨ WordText s "infinity".toList neg := by
  rw [word_iff (by decide), word_iff (by decide)]
  constructor
  · intro h
    obtain ⟨pre, sign, body, post, neg', e, hp, hq, hs, h'⟩ := pyFloat_cases s
    rw [h] at h'
    split at h'
    · rename_i hw
      obtain rfl : neg = neg' := Lit.inf.inj (Option.some.inj h')
      rcases hw with hw | hw
      · exact .inl ⟨pre, sign, body, post, e, hp, hq, hs, hw⟩
      · exact .inr ⟨pre, sign, body, post, e, hp, hq, hs, hw⟩
    split at h'
    · cases h'
    obtain ⟨q0, -, e'⟩ := Option.map_eq_some_iff.1 h'.symm
    cases e'
  · have fin : ∀ pre sign body post : List Char, (∀ c ∈ pre, c ∈ blanks) → (∀ c ∈ post, c ∈ blanks) → SignText sign neg →
        (body.map Char.toLower = "inf".toList ∨ body.map Char.toLower = "infinity".toList) →
        pyFloat (pre ++ sign ++ body ++ post) = some (.inf neg) := by
      intro pre sign body post hp hq hs hw
      obtain ⟨a, b⟩ := word_edges (hw.imp_right .inl) rfl
      unfold pyFloat
      simp only [strip_sign hp hq hs a b]
      rw [if_pos hw]
    rintro (⟨pre, sign, body, post, rfl, hp, hq, hs, hw⟩ | ⟨pre, sign, body, post, rfl, hp, hq, hs, hw⟩)
    · exact fin _ _ _ _ hp hq hs (.inl hw)
    · exact fin _ _ _ _ hp hq hs (.inr hw)

theorem pyFloat_nan {s : List Char} : pyFloat s = some .nan ↔ ∃ neg, WordText s "nan".toList neg := by
  constructor
  · intro h
    obtain ⟨pre, sign, body, post, neg', e, hp, hq, hs, h'⟩ := pyFloat_cases s
    rw [h] at h'
    split at h'
    · cases h'
    split at h'
    · rename_i hw
      exact ⟨neg', (word_iff (by decide)).2 ⟨pre, sign, body, post, e, hp, hq, hs, hw⟩⟩
    obtain ⟨q0, -, e'⟩ := Option.map_eq_some_iff.1 h'.symm
    cases e'
  · rintro ⟨neg, h⟩
    obtain ⟨pre, sign, body, post, rfl, hp, hq, hs, hw⟩ := (word_iff (by decide)).1 h
    obtain ⟨a, b⟩ := word_edges (.inr (.inr rfl)) hw
    unfold pyFloat
    simp only [strip_sign hp hq hs a b, hw]
    rfl

end TD
