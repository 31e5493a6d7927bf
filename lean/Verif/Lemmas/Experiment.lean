import Mathlib.Tactic.Linarith
import Mathlib.Tactic.Ring
import Mathlib.Tactic.FieldSimp
import Mathlib.Tactic.Positivity
import Mathlib.Tactic.NormNum
import Mathlib.Algebra.Order.AbsoluteValue.Basic
import Verif.Spec.Experiment
import Verif.Lemmas.Reader

/-! # Lemmas about the experiment reports -/
namespace TD
open Spec ex

theorem digitsVal_eq (ds : List Char) : digitsVal ds = Nat.ofDigitChars 10 ds 0 := by
  simp [digitsVal, Nat.ofDigitChars]

theorem digits_toDigits (n : Nat) : Digits (Nat.toDigits 10 n) :=
  ⟨Nat.toDigits_ne_nil, fun _ h => Nat.isDigit_of_mem_toDigits (by norm_num) (by norm_num) h⟩

theorem digitsVal_toDigits (n : Nat) : digitsVal (Nat.toDigits 10 n) = n := by
  rw [digitsVal_eq, Nat.ofDigitChars_ten_toDigits]

theorem append_sep_inj {α : Type} {s : α} : ∀ {a a' b b' : List α}, s ∉ a → s ∉ a' → a ++ s :: b = a' ++ s :: b' → a = a' ∧ b = b'
  | [], [], _, _, _, _, h => ⟨rfl, (List.cons.inj h).2⟩
  | [], y :: a', _, _, _, h2, h => absurd (List.cons.inj h).1 fun e => h2 (by simp [e])
  | x :: a, [], _, _, h1, _, h => absurd (List.cons.inj h).1 fun e => h1 (by simp [e])
  | x :: a, y :: a', b, b', h1, h2, h => by
      obtain ⟨e1, e2⟩ := List.cons.inj h
      obtain ⟨f1, f2⟩ := append_sep_inj (a := a) (a' := a') (fun e => h1 (by simp [e])) (fun e => h2 (by simp [e])) e2
      exact ⟨by rw [e1, f1], f2⟩

/-! ### Rounding -/

theorem roundEven_err (q : ℚ≥0) : |((roundEven q : Nat) : ℚ) - q| ≤ 1 / 2 := by
  have h1 : ((⌊q⌋₊ : Nat) : ℚ≥0) ≤ q := Nat.floor_le (by exact bot_le)
  have h2 : q < (⌊q⌋₊ : Nat) + 1 := Nat.lt_floor_add_one q
  have h1' : ((⌊q⌋₊ : Nat) : ℚ) ≤ q := by exact_mod_cast h1
  have h2' : (q : ℚ) < (⌊q⌋₊ : Nat) + 1 := by exact_mod_cast h2
  unfold roundEven
  simp only
  by_cases a : 2 * q < 2 * (⌊q⌋₊ : Nat) + 1
  · have a' : 2 * (q : ℚ) < 2 * (⌊q⌋₊ : Nat) + 1 := by exact_mod_cast a
    rw [if_pos a, abs_le]; constructor <;> linarith
  · have a' : 2 * ((⌊q⌋₊ : Nat) : ℚ) + 1 ≤ 2 * (q : ℚ) := by exact_mod_cast not_lt.1 a
    rw [if_neg a]
    by_cases b : 2 * ((⌊q⌋₊ : Nat) : ℚ≥0) + 1 < 2 * q
    · rw [if_pos b, abs_le]; push_cast; constructor <;> linarith
    · have b' : 2 * (q : ℚ) ≤ 2 * (⌊q⌋₊ : Nat) + 1 := by exact_mod_cast not_lt.1 b
      rw [if_neg b]
      split
      · rw [abs_le]; constructor <;> linarith
      · rw [abs_le]; push_cast; constructor <;> linarith

theorem roundEven_nat (k : Nat) : roundEven (k : ℚ≥0) = k := by
  unfold roundEven
  simp only [Nat.floor_natCast]
  rw [if_pos]
  exact lt_add_one _

/-! ### The digits after the point -/

theorem pad_digits {k : Nat} (h : k < 10 ^ 10) :
    Digits (List.replicate (10 - (Nat.toDigits 10 k).length) '0' ++ Nat.toDigits 10 k) ∧
      (List.replicate (10 - (Nat.toDigits 10 k).length) '0' ++ Nat.toDigits 10 k).length = 10 ∧
      digitsVal (List.replicate (10 - (Nat.toDigits 10 k).length) '0' ++ Nat.toDigits 10 k) = k := by
  have hl : (Nat.toDigits 10 k).length ≤ 10 := (Nat.length_toDigits_le_iff (by norm_num) (by norm_num)).2 h
  refine ⟨⟨by simp [Nat.toDigits_ne_nil], fun c hc => ?_⟩, ?_, ?_⟩
  · rcases List.mem_append.1 hc with hc | hc
    · rw [(List.mem_replicate.1 hc).2]; rfl
    · exact (digits_toDigits k).2 c hc
  · rw [List.length_append, List.length_replicate]; omega
  · rw [digitsVal_eq, Nat.ofDigitChars_append, Nat.ofDigitChars_replicate_zero, Nat.mul_zero, Nat.ofDigitChars_ten_toDigits]

/-- The shown value. -/
theorem fmt10_decimal (neg : Bool) (m : ℚ≥0) :
    Decimal10 (fmt10 (.fin neg m)) ((if neg then -1 else 1) * ((roundEven (m * 10 ^ 10) : Nat) / 10 ^ 10)) := by
  obtain ⟨p1, p2, p3⟩ := pad_digits (Nat.mod_lt (roundEven (m * 10 ^ 10)) (show 0 < 10 ^ 10 by norm_num))
  refine ⟨neg, _, _, digits_toDigits _, p1, p2, rfl, ?_⟩
  rw [p3, digitsVal_toDigits]
  congr 1
  have h : ((roundEven (m * 10 ^ 10) : Nat) : ℚ) = (10 ^ 10 : Nat) * (roundEven (m * 10 ^ 10) / 10 ^ 10 : Nat) +
      (roundEven (m * 10 ^ 10) % 10 ^ 10 : Nat) := by
    rw [← Nat.cast_mul, ← Nat.cast_add, Nat.div_add_mod]
  rw [h]
  push_cast
  field_simp
  ring

theorem fmt10_shows (x : PyFloat) : Shows (fmt10 x) x := by
  cases x with
  | nan => rfl
  | inf neg => cases neg <;> rfl
  | fin neg m =>
      refine ⟨_, fmt10_decimal neg m, ?_⟩
      have h := roundEven_err (m * 10 ^ 10)
      push_cast at h
      have e : |((roundEven (m * 10 ^ 10) : Nat) : ℚ) / 10 ^ 10 - m| ≤ 1 / (2 * 10 ^ 10) := by
        have : ((roundEven (m * 10 ^ 10) : Nat) : ℚ) / 10 ^ 10 - m =
            (((roundEven (m * 10 ^ 10) : Nat) : ℚ) - m * 10 ^ 10) / 10 ^ 10 := by field_simp
        rw [this, abs_div, abs_of_pos (show (0 : ℚ) < 10 ^ 10 by positivity), div_le_iff₀ (by positivity)]
        refine h.trans (le_of_eq ?_)
        norm_num
      cases neg with
      | false => simpa [signed] using e
      | true =>
          have : -1 * (((roundEven (m * 10 ^ 10) : Nat) : ℚ) / 10 ^ 10) - -(m : ℚ) =
              -(((roundEven (m * 10 ^ 10) : Nat) : ℚ) / 10 ^ 10 - m) := by ring
          simp only [signed, if_true]
          rw [this, abs_neg]
          exact e

/-! ### Reading back -/

theorem digit_ne {ds : List Char} (h : Digits ds) {c : Char} (hc : c.isDigit = false) : c ∉ ds := fun hm => by
  rw [h.2 c hm] at hc; cases hc

theorem Spec.Decimal10.unique {t : List Char} {v w : ℚ} (h : Decimal10 t v) (h' : Decimal10 t w) : v = w := by
  obtain ⟨n, i, f, hi, hf, -, rfl, rfl⟩ := h
  obtain ⟨n', i', f', hi', hf', -, ht, rfl⟩ := h'
  have key : ∀ {i i' : List Char}, Digits i → Digits i' → ∀ {f f' : List Char}, i ++ '.' :: f ≠ ['-'] ++ i' ++ '.' :: f' := by
    intro i i' hi _ f f' e
    cases i with
    | nil => exact hi.1 rfl
    | cons c i =>
        have e2 : c = '-' := (List.cons.inj e).1
        have := hi.2 c (by simp)
        rw [e2] at this; cases this
  have hn : n = n' := by
    cases n <;> cases n'
    · rfl
    · exact absurd (by simpa using ht) (key hi hi')
    · exact absurd (by simpa using ht.symm) (key hi' hi)
    · rfl
  subst hn
  rw [List.append_assoc, List.append_assoc, List.append_right_inj] at ht
  obtain ⟨rfl, rfl⟩ := append_sep_inj (digit_ne hi rfl) (digit_ne hi' rfl) ht
  rfl

theorem Spec.Decimal10.mem {t : List Char} {v : ℚ} (h : Decimal10 t v) : ∀ c ∈ t, c = '-' ∨ c = '.' ∨ c.isDigit := by
  obtain ⟨n, i, f, hi, hf, -, rfl, rfl⟩ := h
  intro c hc
  simp only [List.mem_append, List.mem_cons] at hc
  rcases hc with (hc | hc) | rfl | hc
  · cases n
    · simp at hc
    · exact Or.inl (by simpa using hc)
  · exact Or.inr (Or.inr (hi.2 c hc))
  · exact Or.inr (Or.inl rfl)
  · exact Or.inr (Or.inr (hf.2 c hc))

theorem Spec.Shows.mem {t : List Char} {x : PyFloat} (h : Shows t x) : ',' ∉ t ∧ '\n' ∉ t := by
  cases x with
  | nan => rw [show t = _ from h]; decide
  | inf neg => rw [show t = _ from h]; cases neg <;> decide
  | fin neg m =>
      obtain ⟨v, hv, -⟩ := h
      constructor <;> intro hc <;> rcases hv.mem _ hc with h | h | h <;> simp at h

theorem Spec.Shows.close {t : List Char} {x y : PyFloat} (h : Shows t x) (h' : Shows t y) : Close x y := by
  have hdot : ∀ {v : ℚ}, Decimal10 t v → '.' ∈ t := by
    rintro v ⟨n, i, f, -, -, -, rfl, -⟩; simp
  have hnan : '.' ∉ "nan".toList := by decide
  have hinf : ∀ b : Bool, '.' ∉ (if b then "-inf".toList else "inf".toList) := by decide
  cases x with
  | nan =>
      cases y with
      | nan => trivial
      | inf b =>
          rw [show t = _ from h] at h'
          cases b <;> exact absurd (show _ = _ from h') (by decide)
      | fin b m =>
          obtain ⟨v, hv, -⟩ := h'
          exact absurd (hdot hv) (by rw [show t = _ from h]; exact hnan)
  | inf a =>
      cases y with
      | nan =>
          rw [show t = _ from h] at h'
          cases a <;> exact absurd (show _ = _ from h') (by decide)
      | inf b =>
          rw [show t = _ from h] at h'
          revert h'
          cases a <;> cases b <;> intro h' <;> first | rfl | exact absurd (show _ = _ from h') (by decide)
      | fin b m =>
          obtain ⟨v, hv, -⟩ := h'
          exact absurd (hdot hv) (by rw [show t = _ from h]; exact hinf a)
  | fin a m =>
      obtain ⟨v, hv, hv2⟩ := h
      cases y with
      | nan => exact absurd (hdot hv) (by rw [show t = _ from h']; exact hnan)
      | inf b => exact absurd (hdot hv) (by rw [show t = _ from h']; exact hinf b)
      | fin b n =>
          obtain ⟨w, hw, hw2⟩ := h'
          obtain rfl := hv.unique hw
          show |_| ≤ _
          have : signed a m - signed b n = -(v - signed a m) + (v - signed b n) := by ring
          rw [this]
          refine (abs_add_le _ _).trans ?_
          rw [abs_neg]
          have e : (1 : ℚ) / 10 ^ 10 = 1 / (2 * 10 ^ 10) + 1 / (2 * 10 ^ 10) := by norm_num
          rw [e]
          exact add_le_add hv2 hw2

theorem lines_inj : ∀ {ls ls' : List (List Char)}, (∀ l ∈ ls, '\n' ∉ l) → (∀ l ∈ ls', '\n' ∉ l) →
    ls.flatMap (· ++ ['\n']) = ls'.flatMap (· ++ ['\n']) → ls = ls'
  | [], [], _, _, _ => rfl
  | [], l' :: ls', _, _, h => by simp at h
  | l :: ls, [], _, _, h => by simp at h
  | l :: ls, l' :: ls', h1, h2, h => by
      simp only [List.flatMap_cons, List.append_assoc, List.singleton_append] at h
      obtain ⟨rfl, e⟩ := append_sep_inj (h1 l (by simp)) (h2 l' (by simp)) h
      rw [lines_inj (fun l hl => h1 l (by simp [hl])) (fun l hl => h2 l (by simp [hl])) e]

/-! ### File names -/

theorem intText_mem (z : Int) : ∀ c ∈ intText z, c = '-' ∨ c.isDigit := by
  intro c hc
  unfold intText sign at hc
  rcases List.mem_append.1 hc with hc | hc
  · split at hc
    · exact Or.inl (by simpa using hc)
    · simp at hc
  · exact Or.inr ((digits_toDigits _).2 c hc)

theorem intText_no {z : Int} {c : Char} (h1 : c ≠ '-') (h2 : c.isDigit = false) : c ∉ intText z := fun h => by
  rcases intText_mem z c h with h | h
  · exact h1 h
  · rw [h] at h2; cases h2

theorem pyInt_intText (z : Int) : reader.pyInt (intText z) = some z := by
  unfold intText
  by_cases h : z < 0
  · have hd := digits_toDigits z.natAbs
    have h2 := digitsAux_digits (Nat.toDigits 10 z.natAbs) 0 Nat.toDigits_ne_nil hd.2 false
    rw [Nat.ofDigitChars_toDigits (by norm_num) (by norm_num)] at h2
    have e : ((sign (decide (z < 0)) ++ Nat.toDigits 10 z.natAbs).dropWhile reader.isWs).reverse.dropWhile reader.isWs =
        ('-' :: Nat.toDigits 10 z.natAbs).reverse := by
      simp only [sign, h, decide_true, if_true, List.singleton_append]
      rw [List.dropWhile_cons_of_neg (by decide)]
      have hne : (Nat.toDigits 10 z.natAbs).reverse ≠ [] := by simp [hd.1]
      have hw := dropWhile_digits (l := (Nat.toDigits 10 z.natAbs).reverse) (by simpa using hd.2)
      rw [List.reverse_cons, List.dropWhile_append, hw]
      simp [hd.1]
    unfold reader.pyInt
    simp only [e, List.reverse_reverse]
    rw [h2]
    show some (-((z.natAbs : Nat) : Int)) = some z
    congr 1; omega
  · simp only [h, sign]
    have : (z.natAbs : Int) = z := by omega
    conv_rhs => rw [← this]
    exact pyInt_digits z.natAbs

theorem intText_inj {z w : Int} (h : intText z = intText w) : z = w := by
  have := pyInt_intText z
  rw [h, pyInt_intText] at this
  exact (Option.some.inj this).symm

end TD
