import Verif.Lemmas.Float32

/-! # Rounding to nearest preserves the order -/
namespace TD.fl
open TD

theorem nearest_bounds {p : Nat} (hp : 0 < p) {x : ℝ} (hx : x ≠ 0) :
    |nearest p x| ≤ 2 ^ (Int.log 2 |x| + 1) ∧ (0 < x → 2 ^ Int.log 2 |x| ≤ nearest p x) ∧ (x < 0 → nearest p x ≤ -2 ^ Int.log 2 |x|) := by
  have hx' : 0 < |x| := abs_pos.2 hx
  unfold nearest
  set L := Int.log 2 |x| with hL
  have hpos : (0 : ℝ) < 2 ^ (L - (p - 1 : ℤ)) := by positivity
  have hlo : (2 : ℝ) ^ L ≤ |x| := by
    have := Int.zpow_log_le_self (b := 2) (r := |x|) (by norm_num) hx'
    simpa using this
  have hhi : |x| < 2 ^ (L + 1) := by
    have := Int.lt_zpow_succ_log_self (b := 2) (by norm_num) (|x|)
    simpa using this
  have e1 : ((2 ^ p : ℤ) : ℝ) * 2 ^ (L - (p - 1 : ℤ)) = 2 ^ (L + 1) := by
    push_cast
    rw [← zpow_natCast, ← zpow_add₀ (by norm_num)]
    congr 1; ring
  have e2 : ((2 ^ (p - 1) : ℤ) : ℝ) * 2 ^ (L - (p - 1 : ℤ)) = 2 ^ L := by
    push_cast
    rw [← zpow_natCast, ← zpow_add₀ (by norm_num)]
    congr 1
    rw [Nat.cast_sub (by omega)]
    push_cast; ring
  refine ⟨?_, fun h => ?_, fun h => ?_⟩
  · have h4 : |x / 2 ^ (L - (p - 1 : ℤ))| ≤ ((2 ^ p : ℤ) : ℝ) := by
      rw [abs_div, abs_of_pos hpos, div_le_iff₀ hpos, e1]; exact hhi.le
    rw [abs_mul, abs_of_pos hpos, ← e1]
    refine mul_le_mul_of_nonneg_right ?_ hpos.le
    rw [abs_le] at h4 ⊢
    constructor
    · have := round_mono_real h4.1
      rw [show (-((2 ^ p : ℤ) : ℝ)) = ((-2 ^ p : ℤ) : ℝ) by push_cast; ring, round_intCast] at this
      exact_mod_cast this
    · have := round_mono_real h4.2
      rw [round_intCast] at this
      exact_mod_cast this
  · rw [← e2]
    refine mul_le_mul_of_nonneg_right ?_ hpos.le
    have h4 : ((2 ^ (p - 1) : ℤ) : ℝ) ≤ x / 2 ^ (L - (p - 1 : ℤ)) := by
      rw [le_div_iff₀ hpos, e2]; rwa [abs_of_pos h] at hlo
    have := round_mono_real h4
    rw [round_intCast] at this
    exact_mod_cast this
  · rw [← e2, ← neg_mul]
    refine mul_le_mul_of_nonneg_right ?_ hpos.le
    have h4 : x / 2 ^ (L - (p - 1 : ℤ)) ≤ ((-2 ^ (p - 1) : ℤ) : ℝ) := by
      rw [div_le_iff₀ hpos]
      have : ((-2 ^ (p - 1) : ℤ) : ℝ) * 2 ^ (L - (p - 1 : ℤ)) = - 2 ^ L := by rw [← e2]; push_cast; ring
      rw [this]
      rw [abs_of_neg h] at hlo
      linarith
    have := round_mono_real h4
    rw [round_intCast] at this
    exact_mod_cast this

theorem nearest_mono {p : Nat} (hp : 0 < p) : Monotone (nearest p) := by
  have h0 : nearest p 0 = 0 := by simp [nearest]
  have hz : ∀ L : ℤ, (0 : ℝ) < 2 ^ L := fun L => by positivity
  have hpow : ∀ {a b : ℤ}, a < b → (2 : ℝ) ^ (a + 1) ≤ 2 ^ b := fun h => zpow_le_zpow_right₀ (by norm_num) (by omega)
  have hsame : ∀ {x y : ℝ}, x ≤ y → Int.log 2 |x| = Int.log 2 |y| → nearest p x ≤ nearest p y := by
    intro x y h e
    unfold nearest
    rw [e]
    refine mul_le_mul_of_nonneg_right ?_ (by positivity)
    have := round_mono_real (div_le_div_of_nonneg_right h (show (0 : ℝ) ≤ 2 ^ (Int.log 2 |y| - (p - 1 : ℤ)) by positivity))
    exact_mod_cast this
  intro x y h
  rcases lt_trichotomy x 0 with hx | hx | hx
  · obtain ⟨a1, -, a3⟩ := nearest_bounds hp hx.ne
    have hx0 : nearest p x ≤ 0 := (a3 hx).trans (neg_nonpos.2 (hz _).le)
    rcases lt_trichotomy y 0 with hy | hy | hy
    · obtain ⟨b1, -, b3⟩ := nearest_bounds hp hy.ne
      have hle : Int.log 2 |y| ≤ Int.log 2 |x| := Int.log_mono_right (abs_pos.2 hy.ne) (by
        rw [abs_of_neg hx, abs_of_neg hy]; linarith)
      rcases lt_or_eq_of_le hle with hl | hl
      · have := (abs_le.1 b1).1
        have := hpow hl
        have := a3 hx
        linarith
      · exact hsame h hl.symm
    · subst hy; rwa [h0]
    · exact hx0.trans ((hz _).le.trans ((nearest_bounds hp hy.ne').2.1 hy))
  · subst hx
    rw [h0]
    rcases lt_or_eq_of_le h with hy | hy
    · exact (hz _).le.trans ((nearest_bounds hp hy.ne').2.1 hy)
    · rw [← hy, h0]
  · have hy : 0 < y := hx.trans_le h
    obtain ⟨a1, a2, -⟩ := nearest_bounds hp hx.ne'
    obtain ⟨b1, b2, -⟩ := nearest_bounds hp hy.ne'
    have hle : Int.log 2 |x| ≤ Int.log 2 |y| := Int.log_mono_right (abs_pos.2 hx.ne') (by
      rw [abs_of_pos hx, abs_of_pos hy]; exact h)
    rcases lt_or_eq_of_le hle with hl | hl
    · have := (abs_le.1 a1).2
      have := hpow hl
      have := b2 hy
      linarith
    · exact hsame h hl

/-- Below the normal range, results are rounded to a multiple of the smallest positive number. -/
theorem nearestSub_small {p : Nat} (hp : 0 < p) (emin : ℤ) {x : ℝ} (h : x = 0 ∨ Int.log 2 |x| - (p - 1 : ℤ) < emin) :
    nearestSub p emin x = round (x / 2 ^ emin) * 2 ^ emin ∧ |nearestSub p emin x| ≤ 2 ^ (emin + (p - 1 : ℤ)) := by
  have hpos : (0 : ℝ) < 2 ^ emin := by positivity
  rcases h with rfl | h
  · have : nearestSub p emin 0 = 0 := by
      unfold nearestSub
      split <;> simp [nearest]
    rw [this]
    simp
    positivity
  · have e : nearestSub p emin x = round (x / 2 ^ emin) * 2 ^ emin := by
      unfold nearestSub
      rw [if_neg (not_le.2 h)]
    refine ⟨e, ?_⟩
    rw [e]
    have h3 : |x| < 2 ^ (Int.log 2 |x| + 1) := by
      have := Int.lt_zpow_succ_log_self (b := 2) (by norm_num) (|x|)
      simpa using this
    have e2 : ((2 ^ (p - 1) : ℤ) : ℝ) * 2 ^ emin = 2 ^ (emin + (p - 1 : ℤ)) := by
      push_cast
      rw [← zpow_natCast, ← zpow_add₀ (by norm_num)]
      congr 1
      rw [Nat.cast_sub (by omega)]
      push_cast; ring
    have h4 : |x / 2 ^ emin| ≤ ((2 ^ (p - 1) : ℤ) : ℝ) := by
      rw [abs_div, abs_of_pos hpos, div_le_iff₀ hpos, e2]
      exact h3.le.trans (zpow_le_zpow_right₀ (by norm_num) (by omega))
    rw [abs_mul, abs_of_pos hpos, ← e2]
    refine mul_le_mul_of_nonneg_right ?_ hpos.le
    rw [abs_le] at h4 ⊢
    constructor
    · have := round_mono_real h4.1
      rw [show (-((2 ^ (p - 1) : ℤ) : ℝ)) = ((-2 ^ (p - 1) : ℤ) : ℝ) by push_cast; ring, round_intCast] at this
      exact_mod_cast this
    · have := round_mono_real h4.2
      rw [round_intCast] at this
      exact_mod_cast this

theorem nearestSub_mono {p : Nat} (hp : 0 < p) (emin : ℤ) : Monotone (nearestSub p emin) := by
  have hlarge : ∀ {x : ℝ}, ¬(x = 0 ∨ Int.log 2 |x| - (p - 1 : ℤ) < emin) → nearestSub p emin x = nearest p x ∧
      (2 : ℝ) ^ (emin + (p - 1 : ℤ)) ≤ 2 ^ Int.log 2 |x| := by
    intro x h
    rw [not_or, not_lt] at h
    unfold nearestSub
    rw [if_pos h.2]
    exact ⟨rfl, zpow_le_zpow_right₀ (by norm_num) (by omega)⟩
  intro x y h
  by_cases hx : x = 0 ∨ Int.log 2 |x| - (p - 1 : ℤ) < emin <;> by_cases hy : y = 0 ∨ Int.log 2 |y| - (p - 1 : ℤ) < emin
  · rw [(nearestSub_small hp emin hx).1, (nearestSub_small hp emin hy).1]
    refine mul_le_mul_of_nonneg_right ?_ (by positivity)
    have := round_mono_real (div_le_div_of_nonneg_right h (show (0 : ℝ) ≤ 2 ^ emin by positivity))
    exact_mod_cast this
  · obtain ⟨e, hl⟩ := hlarge hy
    rw [not_or, not_lt] at hy
    rcases lt_or_gt_of_ne hy.1 with h0 | h0
    · exfalso
      have hx0 : x < 0 := h.trans_lt h0
      have := Int.log_mono_right (b := 2) (abs_pos.2 h0.ne) (show |y| ≤ |x| by rw [abs_of_neg h0, abs_of_neg hx0]; linarith)
      rcases hx with hx | hx
      · exact hx0.ne hx
      · omega
    · have := (abs_le.1 (nearestSub_small hp emin hx).2).2
      have := (nearest_bounds hp hy.1).2.1 h0
      rw [e]; linarith
  · obtain ⟨e, hl⟩ := hlarge hx
    rw [not_or, not_lt] at hx
    rcases lt_or_gt_of_ne hx.1 with h0 | h0
    · have := (abs_le.1 (nearestSub_small hp emin hy).2).1
      have := (nearest_bounds hp hx.1).2.2 h0
      rw [e]; linarith
    · exfalso
      have hy0 : 0 < y := h0.trans_le h
      have := Int.log_mono_right (b := 2) (abs_pos.2 h0.ne') (show |x| ≤ |y| by rw [abs_of_pos h0, abs_of_pos hy0]; exact h)
      rcases hy with hy | hy
      · exact hy0.ne' hy
      · omega
  · rw [(hlarge hx).1, (hlarge hy).1]
    exact nearest_mono hp h

end TD.fl

namespace TD.sp

theorem f32_mono : Monotone f32.arith.rnd := fl.nearestSub_mono (by omega) _

end TD.sp
