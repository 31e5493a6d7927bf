import Verif.Lemmas.Special
import Verif.Lemmas.Nearest

/-! # float32 as a format with overflow and underflow -/
namespace TD.sp
open TD fl

/-- float32: 24 bits, smallest positive number `2⁻¹⁴⁹`, largest number `(2²⁴ - 1) 2¹⁰⁴`. -/
noncomputable def f32 : Fmt where
  arith := float32
  big := (2 ^ 24 - 1) * 2 ^ 104
  one_le_big := by norm_num
  rnd_nonneg _ := nearestSub_nonneg 24 (-149)
  u_le := by show (2⁻¹ : ℝ) ^ 24 ≤ 1 / 2; norm_num
  eta_le := by show (2 : ℝ) ^ (-149 - 1 : ℤ) ≤ 1 / 4; norm_num

/-- `m 2ᵉ` in float32. -/
noncomputable def num32 (m : ℤ) (e : Nat) (hm : |m| ≤ 2 ^ 24) (hb : |(m : ℝ) * 2 ^ e| ≤ (2 ^ 24 - 1) * 2 ^ 104) : Num f32 :=
  .fin (m * 2 ^ e) ⟨by
    have := nearestSub_fix (p := 24) (by omega) (emin := -149) (m := m) (e := e) hm (by omega)
    rw [zpow_natCast] at this
    exact this, hb⟩

theorem rnd32 {x : ℝ} (m : ℤ) (e : Nat) (hm : |m| ≤ 2 ^ 24) (hx : x = m * 2 ^ e) : f32.arith.rnd x = x := by
  have := nearestSub_fix (p := 24) (by omega) (emin := -149) (m := m) (e := e) hm (by omega)
  rw [zpow_natCast] at this
  rw [hx]; exact this

theorem round32 {x : ℝ} (m : ℤ) (e : Nat) (hm : |m| ≤ 2 ^ 24) (hx : x = m * 2 ^ e) (hb : |x| ≤ (2 ^ 24 - 1) * 2 ^ 104) :
    ∃ h, Num.round f32 x = .fin x h := by
  have h := rnd32 m e hm hx
  refine ⟨⟨h, hb⟩, ?_⟩
  unfold Num.round
  rw [dif_pos (by rw [h]; exact hb)]
  simp only [h]

theorem round32_over {x : ℝ} (m : ℤ) (e : Nat) (hm : |m| ≤ 2 ^ 24) (hx : x = m * 2 ^ e) (hb : (2 ^ 24 - 1) * 2 ^ 104 < |x|) :
    Num.round f32 x = .inf (decide (x < 0)) := by
  have h := rnd32 m e hm hx
  unfold Num.round
  rw [dif_neg (by rw [h, not_le]; exact hb)]

theorem total32 (x : Num f32) : tf.Red.total [x] = x := rfl

end TD.sp
