import Mathlib.Algebra.Order.BigOperators.Ring.Finset
import Mathlib.Algebra.Order.Chebyshev
import Mathlib.Analysis.InnerProductSpace.Basic
import Verif.Model.Loss
import Verif.Lemmas.Bcast
import Verif.Lemmas.Xcb

namespace TD.loss
open TD Spec Tensor

theorem boxSum_nonneg (s : List Nat) {f : List Nat → ℝ} (h : ∀ i, InB s i → 0 ≤ f i) : 0 ≤ boxSum s f := by
  rw [boxSum_eq_sum_range]
  exact Finset.sum_nonneg fun k hk => h _ (unravel_inB (Finset.mem_range.1 hk))

theorem boxSum_le (s : List Nat) {f g : List Nat → ℝ} (h : ∀ i, InB s i → f i ≤ g i) :
    boxSum s f ≤ boxSum s g := by
  rw [boxSum_eq_sum_range, boxSum_eq_sum_range]
  exact Finset.sum_le_sum fun k hk => h _ (unravel_inB (Finset.mem_range.1 hk))

theorem boxSum_eq_zero (s : List Nat) {f : List Nat → ℝ} (h : ∀ i, InB s i → 0 ≤ f i) :
    boxSum s f = 0 ↔ ∀ i, InB s i → f i = 0 := by
  rw [boxSum_eq_sum_range, Finset.sum_eq_zero_iff_of_nonneg
    (fun k hk => h _ (unravel_inB (Finset.mem_range.1 hk)))]
  constructor
  · intro hk i hi
    have := hk (ravel s i) (Finset.mem_range.2 (ravel_lt hi))
    rwa [unravel_ravel hi] at this
  · intro hi k hk
    exact hi _ (unravel_inB (Finset.mem_range.1 hk))

/-- Minkowski for sums over a box. -/
theorem sqrt_boxSum_triangle (s : List Nat) (f g : List Nat → ℝ) :
    Real.sqrt (boxSum s fun i => (f i + g i) ^ 2) ≤
      Real.sqrt (boxSum s fun i => f i ^ 2) + Real.sqrt (boxSum s fun i => g i ^ 2) := by
  simp only [boxSum_eq_sum_range]
  set S := Finset.range s.prod
  have hF : 0 ≤ ∑ k ∈ S, f (unravel s k) ^ 2 := Finset.sum_nonneg fun _ _ => sq_nonneg _
  have hG : 0 ≤ ∑ k ∈ S, g (unravel s k) ^ 2 := Finset.sum_nonneg fun _ _ => sq_nonneg _
  rw [Real.sqrt_le_left (by positivity), add_sq, Real.sq_sqrt hF, Real.sq_sqrt hG]
  have hcs := Real.sum_mul_le_sqrt_mul_sqrt S (fun k => f (unravel s k)) (fun k => g (unravel s k))
  have : ∑ k ∈ S, (f (unravel s k) + g (unravel s k)) ^ 2 =
      ∑ k ∈ S, f (unravel s k) ^ 2 + 2 * ∑ k ∈ S, f (unravel s k) * g (unravel s k) +
        ∑ k ∈ S, g (unravel s k) ^ 2 := by
    rw [Finset.mul_sum, ← Finset.sum_add_distrib, ← Finset.sum_add_distrib]
    exact Finset.sum_congr rfl fun k _ => by ring
  rw [this]
  nlinarith

theorem reduceSum_map (t : Tensor ℝ) (f : ℝ → ℝ) :
    tf.reduceSum (tf.map f t) = boxSum t.shape fun i => f (t.at_ i) := by
  rw [tf.reduceSum]
  change List.sum _ = _
  rw [sum_data]
  exact boxSum_congr fun i hi => at_map f t hi

theorem boxSum_const (s : List Nat) (c : ℝ) : boxSum s (fun _ => c) = s.prod * c := by
  rw [boxSum_eq_sum_range]; simp

end TD.loss
