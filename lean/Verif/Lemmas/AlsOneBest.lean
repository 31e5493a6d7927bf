import Verif.Lemmas.AlsOneRun
import Verif.Lemmas.AlsOneHooi

/-! # One component: a fit is the least-squares fit, so the iteration never gets worse -/
namespace TD
open Spec Tensor tf ops

/-- Among all vectors of mode `n`, `bestVec` gives the smallest squared distance to the data. -/
theorem refit_best {X : Tensor ℝ} {n : Nat} (hn : n < X.order) (v : Nat → Nat → ℝ) (u : Nat → ℝ) :
    boxSum X.shape (fun i => (X.at_ i - outerEntry X.order (refit X v n) i) ^ 2) ≤
      boxSum X.shape fun i => (X.at_ i - outerEntry X.order (Function.update v n u) i) ^ 2 := by
  have hsp : ∀ u : Nat → ℝ, boxSum X.shape (fun i => (X.at_ i - outerEntry X.order (Function.update v n u) i) ^ 2) =
      ∑ a ∈ Finset.range (X.shape.getD n 0), ∑ j : Fin (otherSize X.shape n),
        (X.at_ (unkolda X.shape n a j) - u a * restEntry X.order v n (unkolda X.shape n a j)) ^ 2 := by
    intro u
    rw [boxSum_slices (n := n) hn]
    refine Finset.sum_congr rfl fun a ha => ?_
    have ha := Finset.mem_range.1 ha
    rw [sliceSum_unkolda hn ha]
    refine Finset.sum_congr rfl fun j _ => ?_
    rw [outerEntry_split _ hn, restEntry_update, Function.update_self, (unkolda_spec hn ha j.isLt).2.1]
  unfold refit
  rw [hsp, hsp]
  refine Finset.sum_le_sum fun a ha => ?_
  have ha := Finset.mem_range.1 ha
  have hb : bestVec X v n a * (∑ j : Fin (otherSize X.shape n), restEntry X.order v n (unkolda X.shape n a j) ^ 2) =
      ∑ j : Fin (otherSize X.shape n), X.at_ (unkolda X.shape n a j) * restEntry X.order v n (unkolda X.shape n a j) := by
    unfold bestVec
    rw [sliceSum_unkolda hn ha, sliceSum_unkolda hn ha]
    by_cases hV : (∑ j : Fin (otherSize X.shape n), restEntry X.order v n (unkolda X.shape n a j) ^ 2) = 0
    · rw [hV, mul_zero]
      have h0 := (Finset.sum_eq_zero_iff_of_nonneg fun j _ => sq_nonneg _).1 hV
      refine (Finset.sum_eq_zero fun j hj => ?_).symm
      rw [pow_eq_zero_iff two_ne_zero |>.1 (h0 j hj), mul_zero]
    · exact div_mul_cancel₀ _ hV
  have hd : ∑ j : Fin (otherSize X.shape n), (X.at_ (unkolda X.shape n a j) - u a * restEntry X.order v n (unkolda X.shape n a j)) ^ 2 -
      ∑ j : Fin (otherSize X.shape n),
        (X.at_ (unkolda X.shape n a j) - bestVec X v n a * restEntry X.order v n (unkolda X.shape n a j)) ^ 2 =
      (u a - bestVec X v n a) ^ 2 * ∑ j : Fin (otherSize X.shape n), restEntry X.order v n (unkolda X.shape n a j) ^ 2 := by
    have e : ∀ t : ℝ, ∑ j : Fin (otherSize X.shape n),
        (X.at_ (unkolda X.shape n a j) - t * restEntry X.order v n (unkolda X.shape n a j)) ^ 2 =
        ∑ j : Fin (otherSize X.shape n), X.at_ (unkolda X.shape n a j) ^ 2 -
        2 * t * (∑ j : Fin (otherSize X.shape n), X.at_ (unkolda X.shape n a j) * restEntry X.order v n (unkolda X.shape n a j)) +
        t ^ 2 * ∑ j : Fin (otherSize X.shape n), restEntry X.order v n (unkolda X.shape n a j) ^ 2 := by
      intro t
      rw [Finset.mul_sum, Finset.mul_sum, ← Finset.sum_sub_distrib, ← Finset.sum_add_distrib]
      exact Finset.sum_congr rfl fun j _ => by ring
    rw [e, e, ← hb]
    ring
  have : 0 ≤ (u a - bestVec X v n a) ^ 2 * ∑ j : Fin (otherSize X.shape n), restEntry X.order v n (unkolda X.shape n a j) ^ 2 :=
    mul_nonneg (sq_nonneg _) (Finset.sum_nonneg fun j _ => sq_nonneg _)
  linarith

theorem refitAll_le (X : Tensor ℝ) : ∀ (l : List Nat), (∀ n ∈ l, n < X.order) → ∀ v : Nat → Nat → ℝ,
    boxSum X.shape (fun i => (X.at_ i - outerEntry X.order (l.foldl (refit X) v) i) ^ 2) ≤
      boxSum X.shape fun i => (X.at_ i - outerEntry X.order v i) ^ 2
  | [], _, v => le_refl _
  | n :: l, hl, v => by
      refine le_trans (refitAll_le X l (fun m hm => hl m (by simp [hm])) (refit X v n)) ?_
      have := refit_best (hl n (by simp)) v (v n)
      rw [Function.update_eq_self] at this
      exact this

/-- The iteration never gets worse. -/
theorem alsOne_le (X : Tensor ℝ) (v : Nat → Nat → ℝ) (j : Nat) :
    distSqT X (alsOne X v (j + 1)) ≤ distSqT X (alsOne X v j) := by
  have e : ∀ j, distSqT X (alsOne X v j) =
      boxSum X.shape fun i => (X.at_ i - outerEntry X.order ((refitAll X)^[j] v) i) ^ 2 := fun j => by
    unfold distSqT alsOne
    exact boxSum_congr fun i hi => by rw [at_ofFn (s := X.shape) _ hi]
  rw [e, e, Function.iterate_succ_apply']
  exact refitAll_le X _ (fun n hn => List.mem_range.1 hn) _

theorem entries_le {X : Tensor ℝ} {v : Nat → Nat → ℝ} {hist : List (ℝ × ℝ)}
    (h : ∀ j p, hist[j]? = some p → EntryOf X (alsOne X v (j + 1)) p) {i j : Nat} (hij : i ≤ j) {p q : ℝ × ℝ}
    (hp : hist[i]? = some p) (hq : hist[j]? = some q) : q.2 ≤ p.2 := by
  rw [(h i p hp).2, (h j q hq).2]
  exact div_le_div_of_nonneg_right (Real.sqrt_le_sqrt
    (antitone_nat_of_succ_le (f := fun j => distSqT X (alsOne X v j)) (alsOne_le X v) (by omega))) (Real.sqrt_nonneg _)

end TD
