import Verif.Lemmas.LimitTrain
import Verif.Lemmas.TopSv
import Verif.Lemmas.Mats

/-! # The largest singular value is continuous; correctly rounded routines tend to the exact one -/
namespace TD
open Tensor fl Spec sp Num Filter Topology Matrix
variable {F : ℕ → Fmt}

namespace Lim

theorem frobSq_mul_col {m n : Nat} (M : Mat m n) (v : Mat n 1) : frobSq (M * v) ≤ frobSq M * frobSq v := by
  have hv : frobSq v = ∑ j, v j 0 ^ 2 := by simp [frobSq]
  rw [hv, frobSq, frobSq, Finset.sum_mul]
  refine Finset.sum_le_sum fun i _ => ?_
  rw [Fintype.sum_unique, Matrix.mul_apply]
  exact Finset.sum_mul_sq_le_sq_mul_sq _ _ _

theorem sqrt_frobSq_add {m n : Nat} (E G : Mat m n) : √(frobSq (E + G)) ≤ √(frobSq E) + √(frobSq G) := by
  refine Real.sqrt_le_iff.2 ⟨by positivity, ?_⟩
  rw [frobSq_add, add_sq, Real.sq_sqrt (frobSq_nonneg _), Real.sq_sqrt (frobSq_nonneg _)]
  have h : trace (E * Gᵀ) ≤ √(frobSq E) * √(frobSq G) := by
    rw [← Real.sqrt_mul (frobSq_nonneg _)]
    exact Real.le_sqrt_of_sq_le (trace_cauchy E G)
  linarith

theorem topSv_le {m n : Nat} {M M' : Mat m n} {L L' : ℝ} (h : IsTopSv M L) (h' : IsTopSv M' L') : L ≤ L' + √(frobSq (M - M')) := by
  obtain ⟨v, v1, v2⟩ := h.attained
  have e : M * v = M' * v + (M - M') * v := by rw [Matrix.sub_mul]; abel
  have h1 : √(frobSq (M * v)) = L := by rw [v2, Real.sqrt_sq h.nonneg]
  have h2 : √(frobSq (M' * v)) ≤ L' := by
    refine Real.sqrt_le_iff.2 ⟨h'.nonneg, ?_⟩
    have := h'.mul_le v
    rwa [v1, mul_one] at this
  have h3 : √(frobSq ((M - M') * v)) ≤ √(frobSq (M - M')) := by
    refine Real.sqrt_le_sqrt ?_
    have := frobSq_mul_col (M - M') v
    rwa [v1, mul_one] at this
  have := sqrt_frobSq_add (M' * v) ((M - M') * v)
  rw [← e, h1] at this
  linarith

theorem topSv_abs {m n : Nat} {M M' : Mat m n} {L L' : ℝ} (h : IsTopSv M L) (h' : IsTopSv M' L') : |L - L'| ≤ √(frobSq (M - M')) := by
  rw [abs_le]
  have h1 := topSv_le h h'
  have h2 := topSv_le h' h
  rw [show frobSq (M' - M) = frobSq (M - M') by simp only [frobSq, Matrix.sub_apply, sub_sq_comm]] at h2
  constructor <;> linarith

theorem reals_at {F : Fmt} (A : Tensor (Num F)) {i : List Nat} (hi : InB A.shape i) : (reals A).at_ i = real (A.at_ i) :=
  at_map _ _ hi

theorem svTends_rounded (hF : Refining F) {sv : Tensor ℝ → Res ℝ} (h : TopSvOk sv)
    (he : ∀ M, (∀ m n, M.shape = [m, n] → m = 0 ∨ n = 0) → ∃ e, sv M = .error e) :
    SvTends (fun j M => (sv (reals M)).map (Num.round (F j))) sv := by
  intro A B hAB b hb
  obtain ⟨m, n, hs, hm, hn⟩ : ∃ m n, B.shape = [m, n] ∧ 0 < m ∧ 0 < n := by
    by_contra hc
    obtain ⟨e, h'⟩ := he B fun m n hs => by
      by_contra h0
      exact hc ⟨m, n, hs, by omega, by omega⟩
    cases h'.symm.trans hb
  have hsA : ∀ j, (reals (A j)).shape = [m, n] := fun j => (hAB.1 j).trans hs
  choose L hL hL' using fun j => h (reals (A j)) m n (hsA j) hm hn
  obtain ⟨L0, hL0, hL0'⟩ := h B m n hs hm hn
  obtain rfl : L0 = b := by cases hL0.symm.trans hb; rfl
  have hd : Tendsto (fun j => √(frobSq (toMat (reals (A j)) m n - toMat B m n))) atTop (𝓝 0) := by
    have hent : ∀ (i : Fin m) (k : Fin n), Tendsto (fun j => ((toMat (reals (A j)) m n - toMat B m n) i k) ^ 2) atTop (𝓝 0) := by
      intro i k
      have hi : InB B.shape [(i : Nat), (k : Nat)] := by rw [hs]; exact InB_pair.2 ⟨i, k, rfl, i.2, k.2⟩
      have h1 := (hAB.2 _ hi).2
      have h2 : Tendsto (fun j => (real ((A j).at_ [(i : Nat), (k : Nat)]) - B.at_ [(i : Nat), (k : Nat)]) ^ 2) atTop (𝓝 0) := by
        have := (h1.sub_const (B.at_ [(i : Nat), (k : Nat)])).pow 2
        simpa using this
      refine h2.congr fun j => ?_
      rw [Matrix.sub_apply]
      show _ = ((reals (A j)).at_ [(i : Nat), (k : Nat)] - B.at_ [(i : Nat), (k : Nat)]) ^ 2
      rw [reals_at _ (by rw [hAB.1 j]; exact hi)]
    have h1 : Tendsto (fun j => frobSq (toMat (reals (A j)) m n - toMat B m n)) atTop (𝓝 0) := by
      have := tendsto_finsetSum Finset.univ fun (i : Fin m) _ => tendsto_finsetSum Finset.univ fun (k : Fin n) _ => hent i k
      simpa [frobSq] using this
    have := (Real.continuous_sqrt.tendsto 0).comp h1
    rwa [Real.sqrt_zero] at this
  have hLt : Tendsto L atTop (𝓝 L0) := by
    rw [tendsto_iff_dist_tendsto_zero]
    refine squeeze_zero (fun _ => dist_nonneg) (fun j => ?_) hd
    rw [Real.dist_eq]
    exact topSv_abs (hL' j) hL0'
  refine ⟨fun j => Num.round (F j) (L j), Eventually.of_forall fun j => by simp only [hL j]; rfl, tends_round hF hLt,
    Eventually.of_forall fun j => ?_⟩
  exact nn_round (hL' j).nonneg

theorem rounded_tends (hF : Refining F) (X : Tensor ℝ) : TendsT (fun j => rounded (F j) X) X := by
  refine ⟨fun _ => rfl, fun i hi => ?_⟩
  refine (tends_round hF (v := fun _ => X.at_ i) tendsto_const_nhds).congr (Eventually.of_forall fun j => ?_)
  exact (at_map _ _ hi).symm

theorem round_zero {F : Fmt} : Num.round F 0 = 0 := by
  have h : |F.arith.rnd 0| ≤ F.big := by rw [F.arith.rnd_zero, abs_zero]; exact zero_le_one.trans F.one_le_big
  unfold Num.round
  rw [dif_pos h, zero_def]
  simp only [F.arith.rnd_zero]

theorem rounded_zeros (X : Tensor ℝ) : Zeros (fun j => rounded (F j) X) X := by
  intro i hi h0
  refine Eventually.of_forall fun j => ?_
  show (tf.map (Num.round (F j)) X).at_ i = 0
  rw [at_map _ _ hi, h0, round_zero]

theorem roundedL_tends (hF : Refining F) (A : List (Tensor ℝ)) : TendsL (fun j => A.map (rounded (F j))) A := by
  refine ⟨A.map fun X => (fun j => rounded (F j) X, X), fun j => by simp, by simp [Function.comp_def], fun p hp => ?_⟩
  obtain ⟨X, -, rfl⟩ := List.mem_map.1 hp
  exact rounded_tends hF X

end Lim
end TD
