import Verif.Lemmas.Prox
import Verif.Spec.Recovery
import Verif.Props.Pitf

/-!
# C85: `shrink` is a proximal operator
-/
namespace TD.Props
open TD TD.pitf Matrix Spec
variable {r c : Nat}

theorem centralization_colCentered (M : Mat r c) : np.centralization M = colCentered M := by
  ext i j; rw [centralization_apply]; rfl

/-- The matrix with constant columns `d`. -/
def constCols (r : Nat) {c : Nat} (d : Fin c → ℝ) : Mat r c := fun _ j => d j

/-- Zero column sums are orthogonal to matrices with constant columns. -/
theorem inner_const_cols {N : Mat r c} (hN : ZeroColSums N) (d : Fin c → ℝ) :
    frobInner N (constCols r d) = 0 := by
  unfold frobInner constCols
  rw [Finset.sum_comm]
  refine Finset.sum_eq_zero fun j _ => ?_
  rw [← Finset.sum_mul, hN j, zero_mul]

theorem shrink_normal {r c : Nat} (hr : 0 < r) (svd : np.Svd) (hs : NpSvdOk svd) (M : Mat r c) (tao : ℝ) (ht : 0 ≤ tao) :
    ∃ S, np.shrink svd M tao "normal" = some S ∧ ZeroColSums S ∧
      Aligned (fun N => tao * nuclear N) (np.centralization M) S := by
  obtain ⟨S, h1, h2, -⟩ := C67_normal hr svd hs M tao ht
  refine ⟨S, h1, h2, ?_⟩
  have h := threshold_aligned (hs (np.centralization M)) ht
  rw [transpose_transpose] at h
  have e : np.shrink svd M tao "normal" = some ((svd (np.centralization M)).1 *
      diagRect (fun i => max 0 ((svd (np.centralization M)).2.1 i - tao)) * (svd (np.centralization M)).2.2) := by
    simp [np.shrink, np.SVT]
  rw [e] at h1
  rw [← Option.some.inj h1]
  exact h

theorem frobSq_split {A B : Mat r c} (h : frobInner A B = 0) : frobSq (A + B) = frobSq A + frobSq B := by
  rw [← frobInner_self, frobInner_add_left, frobInner_add_right, frobInner_add_right, frobInner_comm B A, h,
    frobInner_self, frobInner_self]
  ring

/-- **C85**, mode `'normal'`: for every solver, `shrink(M, tao)` is the unique minimiser of
`tao ‖N‖_* + ½ ‖N - M‖²` among the matrices whose column sums are zero. -/
theorem C85_normal (hr : 0 < r) (svd : np.Svd) (hs : NpSvdOk svd) (M : Mat r c) (tao : ℝ) (ht : 0 ≤ tao) :
    ∃ S, np.shrink svd M tao "normal" = some S ∧ IsProx ZeroColSums (fun N => tao * nuclear N) M S := by
  obtain ⟨S, h1, h2, h3⟩ := shrink_normal hr svd hs M tao ht
  refine ⟨S, h1, h2, fun N hN hne => ?_⟩
  have hsplit : ∀ A : Mat r c, ZeroColSums A → frobSq (A - M) = frobSq (A - np.centralization M) +
      frobSq (np.centralization M - M) := by
    intro A hA
    have e : A - M = (A - np.centralization M) + (np.centralization M - M) := by abel
    rw [e, frobSq_split]
    have e2 : np.centralization M - M = constCols r fun j => -((∑ k, M k j) / r) := by
      ext i j; rw [Matrix.sub_apply, centralization_apply, constCols]; ring
    rw [e2]
    refine inner_const_cols (fun j => ?_) _
    simp only [Matrix.sub_apply, Finset.sum_sub_distrib, hA j, (C61_zero_column_sums hr M).1 j, sub_zero]
  rw [hsplit S h2, hsplit N hN]
  have := h3.three_point N
  have hp := frobSq_pos (sub_ne_zero.2 hne)
  linarith

theorem soft_spec (a t : ℝ) (ht : 0 ≤ t) : |a - soft a t| ≤ t ∧ soft a t * (a - soft a t) = t * |soft a t| := by
  unfold soft
  by_cases h1 : a > t
  · rw [if_pos h1]
    refine ⟨by rw [sub_sub_cancel, abs_of_nonneg ht], ?_⟩
    rw [sub_sub_cancel, abs_of_pos (by linarith)]; ring
  · rw [if_neg h1]
    by_cases h2 : a < -t
    · rw [if_pos h2]
      have e : a - (a + t) = -t := by ring
      rw [e, abs_neg, abs_of_nonneg ht, abs_of_neg (by linarith)]
      exact ⟨le_refl _, by ring⟩
    · rw [if_neg h2, sub_zero, abs_zero, zero_mul, mul_zero]
      exact ⟨abs_le.2 ⟨by linarith, by linarith⟩, rfl⟩

theorem frobInner_ones (N : Mat r c) : frobInner N (ones r c) = total N := by
  simp [frobInner, total, ones]

/-- The orthogonal projection of `M` onto the matrices with equal column sums. -/
noncomputable def equalPart (M : Mat r c) : Mat r c := colCentered M + (total M / ((r : ℝ) * c)) • ones r c

theorem shrink_complicated (hr : 0 < r) (hc : 0 < c) (svd : np.Svd) (hs : NpSvdOk svd) (M : Mat r c) (tao : ℝ)
    (ht : 0 ≤ tao) :
    ∃ S, np.shrink svd M tao "complicated" = some S ∧ EqualColSums S ∧
      Aligned (fun N => tao * splitNorm N) (equalPart M) S := by
  obtain ⟨S, h1, h2, -⟩ := C67_complicated hr hc svd hs M tao ht
  obtain ⟨S0, g1, g2, g3⟩ := shrink_normal hr svd hs M tao ht
  refine ⟨S, h1, h2, ?_⟩
  have hrc : (0 : ℝ) < (r : ℝ) * c := mul_pos (Nat.cast_pos.2 hr) (Nat.cast_pos.2 hc)
  set q := √((r : ℝ) * c) with hq
  have hq0 : 0 < q := Real.sqrt_pos.2 hrc
  have hqq : q * q = (r : ℝ) * c := Real.mul_self_sqrt hrc.le
  set a := total M / q with ha
  set b := soft a tao with hb
  have hsoft : ∀ x : ℝ, max 0 (x - tao) + min 0 (x + tao) = soft x tao := by
    intro x
    unfold soft
    by_cases h1 : x > tao
    · rw [if_pos h1, max_eq_right (by linarith), min_eq_left (by linarith), add_zero]
    · rw [if_neg h1]
      by_cases h2 : x < -tao
      · rw [if_pos h2, max_eq_left (by linarith), min_eq_right (by linarith), zero_add]
      · rw [if_neg h2, max_eq_left (by linarith), min_eq_left (by linarith), add_zero]
  have hS : S = S0 + (b / q) • ones r c := by
    have e1 : ("complicated" : String) ≠ "normal" := by decide
    simp only [np.shrink, if_true] at g1
    simp only [np.shrink, if_neg e1, if_true, total_eq, hsoft] at h1
    rw [← Option.some.inj h1, ← Option.some.inj g1]
  obtain ⟨s1, s2⟩ := soft_spec a tao ht
  rw [← hb] at s1 s2
  have hd : equalPart M - S = (np.centralization M - S0) + ((a - b) / q) • ones r c := by
    have e : total M / ((r : ℝ) * c) = a / q := by rw [ha, ← hqq, div_div]
    rw [hS, equalPart, e, centralization_colCentered, sub_div, sub_smul]
    abel
  have hz : ZeroColSums (np.centralization M - S0) := fun j => by
    simp only [Matrix.sub_apply, Finset.sum_sub_distrib, g2 j, (C61_zero_column_sums hr M).1 j, sub_zero]
  have hcent : ∀ N : Mat r c, frobInner N (np.centralization M - S0) =
      frobInner (colCentered N) (np.centralization M - S0) := by
    intro N
    have e : N = colCentered N + constCols r fun j => (∑ k, N k j) / r := by
      ext i j; simp [colCentered, constCols]
    conv_lhs => rw [e, frobInner_add_left]
    rw [frobInner_comm (constCols r _), inner_const_cols hz, add_zero]
  refine ⟨fun N => ?_, ?_⟩
  · rw [hd, frobInner_add_right, frobInner_smul_right, frobInner_ones, hcent]
    have h4 := g3.le (colCentered N)
    have h5 : (a - b) / q * total N ≤ tao * (|total N| / q) := by
      have : (a - b) * total N ≤ tao * |total N| :=
        (le_abs_self _).trans (by rw [abs_mul]; exact mul_le_mul_of_nonneg_right s1 (abs_nonneg _))
      calc (a - b) / q * total N = ((a - b) * total N) / q := by ring
        _ ≤ (tao * |total N|) / q := div_le_div_of_nonneg_right this hq0.le
        _ = _ := by ring
    unfold splitNorm
    rw [mul_add]
    exact add_le_add h4 h5
  · rw [hd, frobInner_add_right, frobInner_smul_right, frobInner_ones, hcent]
    have h6 : total S = q * b := by
      have h0 : total S0 = 0 := by rw [total_comm]; exact Finset.sum_eq_zero fun j _ => g2 j
      have h1 : total (ones r c) = q * q := by
        rw [hqq]; simp [total, ones]
      have : total S = total S0 + (b / q) * total (ones r c) := by
        rw [hS]; simp only [total, Matrix.add_apply, Matrix.smul_apply, smul_eq_mul, Finset.sum_add_distrib, Finset.mul_sum]
      rw [this, h0, h1]; field_simp; ring
    have h7 : colCentered S = S0 := by
      have hr' : (r : ℝ) ≠ 0 := Nat.cast_ne_zero.2 hr.ne'
      ext i j
      simp only [colCentered, hS, Matrix.add_apply, Matrix.smul_apply, smul_eq_mul, Finset.sum_add_distrib, g2 j, ones,
        Finset.sum_const, Finset.card_univ, Fintype.card_fin, nsmul_eq_mul, mul_one, zero_add]
      field_simp; ring
    have h8 : (a - b) / q * (q * b) = b * (a - b) := by field_simp
    have h9 := g3.eq
    unfold splitNorm
    rw [h7, h6, h8, s2, h9, abs_mul, abs_of_pos hq0, mul_add, ← hq, mul_div_cancel_left₀ _ hq0.ne']

theorem inner_equalPart {N : Mat r c} (hr : 0 < r) (hc : 0 < c) (hN : EqualColSums N) (M : Mat r c) :
    frobInner N (M - equalPart M) = 0 := by
  have hrc : (r : ℝ) ≠ 0 := Nat.cast_ne_zero.2 hr.ne'
  have hcc : (c : ℝ) ≠ 0 := Nat.cast_ne_zero.2 hc.ne'
  have e : M - equalPart M = constCols r fun j => (∑ k, M k j) / r - total M / ((r : ℝ) * c) := by
    ext i j; simp [equalPart, colCentered, ones, constCols]; ring
  rw [e]
  unfold frobInner constCols
  rw [Finset.sum_comm]
  have : ∀ j, ∑ i, N i j * ((∑ k, M k j) / r - total M / ((r : ℝ) * c)) =
      (∑ i, N i ⟨0, hc⟩) * ((∑ k, M k j) / r - total M / ((r : ℝ) * c)) := fun j => by
    rw [← Finset.sum_mul, hN j ⟨0, hc⟩]
  rw [Finset.sum_congr rfl fun j _ => this j, ← Finset.mul_sum, Finset.sum_sub_distrib, ← Finset.sum_div, ← total_comm]
  simp only [Finset.sum_const, Finset.card_univ, Fintype.card_fin, nsmul_eq_mul]
  field_simp
  ring

theorem equalPart_equal (hr : 0 < r) (M : Mat r c) : EqualColSums (equalPart M) := by
  have h : ∀ j, ∑ i, equalPart M i j = r * (total M / ((r : ℝ) * c)) := by
    intro j
    have := (C61_zero_column_sums hr M).1 j
    rw [centralization_colCentered] at this
    simp [equalPart, Finset.sum_add_distrib, this, ones]
  exact fun j j' => (h j).trans (h j').symm

theorem equal_sub {A B : Mat r c} (hA : EqualColSums A) (hB : EqualColSums B) : EqualColSums (A - B) := by
  intro j j'
  simp only [Matrix.sub_apply, Finset.sum_sub_distrib]
  rw [hA j j', hB j j']

/-- **C85**, mode `'complicated'`: for every solver, the result is the unique minimiser of
`tao (‖N₀‖_* + |total N|/√(r c)) + ½ ‖N - M‖²` among the matrices with equal column sums, `N₀` being `N` without its
column means.  Missing for the full property: the nuclear norm of `N` itself, see `C85_complicated_false`. -/
theorem C85_complicated_partial (hr : 0 < r) (hc : 0 < c) (svd : np.Svd) (hs : NpSvdOk svd) (M : Mat r c) (tao : ℝ)
    (ht : 0 ≤ tao) :
    ∃ S, np.shrink svd M tao "complicated" = some S ∧ IsProx EqualColSums (fun N => tao * splitNorm N) M S := by
  obtain ⟨S, h1, h2, h3⟩ := shrink_complicated hr hc svd hs M tao ht
  refine ⟨S, h1, h2, fun N hN hne => ?_⟩
  have hsplit : ∀ A : Mat r c, EqualColSums A → frobSq (A - M) = frobSq (A - equalPart M) +
      frobSq (equalPart M - M) := by
    intro A hA
    have e : A - M = (A - equalPart M) + (equalPart M - M) := by abel
    rw [e, frobSq_split]
    have := inner_equalPart hr hc (equal_sub hA (equalPart_equal hr M)) M
    rw [← neg_sub M, ← neg_one_smul ℝ, frobInner_smul_right, this, mul_zero]
  rw [hsplit S h2, hsplit N hN]
  have := h3.three_point N
  have hp := frobSq_pos (sub_ne_zero.2 hne)
  linarith

/-- **C85**: `shrink` does not enlarge distances. -/
theorem C85_nonexpansive (hr : 0 < r) (hc : 0 < c) (svd : np.Svd) (hs : NpSvdOk svd) (M M' : Mat r c) (tao : ℝ)
    (ht : 0 ≤ tao) (mode : String) (hm : mode = "normal" ∨ mode = "complicated") :
    ∃ S S', np.shrink svd M tao mode = some S ∧ np.shrink svd M' tao mode = some S' ∧
      frobSq (S - S') ≤ frobInner (S - S') (M - M') ∧ frobSq (S - S') ≤ frobSq (M - M') := by
  have key : ∀ A B : Mat r c, frobSq A ≤ frobInner A B → frobSq A ≤ frobSq B := by
    intro A B h
    have := frobSq_nonneg' (A - B)
    rw [← frobInner_self, frobInner_sub_left, frobInner_sub_right, frobInner_sub_right, frobInner_comm B A,
      frobInner_self, frobInner_self] at this
    linarith
  rcases hm with rfl | rfl
  · obtain ⟨S, h1, h2, h3⟩ := shrink_normal hr svd hs M tao ht
    obtain ⟨S', g1, g2, g3⟩ := shrink_normal hr svd hs M' tao ht
    have hf := h3.firm g3
    have e : frobInner (S - S') (np.centralization M - np.centralization M') = frobInner (S - S') (M - M') := by
      have : M - M' = (np.centralization M - np.centralization M') + constCols r fun j => (∑ k, (M k j - M' k j)) / r := by
        ext i j
        simp only [constCols, Matrix.add_apply, Matrix.sub_apply, centralization_apply, Finset.sum_sub_distrib]; ring
      rw [this, frobInner_add_right, inner_const_cols, add_zero]
      intro j
      simp only [Matrix.sub_apply, Finset.sum_sub_distrib, h2 j, g2 j, sub_zero]
    rw [e] at hf
    exact ⟨S, S', h1, g1, hf, key _ _ hf⟩
  · obtain ⟨S, h1, h2, h3⟩ := shrink_complicated hr hc svd hs M tao ht
    obtain ⟨S', g1, g2, g3⟩ := shrink_complicated hr hc svd hs M' tao ht
    have hf := h3.firm g3
    have e : frobInner (S - S') (equalPart M - equalPart M') = frobInner (S - S') (M - M') := by
      have hh := equal_sub h2 g2
      have a := inner_equalPart hr hc hh M
      have b := inner_equalPart hr hc hh M'
      rw [frobInner_sub_right] at a b ⊢
      rw [frobInner_sub_right]
      linarith
    rw [e] at hf
    exact ⟨S, S', h1, g1, hf, key _ _ hf⟩

/-! ### Mode `'complicated'` does not minimise the nuclear norm -/

/-- Rows orthogonal, column sums equal. -/
def tiltMat : Mat 2 2 := !![28, 21; -3, 4]

theorem tilt_equal : EqualColSums tiltMat := by
  intro j j'
  fin_cases j <;> fin_cases j' <;> simp [tiltMat, Fin.sum_univ_two] <;> norm_num

theorem tilt_nuclear : nuclear ((1 / 10 : ℝ) • tiltMat) ≤ 4 := by
  refine csSup_le ⟨0, 0, fun x => ?_, ?_⟩ ?_
  · simp only [zero_mulVec, Pi.zero_apply, ne_eq, OfNat.ofNat_ne_zero, not_false_eq_true, zero_pow, Finset.sum_const_zero]
    exact Finset.sum_nonneg fun j _ => sq_nonneg (x j)
  · simp [frobInner]
  · rintro t ⟨W, hW, rfl⟩
    have h1 := hW ![28, 21]
    have h2 := hW ![-3, 4]
    simp only [Fin.sum_univ_two, mulVec, dotProduct, Matrix.cons_val_zero, Matrix.cons_val_one] at h1 h2
    simp only [frobInner, Matrix.smul_apply, smul_eq_mul, tiltMat, Fin.sum_univ_two, Matrix.of_apply, Matrix.cons_val',
      Matrix.cons_val_zero, Matrix.cons_val_one, Matrix.cons_val_fin_one]
    have e1 : W 0 0 * 28 + W 0 1 * 21 ≤ 35 := by nlinarith [sq_nonneg (W 1 0 * 28 + W 1 1 * 21)]
    have e2 : W 1 0 * -3 + W 1 1 * 4 ≤ 5 := by nlinarith [sq_nonneg (W 0 0 * -3 + W 0 1 * 4)]
    linarith

theorem tilt_contraction : Contraction ((1 / 25 : ℝ) • colCentered tiltMat) := by
  intro x
  simp only [Fin.sum_univ_two, mulVec, dotProduct, Matrix.smul_apply, smul_eq_mul, colCentered, tiltMat, Matrix.of_apply,
    Matrix.cons_val', Matrix.cons_val_zero, Matrix.cons_val_one, Matrix.cons_val_fin_one, Nat.cast_ofNat]
  nlinarith [sq_nonneg (17 * x 0 - 31 * x 1)]

theorem tilt_inner (N : Mat 2 2) : frobInner N tiltMat ≤ 25 * splitNorm N := by
  have e : frobInner N tiltMat = 25 * frobInner (colCentered N) ((1 / 25 : ℝ) • colCentered tiltMat) +
      25 * (total N / 2) := by
    simp only [frobInner, total, colCentered, tiltMat, Fin.sum_univ_two, Matrix.smul_apply, smul_eq_mul, Matrix.of_apply,
      Matrix.cons_val', Matrix.cons_val_zero, Matrix.cons_val_one, Matrix.cons_val_fin_one, Nat.cast_ofNat]
    ring
  have h1 := inner_le_nuclear (colCentered N) tilt_contraction
  have h2 : √(((2 : ℕ) : ℝ) * ((2 : ℕ) : ℝ)) = 2 := by
    rw [Nat.cast_ofNat, Real.sqrt_mul_self (by norm_num)]
  have h3 := le_abs_self (total N)
  unfold splitNorm
  rw [e, h2]
  linarith

/-- **C85** fails for mode `'complicated'` with the nuclear norm: for every solver, on this matrix with equal column
sums, the result is not the minimiser of `tao ‖N‖_* + ½ ‖N - M‖²` among the matrices with equal column sums. -/
theorem C85_complicated_false (svd : np.Svd) (hs : NpSvdOk svd) :
    ∃ S, np.shrink svd tiltMat 25 "complicated" = some S ∧ ¬ IsProx EqualColSums (fun N => 25 * nuclear N) tiltMat S := by
  obtain ⟨S, h1, h2⟩ := C85_complicated_partial (by norm_num) (by norm_num) svd hs tiltMat 25 (by norm_num)
  refine ⟨S, h1, fun hp => ?_⟩
  have hN : EqualColSums ((1 / 10 : ℝ) • tiltMat) := by
    intro j j'
    simp only [Matrix.smul_apply, smul_eq_mul, ← Finset.mul_sum]
    rw [tilt_equal j j']
  have h3 : S = 0 := by
    by_contra h0
    have h := h2.2 0 (fun _ _ => by simp) (Ne.symm h0)
    have h5 := tilt_inner S
    have e0 : splitNorm (0 : Mat 2 2) = 0 := by
      have h6 : colCentered (0 : Mat 2 2) = 0 := by ext i j; simp [colCentered]
      have h7 : nuclear (0 : Mat 2 2) = 0 := by
        have h8 : {t | ∃ W, Contraction W ∧ t = frobInner (0 : Mat 2 2) W} = {0} := by
          ext t
          constructor
          · rintro ⟨W, -, rfl⟩
            simp [frobInner]
          · rintro rfl
            exact ⟨_, tilt_contraction, by simp [frobInner]⟩
        rw [nuclear, h8, csSup_singleton]
      rw [splitNorm, h6, h7]
      simp [total]
    have e1 : frobSq (S - tiltMat) = frobSq S - 2 * frobInner S tiltMat + frobSq tiltMat := by
      rw [← frobInner_self, frobInner_sub_left, frobInner_sub_right, frobInner_sub_right, frobInner_comm tiltMat S,
        frobInner_self, frobInner_self]
      ring
    have e2 : frobSq (0 - tiltMat) = frobSq tiltMat := by simp [frobSq]
    simp only [e0, e1, e2, mul_zero] at h
    have := frobSq_nonneg' S
    linarith
  have hne : (1 / 10 : ℝ) • tiltMat ≠ S := by
    rw [h3]
    intro h
    have := congrFun (congrFun h 0) 0
    simp [tiltMat] at this
  have h4 := hp.2 _ hN hne
  have h5 := nuclear_nonneg S
  have h6 := tilt_nuclear
  have e1 : frobSq (S - tiltMat) = 1250 := by
    rw [h3]; simp [frobSq, tiltMat, Fin.sum_univ_two]; norm_num
  have e2 : frobSq ((1 / 10 : ℝ) • tiltMat - tiltMat) = 1250 * 81 / 100 := by
    simp [frobSq, tiltMat, Fin.sum_univ_two]; norm_num
  simp only [e1, e2] at h4
  linarith

/-- **C85** fails for the TensorFlow `shrink`: for every solver, on `badMat` with threshold 0 it is not the minimiser. -/
theorem C85_tensorflow_false (svd : tfl.Svd) (hs : TfSvdOk svd) :
    ∃ S, tfl.shrink svd badMat 0 "normal" = some S ∧ ¬ IsProx ZeroColSums (fun N => 0 * nuclear N) badMat S := by
  have hS : ∃ S, tfl.shrink svd badMat 0 "normal" = some S := by simp [tfl.shrink]
  obtain ⟨S, hS⟩ := hS
  refine ⟨S, hS, fun hp => ?_⟩
  have hne : badMat ≠ S := by
    intro e
    have h := C66_tensorflow_false svd hs
    have hcen : tfl.centralization badMat = badMat := C61_fixed _ badMat_zero
    rw [hcen] at h
    exact h (by rw [hS, e])
  have h := hp.2 badMat badMat_zero hne
  have h1 := frobSq_nonneg' (S - badMat)
  have e : frobSq (badMat - badMat) = 0 := by rw [sub_self]; simp [frobSq]
  rw [e] at h
  linarith

/-- Solvers and arguments as in C85 exist, with a threshold that keeps something and removes something. -/
example : ∃ svd : np.Svd, NpSvdOk svd ∧ ∃ S, np.shrink svd tiltMat 1 "normal" = some S ∧
    IsProx ZeroColSums (fun N => 1 * nuclear N) tiltMat S := by
  obtain ⟨svd, hs⟩ := exists_npSvd
  exact ⟨svd, hs, C85_normal (by norm_num) svd hs tiltMat 1 (by norm_num)⟩

end TD.Props
