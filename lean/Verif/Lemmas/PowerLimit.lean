import Verif.Lemmas.Svd
import Verif.Lemmas.AlsOneMove

/-! # Power iteration: the reconstructions of one-component training on a matrix converge -/
namespace TD
open Spec Tensor tf ops Filter Topology Matrix

/-- `‖A z‖²` in the coordinates of an eigenbasis of `Aᵀ A`. -/
theorem stretch_coords {m n : Nat} {A : Mat m n} {V : Mat n n} {l : Fin n → ℝ} (hV : Vᵀ * V = 1)
    (hA : Aᵀ * A * V = V * diagonal l) (z : Fin n → ℝ) :
    A *ᵥ z ⬝ᵥ A *ᵥ z = ∑ i, l i * (Vᵀ *ᵥ z) i ^ 2 := by
  have hV' : V * Vᵀ = 1 := mul_eq_one_comm.1 hV
  have hM : Aᵀ * A = V * diagonal l * Vᵀ := by rw [← hA, Matrix.mul_assoc, hV', Matrix.mul_one]
  have : A *ᵥ z ⬝ᵥ A *ᵥ z = z ⬝ᵥ (Aᵀ * A) *ᵥ z := by
    rw [← mulVec_mulVec, dotProduct_mulVec z, vecMul_transpose]
  rw [this, hM, ← mulVec_mulVec, ← mulVec_mulVec, dotProduct_mulVec, ← mulVec_transpose]
  simp only [dotProduct, mulVec_diagonal]
  exact Finset.sum_congr rfl fun i _ => by ring

theorem dot_coords {n : Nat} {V : Mat n n} (hV : Vᵀ * V = 1) (z w : Fin n → ℝ) :
    z ⬝ᵥ w = ∑ i, (Vᵀ *ᵥ z) i * (Vᵀ *ᵥ w) i := by
  have hV' : V * Vᵀ = 1 := mul_eq_one_comm.1 hV
  have : z ⬝ᵥ w = z ⬝ᵥ (V * Vᵀ) *ᵥ w := by rw [hV', one_mulVec]
  rw [this, ← mulVec_mulVec, dotProduct_mulVec, ← mulVec_transpose]
  rfl

/-- Power iteration from a vector that sees a leading direction. -/
theorem power_limit {m n : Nat} (A : Mat m n) (y w : Fin n → ℝ)
    (hw : ∀ z : Fin n → ℝ, (A *ᵥ z ⬝ᵥ A *ᵥ z) * (w ⬝ᵥ w) ≤ (A *ᵥ w ⬝ᵥ A *ᵥ w) * (z ⬝ᵥ z)) (h : w ⬝ᵥ y ≠ 0) :
    ∃ (μ : ℝ) (p : Fin n → ℝ), p ≠ 0 ∧ (Aᵀ * A) *ᵥ p = μ • p ∧ (∀ z, A *ᵥ z ⬝ᵥ A *ᵥ z ≤ μ * (z ⬝ᵥ z)) ∧
      (0 < μ → Tendsto (fun j : ℕ => (μ⁻¹) ^ j • ((Aᵀ * A) ^ j *ᵥ y)) atTop (𝓝 p)) := by
  have hn : 0 < n := by
    rcases Nat.eq_zero_or_pos n with rfl | h'
    · exact absurd (by simp [dotProduct]) h
    · exact h'
  obtain ⟨V, l, hV, hl, hA⟩ := exists_eigen (Aᵀ * A) (by simp)
  have hV' : V * Vᵀ = 1 := mul_eq_one_comm.1 hV
  have hM : Aᵀ * A = V * diagonal l * Vᵀ := by rw [← hA, Matrix.mul_assoc, hV', Matrix.mul_one]
  set μ := l ⟨0, hn⟩ with hμ
  have hle : ∀ i, l i ≤ μ := fun i => hl _ _ (Nat.zero_le _)
  have hl0 : ∀ i, 0 ≤ l i := by
    intro i
    have h1 := stretch_coords hV hA (V *ᵥ Pi.single i 1)
    have e1 : (Vᵀ *ᵥ (V *ᵥ Pi.single i (1 : ℝ))) = Pi.single i 1 := by rw [mulVec_mulVec, hV, one_mulVec]
    rw [e1, Finset.sum_eq_single i (fun b _ hb => by rw [Pi.single_eq_of_ne hb]; ring)
      (fun h => absurd (Finset.mem_univ _) h), Pi.single_eq_same] at h1
    have : (0 : ℝ) ≤ A *ᵥ (V *ᵥ Pi.single i 1) ⬝ᵥ A *ᵥ (V *ᵥ Pi.single i 1) := Finset.sum_nonneg fun _ _ => mul_self_nonneg _
    linarith
  have hbound : ∀ z, A *ᵥ z ⬝ᵥ A *ᵥ z ≤ μ * (z ⬝ᵥ z) := by
    intro z
    rw [stretch_coords hV hA, dot_coords hV, Finset.mul_sum]
    exact Finset.sum_le_sum fun i _ => by nlinarith [hle i, sq_nonneg ((Vᵀ *ᵥ z) i)]
  set c := Vᵀ *ᵥ y with hc
  set d := Vᵀ *ᵥ w with hd
  -- the leading direction lies in the top eigenspace
  have hd0 : ∀ i, l i ≠ μ → d i = 0 := by
    have h1 := hw (V *ᵥ Pi.single ⟨0, hn⟩ 1)
    have e1 : (Vᵀ *ᵥ (V *ᵥ Pi.single (⟨0, hn⟩ : Fin n) (1 : ℝ))) = Pi.single ⟨0, hn⟩ 1 := by rw [mulVec_mulVec, hV, one_mulVec]
    rw [stretch_coords hV hA, stretch_coords hV hA, dot_coords hV, dot_coords hV, e1, ← hd,
      Finset.sum_eq_single (⟨0, hn⟩ : Fin n) (fun b _ hb => by rw [Pi.single_eq_of_ne hb]; ring)
      (fun h => absurd (Finset.mem_univ _) h),
      Finset.sum_eq_single (s := Finset.univ) (f := fun i => (Pi.single (⟨0, hn⟩ : Fin n) (1 : ℝ) : Fin n → ℝ) i * _) (⟨0, hn⟩ : Fin n)
      (fun b _ hb => by rw [Pi.single_eq_of_ne hb]; ring) (fun h => absurd (Finset.mem_univ _) h), Pi.single_eq_same] at h1
    have h2 : ∑ i, (μ - l i) * d i ^ 2 ≤ 0 := by
      have : ∑ i, (μ - l i) * d i ^ 2 = μ * ∑ i, d i * d i - ∑ i, l i * d i ^ 2 := by
        rw [Finset.mul_sum, ← Finset.sum_sub_distrib]
        exact Finset.sum_congr rfl fun i _ => by ring
      rw [this]
      rw [← hμ] at h1
      linarith
    have h3 : ∀ i ∈ Finset.univ, 0 ≤ (μ - l i) * d i ^ 2 := fun i _ => mul_nonneg (by linarith [hle i]) (sq_nonneg _)
    have h4 := (Finset.sum_eq_zero_iff_of_nonneg h3).1 (le_antisymm h2 (Finset.sum_nonneg h3))
    intro i hi
    rcases mul_eq_zero.1 (h4 i (Finset.mem_univ _)) with h5 | h5
    · exact absurd (by linarith) hi
    · exact pow_eq_zero_iff two_ne_zero |>.1 h5
  rw [dot_coords hV, ← hc, ← hd] at h
  obtain ⟨i, -, hi⟩ := Finset.exists_ne_zero_of_sum_ne_zero h
  have hi1 : l i = μ := by
    by_contra hne
    exact hi (by rw [hd0 i hne, zero_mul])
  have hi2 : c i ≠ 0 := right_ne_zero_of_mul hi
  let q : Fin n → ℝ := fun i => if l i = μ then c i else 0
  have hq : diagonal l *ᵥ q = μ • q := by
    ext k
    rw [mulVec_diagonal, Pi.smul_apply, smul_eq_mul]
    by_cases hk : l k = μ
    · rw [hk]
    · simp [q, hk]
  refine ⟨μ, V *ᵥ q, fun h0 => ?_, ?_, hbound, fun hpos => ?_⟩
  · have := congrFun (congrArg (Vᵀ *ᵥ ·) h0) i
    simp only [mulVec_mulVec, hV, one_mulVec, mulVec_zero, Pi.zero_apply] at this
    rw [show q i = c i from if_pos hi1] at this
    exact hi2 this
  · rw [mulVec_mulVec, hA, ← mulVec_mulVec, hq, mulVec_smul]
  · have hpow : ∀ j : ℕ, (Aᵀ * A) ^ j *ᵥ y = V *ᵥ fun i => l i ^ j * c i := by
      intro j
      induction j with
      | zero =>
        simp only [pow_zero, one_mul, one_mulVec]
        show y = V *ᵥ c
        rw [hc, mulVec_mulVec, hV', one_mulVec]
      | succ j ih =>
        rw [pow_succ', ← mulVec_mulVec, ih, mulVec_mulVec, hA, ← mulVec_mulVec]
        congr 1
        ext k
        rw [mulVec_diagonal, pow_succ']
        ring
    have e : ∀ j : ℕ, (μ⁻¹) ^ j • ((Aᵀ * A) ^ j *ᵥ y) = V *ᵥ fun i => (l i / μ) ^ j * c i := by
      intro j
      rw [hpow, ← mulVec_smul]
      congr 1
      ext k
      rw [Pi.smul_apply, smul_eq_mul, div_pow, inv_pow]
      ring
    simp only [e]
    rw [tendsto_pi_nhds]
    intro a
    simp only [mulVec, dotProduct]
    refine tendsto_finsetSum _ fun k _ => Tendsto.const_mul _ ?_
    by_cases hk : l k = μ
    · simp only [q, if_pos hk, hk, div_self hpos.ne', one_pow, one_mul]
      exact tendsto_const_nhds
    · simp only [q, if_neg hk]
      have h1 : l k / μ < 1 := (div_lt_one hpos).2 (lt_of_le_of_ne (hle k) hk)
      have := (tendsto_pow_atTop_nhds_zero_of_lt_one (div_nonneg (hl0 k) hpos.le) h1).mul_const (c k)
      rwa [zero_mul] at this

/-- A matrix has a leading direction. -/
theorem exists_leading {m n : Nat} (A : Mat m n) (hn : 0 < n) :
    ∃ w : Fin n → ℝ, w ≠ 0 ∧ ∀ z : Fin n → ℝ, (A *ᵥ z ⬝ᵥ A *ᵥ z) * (w ⬝ᵥ w) ≤ (A *ᵥ w ⬝ᵥ A *ᵥ w) * (z ⬝ᵥ z) := by
  obtain ⟨V, l, hV, hl, hA⟩ := exists_eigen (Aᵀ * A) (by simp)
  have e1 : (Vᵀ *ᵥ (V *ᵥ Pi.single (⟨0, hn⟩ : Fin n) (1 : ℝ))) = Pi.single ⟨0, hn⟩ 1 := by rw [mulVec_mulVec, hV, one_mulVec]
  refine ⟨V *ᵥ Pi.single ⟨0, hn⟩ 1, fun h => ?_, fun z => ?_⟩
  · rw [h, mulVec_zero] at e1
    have := congrFun e1 ⟨0, hn⟩
    simp at this
  · rw [stretch_coords hV hA, stretch_coords hV hA, dot_coords hV, dot_coords hV, e1,
      Finset.sum_eq_single (s := Finset.univ) (f := fun i => l i * (Pi.single (⟨0, hn⟩ : Fin n) (1 : ℝ) : Fin n → ℝ) i ^ 2)
      (⟨0, hn⟩ : Fin n) (fun b _ hb => by rw [Pi.single_eq_of_ne hb]; ring) (fun h => absurd (Finset.mem_univ _) h),
      Finset.sum_eq_single (s := Finset.univ) (f := fun i => (Pi.single (⟨0, hn⟩ : Fin n) (1 : ℝ) : Fin n → ℝ) i * _) (⟨0, hn⟩ : Fin n)
      (fun b _ hb => by rw [Pi.single_eq_of_ne hb]; ring) (fun h => absurd (Finset.mem_univ _) h), Pi.single_eq_same]
    simp only [one_pow, mul_one, Finset.mul_sum]
    exact Finset.sum_le_sum fun i _ => by
      nlinarith [hl ⟨0, hn⟩ i (Nat.zero_le _), sq_nonneg ((Vᵀ *ᵥ z) i)]

/-! ### Matrices as tensors of order 2 -/

/-- The matrix of an order-2 tensor. -/
def matX (X : Tensor ℝ) (m n : Nat) : Mat m n := fun a b => X.at_ [a.val, b.val]

theorem sliceSum_rows {m n a : Nat} (ha : a < m) (f : List Nat → ℝ) :
    sliceSum [m, n] 0 a f = ∑ b : Fin n, f [a, b.val] := by
  unfold sliceSum
  rw [boxSum_pair]
  show (∑ i ∈ Finset.range m, ∑ j ∈ Finset.range n, if i = a then f [i, j] else 0) = _
  rw [Finset.sum_eq_single a (fun c _ hc => Finset.sum_eq_zero fun b _ => if_neg hc)
    (fun h => absurd (Finset.mem_range.2 ha) h), Finset.sum_range]
  exact Finset.sum_congr rfl fun b _ => if_pos rfl

theorem sliceSum_cols {m n b : Nat} (hb : b < n) (f : List Nat → ℝ) :
    sliceSum [m, n] 1 b f = ∑ a : Fin m, f [a.val, b] := by
  unfold sliceSum
  rw [boxSum_pair, Finset.sum_range]
  refine Finset.sum_congr rfl fun a _ => ?_
  show (∑ j ∈ Finset.range n, if j = b then f [a.val, j] else 0) = _
  rw [Finset.sum_eq_single b (fun c _ hc => if_neg hc) (fun h => absurd (Finset.mem_range.2 hb) h)]
  exact if_pos rfl

theorem bestVec_rows {X : Tensor ℝ} {m n : Nat} (hX : X.shape = [m, n]) (v : Nat → Nat → ℝ) (a : Fin m) :
    bestVec X v 0 a = (matX X m n *ᵥ fun b => v 1 b) a / ((fun b : Fin n => v 1 b) ⬝ᵥ fun b : Fin n => v 1 b) := by
  have ho : X.order = 2 := congrArg List.length hX
  unfold bestVec
  rw [hX, ho, sliceSum_rows a.isLt, sliceSum_rows a.isLt]
  have e : (Finset.range 2).erase 0 = {1} := by decide
  congr 1
  · refine Finset.sum_congr rfl fun b _ => ?_
    simp [restEntry, matX, e]
  · refine Finset.sum_congr rfl fun b _ => ?_
    simp [restEntry, e, pow_two]

theorem bestVec_cols {X : Tensor ℝ} {m n : Nat} (hX : X.shape = [m, n]) (v : Nat → Nat → ℝ) (b : Fin n) :
    bestVec X v 1 b = ((matX X m n)ᵀ *ᵥ fun a => v 0 a) b / ((fun a : Fin m => v 0 a) ⬝ᵥ fun a : Fin m => v 0 a) := by
  have ho : X.order = 2 := congrArg List.length hX
  unfold bestVec
  rw [hX, ho, sliceSum_cols b.isLt, sliceSum_cols b.isLt]
  have e : (Finset.range 2).erase 1 = {0} := by decide
  congr 1
  · refine Finset.sum_congr rfl fun a _ => ?_
    simp [restEntry, matX, e]
  · refine Finset.sum_congr rfl fun a _ => ?_
    simp [restEntry, e, pow_two]

/-- The vectors after one step. -/
theorem refitAll_two {X : Tensor ℝ} {m n : Nat} (hX : X.shape = [m, n]) (v : Nat → Nat → ℝ) (y : Fin n → ℝ)
    (hy : ∀ b : Fin n, v 1 b = y b) :
    (∀ a : Fin m, refitAll X v 0 a = (matX X m n *ᵥ y) a / (y ⬝ᵥ y)) ∧
    ∀ b : Fin n, refitAll X v 1 b =
      (y ⬝ᵥ y) / (matX X m n *ᵥ y ⬝ᵥ matX X m n *ᵥ y) * (((matX X m n)ᵀ * matX X m n) *ᵥ y) b := by
  have ho : X.order = 2 := congrArg List.length hX
  have e : refitAll X v = refit X (refit X v 0) 1 := by
    unfold refitAll; rw [ho]; rfl
  have hy' : (fun b : Fin n => v 1 b) = y := funext hy
  have h0 : ∀ a : Fin m, refit X v 0 0 a = (matX X m n *ᵥ y) a / (y ⬝ᵥ y) := fun a => by
    unfold refit; rw [Function.update_self, bestVec_rows hX, hy']
  have h0' : (fun a : Fin m => refit X v 0 0 a) = (y ⬝ᵥ y)⁻¹ • (matX X m n *ᵥ y) := by
    ext a; rw [h0, Pi.smul_apply, smul_eq_mul, div_eq_inv_mul]
  refine ⟨fun a => ?_, fun b => ?_⟩
  · rw [e]
    conv_lhs => unfold refit
    rw [Function.update_of_ne (by decide)]
    exact h0 a
  · have h1 : refit X (refit X v 0) 1 1 b = bestVec X (refit X v 0) 1 b := by
      conv_lhs => unfold refit
      rw [Function.update_self]; rfl
    rw [e, h1, bestVec_cols hX, h0', mulVec_smul, dotProduct_smul, smul_dotProduct, Pi.smul_apply, smul_eq_mul,
      smul_eq_mul, smul_eq_mul, mulVec_mulVec]
    by_cases h : y ⬝ᵥ y = 0
    · rw [h]; simp
    · field_simp

theorem outerEntry_two (u : Nat → Nat → ℝ) (a b : Nat) : outerEntry 2 u [a, b] = u 0 a * u 1 b := by
  simp [outerEntry, Finset.prod_range_succ]

/-- The reconstruction after a step: it does not depend on the length of `y`. -/
theorem refitAll_outer {X : Tensor ℝ} {m n : Nat} (hX : X.shape = [m, n]) (v : Nat → Nat → ℝ) (y : Fin n → ℝ) (c : ℝ) (hc : c ≠ 0)
    (hy : ∀ b : Fin n, v 1 b = c * y b) (h0 : y ⬝ᵥ y ≠ 0) (a : Fin m) (b : Fin n) :
    outerEntry X.order (refitAll X v) [a.val, b.val] =
      (matX X m n *ᵥ y) a * (((matX X m n)ᵀ * matX X m n) *ᵥ y) b / (matX X m n *ᵥ y ⬝ᵥ matX X m n *ᵥ y) := by
  have ho : X.order = 2 := congrArg List.length hX
  obtain ⟨h1, h2⟩ := refitAll_two hX v (c • y) hy
  rw [ho, outerEntry_two, h1, h2]
  simp only [mulVec_smul, dotProduct_smul, smul_dotProduct, Pi.smul_apply, smul_eq_mul]
  by_cases h : matX X m n *ᵥ y ⬝ᵥ matX X m n *ᵥ y = 0
  · rw [h]; simp
  · field_simp

/-- What the best fit of mode 0 explains. -/
theorem fit_rows_norm {X : Tensor ℝ} {m n : Nat} (hX : X.shape = [m, n]) (u : Nat → Nat → ℝ) (y : Fin n → ℝ)
    (hy : ∀ b : Fin n, u 1 b = y b) :
    oneErr X (refit X u 0) = normSqT X - (matX X m n *ᵥ y ⬝ᵥ matX X m n *ᵥ y) / (y ⬝ᵥ y) := by
  have ho : X.order = 2 := congrArg List.length hX
  have h := refit_norm (X := X) (n := 0) (by omega) u
  have e : boxSum X.shape (fun i => outerEntry X.order (refit X u 0) i ^ 2) =
      (matX X m n *ᵥ y ⬝ᵥ matX X m n *ᵥ y) / (y ⬝ᵥ y) := by
    rw [hX, boxSum_pair, ho, Finset.sum_range]
    have e1 : ∀ a : Fin m, ∑ j ∈ Finset.range n, outerEntry 2 (refit X u 0) [a.val, j] ^ 2 =
        (matX X m n *ᵥ y) a * (matX X m n *ᵥ y) a / (y ⬝ᵥ y) := by
      intro a
      rw [Finset.sum_range]
      have e2 : ∀ b : Fin n, outerEntry 2 (refit X u 0) [a.val, b.val] ^ 2 = ((matX X m n *ᵥ y) a / (y ⬝ᵥ y)) ^ 2 * (y b * y b) := by
        intro b
        have hy' : (fun b : Fin n => u 1 b) = y := funext hy
        rw [outerEntry_two]
        unfold refit
        rw [Function.update_self, Function.update_of_ne (by decide), bestVec_rows hX, hy', hy]
        ring
      simp only [e2]
      rw [← Finset.mul_sum]
      change _ * (y ⬝ᵥ y) = _
      by_cases h0 : y ⬝ᵥ y = 0
      · rw [h0]; simp
      · field_simp
    simp only [e1]
    rw [← Finset.sum_div]; rfl
  rw [e] at h
  linarith

/-- On a matrix, one-component fits from a vector that sees a leading direction converge to a best outer product. -/
theorem alsOne_power {X : Tensor ℝ} {m n : Nat} (hX : X.shape = [m, n]) {v : Nat → Nat → ℝ} (hs : SeesLeading X (v 1)) :
    ∃ L, BestOuter X L ∧ Approaches (fun j => alsOne X v (j + 1)) L := by
  have ho : X.order = 2 := congrArg List.length hX
  set A := matX X m n with hA
  set y : Fin n → ℝ := fun b => v 1 b with hy
  have hst : ∀ z : Nat → ℝ, stretchSq X z = A *ᵥ (fun b : Fin n => z b) ⬝ᵥ A *ᵥ (fun b : Fin n => z b) := by
    intro z
    unfold stretchSq
    rw [hX, Finset.sum_range]
    refine Finset.sum_congr rfl fun a _ => ?_
    rw [pow_two]
    show (∑ b ∈ Finset.range n, _) * (∑ b ∈ Finset.range n, _) = _
    rw [Finset.sum_range]; rfl
  have hln : ∀ z : Nat → ℝ, lengthSq (X.shape.getD 1 0) z = (fun b : Fin n => z b) ⬝ᵥ fun b : Fin n => z b := by
    intro z
    unfold lengthSq
    rw [hX]
    show ∑ b ∈ Finset.range n, _ = _
    rw [Finset.sum_range]
    exact Finset.sum_congr rfl fun a _ => pow_two _
  obtain ⟨w, hw, hwy⟩ := hs
  obtain ⟨μ, p, hp0, hMp, hbd, hlim⟩ := power_limit A y (fun b => w b) (fun z => by
    have := hw fun b => if h : b < n then z ⟨b, h⟩ else 0
    rw [hst, hst, hln, hln] at this
    simpa using this) (by
    rw [hX] at hwy
    change ∑ b ∈ Finset.range n, _ ≠ 0 at hwy
    rw [Finset.sum_range] at hwy
    exact hwy)
  have hpp : p ⬝ᵥ p ≠ 0 := fun h => hp0 (dotProduct_self_eq_zero.1 h)
  have hpp' : 0 < p ⬝ᵥ p := lt_of_le_of_ne (Finset.sum_nonneg fun _ _ => mul_self_nonneg _) (Ne.symm hpp)
  have hAp : A *ᵥ p ⬝ᵥ A *ᵥ p = μ * (p ⬝ᵥ p) := by
    have : A *ᵥ p ⬝ᵥ A *ᵥ p = p ⬝ᵥ (Aᵀ * A) *ᵥ p := by
      rw [← mulVec_mulVec, dotProduct_mulVec p, vecMul_transpose]
    rw [this, hMp, dotProduct_smul, smul_eq_mul]
  have hμ0 : 0 ≤ μ := by
    have : 0 ≤ A *ᵥ p ⬝ᵥ A *ᵥ p := Finset.sum_nonneg fun _ _ => mul_self_nonneg _
    rw [hAp] at this
    exact nonneg_of_mul_nonneg_left this hpp'
  rcases hμ0.eq_or_lt with h0 | hpos
  · -- the zero matrix
    have hz : ∀ i, InB X.shape i → X.at_ i = 0 := by
      intro i hi
      rw [hX] at hi
      obtain ⟨a, b, rfl, ha, hb⟩ := InB_pair.1 hi
      have h1 := hbd (Pi.single ⟨b, hb⟩ 1)
      rw [← h0, zero_mul] at h1
      have h2 := congrFun (dotProduct_self_eq_zero.1 (le_antisymm h1 (Finset.sum_nonneg fun _ _ => mul_self_nonneg _))) ⟨a, ha⟩
      rw [mulVec_single_one] at h2
      exact h2
    have hN : normSqT X = 0 := by
      have : normSqT X = boxSum X.shape fun _ => (0 : ℝ) := boxSum_congr fun i hi => by rw [hz i hi]; ring
      rw [this, boxSum_zero]
    have hY : ∀ j i, InB X.shape i → (alsOne X v (j + 1)).at_ i = 0 := by
      intro j i hi
      have h1 := entry_le (f := (alsOne X v (j + 1)).at_) hi
      have h2 := alsOne_norm (X := X) (by omega) v j
      have h3 := distSqT_nonneg X (alsOne X v (j + 1))
      have h4 : boxSum X.shape (fun i => (alsOne X v (j + 1)).at_ i ^ 2) = normSqT (alsOne X v (j + 1)) := rfl
      rw [h4, h2, hN] at h1
      exact pow_eq_zero_iff two_ne_zero |>.1 (le_antisymm (by linarith) (sq_nonneg _))
    refine ⟨alsOne X v 1, ⟨rfl, ⟨_, fun i hi => alsOne_at v 1 hi⟩, fun u => ?_⟩, fun j => rfl, fun i hi => ?_⟩
    · have : distSqT X (alsOne X v 1) = boxSum X.shape fun _ => (0 : ℝ) := boxSum_congr fun i hi => by
        rw [hz i hi, hY 0 i hi]; ring
      rw [this, boxSum_zero]
      exact oneErr_nonneg X u
    · have hi : InB X.shape i := hi
      simp only [hY _ i hi]
      exact tendsto_const_nhds
  · have hlim := hlim hpos
    set M := Aᵀ * A with hM
    have hne : ∀ j : ℕ, M ^ j *ᵥ y ≠ 0 := by
      intro j hj
      have h1 : ∀ k ≥ j, (μ⁻¹) ^ k • (M ^ k *ᵥ y) = 0 := by
        intro k hk
        obtain ⟨d, rfl⟩ := Nat.exists_eq_add_of_le hk
        rw [add_comm j d, pow_add M, ← mulVec_mulVec, hj, mulVec_zero, smul_zero]
      have h2 : Tendsto (fun j : ℕ => (μ⁻¹) ^ j • (M ^ j *ᵥ y)) atTop (𝓝 0) :=
        tendsto_const_nhds.congr' (by filter_upwards [eventually_ge_atTop j] with k hk; exact (h1 k hk).symm)
      exact hp0 (tendsto_nhds_unique hlim h2)
    have hne2 : ∀ j : ℕ, M ^ j *ᵥ y ⬝ᵥ M ^ j *ᵥ y ≠ 0 := fun j h => hne j (dotProduct_self_eq_zero.1 h)
    have hne3 : ∀ j : ℕ, A *ᵥ (M ^ j *ᵥ y) ⬝ᵥ A *ᵥ (M ^ j *ᵥ y) ≠ 0 := fun j h => hne (j + 1) (by
      have := dotProduct_self_eq_zero.1 h
      rw [pow_succ', ← mulVec_mulVec, hM, ← mulVec_mulVec, this, mulVec_zero])
    have hit : ∀ j : ℕ, ∃ c : ℝ, c ≠ 0 ∧ ∀ b : Fin n, (refitAll X)^[j] v 1 b = c * (M ^ j *ᵥ y) b := by
      intro j
      induction j with
      | zero => exact ⟨1, one_ne_zero, fun b => by simp [hy]⟩
      | succ j ih =>
        obtain ⟨c, hc, h1⟩ := ih
        obtain ⟨-, h2⟩ := refitAll_two hX ((refitAll X)^[j] v) (c • (M ^ j *ᵥ y)) h1
        refine ⟨c * ((M ^ j *ᵥ y ⬝ᵥ M ^ j *ᵥ y) / (A *ᵥ (M ^ j *ᵥ y) ⬝ᵥ A *ᵥ (M ^ j *ᵥ y))),
          mul_ne_zero hc (div_ne_zero (hne2 j) (hne3 j)), fun b => ?_⟩
        have e : (M ^ (j + 1)) *ᵥ y = M *ᵥ (M ^ j *ᵥ y) := by rw [pow_succ', mulVec_mulVec]
        rw [Function.iterate_succ_apply', h2, e, ← hA, ← hM]
        simp only [mulVec_smul, dotProduct_smul, smul_dotProduct, Pi.smul_apply, smul_eq_mul]
        have := hne3 j
        field_simp
    -- the limit
    let u : Nat → Nat → ℝ := refit X (fun _ b => if h : b < n then p ⟨b, h⟩ else 0) 0
    have hu1 : ∀ b : Fin n, u 1 b = p b := fun b => by
      show refit X _ 0 1 b = _
      unfold refit
      rw [Function.update_of_ne (by decide)]
      simp
    have hu0 : ∀ a : Fin m, u 0 a = (A *ᵥ p) a / (p ⬝ᵥ p) := fun a => by
      show refit X _ 0 0 a = _
      unfold refit
      rw [Function.update_self, bestVec_rows hX]
      simp [hA]
    refine ⟨Tensor.ofFn X.shape (outerEntry X.order u), ⟨rfl, ⟨u, fun i hi => at_ofFn (s := X.shape) _ hi⟩, fun t => ?_⟩,
      fun j => rfl, fun i hi => ?_⟩
    · have e1 : distSqT X (Tensor.ofFn X.shape (outerEntry X.order u)) = oneErr X u :=
        boxSum_congr fun i hi => by rw [at_ofFn (s := X.shape) _ hi]
      have e2 : oneErr X u = normSqT X - μ := by
        rw [show u = refit X _ 0 from rfl, fit_rows_norm hX _ p fun b => by simp, ← hA, hAp, mul_div_assoc, div_self hpp, mul_one]
      have e3 : oneErr X (refit X t 0) ≤ oneErr X t := by
        have := refit_best (X := X) (n := 0) (by omega) t (t 0)
        rwa [Function.update_eq_self] at this
      rw [e1, e2]
      refine le_trans ?_ e3
      rw [fit_rows_norm hX t (fun b => t 1 b) fun _ => rfl, ← hA]
      have := div_le_of_le_mul₀ (Finset.sum_nonneg fun _ _ => mul_self_nonneg _) hpos.le (hbd fun b => t 1 b)
      linarith
    · have hi : InB X.shape i := hi
      rw [at_ofFn (s := X.shape) _ hi]
      simp only [alsOne_at v _ hi]
      rw [hX] at hi
      obtain ⟨a, b, rfl, ha, hb⟩ := InB_pair.1 hi
      have e1 : ∀ j : ℕ, outerEntry X.order ((refitAll X)^[j + 1] v) [a, b] =
          (A *ᵥ ((μ⁻¹) ^ j • (M ^ j *ᵥ y))) ⟨a, ha⟩ * (M *ᵥ ((μ⁻¹) ^ j • (M ^ j *ᵥ y))) ⟨b, hb⟩ /
            (A *ᵥ ((μ⁻¹) ^ j • (M ^ j *ᵥ y)) ⬝ᵥ A *ᵥ ((μ⁻¹) ^ j • (M ^ j *ᵥ y))) := by
        intro j
        obtain ⟨c, hc, h1⟩ := hit j
        rw [Function.iterate_succ_apply']
        have hm : (μ⁻¹) ^ j ≠ 0 := pow_ne_zero _ (inv_ne_zero hpos.ne')
        refine refitAll_outer hX _ ((μ⁻¹) ^ j • (M ^ j *ᵥ y)) (c * ((μ⁻¹) ^ j)⁻¹) (mul_ne_zero hc (inv_ne_zero hm)) (fun b => ?_) ?_
          ⟨a, ha⟩ ⟨b, hb⟩
        · rw [h1, Pi.smul_apply, smul_eq_mul]
          field_simp
        · rw [dotProduct_smul, smul_dotProduct, smul_eq_mul, smul_eq_mul]
          exact mul_ne_zero hm (mul_ne_zero hm (hne2 j))
      have e2 : outerEntry X.order u [a, b] = (A *ᵥ p) ⟨a, ha⟩ * (M *ᵥ p) ⟨b, hb⟩ / (A *ᵥ p ⬝ᵥ A *ᵥ p) := by
        rw [ho, outerEntry_two, hu0 ⟨a, ha⟩, hu1 ⟨b, hb⟩, hAp, hMp, Pi.smul_apply, smul_eq_mul]
        field_simp
      simp only [e1]
      rw [e2]
      have hcA : Continuous fun z : Fin n → ℝ => A *ᵥ z := Continuous.matrix_mulVec continuous_const continuous_id
      have hcM : Continuous fun z : Fin n → ℝ => M *ᵥ z := Continuous.matrix_mulVec continuous_const continuous_id
      have hc : Tendsto (fun j : ℕ => A *ᵥ ((μ⁻¹) ^ j • (M ^ j *ᵥ y))) atTop (𝓝 (A *ᵥ p)) := (hcA.tendsto p).comp hlim
      have hc2 : Tendsto (fun j : ℕ => M *ᵥ ((μ⁻¹) ^ j • (M ^ j *ᵥ y))) atTop (𝓝 (M *ᵥ p)) := (hcM.tendsto p).comp hlim
      refine Tendsto.div (((tendsto_pi_nhds.1 hc) _).mul ((tendsto_pi_nhds.1 hc2) _)) ?_ (by rw [hAp]; exact mul_ne_zero hpos.ne' hpp)
      exact tendsto_finsetSum _ fun k _ => ((tendsto_pi_nhds.1 hc) k).mul ((tendsto_pi_nhds.1 hc) k)

theorem stretchSq_mat {X : Tensor ℝ} {m n : Nat} (hX : X.shape = [m, n]) (z : Nat → ℝ) :
    stretchSq X z = matX X m n *ᵥ (fun b : Fin n => z b) ⬝ᵥ matX X m n *ᵥ (fun b : Fin n => z b) := by
  unfold stretchSq
  rw [hX, Finset.sum_range]
  refine Finset.sum_congr rfl fun a _ => ?_
  rw [pow_two]
  show (∑ b ∈ Finset.range n, _) * (∑ b ∈ Finset.range n, _) = _
  rw [Finset.sum_range]; rfl

theorem lengthSq_mat (n : Nat) (z : Nat → ℝ) : lengthSq n z = (fun b : Fin n => z b) ⬝ᵥ fun b : Fin n => z b := by
  unfold lengthSq
  rw [Finset.sum_range]
  exact Finset.sum_congr rfl fun a _ => pow_two _

/-- A positive vector sees a leading direction of a nonnegative matrix. -/
theorem seesLeading_pos {X : Tensor ℝ} {m n : Nat} (hX : X.shape = [m, n]) (hn : 0 < n) (h0 : ∀ i, InB X.shape i → 0 ≤ X.at_ i)
    {y : Nat → ℝ} (hy : ∀ b < n, 0 < y b) : SeesLeading X y := by
  obtain ⟨w, hw0, hw⟩ := exists_leading (matX X m n) hn
  refine ⟨fun b => if h : b < n then |w ⟨b, h⟩| else 0, fun z => ?_, ?_⟩
  · rw [stretchSq_mat hX, stretchSq_mat hX, hX]
    show _ * lengthSq n _ ≤ _ * lengthSq n _
    rw [lengthSq_mat, lengthSq_mat]
    simp only [Fin.is_lt, dif_pos, Fin.eta]
    have e1 : (fun b : Fin n => |w b|) ⬝ᵥ (fun b : Fin n => |w b|) = w ⬝ᵥ w :=
      Finset.sum_congr rfl fun b _ => abs_mul_abs_self _
    rw [e1]
    refine (hw fun b : Fin n => z b).trans (mul_le_mul_of_nonneg_right ?_ (Finset.sum_nonneg fun _ _ => mul_self_nonneg _))
    refine Finset.sum_le_sum (s := Finset.univ) fun (a : Fin m) _ => ?_
    have h1 : |(matX X m n *ᵥ w) a| ≤ (matX X m n *ᵥ fun b => |w b|) a := by
      show |∑ b, matX X m n a b * w b| ≤ ∑ b, matX X m n a b * |w b|
      refine (Finset.abs_sum_le_sum_abs (fun b => matX X m n a b * w b) _).trans (Finset.sum_le_sum fun b _ => le_of_eq ?_)
      rw [abs_mul, abs_of_nonneg]
      exact h0 _ (by rw [hX]; exact InB_pair.2 ⟨_, _, rfl, a.isLt, b.isLt⟩)
    rw [← abs_mul_abs_self ((matX X m n *ᵥ w) a)]
    exact mul_self_le_mul_self (abs_nonneg _) h1
  · rw [hX]
    show ∑ b ∈ Finset.range n, _ ≠ 0
    rw [Finset.sum_range]
    simp only [Fin.is_lt, dif_pos, Fin.eta]
    obtain ⟨b, hb⟩ := Function.ne_iff.1 hw0
    refine (Finset.sum_pos' (s := Finset.univ) (fun (c : Fin n) _ => mul_nonneg (abs_nonneg (w c)) (hy c c.isLt).le)
      ⟨b, Finset.mem_univ _, ?_⟩).ne'
    exact mul_pos (abs_pos.2 hb) (hy b b.isLt)

end TD
