import Mathlib.Tactic.Linarith
import Verif.Lemmas.Frob
import Verif.Spec.Prox

/-! # Nuclear norm, proximal points -/
namespace TD.Spec
open Matrix
variable {r c : Nat}

theorem frobInner_trace (M N : Mat r c) : frobInner M N = trace (Mᵀ * N) := by
  rw [frobInner, trace, Finset.sum_comm]
  refine Finset.sum_congr rfl fun j _ => ?_
  rw [diag_apply, Matrix.mul_apply]
  exact Finset.sum_congr rfl fun i _ => by rw [transpose_apply]

theorem frobInner_comm (M N : Mat r c) : frobInner M N = frobInner N M := by
  simp only [frobInner, mul_comm]

theorem frobInner_add_right (M N P : Mat r c) : frobInner M (N + P) = frobInner M N + frobInner M P := by
  simp only [frobInner, Matrix.add_apply, mul_add, Finset.sum_add_distrib]

theorem frobInner_sub_right (M N P : Mat r c) : frobInner M (N - P) = frobInner M N - frobInner M P := by
  simp only [frobInner, Matrix.sub_apply, mul_sub, Finset.sum_sub_distrib]

theorem frobInner_smul_right (a : ℝ) (M N : Mat r c) : frobInner M (a • N) = a * frobInner M N := by
  simp only [frobInner, Matrix.smul_apply, smul_eq_mul, Finset.mul_sum]
  exact Finset.sum_congr rfl fun i _ => Finset.sum_congr rfl fun j _ => by ring

theorem frobInner_add_left (M N P : Mat r c) : frobInner (M + N) P = frobInner M P + frobInner N P := by
  rw [frobInner_comm, frobInner_add_right, frobInner_comm P, frobInner_comm P]

theorem frobInner_sub_left (M N P : Mat r c) : frobInner (M - N) P = frobInner M P - frobInner N P := by
  rw [frobInner_comm, frobInner_sub_right, frobInner_comm P, frobInner_comm P]

theorem frobInner_smul_left (a : ℝ) (M N : Mat r c) : frobInner (a • M) N = a * frobInner M N := by
  rw [frobInner_comm, frobInner_smul_right, frobInner_comm]

theorem frobInner_self (M : Mat r c) : frobInner M M = frobSq M := by
  simp only [frobInner, frobSq, sq]

theorem frobSq_nonneg' (M : Mat r c) : 0 ≤ frobSq M :=
  Finset.sum_nonneg fun _ _ => Finset.sum_nonneg fun _ _ => sq_nonneg _

theorem frobSq_pos {M : Mat r c} (h : M ≠ 0) : 0 < frobSq M := by
  refine lt_of_le_of_ne (frobSq_nonneg' M) fun e => h ?_
  ext i j
  have h1 := (Finset.sum_eq_zero_iff_of_nonneg (fun i _ => Finset.sum_nonneg fun j _ => sq_nonneg (M i j))).1 e.symm i
    (Finset.mem_univ _)
  have h2 := (Finset.sum_eq_zero_iff_of_nonneg (fun j _ => sq_nonneg (M i j))).1 h1 j (Finset.mem_univ _)
  exact pow_eq_zero_iff (two_ne_zero) |>.1 h2

theorem frobInner_diagRect (s : Fin (min r c) → ℝ) (B : Mat r c) : frobInner (diagRect s) B =
    ∑ i : Fin (min r c), s i * B ⟨i, i.isLt.trans_le (min_le_left _ _)⟩ ⟨i, i.isLt.trans_le (min_le_right _ _)⟩ := by
  have h1 : ∀ i : Fin r, ∑ j, (diagRect s : Mat r c) i j * B i j =
      ∑ k : Fin (min r c), if k.val = i.val then
        s k * B ⟨k, k.isLt.trans_le (min_le_left _ _)⟩ ⟨k, k.isLt.trans_le (min_le_right _ _)⟩ else 0 := by
    intro i
    by_cases hi : i.val < c
    · rw [Finset.sum_eq_single (⟨i.val, hi⟩ : Fin c),
        Finset.sum_eq_single (⟨i.val, Nat.lt_min.2 ⟨i.isLt, hi⟩⟩ : Fin (min r c))]
      · simp [diagRect]
      · intro b _ hb
        rw [if_neg (fun e => hb (Fin.ext e))]
      · intro h; exact absurd (Finset.mem_univ _) h
      · intro b _ hb
        have : i.val ≠ b.val := fun e => hb (Fin.ext e.symm)
        simp [diagRect, this]
      · intro h; exact absurd (Finset.mem_univ _) h
    · rw [Finset.sum_eq_zero, Finset.sum_eq_zero]
      · intro k _
        rw [if_neg]
        have := k.isLt.trans_le (min_le_right r c)
        omega
      · intro j _
        have : i.val ≠ j.val := fun e => hi (e ▸ j.isLt)
        simp [diagRect, this]
  rw [frobInner, Finset.sum_congr rfl fun i _ => h1 i, Finset.sum_comm]
  refine Finset.sum_congr rfl fun k _ => ?_
  rw [Finset.sum_eq_single (⟨k.val, k.isLt.trans_le (min_le_left _ _)⟩ : Fin r)]
  · simp
  · intro b _ hb
    rw [if_neg (fun e => hb (Fin.ext e.symm))]
  · intro h; exact absurd (Finset.mem_univ _) h

theorem frobInner_orth (U : Mat r r) (V : Mat c c) (A W : Mat r c) :
    frobInner (U * A * Vᵀ) W = frobInner A (Uᵀ * W * V) := by
  rw [frobInner_trace, frobInner_trace, transpose_mul, transpose_mul, transpose_transpose, Matrix.mul_assoc,
    trace_mul_comm]
  simp only [Matrix.mul_assoc]

theorem sum_sq_mulVec {k l : Nat} {U : Mat k l} (hU : Uᵀ * U = 1) (x : Fin l → ℝ) :
    ∑ i, (U *ᵥ x) i ^ 2 = ∑ j, x j ^ 2 := by
  have h : ∀ {n : Nat} (v : Fin n → ℝ), ∑ i, v i ^ 2 = v ⬝ᵥ v := fun v => by
    simp only [dotProduct, sq]
  rw [h, h, dotProduct_mulVec, vecMul_mulVec, hU, vecMul_one]

theorem Contraction.entry {B : Mat r c} (h : Contraction B) (i : Fin r) (j : Fin c) : B i j ≤ 1 := by
  have := h (Pi.single j 1)
  rw [mulVec_single_one] at this
  have h2 : ∑ k, (Pi.single j 1 : Fin c → ℝ) k ^ 2 = 1 := by
    rw [Finset.sum_eq_single j]
    · simp
    · intro b _ hb; simp [hb]
    · intro h; exact absurd (Finset.mem_univ _) h
  rw [h2] at this
  have h3 : B i j ^ 2 ≤ ∑ i, B.col j i ^ 2 :=
    Finset.single_le_sum (f := fun i => B.col j i ^ 2) (fun _ _ => sq_nonneg _) (Finset.mem_univ i)
  nlinarith [sq_nonneg (B i j - 1)]

theorem Contraction.orth {W : Mat r c} (h : Contraction W) {U : Mat r r} {V : Mat c c} (hU : Uᵀ * U = 1)
    (hV : Vᵀ * V = 1) : Contraction (Uᵀ * W * V) := by
  intro x
  have hU' : Uᵀᵀ * Uᵀ = 1 := by rw [transpose_transpose]; exact mul_eq_one_comm.1 hU
  rw [Matrix.mul_assoc, ← mulVec_mulVec, sum_sq_mulVec hU', ← mulVec_mulVec]
  exact (h _).trans_eq (sum_sq_mulVec hV x)

theorem diagRect_contraction {w : Fin (min r c) → ℝ} (hw : ∀ i, w i ^ 2 ≤ 1) : Contraction (diagRect w : Mat r c) := by
  intro x
  have h1 : ∀ i : Fin r, ((diagRect w : Mat r c) *ᵥ x) i ^ 2 ≤ ∑ j : Fin c, if i.val = j.val then x j ^ 2 else 0 := by
    intro i
    by_cases hi : i.val < c
    · have e : ((diagRect w : Mat r c) *ᵥ x) i = w ⟨i, Nat.lt_min.2 ⟨i.isLt, hi⟩⟩ * x ⟨i, hi⟩ := by
        rw [mulVec, dotProduct, Finset.sum_eq_single (⟨i.val, hi⟩ : Fin c)]
        · simp [diagRect]
        · intro b _ hb
          have : i.val ≠ b.val := fun e => hb (Fin.ext e.symm)
          simp [diagRect, this]
        · intro h; exact absurd (Finset.mem_univ _) h
      rw [e, Finset.sum_eq_single (⟨i.val, hi⟩ : Fin c), if_pos rfl, mul_pow]
      · exact mul_le_of_le_one_left (sq_nonneg _) (hw _)
      · intro b _ hb
        rw [if_neg fun e => hb (Fin.ext e.symm)]
      · intro h; exact absurd (Finset.mem_univ _) h
    · have e : ((diagRect w : Mat r c) *ᵥ x) i = 0 := by
        rw [mulVec, dotProduct]
        refine Finset.sum_eq_zero fun j _ => ?_
        have : i.val ≠ j.val := fun e => hi (e ▸ j.isLt)
        simp [diagRect, this]
      rw [e]
      refine (by norm_num : (0 : ℝ) ^ 2 = 0).trans_le (Finset.sum_nonneg fun j _ => ?_)
      split
      · exact sq_nonneg _
      · exact le_refl _
  refine (Finset.sum_le_sum fun i _ => h1 i).trans ?_
  rw [Finset.sum_comm]
  refine Finset.sum_le_sum fun j _ => ?_
  by_cases hj : j.val < r
  · rw [Finset.sum_eq_single (⟨j.val, hj⟩ : Fin r), if_pos rfl]
    · intro b _ hb
      rw [if_neg fun e => hb (Fin.ext e)]
    · intro h; exact absurd (Finset.mem_univ _) h
  · rw [Finset.sum_eq_zero]
    · exact sq_nonneg _
    · intro i _
      have : i.val ≠ j.val := fun e => hj (e ▸ i.isLt)
      rw [if_neg this]

theorem orth_contraction {U : Mat r r} {V : Mat c c} (hU : Uᵀ * U = 1) (hV : Vᵀ * V = 1) {w : Fin (min r c) → ℝ}
    (hw : ∀ i, w i ^ 2 ≤ 1) : Contraction (U * diagRect w * Vᵀ) := by
  have h := (diagRect_contraction (r := r) (c := c) hw).orth (U := Uᵀ) (V := Vᵀ)
    (by rw [transpose_transpose]; exact mul_eq_one_comm.1 hU) (by rw [transpose_transpose]; exact mul_eq_one_comm.1 hV)
  rwa [transpose_transpose] at h

theorem frobInner_orth_diag {U : Mat r r} {V : Mat c c} (hU : Uᵀ * U = 1) (hV : Vᵀ * V = 1) (a b : Fin (min r c) → ℝ) :
    frobInner (U * diagRect a * Vᵀ) (U * diagRect b * Vᵀ) = ∑ i, a i * b i := by
  rw [frobInner_orth]
  have : Uᵀ * (U * diagRect b * Vᵀ) * V = diagRect b := by
    rw [← Matrix.mul_assoc, ← Matrix.mul_assoc, hU, Matrix.one_mul, Matrix.mul_assoc, hV, Matrix.mul_one]
  rw [this, frobInner_diagRect]
  exact Finset.sum_congr rfl fun i _ => by simp [diagRect]

theorem inner_le_sum {M : Mat r c} {U s V} (h : IsSVD M U s V) {W : Mat r c} (hW : Contraction W) :
    frobInner M W ≤ ∑ i, s i := by
  rw [h.eq, frobInner_orth, frobInner_diagRect]
  refine Finset.sum_le_sum fun i _ => ?_
  exact mul_le_of_le_one_right (h.nonneg i) ((hW.orth h.orthU h.orthV).entry _ _)

/-- The nuclear norm is the sum of the singular values. -/
theorem nuclear_eq_sum {M : Mat r c} {U s V} (h : IsSVD M U s V) : nuclear M = ∑ i, s i := by
  refine IsGreatest.csSup_eq ⟨⟨U * diagRect (fun _ => 1) * Vᵀ, orth_contraction h.orthU h.orthV (by simp), ?_⟩, ?_⟩
  · conv_rhs => rw [h.eq]
    rw [frobInner_orth_diag h.orthU h.orthV]
    simp
  · rintro t ⟨W, hW, rfl⟩
    exact inner_le_sum h hW

theorem inner_le_nuclear (M : Mat r c) {W : Mat r c} (hW : Contraction W) : frobInner M W ≤ nuclear M := by
  obtain ⟨U, s, V, h⟩ := exists_svd M
  rw [nuclear_eq_sum h]
  exact inner_le_sum h hW

theorem nuclear_nonneg (M : Mat r c) : 0 ≤ nuclear M := by
  obtain ⟨U, s, V, h⟩ := exists_svd M
  rw [nuclear_eq_sum h]
  exact Finset.sum_nonneg fun i _ => h.nonneg i

/-! ### Thresholding the singular values -/

/-- Optimality conditions of `S` for minimising `g + ½‖· - C‖²`, for `g` positively homogeneous. -/
structure Aligned (g : Mat r c → ℝ) (C S : Mat r c) : Prop where
  le : ∀ N, frobInner N (C - S) ≤ g N
  eq : frobInner S (C - S) = g S

theorem threshold_aligned {C : Mat r c} {U s V} (h : IsSVD C U s V) {t : ℝ} (ht : 0 ≤ t) :
    Aligned (fun N => t * nuclear N) C (U * diagRect (fun i => max 0 (s i - t)) * Vᵀ) := by
  have hS : IsSVD (U * diagRect (fun i => max 0 (s i - t)) * Vᵀ) U (fun i => max 0 (s i - t)) V :=
    ⟨h.orthU, h.orthV, fun i => le_max_left _ _, fun i j hij => max_le_max_left _ (by linarith [h.anti i j hij]), rfl⟩
  have hd : C - U * diagRect (fun i => max 0 (s i - t)) * Vᵀ = U * diagRect (fun i => min (s i) t) * Vᵀ := by
    have e : diagRect s - diagRect (fun i => max 0 (s i - t)) = (diagRect fun i => min (s i) t : Mat r c) := by
      ext i j
      simp only [Matrix.sub_apply, diagRect]
      by_cases hij : i.val = j.val
      · simp only [dif_pos hij]
        rcases le_total (s ⟨i.val, Nat.lt_min.2 ⟨i.isLt, hij ▸ j.isLt⟩⟩) t with h1 | h1
        · rw [max_eq_left (by linarith), min_eq_left h1, sub_zero]
        · rw [max_eq_right (by linarith), min_eq_right h1]; ring
      · simp only [dif_neg hij, sub_zero]
    rw [← e, Matrix.mul_sub, Matrix.sub_mul, ← h.eq]
  refine ⟨fun N => ?_, ?_⟩
  · rw [hd]
    rcases eq_or_lt_of_le ht with h0 | h0
    · have e : (diagRect (fun i => min (s i) t) : Mat r c) = 0 := by
        ext i j
        simp only [diagRect]
        split
        · rw [← h0, min_eq_right (h.nonneg _)]; rfl
        · rfl
      rw [e, Matrix.mul_zero, Matrix.zero_mul, ← h0]
      simp [frobInner]
    · have e : (diagRect (fun i => min (s i) t) : Mat r c) = t • diagRect (fun i => min (s i) t / t) := by
        ext i j
        simp only [diagRect, Matrix.smul_apply, smul_eq_mul]
        split
        · rw [mul_div_cancel₀ _ h0.ne']
        · rw [mul_zero]
      rw [e, Matrix.mul_smul, Matrix.smul_mul, frobInner_smul_right]
      refine mul_le_mul_of_nonneg_left (inner_le_nuclear N (orth_contraction h.orthU h.orthV fun i => ?_)) ht
      have h1 : 0 ≤ min (s i) t / t := div_nonneg (le_min (h.nonneg i) ht) ht
      have h2 : min (s i) t / t ≤ 1 := (div_le_one h0).2 (min_le_right _ _)
      nlinarith
  · rw [hd, frobInner_orth_diag h.orthU h.orthV]
    rw [nuclear_eq_sum hS, Finset.mul_sum]
    refine Finset.sum_congr rfl fun i _ => ?_
    rcases le_total (s i) t with h1 | h1
    · rw [max_eq_left (by linarith)]; ring
    · rw [min_eq_right h1]; ring

theorem Aligned.three_point {g : Mat r c → ℝ} {C S : Mat r c} (h : Aligned g C S) (N : Mat r c) :
    g S + frobSq (S - C) / 2 + frobSq (N - S) / 2 ≤ g N + frobSq (N - C) / 2 := by
  have h1 := h.le N
  have h2 := h.eq
  have e : frobSq (N - C) = frobSq (S - C) + frobSq (N - S) - 2 * (frobInner N (C - S) - frobInner S (C - S)) := by
    simp only [← frobInner_self, frobInner_sub_left, frobInner_sub_right, frobInner_comm C, frobInner_comm S N]
    rw [frobInner_comm S C]
    ring
  rw [e]
  linarith

/-- Two proximal points are no farther apart than their arguments, in the strong (firm) sense. -/
theorem Aligned.firm {g : Mat r c → ℝ} {C S C' S' : Mat r c} (h : Aligned g C S) (h' : Aligned g C' S') :
    frobSq (S - S') ≤ frobInner (S - S') (C - C') := by
  have a := h.le S'
  have b := h'.le S
  have a' := h.eq
  have b' := h'.eq
  rw [← frobInner_self]
  simp only [frobInner_sub_left, frobInner_sub_right] at *
  linarith

end TD.Spec
