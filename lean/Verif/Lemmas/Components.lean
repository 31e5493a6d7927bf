import Verif.Spec.Components
import Verif.Lemmas.TrainAux

/-! # Renumbered components -/
namespace TD
open Spec Tensor tf ops Matrix

/-- A square matrix with rows and columns renumbered. -/
def renumBoth (π : Nat → Nat) (V : Tensor ℝ) : Tensor ℝ := renum (fun _ => π) V

section basic
variable {π : Nat → Nat} {A : Tensor ℝ} {m n : Nat}

theorem at_renumCols (hA : A.shape = [m, n]) {a b : Nat} (ha : a < m) (hb : b < n) :
    (renumCols π A).at_ [a, b] = A.at_ [a, π b] := by
  rw [renumCols, at_renum _ (by rw [hA]; exact InB_pair.2 ⟨a, b, rfl, ha, hb⟩)]
  rfl

theorem at_renumBoth (hA : A.shape = [m, n]) {a b : Nat} (ha : a < m) (hb : b < n) :
    (renumBoth π A).at_ [a, b] = A.at_ [π a, π b] := by
  rw [renumBoth, at_renum _ (by rw [hA]; exact InB_pair.2 ⟨a, b, rfl, ha, hb⟩)]
  rfl

theorem at_renumWeights (hA : A.shape = [n]) {b : Nat} (hb : b < n) : (renumWeights π A).at_ [b] = A.at_ [π b] := by
  rw [renumWeights, at_renum _ (by rw [hA]; simpa using hb)]
  rfl

theorem renumbering_cols (h : Set.BijOn π (Set.Iio n) (Set.Iio n)) : Renumbering [m, n] fun k => if k = 1 then π else id := by
  intro k hk
  match k, hk with
  | 0, _ => simpa using Set.bijOn_id _
  | 1, _ => simpa using h

theorem renumbering_both (h : Set.BijOn π (Set.Iio n) (Set.Iio n)) : Renumbering [n, n] fun _ => π := by
  intro k hk
  match k, hk with
  | 0, _ => simpa using h
  | 1, _ => simpa using h

theorem renumbering_weights (h : Set.BijOn π (Set.Iio n) (Set.Iio n)) : Renumbering [n] fun _ => π := by
  intro k hk
  match k, hk with
  | 0, _ => simpa using h

/-- The permutation of `Fin n`. -/
noncomputable def finPerm (h : Set.BijOn π (Set.Iio n) (Set.Iio n)) : Equiv.Perm (Fin n) :=
  Equiv.ofBijective (fun i => ⟨π i, h.mapsTo i.isLt⟩) (Finite.injective_iff_bijective.1 fun i j e => by
    have e' : π i = π j := congrArg Fin.val e
    exact Fin.ext (h.injOn i.isLt j.isLt e'))

theorem finPerm_val (h : Set.BijOn π (Set.Iio n) (Set.Iio n)) (i : Fin n) : ((finPerm h i : Fin n) : Nat) = π i := rfl

theorem toMat_renumBoth (h : Set.BijOn π (Set.Iio n) (Set.Iio n)) (hA : A.shape = [n, n]) :
    toMat (renumBoth π A) n n = (toMat A n n).submatrix (finPerm h) (finPerm h) := by
  ext i j
  exact at_renumBoth hA i.isLt j.isLt

end basic

/-! ### Matrix products -/
section prod
variable {π : Nat → Nat} {A B P : Tensor ℝ} {I R Q : Nat}

theorem matmul_tn_cols (h : Set.BijOn π (Set.Iio R) (Set.Iio R)) (hA : A.shape = [I, R]) (hB : B.shape = [I, R]) :
    matmul (renumCols π A) (renumCols π B) true false = renumBoth π <$> matmul A B true false := by
  rw [matmul_tn (by exact hA) (by exact hB), matmul_tn hA hB]
  show Except.ok _ = Except.ok _
  congr 1
  refine ext_mat rfl rfl fun p hp q hq => ?_
  rw [at_mat _ hp hq, at_renumBoth (shape_mat _ _ _) hp hq, at_mat _ (h.mapsTo hp) (h.mapsTo hq)]
  refine Finset.sum_congr rfl fun i hi => ?_
  rw [at_renumCols hA (Finset.mem_range.1 hi) hp, at_renumCols hB (Finset.mem_range.1 hi) hq]

theorem matmul_nn_cols (h : Set.BijOn π (Set.Iio R) (Set.Iio R)) (hA : A.shape = [I, Q]) (hB : B.shape = [Q, R]) :
    matmul A (renumCols π B) = renumCols π <$> matmul A B := by
  rw [matmul_nn hA (by exact hB), matmul_nn hA hB]
  show Except.ok _ = Except.ok _
  congr 1
  refine ext_mat rfl rfl fun p hp q hq => ?_
  rw [at_mat _ hp hq, at_renumCols (shape_mat _ _ _) hp hq, at_mat _ hp (h.mapsTo hq)]
  refine Finset.sum_congr rfl fun i hi => ?_
  rw [at_renumCols hB (Finset.mem_range.1 hi) hq]

theorem matmul_cols_both (h : Set.BijOn π (Set.Iio R) (Set.Iio R)) (hA : A.shape = [I, R]) (hP : P.shape = [R, R]) :
    matmul (renumCols π A) (renumBoth π P) = renumCols π <$> matmul A P := by
  rw [matmul_nn (by exact hA) (by exact hP), matmul_nn hA hP]
  show Except.ok _ = Except.ok _
  congr 1
  refine ext_mat rfl rfl fun p hp q hq => ?_
  rw [at_mat _ hp hq, at_renumCols (shape_mat _ _ _) hp hq, at_mat _ hp (h.mapsTo hq),
    ← sum_renum h fun i => A.at_ [p, i] * P.at_ [i, π q]]
  refine Finset.sum_congr rfl fun i hi => ?_
  rw [at_renumCols hA hp (Finset.mem_range.1 hi), at_renumBoth hP (Finset.mem_range.1 hi) hq]

end prod

/-! ### Moore-Penrose inverse and largest singular value -/

theorem Spec.IsPinv.unique {n : Nat} {V P Q : Mat n n} (hP : IsPinv V P) (hQ : IsPinv V Q) : P = Q := by
  have h1 : P * V = Q * V := by
    calc P * V = P * (V * Q * V) := by rw [hQ.vpv]
      _ = (P * V)ᵀ * (Q * V)ᵀ := by rw [hP.pvT, hQ.pvT]; simp only [Matrix.mul_assoc]
      _ = (Q * V * (P * V))ᵀ := (transpose_mul _ _).symm
      _ = (Q * (V * P * V))ᵀ := by simp only [Matrix.mul_assoc]
      _ = Q * V := by rw [hP.vpv, hQ.pvT]
  have h2 : V * P = V * Q := by
    calc V * P = (V * Q * V) * P := by rw [hQ.vpv]
      _ = (V * Q)ᵀ * (V * P)ᵀ := by rw [hP.vpT, hQ.vpT]; simp only [Matrix.mul_assoc]
      _ = (V * P * (V * Q))ᵀ := (transpose_mul _ _).symm
      _ = (V * P * V * Q)ᵀ := by simp only [Matrix.mul_assoc]
      _ = V * Q := by rw [hP.vpv, hQ.vpT]
  calc P = P * V * P := hP.pvp.symm
    _ = Q * V * P := by rw [h1]
    _ = Q * (V * P) := Matrix.mul_assoc _ _ _
    _ = Q * (V * Q) := by rw [h2]
    _ = Q := by rw [← Matrix.mul_assoc, hQ.pvp]

theorem Spec.IsPinv.submatrix {n : Nat} {V P : Mat n n} (h : IsPinv V P) (e : Equiv.Perm (Fin n)) :
    IsPinv (V.submatrix e e) (P.submatrix e e) := by
  refine ⟨?_, ?_, ?_, ?_⟩
  · rw [submatrix_mul_equiv, submatrix_mul_equiv, h.vpv]
  · rw [submatrix_mul_equiv, submatrix_mul_equiv, h.pvp]
  · rw [submatrix_mul_equiv, transpose_submatrix, h.vpT]
  · rw [submatrix_mul_equiv, transpose_submatrix, h.pvT]

theorem pinv_both {pinv : Tensor ℝ → Res (Tensor ℝ)} (hp : PinvOk pinv) {π : Nat → Nat} {R : Nat}
    (h : Set.BijOn π (Set.Iio R) (Set.Iio R)) {V : Tensor ℝ} (hV : V.shape = [R, R]) :
    pinv (renumBoth π V) = renumBoth π <$> pinv V := by
  obtain ⟨P, h1, h2, h3⟩ := hp V R hV
  obtain ⟨Q, g1, g2, g3⟩ := hp (renumBoth π V) R hV
  rw [h1, g1]
  show Except.ok _ = Except.ok _
  congr 1
  rw [toMat_renumBoth h hV] at g3
  have := IsPinv.unique g3 (h3.submatrix (finPerm h))
  rw [← toMat_renumBoth h h2] at this
  exact toMat_inj g2 h2 this

theorem Spec.IsTopSv.submatrix {n : Nat} {M : Mat n n} {L : ℝ} (h : IsTopSv M L) (e : Equiv.Perm (Fin n)) :
    IsTopSv (M.submatrix e e) L := by
  obtain ⟨s, ⟨U, V, hs⟩, h1, h2⟩ := h
  refine ⟨s, ⟨U.submatrix e id, V.submatrix e id, ⟨?_, ?_, hs.nonneg, hs.anti, ?_⟩⟩, h1, h2⟩
  · rw [transpose_submatrix, submatrix_mul_equiv, hs.orthU, submatrix_id_id]
  · rw [transpose_submatrix, submatrix_mul_equiv, hs.orthV, submatrix_id_id]
  · conv_lhs => rw [hs.eq]
    ext i j
    simp [Matrix.mul_apply]

theorem topSv_both {topSv : Tensor ℝ → Res ℝ} (ht : TopSvOk topSv) {π : Nat → Nat} {R : Nat} (hR : 0 < R)
    (h : Set.BijOn π (Set.Iio R) (Set.Iio R)) {V : Tensor ℝ} (hV : V.shape = [R, R]) :
    topSv (renumBoth π V) = topSv V := by
  obtain ⟨L, h1, h2⟩ := ht V R R hV hR hR
  obtain ⟨L', g1, g2⟩ := ht (renumBoth π V) R R hV hR hR
  rw [h1, g1]
  congr 1
  rw [toMat_renumBoth h hV] at g2
  exact bcu.IsTopSv.unique g2 (h2.submatrix (finPerm h))

end TD
