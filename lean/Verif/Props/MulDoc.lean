import Verif.Props.Mul

/-!
# C147: the matrix products that the documentation of `mul` promises (`ops.py:234-246`)
-/
namespace TD.Props
open TD Tensor Spec ops
variable {α : Type} [NonUnitalNonAssocSemiring α]

/-- **C147**, all four contractions of two matrices; `i` and `j` are the indices of the axes that stay. -/
theorem C147_matrices (A B : Tensor α) (p q : Nat) (hp : p < 2) (hq : q < 2) (hA : A.order = 2) (hB : B.order = 2)
    (hd : A.shape.getD p 0 = B.shape.getD q 0) :
    ∃ C, mul A B (.int p) (.int q) = .ok C ∧ C.shape = [A.shape.getD (1 - p) 0, B.shape.getD (1 - q) 0] ∧
      ∀ i < A.shape.getD (1 - p) 0, ∀ j < B.shape.getD (1 - q) 0, C.at_ [i, j] = ∑ l ∈ Finset.range (A.shape.getD p 0),
        A.at_ (if p = 0 then [l, i] else [i, l]) * B.at_ (if q = 0 then [l, j] else [j, l]) := by
  obtain ⟨C, hC, hs, he⟩ := C08_mul_entry A B [p] [q] (by simp) (by simpa [hA] using Nat.le_of_lt_succ hp) (by simp)
    (by simpa [hB] using Nat.le_of_lt_succ hq) (by simpa using hd)
  have hf : ∀ r < 2, freeAxes 2 [r] = [1 - r] := by decide
  have hpl : ∀ r < 2, ∀ l i : Nat, place 2 [r] [l] [i] = if r = 0 then [l, i] else [i, l] := by
    intro r hr l i
    obtain rfl | rfl : r = 0 ∨ r = 1 := by omega
    · rfl
    · rfl
  simp only [hA, hB, hf p hp, hf q hq, List.map_cons, List.map_nil, List.singleton_append] at hs he
  refine ⟨C, hC, hs, fun i hi j hj => ?_⟩
  have := he [i] [j] (by simpa using hi) (by simpa using hj)
  simp only [List.singleton_append, hpl p hp, hpl q hq, boxSum] at this
  exact this

/-- **C147**, the first documented product: `mul(A, B, 1, 0)` is `AB`. -/
theorem C147_ab (A B : Tensor α) (m k n : Nat) (hA : A.shape = [m, k]) (hB : B.shape = [k, n]) :
    ∃ C, mul A B (.int 1) (.int 0) = .ok C ∧ C.shape = [m, n] ∧
      ∀ i < m, ∀ j < n, C.at_ [i, j] = ∑ l ∈ Finset.range k, A.at_ [i, l] * B.at_ [l, j] := by
  simpa [hA, hB] using C147_matrices A B 1 0 (by decide) (by decide) (by simp [order, hA]) (by simp [order, hB]) (by simp [hA, hB])

/-- **C147** (partial), the second documented product: `mul(A, B, 0, 1)` is the transpose of `BA` - its entry `(i, j)` is the entry
`(j, i)` of `BA` - and has the transposed shape.  (The entries are written with the factor of `A` first.)
Missing: the documentation says `BA`, which is false, see `C147_ba_false`. -/
theorem C147_ba_partial (A B : Tensor α) (m k n : Nat) (hA : A.shape = [m, k]) (hB : B.shape = [n, m]) :
    ∃ C, mul A B (.int 0) (.int 1) = .ok C ∧ C.shape = [k, n] ∧
      ∀ i < k, ∀ j < n, C.at_ [i, j] = ∑ l ∈ Finset.range m, A.at_ [l, i] * B.at_ [j, l] := by
  simpa [hA, hB] using C147_matrices A B 0 1 (by decide) (by decide) (by simp [order, hA]) (by simp [order, hB]) (by simp [hA, hB])

/-- **C147** is false of the second product: for the square matrices of the documentation's kind the call returns, without an exception
and with the shape of `BA`, other numbers than `BA`. -/
theorem C147_ba_false :
    let A : Tensor Int := ⟨[2, 2], [1, 2, 3, 4], rfl⟩
    let B : Tensor Int := ⟨[2, 2], [0, 1, 0, 0], rfl⟩
    (mul A B (.int 0) (.int 1)).toOption.map (fun C => (C.shape, C.data)) = some ([2, 2], [3, 0, 4, 0]) ∧
      (mul B A (.int 1) (.int 0)).toOption.map (fun C => (C.shape, C.data)) = some ([2, 2], [3, 4, 0, 0]) := by decide +kernel

/-- **C147**: `BA` is what the call with the arguments exchanged returns, and exchanging arguments and axes transposes: for all matrices
over a commutative ring `mul(A, B, 0, 1)[i, j] = mul(B, A, 1, 0)[j, i]`. -/
theorem C147_exchange {α : Type} [NonUnitalCommSemiring α] (A B : Tensor α) (m k n : Nat) (hA : A.shape = [m, k]) (hB : B.shape = [n, m]) :
    ∃ C D, mul A B (.int 0) (.int 1) = .ok C ∧ mul B A (.int 1) (.int 0) = .ok D ∧ C.shape = [k, n] ∧ D.shape = [n, k] ∧
      ∀ i < k, ∀ j < n, C.at_ [i, j] = D.at_ [j, i] := by
  obtain ⟨C, c1, c2, c3⟩ := C147_ba_partial A B m k n hA hB
  obtain ⟨D, d1, d2, d3⟩ := C147_ab B A n m k hB hA
  refine ⟨C, D, c1, d1, c2, d2, fun i hi j hj => ?_⟩
  rw [c3 i hi j hj, d3 j hj i hi]
  exact Finset.sum_congr rfl fun l _ => mul_comm _ _

/-- The hypotheses are met by the shapes of the documentation (`4x5` and `5x4`). -/
example : ∃ C, mul (mat 4 5 fun i j => (i + 2 * j : Int)) (mat 5 4 fun i j => (i * j : Int)) (.int 0) (.int 1) = .ok C ∧ C.shape = [5, 5] :=
  let ⟨C, h, s, _⟩ := C147_ba_partial (mat 4 5 fun i j => (i + 2 * j : Int)) (mat 5 4 fun i j => (i * j : Int)) 4 5 5 rfl rfl
  ⟨C, h, s⟩

end TD.Props
