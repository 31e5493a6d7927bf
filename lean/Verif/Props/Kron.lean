import Mathlib.Algebra.Ring.Int.Defs
import Verif.Lemmas.KronLaws

/-!
# C16, C17 : `kron`
-/
namespace TD.Props
open TD Tensor Spec ops
variable {α : Type}

/-- **C16** (value): `L` is the list of kept matrices, reversed when `reverse=True`.  Row and column of
the result are addressed by their mixed-radix digits `rs`, `cs`, first matrix most significant. -/
theorem C16_kron_entry [CommSemiring α] (ms : List (Tensor α)) (s : Skip) (rev : Bool)
    (L : List (Tensor α)) (hL : L = if rev then (kept ms s).reverse else kept ms s)
    (hmat : AllMat L) (hne : L ≠ []) (hlen : L.length ≤ 13) :
    ∃ K, kron ms s rev = .ok K ∧ K.shape = [(rowDims L).prod, (colDims L).prod] ∧
      ∀ rs cs, InB (rowDims L) rs → InB (colDims L) cs →
        K.at_ [ravel (rowDims L) rs, ravel (colDims L) cs] = kronEntry L rs cs := by
  rw [kron_reduce, skip_eq_kept, ← hL]
  exact kron_core hmat hne hlen

/-- **C16** (two matrices): the textbook formula. -/
theorem C16_kron_two [CommSemiring α] (A B : Tensor α) (m n p q : Nat) (hA : A.shape = [m, n])
    (hB : B.shape = [p, q]) :
    ∃ K, kron [A, B] = .ok K ∧ K.shape = [m * p, n * q] ∧
      ∀ i k j l, i < m → k < p → j < n → l < q →
        K.at_ [i * p + k, j * q + l] = A.at_ [i, j] * B.at_ [k, l] := by
  refine ⟨_, kron2_eq hA hB, rfl, fun i k j l hi hk hj hl => ?_⟩
  rw [at_mat _ (digit_lt hi hk) (digit_lt hj hl)]
  rw [digit_div hk, digit_div hl, digit_mod hk, digit_mod hl]

/-- **C16** (limits): with no matrix left, or with more than 13, `kron` raises `ValueError`. -/
theorem C16_kron_limits [CommSemiring α] (ms : List (Tensor α)) (s : Skip) (rev : Bool)
    (h : kept ms s = [] ∨ 13 < (kept ms s).length) : kron ms s rev = .error .valueError := by
  rw [kron_reduce, skip_eq_kept]
  rcases h with h | h
  · rw [h]; cases rev <;> exact kron_nil
  · apply kron_too_many; cases rev <;> simpa using h

/-- **C17** (associativity, for splitting a list anywhere). -/
theorem C17_kron_assoc [CommSemiring α] (L₁ L₂ : List (Tensor α)) (h₁ : AllMat L₁) (h₂ : AllMat L₂)
    (hne₁ : L₁ ≠ []) (hne₂ : L₂ ≠ []) (hlen : L₁.length + L₂.length ≤ 13) :
    ∃ K₁ K₂ K, kron L₁ = .ok K₁ ∧ kron L₂ = .ok K₂ ∧ kron [K₁, K₂] = .ok K ∧ kron (L₁ ++ L₂) = .ok K := by
  obtain ⟨K₁, hK₁, hs₁, he₁⟩ := kron_core h₁ hne₁ (by omega)
  obtain ⟨K₂, hK₂, hs₂, he₂⟩ := kron_core h₂ hne₂ (by omega)
  obtain ⟨K, hK, hs, he⟩ := kron_core (ms := L₁ ++ L₂) (by
    intro M hM; rcases List.mem_append.1 hM with h | h
    · exact h₁ M h
    · exact h₂ M h) (by simp [hne₁]) (by simpa using hlen)
  obtain ⟨K', hK', hs', he'⟩ := C16_kron_two K₁ K₂ _ _ _ _ hs₁ hs₂
  rw [rowDims_append, colDims_append] at hs he
  refine ⟨K₁, K₂, K, hK₁, hK₂, ?_, hK⟩
  rw [hK']
  congr 1
  have hs'' : K.shape = [(rowDims L₁).prod * (rowDims L₂).prod, (colDims L₁).prod * (colDims L₂).prod] := by
    rw [hs, List.prod_append, List.prod_append]
  apply ext_mat hs' hs''
  intro i hi j hj
  rw [← List.prod_append] at hi hj
  obtain ⟨r1, r2, er, hr1, hr2⟩ := InB_split (unravel_inB hi)
  obtain ⟨c1, c2, ec, hc1, hc2⟩ := InB_split (unravel_inB hj)
  have ei : i = ravel (rowDims L₁) r1 * (rowDims L₂).prod + ravel (rowDims L₂) r2 := by
    rw [← ravel_append hr1.length, ← er, ravel_unravel hi]
  have ej : j = ravel (colDims L₁) c1 * (colDims L₂).prod + ravel (colDims L₂) c2 := by
    rw [← ravel_append hc1.length, ← ec, ravel_unravel hj]
  have hA := he' _ _ _ _ (ravel_lt hr1) (ravel_lt hr2) (ravel_lt hc1) (ravel_lt hc2)
  have hB := he _ _ ((InB_append hr1.length).2 ⟨hr1, hr2⟩) ((InB_append hc1.length).2 ⟨hc1, hc2⟩)
  rw [ravel_append hr1.length, ravel_append hc1.length] at hB
  rw [ei, ej, hA, hB, he₁ _ _ hr1 hc1, he₂ _ _ hr2 hc2,
    kronEntry_append (by rw [hr1.length]; simp) (by rw [hc1.length]; simp)]

/-- **C17** (mixed product): `kron([A,B]) · kron([C,D]) = kron([A·C, B·D])`. -/
theorem C17_kron_mixed_product [CommSemiring α] (A B C D : Tensor α) (m n r p q t : Nat)
    (hA : A.shape = [m, n]) (hC : C.shape = [n, r]) (hB : B.shape = [p, q]) (hD : D.shape = [q, t]) :
    ∃ KAB KCD AC BD K, kron [A, B] = .ok KAB ∧ kron [C, D] = .ok KCD ∧ tf.matmul A C = .ok AC ∧
      tf.matmul B D = .ok BD ∧ tf.matmul KAB KCD = .ok K ∧ kron [AC, BD] = .ok K := by
  refine ⟨_, _, _, _, _, kron2_eq hA hB, kron2_eq hC hD, tf.matmul_nn hA hC, tf.matmul_nn hB hD,
    tf.matmul_nn rfl rfl, ?_⟩
  rw [kron2_eq (m := m) (n := r) (p := p) (q := t) rfl rfl]
  congr 1
  apply ext_mat rfl rfl
  intro i hi j hj
  have hp : 0 < p := Nat.pos_of_mul_pos_left (Nat.lt_of_le_of_lt (Nat.zero_le _) hi)
  have ht : 0 < t := Nat.pos_of_mul_pos_left (Nat.lt_of_le_of_lt (Nat.zero_le _) hj)
  have hi' : i / p < m := by rwa [Nat.div_lt_iff_lt_mul hp]
  have hj' : j / t < r := by rwa [Nat.div_lt_iff_lt_mul ht]
  rw [at_mat _ hi hj, at_mat _ hi hj, at_mat _ hi' hj', at_mat _ (Nat.mod_lt _ hp) (Nat.mod_lt _ ht),
    Finset.sum_mul_sum, sum_range_mul]
  apply Finset.sum_congr rfl
  intro x hx
  apply Finset.sum_congr rfl
  intro y hy
  rw [Finset.mem_range] at hx hy
  rw [at_mat _ hi (digit_lt hx hy), at_mat _ (digit_lt hx hy) hj, digit_div hy, digit_mod hy]
  ring

/-- **C17** (transpose): `kron([A,B])ᵀ = kron([Aᵀ,Bᵀ])`. -/
theorem C17_kron_transpose [CommSemiring α] (A B : Tensor α) (m n p q : Nat)
    (hA : A.shape = [m, n]) (hB : B.shape = [p, q]) :
    ∃ K At Bt Kt, kron [A, B] = .ok K ∧ tf.transpose A [1, 0] = .ok At ∧ tf.transpose B [1, 0] = .ok Bt ∧
      tf.transpose K [1, 0] = .ok Kt ∧ kron [At, Bt] = .ok Kt := by
  have tr : ∀ {T : Tensor α} {a b : Nat}, T.shape = [a, b] →
      tf.transpose T [1, 0] = .ok (mat b a fun i j => T.at_ [j, i]) := by
    intro T a b h
    rw [tf.transpose_eq (by rw [order, h]; exact List.Perm.swap 0 1 [])]
    congr 1
    have : ([1, 0].map fun k => T.shape.getD k 0) = [b, a] := by rw [h]; rfl
    rw [this]
    apply ofFn_congr
    intro idx hidx
    obtain ⟨i, j, rfl, -, -⟩ := InB_pair.1 hidx
    rw [order, h]; rfl
  refine ⟨_, _, _, _, kron2_eq hA hB, tr hA, tr hB, tr rfl, ?_⟩
  rw [kron2_eq (m := n) (n := m) (p := q) (q := p) rfl rfl]
  congr 1
  apply ext_mat rfl rfl
  intro i hi j hj
  have hq : 0 < q := Nat.pos_of_mul_pos_left (Nat.lt_of_le_of_lt (Nat.zero_le _) hi)
  have hp : 0 < p := Nat.pos_of_mul_pos_left (Nat.lt_of_le_of_lt (Nat.zero_le _) hj)
  rw [at_mat _ hi hj, at_mat _ hi hj, at_mat _ hj hi,
    at_mat _ (by rwa [Nat.div_lt_iff_lt_mul hq]) (by rwa [Nat.div_lt_iff_lt_mul hp]),
    at_mat _ (Nat.mod_lt _ hq) (Nat.mod_lt _ hp)]

/-- Cases meeting the hypotheses. -/
example : AllMat [mat 2 3 fun i j => (i + 2 * j : Int), mat 1 2 fun i j => (i - j : Int)] := by
  intro M hM; simp at hM; rcases hM with rfl | rfl <;> rfl
example : ∃ K, kron [mat 2 2 fun i j => (i + 2 * j : Int), mat 2 1 fun i _ => (3 * i + 1 : Int)] = .ok K ∧
    K.data = [0, 2, 0, 8, 1, 3, 4, 12] := ⟨_, rfl, by decide⟩

end TD.Props
