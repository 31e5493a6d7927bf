import Mathlib.Algebra.Ring.Int.Defs
import Verif.Lemmas.Ewise

/-!
# C14 : `inner`
-/
namespace TD.Props
open TD Tensor Spec ops
variable {α : Type}

/-- **C14** (value). -/
theorem C14_inner_value [NonUnitalNonAssocSemiring α] (A B : Tensor α) (h : A.shape = B.shape) :
    inner A B = .ok (boxSum A.shape fun i => A.at_ i * B.at_ i) := inner_same h

/-- **C14** (shape check). -/
theorem C14_inner_shape_check [NonUnitalNonAssocSemiring α] (A B : Tensor α) (h : A.shape ≠ B.shape) :
    inner A B = .error .valueError := by
  unfold inner; rw [if_pos h]

/-- **C14** (symmetry, also of the error). -/
theorem C14_inner_comm [NonUnitalCommSemiring α] (A B : Tensor α) : inner A B = inner B A := by
  by_cases h : A.shape = B.shape
  · rw [inner_same h, inner_same h.symm, ← h]
    simp only [mul_comm]
  · rw [C14_inner_shape_check A B h, C14_inner_shape_check B A (Ne.symm h)]

/-- **C14** (bilinearity): `inner(x*A + y*B, C) = x*inner(A,C) + y*inner(B,C)`, where the combination
is any tensor `D` with the combined entries. -/
theorem C14_inner_linear [CommSemiring α] (A B C D : Tensor α) (x y : α) (hB : A.shape = B.shape)
    (hC : A.shape = C.shape) (hD : A.shape = D.shape)
    (hcomb : ∀ i, InB A.shape i → D.at_ i = x * A.at_ i + y * B.at_ i) :
    ∃ a b d, inner A C = .ok a ∧ inner B C = .ok b ∧ inner D C = .ok d ∧ d = x * a + y * b := by
  refine ⟨_, _, _, inner_same hC, inner_same (hB.symm.trans hC), inner_same (hD.symm.trans hC), ?_⟩
  rw [← hD, ← hB, ← boxSum_mul_left, ← boxSum_mul_left, ← boxSum_add]
  apply boxSum_congr
  intro i hi
  rw [hcomb i hi]; ring

/-- **C14** (unfolding preserves inner products, hence norms). -/
theorem C14_inner_unfold [NonUnitalNonAssocSemiring α] (A B MA MB : Tensor α) (n : Nat)
    (h : A.shape = B.shape) (hA : unfold A n = .ok MA) (hB : unfold B n = .ok MB) :
    inner MA MB = inner A B := by
  have hn : n < A.order ∧ 0 < A.shape.getD n 0 := by
    by_cases hn : n < A.order
    · refine ⟨hn, ?_⟩
      by_contra h0
      have h0 : A.shape.getD n 0 = 0 := by omega
      unfold ops.unfold at hA
      rw [genPerm_ok hn, ok_bind] at hA
      obtain ⟨r, hr, -⟩ := tf.transpose_spec (genPerm_perm hn)
      rw [hr, ok_bind, Int.toNat_natCast, h0, tf.reshape_infer_zero] at hA
      cases hA
    · unfold ops.unfold at hA
      rw [genPerm_error (Or.inr (by omega))] at hA
      cases hA
  set P : Tensor α := ofFn A.shape fun i => A.at_ i * B.at_ i with hP
  obtain ⟨MA', hMA', hsA, heA⟩ := unfold_spec A hn.1 hn.2
  obtain ⟨MB', hMB', hsB, heB⟩ := unfold_spec B (n := n) (by simpa [order, h] using hn.1)
    (by rw [← h]; exact hn.2)
  obtain ⟨MP, hMP, hsP, heP⟩ := unfold_spec P (n := n) hn.1 hn.2
  rw [hA] at hMA'; rw [hB] at hMB'
  simp only [Except.ok.injEq] at hMA' hMB'
  subst hMA'; subst hMB'
  have hss : MA.shape = MB.shape := by rw [hsA, hsB, h]
  rw [inner_same h, inner_same hss]
  have h1 := unfold_sum hMP
  congr 1
  have hR : boxSum A.shape (fun i => A.at_ i * B.at_ i) = boxSum P.shape P.at_ := by
    apply boxSum_congr
    intro i hi
    rw [hP, at_ofFn _ hi]
  rw [hR, ← h1, hsP, show P.shape = A.shape from rfl, ← hsA]
  apply boxSum_congr
  intro ij hij
  -- every cell comes from an index
  have : ∃ idx, InB A.shape idx ∧ ij = [idx.getD n 0, koldaCol A.shape idx n] := by
    rw [hsA, InB_pair] at hij
    obtain ⟨i, j, rfl, hi, hj⟩ := hij
    obtain ⟨idx, ⟨h1, h2, h3⟩, -⟩ := kolda_bijective A.shape n hn.1 i j hi hj
    exact ⟨idx, h1, by rw [h2, h3]⟩
  obtain ⟨idx, hidx, rfl⟩ := this
  rw [(heA idx hidx).2.2, h, (heB idx (h ▸ hidx)).2.2, ← h]
  have := (heP idx hidx).2.2
  rw [hP, at_ofFn _ hidx] at this
  simp only [shape_ofFn] at this
  rw [this]

example : ∃ A B : Tensor Int, A.shape = B.shape ∧ A ≠ B ∧ (∃ M, unfold A ((1 : Nat) : Int) = .ok M) := by
  refine ⟨Tensor.ofFn [2, 3] (fun i => (ravel [2, 3] i : Int)), Tensor.ofFn [2, 3] (fun _ => 1), rfl,
    by decide, ?_⟩
  obtain ⟨M, hM, -⟩ := unfold_spec (Tensor.ofFn [2, 3] (fun i => (ravel [2, 3] i : Int))) (n := 1)
    (by decide) (by decide)
  exact ⟨M, hM⟩

end TD.Props
