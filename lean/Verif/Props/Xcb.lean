import Mathlib.Algebra.Ring.Int.Defs
import Verif.Lemmas.Xcb

/-!
# C20 : `xcb`
-/
namespace TD.Props
open TD Tensor Spec ops
variable {α : Type}

/-- **C20**: `xcb(X, C, B)` is the product of the mode-0 unfolding with `khatri([C, B])`. -/
theorem C20_xcb [CommSemiring α] [DecidableEq α] (X C B X0 : Tensor α) (I J K R : Nat)
    (hX0 : unfold X 0 = .ok X0) (hs : X0.shape = [I, K * J]) (hC : C.shape = [K, R])
    (hB : B.shape = [J, R]) (hR : 0 < R) :
    ∃ P Y, khatri [C, B] = .ok P ∧ tf.matmul X0 P = .ok Y ∧ xcb X C B = .ok Y := by
  obtain ⟨P, hP, hPs, hPe⟩ := khatri_core (ms := [C, B]) (R := R) (by
    intro M hM
    simp only [List.mem_cons, List.not_mem_nil, or_false] at hM
    rcases hM with rfl | rfl <;> simp [hC, hB]) (by simp) (by
    intro M hM
    simp only [List.mem_cons, List.not_mem_nil, or_false] at hM
    rcases hM with rfl | rfl <;> simp [hC, hB]) (by simp)
  have hrow : rowDims [C, B] = [K, J] := by simp [rowDims, hC, hB]
  rw [hrow] at hPs hPe
  have hPs' : P.shape = [K * J, R] := by rw [hPs]; simp
  refine ⟨P, _, hP, tf.matmul_nn hs hPs', ?_⟩
  obtain ⟨S, hS, hSs, hSe⟩ := stack_cols (I := I) hR (fun i r =>
    ∑ c ∈ Finset.range (K * J), X0.at_ [i, c] * (C.at_ [c / J, r] * B.at_ [c % J, r]))
  unfold xcb
  rw [hX0, ok_bind, show dimOf X0 0 = .ok I from by simp [dimOf, hs], ok_bind,
    show dimOf B 0 = .ok J from by simp [dimOf, hB], ok_bind,
    show dimOf C 0 = .ok K from by simp [dimOf, hC], ok_bind,
    show dimOf C 1 = .ok R from by simp [dimOf, hC], ok_bind]
  simp only
  rw [mapM_ok (fun r hr => xcb_column hs hC hB (by simpa using hr)), ok_bind, hS, ok_bind]
  have hl : S.data.length = [I, R].prod := by rw [S.wf, hSs]; simp
  refine (tf.reshape_nat hl).trans ?_
  congr 1
  apply ext_mat (m := I) (n := R) rfl rfl
  intro i hi r hr
  rw [at_mat _ hi hr, tf.at_reshaped S (idx := [i, r, 0]) hl (by rw [hSs]; simp [ravel]), hSe i hi r hr]
  apply Finset.sum_congr rfl
  intro c hc
  rw [Finset.mem_range] at hc
  have hJ : 0 < J := Nat.pos_of_mul_pos_left (Nat.lt_of_le_of_lt (Nat.zero_le _) hc)
  have := hPe [c / J, c % J] r (by simp [Nat.div_lt_iff_lt_mul hJ, hc, Nat.mod_lt _ hJ]) hr
  rw [ravel_pair, Nat.mul_comm, Nat.div_add_mod] at this
  rw [this]
  simp [khatriEntry]

/-- A case meeting the hypotheses, with zero entries in `X`. -/
example : ∃ X0, unfold (ofFn [2, 2, 3] fun i => ((i.getD 0 0 * i.getD 2 0 : Nat) : Int)) 0 = .ok X0 ∧
    X0.shape = [2, 3 * 2] := ⟨_, rfl, rfl⟩

end TD.Props
