import Mathlib.Algebra.BigOperators.Ring.Finset
import Verif.Lemmas.Unfold
import Verif.Spec.Contract

namespace TD
open Spec Tensor
variable {α : Type}

theorem sum_range_mul [AddCommMonoid α] (n p : Nat) (f : Nat → α) :
    ∑ k ∈ Finset.range (n * p), f k = ∑ i ∈ Finset.range n, ∑ j ∈ Finset.range p, f (i * p + j) := by
  induction n with
  | zero => simp
  | succ n ih => rw [Nat.succ_mul, Finset.sum_range_add, ih, Finset.sum_range_succ]

theorem boxSum_eq_sum_range [AddCommMonoid α] (s : List Nat) (f : List Nat → α) :
    boxSum s f = ∑ k ∈ Finset.range s.prod, f (unravel s k) := by
  induction s generalizing f with
  | nil => simp [boxSum, unravel, one_nsmul]
  | cons n s ih =>
      simp only [boxSum, List.prod_cons, ih]
      rw [sum_range_mul]
      apply Finset.sum_congr rfl
      intro i _
      apply Finset.sum_congr rfl
      intro j hj
      have hj : j < s.prod := by simpa using hj
      have hpos : 0 < s.prod := by omega
      simp only [unravel]
      rw [show i * s.prod + j = j + s.prod * i by ring, Nat.add_mul_div_left _ _ hpos,
        Nat.div_eq_of_lt hj, Nat.add_mul_mod_self_left, Nat.mod_eq_of_lt hj]
      simp

theorem sum_range_eq_list [AddCommMonoid α] (n : Nat) (g : Nat → α) :
    ∑ k ∈ Finset.range n, g k = ((List.range n).map g).sum := by
  induction n with
  | zero => simp
  | succ n ih => rw [Finset.sum_range_succ, List.range_succ, ih]; simp

theorem boxSum_eq_list_sum [AddCommMonoid α] (s : List Nat) (f : List Nat → α) :
    boxSum s f = ((indices s).map f).sum := by
  rw [boxSum_eq_sum_range, indices_eq_map_unravel, List.map_map, sum_range_eq_list]
  rfl

theorem sum_data [AddCommMonoid α] (t : Tensor α) : t.data.sum = boxSum t.shape t.at_ := by
  rw [boxSum_eq_list_sum, ← data_eq]

theorem boxSum_congr [AddCommMonoid α] {s : List Nat} {f g : List Nat → α}
    (h : ∀ idx, InB s idx → f idx = g idx) : boxSum s f = boxSum s g := by
  rw [boxSum_eq_sum_range, boxSum_eq_sum_range]
  apply Finset.sum_congr rfl
  intro k hk
  exact h _ (unravel_inB (by simpa using hk))

namespace ops

theorem dimsAt_ok {shape l : List Nat} (h : ∀ i ∈ l, i < shape.length) :
    dimsAt shape l = .ok (l.map fun k => shape.getD k 0) := by
  induction l with
  | nil => rfl
  | cons a l ih =>
      have ha : a < shape.length := h a (by simp)
      have ih' := ih (fun i hi => h i (by simp [hi]))
      unfold dimsAt at ih' ⊢
      rw [List.mapM_cons, ih', List.getElem?_eq_getElem ha]
      simp only [List.map_cons, List.getD_eq_getElem _ _ ha]
      rfl

theorem dimsAt_error {shape l : List Nat} (h : ∃ i ∈ l, shape.length ≤ i) :
    dimsAt shape l = .error .indexError := by
  induction l with
  | nil => simp at h
  | cons a l ih =>
      by_cases ha : a < shape.length
      · have ih' := ih (by
          obtain ⟨i, hi, hi'⟩ := h
          rcases List.mem_cons.1 hi with rfl | hi
          · omega
          · exact ⟨i, hi, hi'⟩)
        unfold dimsAt at ih' ⊢
        rw [List.mapM_cons, ih', List.getElem?_eq_getElem ha]
        rfl
      · unfold dimsAt
        rw [List.mapM_cons, List.getElem?_eq_none (by omega)]
        rfl

/-- The common tail of `t2mat` (lines 162-164): transpose and reshape. -/
theorem t2mat_core [Zero α] (X : Tensor α) (rl cl : List Nat)
    (hp : (rl ++ cl).Perm (List.range X.order)) :
    ∃ M, (do
        let cd ← dimsAt X.shape cl
        let tr ← tf.transpose X (rl ++ cl)
        tf.reshape tr [(((rl.map fun k => X.shape.getD k 0).prod : Nat) : Int), ((cd.prod : Nat) : Int)] :
          Res (Tensor α)) = .ok M ∧
      M.shape = [axesSize X.shape rl, axesSize X.shape cl] ∧
      ∀ idx, InB X.shape idx → axesRank X.shape idx rl < axesSize X.shape rl ∧
        axesRank X.shape idx cl < axesSize X.shape cl ∧
        M.at_ [axesRank X.shape idx rl, axesRank X.shape idx cl] = X.at_ idx := by
  obtain ⟨r, hr, hrs, hra⟩ := tf.transpose_spec hp
  have hlen : r.data.length = [axesSize X.shape rl, axesSize X.shape cl].prod := by
    rw [r.wf, hrs, List.map_append, List.prod_append]
    simp only [axesSize, List.prod_cons, List.prod_nil, mul_one]
  refine ⟨⟨[axesSize X.shape rl, axesSize X.shape cl], r.data, hlen⟩, ?_, rfl, ?_⟩
  · rw [dimsAt_ok (fun i hi => by
      have := hp.mem_iff.1 (List.mem_append_right rl hi); simpa [order] using this), hr]
    exact tf.reshape_nat hlen
  · intro idx hidx
    obtain ⟨hb, ha⟩ := hra idx hidx
    rw [hrs, List.map_append, List.map_append, InB_append (by simp)] at hb
    refine ⟨?_, ?_, ?_⟩
    · have := ravel_lt hb.1; rwa [ravel_map] at this
    · have := ravel_lt hb.2; rwa [ravel_map] at this
    · rw [← ha]
      apply tf.at_reshaped
      rw [hrs, ravel_pair, List.map_append, List.map_append, ravel_append (by simp), ravel_map,
        ravel_map]
      rfl

/-- `t2mat` on int/list row axes and list column axes. -/
theorem t2mat_list_eq [Zero α] (X : Tensor α) (rl cl : List Nat) (h : ∀ i ∈ rl, i < X.order) :
    t2mat X (.list rl) (.ax (.list cl)) = (do
        let cd ← dimsAt X.shape cl
        let tr ← tf.transpose X (rl ++ cl)
        tf.reshape tr [(((rl.map fun k => X.shape.getD k 0).prod : Nat) : Int), ((cd.prod : Nat) : Int)] :
          Res (Tensor α)) := by
  unfold t2mat t2matSt
  simp only [dimsAt_ok h]

theorem t2mat_int_eq [Zero α] (X : Tensor α) (i : Nat) (c : Axis) :
    t2mat X (.int i) (.ax c) = t2mat X (.list [i]) (.ax c) := by
  unfold t2mat t2matSt
  cases c <;> dsimp only <;> (cases dimsAt X.shape [i] <;> rfl)

theorem t2mat_cint_eq [Zero α] (X : Tensor α) (l : List Nat) (k : Nat) :
    t2mat X (.list l) (.ax (.int k)) = t2mat X (.list l) (.ax (.list [k])) := by
  unfold t2mat t2matSt
  dsimp only
  cases dimsAt X.shape l <;> rfl

theorem t2mat_tuple_eq [Zero α] (X : Tensor α) (l k : List Nat) :
    t2mat X (.tuple l) (.ax (.tuple k)) = t2mat X (.list l) (.ax (.list k)) := by
  unfold t2mat t2matSt
  dsimp only
  cases dimsAt X.shape l <;> rfl

theorem t2mat_rest_eq [Zero α] (X : Tensor α) (l : List Nat) :
    t2mat X (.list l) .rest = t2mat X (.list l) (.ax (.list (freeAxes X.order l))) := by
  unfold t2mat t2matSt
  dsimp only
  cases dimsAt X.shape l <;> rfl

theorem freeAxes_perm {N : Nat} {l : List Nat} (hnd : l.Nodup) (h : ∀ i ∈ l, i < N) :
    (l ++ freeAxes N l).Perm (List.range N) := by
  rw [List.perm_ext_iff_of_nodup]
  · intro a
    simp only [freeAxes, List.mem_append, List.mem_filter, List.mem_range, decide_eq_true_eq]
    constructor
    · rintro (h1 | h1)
      · exact h a h1
      · exact h1.1
    · intro h1
      by_cases ha : a ∈ l
      · exact Or.inl ha
      · exact Or.inr ⟨h1, ha⟩
  · rw [List.nodup_append']
    refine ⟨hnd, List.nodup_range.filter _, ?_⟩
    intro a ha hb
    simp only [freeAxes, List.mem_filter, decide_eq_true_eq] at hb
    exact hb.2 ha
  · exact List.nodup_range

end ops
end TD
