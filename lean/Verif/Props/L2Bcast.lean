import Verif.Props.DTensor
import Verif.Props.Loss
import Mathlib.Tactic.IntervalCases

/-!
# C169 : `l2` on tensors of different shapes
-/
namespace TD.Props
open TD Spec Tensor loss

/-- **C169**: `l2` returns exactly for shapes that broadcast, and its value is half the squared distance of the two
tensors stretched to the common shape. -/
theorem C169_l2 (f h : Tensor ℝ) :
    (∀ s, Bcast f.shape h.shape s → ∃ y, l2 f h = .ok y ∧
      y = 1 / 2 * boxSum s fun i => (f.at_ (alignIdx f.shape i) - h.at_ (alignIdx h.shape i)) ^ 2) ∧
    ((¬ ∃ s, Bcast f.shape h.shape s) → l2 f h = .error .invalidArgument) := by
  obtain ⟨h1, h2⟩ := tf.ewise_spec (· - ·) f h
  refine ⟨fun s hs => ?_, fun hn => by unfold l2; rw [h2 hn]; rfl⟩
  obtain ⟨C, hC, hC1, hC2⟩ := h1 s hs
  refine ⟨_, by unfold l2; rw [hC]; rfl, ?_⟩
  rw [reduceSum_map, hC1]
  exact congrArg _ (boxSum_congr fun i hi => by rw [hC2 i hi])

/-- **C169**: it is 0 exactly if the stretched tensors agree. -/
theorem C169_zero (f h : Tensor ℝ) (s : List Nat) (hs : Bcast f.shape h.shape s) :
    l2 f h = .ok 0 ↔ ∀ i, InB s i → f.at_ (alignIdx f.shape i) = h.at_ (alignIdx h.shape i) := by
  obtain ⟨y, e, hy⟩ := (C169_l2 f h).1 s hs
  rw [e, Except.ok.injEq, hy, mul_eq_zero_iff_left (by norm_num), boxSum_eq_zero s fun i _ => sq_nonneg _]
  exact forall₂_congr fun i _ => by rw [sq_eq_zero_iff, sub_eq_zero]

/-- **C169** (the usual slip): for a column of shape `[m, 1]` and a vector of shape `[n]` all `m · n` pairs are compared. -/
theorem C169_column (f h : Tensor ℝ) (m n : Nat) (hf : f.shape = [m, 1]) (hh : h.shape = [n]) :
    ∃ y, l2 f h = .ok y ∧
      y = 1 / 2 * ∑ i ∈ Finset.range m, ∑ j ∈ Finset.range n, (f.at_ [i, 0] - h.at_ [j]) ^ 2 := by
  have hb : Bcast f.shape h.shape [m, n] := by
    rw [hf, hh]
    refine ⟨rfl, fun k hk => ?_⟩
    have hk : k < 2 := hk
    interval_cases k
    · right; left; exact ⟨rfl, rfl⟩
    · right; right; exact ⟨rfl, rfl⟩
  obtain ⟨y, e, hy⟩ := (C169_l2 f h).1 _ hb
  refine ⟨y, e, hy.trans (congrArg _ ?_)⟩
  rw [boxSum_pair]
  refine Finset.sum_congr rfl fun i hi => Finset.sum_congr rfl fun j hj => ?_
  rw [hf, hh]
  have hi := Finset.mem_range.1 hi
  have hj := Finset.mem_range.1 hj
  have a1 : alignIdx [m, 1] [i, j] = [i, 0] := by
    have : alignIdx [m, 1] [i, j] = [if m = 1 then 0 else i, 0] := rfl
    rw [this]; split_ifs with h1
    · rw [show i = 0 by omega]
    · rfl
  have a2 : alignIdx [n] [i, j] = [j] := by
    have : alignIdx [n] [i, j] = [if n = 1 then 0 else j] := rfl
    rw [this]; split_ifs with h1
    · rw [show j = 0 by omega]
    · rfl
  rw [a1, a2]

/-- **C169**: so a column that holds the very numbers of the vector has `l2` 0 only if these numbers are all equal. -/
theorem C169_column_self (h : Tensor ℝ) (n : Nat) (hh : h.shape = [n]) :
    l2 (mat n 1 fun i _ => h.at_ [i]) h = .ok 0 ↔ ∀ i < n, ∀ j < n, h.at_ [i] = h.at_ [j] := by
  obtain ⟨y, e, hy⟩ := C169_column (mat n 1 fun i _ => h.at_ [i]) h n n rfl hh
  rw [e, Except.ok.injEq, hy, mul_eq_zero_iff_left (by norm_num),
    Finset.sum_eq_zero_iff_of_nonneg fun i _ => Finset.sum_nonneg fun j _ => sq_nonneg _]
  refine ⟨fun hz i hi j hj => ?_, fun hz i hi => Finset.sum_eq_zero fun j hj => ?_⟩
  · have := (Finset.sum_eq_zero_iff_of_nonneg fun j _ => sq_nonneg _).1 (hz i (Finset.mem_range.2 hi)) j (Finset.mem_range.2 hj)
    rw [at_mat _ hi (by omega)] at this
    exact sub_eq_zero.1 (sq_eq_zero_iff.1 this)
  · have hi := Finset.mem_range.1 hi
    rw [at_mat _ hi (by omega), hz i hi j (Finset.mem_range.1 hj), sub_self, zero_pow two_ne_zero]

/-- **C169**: tensors of different shapes can be at `l2` 0, so `l2` separates tensors of one shape only. -/
theorem C169_not_separating : ∃ f h : Tensor ℝ, f ≠ h ∧ l2 f h = .ok 0 := by
  refine ⟨mat 2 1 fun _ _ => 3, ⟨[2], [3, 3], rfl⟩, fun e => ?_, ?_⟩
  · have := congrArg Tensor.shape e
    cases this
  · have := (C169_column_self ⟨[2], [3, 3], rfl⟩ 2 rfl).2 fun i hi j hj => by
      interval_cases i <;> interval_cases j <;> rfl
    rw [← this]
    congr 1

/-- A case of each kind: `[2,3]` with `[3]` is compared, `[2,3]` with `[2]` refused. -/
example : (∃ y, l2 (mat 2 3 fun i j => (i : ℝ) + j) ⟨[3], [1, 2, 3], rfl⟩ = .ok y) ∧
    l2 (mat 2 3 fun i j => (i : ℝ) + j) ⟨[2], [1, 2], rfl⟩ = .error .invalidArgument :=
  ⟨⟨_, rfl⟩, rfl⟩

end TD.Props
