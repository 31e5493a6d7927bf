import Mathlib.Algebra.Ring.Int.Defs
import Verif.Lemmas.TtmCount
import Verif.Lemmas.Negative

/-!
# C12 : more matrices than modes
-/
namespace TD.Props
open TD Tensor tf Spec ops
variable {α : Type}
/-- An axis that the tensor does not have never gives a result. -/
theorem ttm_out_of_range [CommSemiring α] (X : Tensor α) (ms : List (Tensor α)) (axis : List Nat) (tr : Bool) (i : Nat) (hi : i ∈ axis)
    (h : X.order ≤ i) : ∃ e, ttm X ms (some axis) tr = .error e := by
  simp only [ttm, Option.isSome_some, ne_eq, not_true_eq_false, and_false, if_false, Option.getD_some]
  cases he : ttmEq X.order axis tr with
  | error e => exact ⟨e, rfl⟩
  | ok eqn =>
    rw [← ttmEqZ_nat] at he
    have := (ttmEqZ_bounds he i (by simpa using hi)).2
    omega

/-- **C12**, too many matrices: if a matrix that is not skipped belongs to a mode the tensor does not have, both ways of writing raise. -/
theorem C12_too_many_raise [CommSemiring α] (X : Tensor α) (ms : List (Tensor α)) (tr : Bool) (s : Skip) (i : Nat) (hi : i < ms.length)
    (hk : keeps s i) (ho : X.order ≤ i) :
    (∃ e, ttm X ms none tr s = .error e) ∧
      ∃ e, ttm X (kept ms s) (some ((List.range ms.length).filter fun i => decide (keeps s i))) tr = .error e := by
  have hmem : ∀ i, s.mem i = !decide (keeps s i) := by
    intro i
    cases s with
    | none => rfl
    | int k => by_cases h : (i : Int) = k <;> simp [Skip.mem, keeps, h]
    | list l => by_cases h : (i : Int) ∈ l <;> simp [Skip.mem, keeps, h]
  have hax : i ∈ (List.range ms.length).filter fun i => decide (keeps s i) := by simp [hi, hk]
  refine ⟨?_, ttm_out_of_range _ _ _ _ i hax ho⟩
  have hlen : (kept ms s).length = ((List.range ms.length).filter fun i => decide (keeps s i)).length := by
    unfold kept
    have : ∀ l : List Nat, (∀ j ∈ l, j < ms.length) → (l.filterMap (ms[·]?)).length = l.length := by
      intro l
      induction l with
      | nil => intro _; rfl
      | cons a l ih =>
        intro h
        have ha := h a (by simp)
        rw [List.filterMap_cons, List.getElem?_eq_getElem ha]
        simp [ih fun j hj => h j (by simp [hj])]
    exact this _ fun j hj => by simp at hj; exact hj.1
  have hlt : ((List.range (min X.order ms.length)).filter fun i => !s.mem i).length < (kept ms s).length := by
    rw [hlen]
    simp only [hmem, Bool.not_not]
    have e : ms.length = min X.order ms.length + (ms.length - min X.order ms.length) := by omega
    rw [Nat.min_eq_left (by omega)]
    have e : ms.length = X.order + (ms.length - X.order) := by omega
    conv_rhs => rw [e, List.range_add, List.filter_append, List.length_append]
    refine Nat.lt_add_of_pos_right (List.length_pos_iff_exists_mem.2 ⟨i, ?_⟩)
    rw [List.mem_filter, List.mem_map]
    exact ⟨⟨i - X.order, by simp; omega, by omega⟩, by simpa using hk⟩
  have main : s ≠ .none → ttm X ms none tr s = ttm X (kept ms s) (some ((List.range (min X.order ms.length)).filter fun i => !s.mem i)) tr := by
    intro hs
    cases s with
    | none => exact absurd rfl hs
    | int k =>
      simp only [ttm, Option.isSome_none, Bool.false_eq_true, false_and, if_false, Option.getD_some,
        Option.isSome_some, ne_eq, not_true_eq_false, and_false]
      rw [skip_eq_kept]
    | list l =>
      simp only [ttm, Option.isSome_none, Bool.false_eq_true, false_and, if_false, Option.getD_some,
        Option.isSome_some, ne_eq, not_true_eq_false, and_false]
      rw [skip_eq_kept]
  by_cases hs : s = .none
  · subst hs
    exact ttm_out_of_range X ms (List.range ms.length) tr i (by simpa using hi) ho
  · rw [main hs]
    exact ⟨_, ttm_count X _ _ tr (fun j hj => by simp at hj; omega) hlt.ne⟩

/-- **C12**: as many matrices as axes, or `ValueError`; for tensors of every order and matrices of every size. -/
theorem C12_count_raises [CommSemiring α] (X : Tensor α) (ms : List (Tensor α)) (axis : List Nat) (tr : Bool)
    (hlt : ∀ i ∈ axis, i < X.order) (hc : axis.length ≠ ms.length) : ttm X ms (some axis) tr = .error .valueError :=
  ttm_count X ms axis tr hlt hc

/-- Three matrices for a tensor of order 2, the middle one skipped: the third has no mode. -/
example : keeps (.int 1) 2 ∧ (⟨[2, 2], [1, 2, 3, 4], rfl⟩ : Tensor Int).order ≤ 2 := by decide

/-- One matrix for two axes. -/
example : (∀ i ∈ [0, 1], i < (⟨[2, 2], [1, 2, 3, 4], rfl⟩ : Tensor Int).order) ∧ [0, 1].length ≠ 1 := by decide
end TD.Props
