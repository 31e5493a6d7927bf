import Verif.Lemmas.ModeProd
import Verif.Lemmas.EinsumPerm
import Verif.Lemmas.KronLaws

/-!
# `ttm` with a number of matrices other than the number of axes
-/
namespace TD.ops
open TD Tensor tf Spec
variable {α : Type}

theorem ttmEq_nil_parse {N : Nat} (hN : N ≤ 26) (tr : Bool) : ∃ eqn, ttmEq N [] tr = .ok eqn ∧ tf.parseEq eqn = none := by
  unfold ttmEq
  simp only
  rw [mapM_ok (g := fun i => tf.letter (26 - N + i)) (by
    intro i hi; exact chr_tensor hN (by simpa using hi))]
  refine ⟨_, rfl, ?_⟩
  have hl : ∀ w ∈ ([(List.range N).map fun i => tf.letter (26 - N + i), []] : List (List Char)),
      '-' ∉ w ∧ ',' ∉ w := by
    intro w hw
    simp only [List.mem_cons, List.not_mem_nil, or_false] at hw
    rcases hw with rfl | rfl
    · constructor
      · rw [List.mem_map]; rintro ⟨i, -, e⟩; exact (letter_ne_sep _).1 e
      · rw [List.mem_map]; rintro ⟨i, -, e⟩; exact (letter_ne_sep _).2 e
    · simp
  have he : ∀ (w out : List Char), w ++ ',' :: joinComma [] ++ '-' :: '>' :: out =
      joinComma [w, []] ++ '-' :: '>' :: out := fun w out => rfl
  rw [List.reverse_nil, he]
  unfold tf.parseEq
  rw [tf.splitArrow_append (tf.not_mem_join (by decide) fun w hw => (hl w hw).1)]
  simp only [tf.splitAll_join (ws := [(List.range N).map fun i => tf.letter (26 - N + i), []])
    (by simp) (fun w hw => (hl w hw).2)]
  simp

/-- A number of matrices other than the number of axes raises. -/
theorem ttm_count [CommSemiring α] (X : Tensor α) (ms : List (Tensor α)) (axis : List Nat) (tr : Bool)
    (hlt : ∀ i ∈ axis, i < X.order) (hc : axis.length ≠ ms.length) : ttm X ms (some axis) tr = .error .valueError := by
  by_cases hN : 26 < X.order
  · exact ttm_large X ms axis tr hN hlt
  push Not at hN
  simp only [ttm, Option.isSome_some, ne_eq, not_true_eq_false, and_false, if_false, Option.getD_some]
  by_cases hne : axis = []
  · subst hne
    obtain ⟨eqn, h1, h2⟩ := ttmEq_nil_parse hN tr
    rw [h1, ok_bind]
    unfold einsum
    rw [h2]
  rw [ttmEq_ok hne hN hlt, ok_bind, einsum_eq]
  · refine einsumL_error fun h => hc ?_
    have := h.1
    simpa using this
  · simp
  · intro w hw
    rcases List.mem_cons.1 hw with rfl | hw
    · obtain ⟨p, hp⟩ := List.exists_mem_of_ne_nil axis hne
      have := hlt p hp
      simp only [ne_eq, List.map_eq_nil_iff, List.range_eq_nil]; omega
    · obtain ⟨i, hi, rfl⟩ := List.mem_map.1 hw
      cases tr <;> simp
  · intro w hw c hc
    rcases List.mem_cons.1 hw with rfl | hw
    · obtain ⟨i, hi, rfl⟩ := List.mem_map.1 hc
      have := List.mem_range.1 hi
      exact letter_isLabel _ (by omega)
    · obtain ⟨i, hi, rfl⟩ := List.mem_map.1 hw
      have := hlt i hi
      cases tr <;> simp only [if_true, Bool.false_eq_true, if_false, List.mem_cons, List.not_mem_nil, or_false] at hc <;>
        rcases hc with rfl | rfl <;> exact letter_isLabel _ (by omega)
  · intro c hc
    obtain ⟨k, hk, rfl⟩ := List.mem_map.1 hc
    have := List.mem_range.1 hk
    split <;> exact letter_isLabel _ (by omega)

end TD.ops
