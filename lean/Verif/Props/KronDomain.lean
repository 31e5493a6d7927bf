import Verif.Props.Khatri

/-!
# C16, C18 : which lists `kron` and `khatri` accept, and what they raise otherwise
-/
namespace TD.Props
open TD Tensor Spec ops tf
variable {α : Type}

theorem kron_not_mat [CommSemiring α] {ms : List (Tensor α)} (hne : ms ≠ []) (hle : ms.length ≤ 13) (h : ¬ AllMat ms) :
    kron ms = .error .valueError := by
  have : tf.einsum (kronEq ms.length) ms = .error .valueError := by
    rw [kronEq_eq, List.zipWith_map, List.zipWith_self, einsum_eq, einsumL_error]
    · intro hok
      refine h fun M hM => ?_
      obtain ⟨i, hi, rfl⟩ := List.mem_iff_getElem.1 hM
      have := hok.2.1 ([letter (2 * i), letter (2 * i + 1)], ms[i].shape) (by
        rw [List.mem_iff_getElem]
        exact ⟨i, by simpa using hi, by simp⟩)
      simpa using this.symm
    · simp only [ne_eq, List.map_eq_nil_iff, List.range_eq_nil, List.length_eq_zero_iff]
      exact hne
    · intro w hw
      obtain ⟨i, -, rfl⟩ := List.mem_map.1 hw
      simp
    · intro w hw c hc
      obtain ⟨i, hi, rfl⟩ := List.mem_map.1 hw
      simp only [List.mem_cons, List.not_mem_nil, or_false, List.mem_range] at hc hi
      rcases hc with rfl | rfl <;> exact letter_isLabel _ (by omega)
    · intro c hc
      simp only [List.mem_append, List.mem_map, List.mem_range] at hc
      rcases hc with ⟨i, hi, rfl⟩ | ⟨i, hi, rfl⟩ <;> exact letter_isLabel _ (by omega)
  simp only [kron, skip, Bool.false_eq_true, if_false, this, error_bind]

/-- **C16** (domain): `kron` returns exactly when between 1 and 13 tensors are kept and all are matrices, and raises `ValueError`
otherwise. -/
theorem C16_kron_accepts_iff [CommSemiring α] (ms : List (Tensor α)) (s : Skip) (rev : Bool) :
    ((∃ K, kron ms s rev = .ok K) ↔ kept ms s ≠ [] ∧ (kept ms s).length ≤ 13 ∧ AllMat (kept ms s)) ∧
      ∀ e, kron ms s rev = .error e → e = .valueError := by
  have hmem : ∀ M, M ∈ (if rev then (kept ms s).reverse else kept ms s) ↔ M ∈ kept ms s := by
    intro M; cases rev <;> simp
  by_cases h : kept ms s ≠ [] ∧ (kept ms s).length ≤ 13 ∧ AllMat (kept ms s)
  · obtain ⟨K, hK, -⟩ := C16_kron_entry ms s rev _ rfl (fun M hM => h.2.2 M ((hmem M).1 hM))
      (by cases rev <;> simpa using h.1) (by cases rev <;> simpa using h.2.1)
    refine ⟨⟨fun _ => h, fun _ => ⟨K, hK⟩⟩, fun e he => ?_⟩
    rw [hK] at he; cases he
  · have herr : kron ms s rev = .error .valueError := by
      by_cases h1 : kept ms s = [] ∨ 13 < (kept ms s).length
      · exact C16_kron_limits ms s rev h1
      · have h1' : kept ms s ≠ [] := fun e => h1 (Or.inl e)
        have h2' : (kept ms s).length ≤ 13 := Nat.le_of_not_lt fun e => h1 (Or.inr e)
        rw [kron_reduce, skip_eq_kept]
        refine kron_not_mat (by cases rev <;> simpa using h1') (by cases rev <;> simpa using h2') fun ha => ?_
        exact h ⟨h1', h2', fun M hM => ha M ((hmem M).2 hM)⟩
    refine ⟨⟨fun ⟨K, hK⟩ => ?_, fun hh => absurd hh h⟩, fun e he => ?_⟩
    · rw [herr] at hK; cases hK
    · rw [herr] at he; cases he; rfl

/-- Both sides occur: a matrix and a vector. -/
example : (∃ K, kron [(⟨[2, 1], [3, 4], rfl⟩ : Tensor Int)] = .ok K) ∧
    kron [(⟨[2, 1], [3, 4], rfl⟩ : Tensor Int), ⟨[2], [3, 4], rfl⟩] = .error .valueError := ⟨⟨_, rfl⟩, rfl⟩

end TD.Props
