import Verif.Lemmas.Kron
import Verif.Spec.Skip

namespace TD
open Spec Tensor tf
variable {α : Type}

theorem kept_append {β : Type} (ms : List β) (x : β) (s : ops.Skip) :
    kept (ms ++ [x]) s = kept ms s ++ (if keeps s ms.length then [x] else []) := by
  unfold kept
  rw [List.length_append, List.length_singleton, List.range_succ, List.filter_append,
    List.filterMap_append]
  congr 1
  · apply List.filterMap_congr
    intro i hi
    have : i < ms.length := by simpa using (List.mem_filter.1 hi).1
    rw [List.getElem?_append_left this]
  · by_cases h : keeps s ms.length <;> simp [h]

theorem skip_eq_kept {β : Type} (ms : List β) (s : ops.Skip) : ops.skip ms s = kept ms s := by
  induction ms using List.reverseRecOn with
  | nil => cases s <;> rfl
  | append_singleton ms x ih =>
      rw [kept_append, ← ih]
      cases s with
      | none => simp [ops.skip, keeps]
      | int k =>
          simp only [ops.skip, List.zipIdx_append, List.filter_append, List.map_append, keeps]
          congr 1
          by_cases h : (ms.length : Int) = k <;> simp [h]
      | list l =>
          simp only [ops.skip, List.zipIdx_append, List.filter_append, List.map_append, keeps]
          congr 1
          by_cases h : (ms.length : Int) ∈ l <;> simp [h]

theorem kept_map {β γ : Type} (f : β → γ) (ms : List β) (s : ops.Skip) :
    kept (ms.map f) s = (kept ms s).map f := by
  induction ms using List.reverseRecOn with
  | nil => rfl
  | append_singleton ms x ih =>
      rw [List.map_append, List.map_singleton, kept_append, kept_append, ih, List.length_map, List.map_append]
      congr 1
      split <;> rfl

theorem kept_sub {β : Type} {ms : List β} {s : ops.Skip} {x : β} (h : x ∈ kept ms s) : x ∈ ms := by
  unfold kept at h
  simp only [List.mem_filterMap] at h
  obtain ⟨i, -, hi⟩ := h
  exact List.mem_of_getElem? hi

@[simp] theorem kept_none {β : Type} (ms : List β) : kept ms .none = ms := by
  rw [← skip_eq_kept]; rfl

theorem kept_all {β : Type} {ms : List β} {s : ops.Skip} (h : ∀ i < ms.length, keeps s i) :
    kept ms s = ms := by
  induction ms using List.reverseRecOn with
  | nil => rfl
  | append_singleton ms x ih =>
      rw [kept_append, ih (fun i hi => h i (by simp; omega)), if_pos (h _ (by simp))]

theorem kept_int {β : Type} (ms : List β) (k : Nat) : kept ms (.int k) = ms.eraseIdx k := by
  induction ms using List.reverseRecOn with
  | nil => rfl
  | append_singleton ms x ih =>
      rw [kept_append, ih]
      rcases Nat.lt_trichotomy k ms.length with h | h | h
      · rw [List.eraseIdx_append_of_lt_length h, if_pos]
        simp only [keeps]; omega
      · subst h
        rw [if_neg (by simp [keeps]), List.eraseIdx_append_of_length_le (Nat.le_refl _)]
        simp [List.eraseIdx_of_length_le]
      · rw [List.eraseIdx_of_length_le (by omega), List.eraseIdx_of_length_le (by simp; omega), if_pos]
        simp only [keeps]; omega

namespace ops

theorem hadamard_foldlM [CommSemiring α] {sh : List Nat} : ∀ (ms : List (Tensor α)) (x : Tensor α),
    x.shape = sh → (∀ M ∈ ms, M.shape = sh) →
    ms.foldlM (tf.ewise (· * ·)) x =
      (.ok (ofFn sh fun i => x.at_ i * (ms.map (·.at_ i)).prod) : Res (Tensor α))
  | [], x, hx, _ => by
      simp only [List.foldlM_nil, List.map_nil, List.prod_nil, mul_one]
      rw [← hx, ofFn_at]; rfl
  | M :: ms, x, hx, h => by
      rw [List.foldlM_cons, tf.ewise_same _ (hx.trans (h M (by simp)).symm), ok_bind,
        hadamard_foldlM ms _ (by simpa using hx) (fun N hN => h N (by simp [hN]))]
      congr 1
      apply ofFn_congr
      intro i hi
      rw [at_ofFn _ (by rw [hx]; exact hi), List.map_cons, List.prod_cons, mul_assoc]

theorem hadamard_core [CommSemiring α] {ms : List (Tensor α)} {s : Skip} {sh : List Nat}
    (hne : kept ms s ≠ []) (h : ∀ M ∈ kept ms s, M.shape = sh) :
    hadamard ms s = .ok (ofFn sh fun i => ((kept ms s).map (·.at_ i)).prod) := by
  unfold hadamard
  rw [skip_eq_kept]
  cases hk : kept ms s with
  | nil => exact absurd hk hne
  | cons x xs =>
      rw [hk] at h
      simp only [pyReduce]
      rw [hadamard_foldlM xs x (h x (by simp)) (fun N hN => h N (by simp [hN]))]
      simp

end ops
end TD
