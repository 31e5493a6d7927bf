import Mathlib.Algebra.Ring.Int.Defs
import Verif.Lemmas.EinsumMerge
import Verif.Lemmas.Skip
import Verif.Props.Ttm

/-!
# C170 : naming a mode twice in `axis`
-/
namespace TD.Props
open TD Tensor tf Spec ops
variable {α : Type}

/-- **C170**: two matrices for the same mode act like their Hadamard product, for every order up to 26, every further matrices and
axes, conformable or not. -/
theorem C170_repeat [CommSemiring α] (X A B : Tensor α) (ms : List (Tensor α)) (n : Nat) (axis : List Nat) (tr : Bool)
    (hN : X.order ≤ 26) (hn : n < X.order) (hlt : ∀ i ∈ axis, i < X.order) (hlen : ms.length = axis.length)
    (hs : A.shape = B.shape) :
    ∃ H, hadamard [A, B] = .ok H ∧
      ttm X (A :: B :: ms) (some (n :: n :: axis)) tr = ttm X (H :: ms) (some (n :: axis)) tr := by
  refine ⟨ofFn A.shape fun i => A.at_ i * B.at_ i, ?_, ?_⟩
  · have hk : kept [A, B] .none = [A, B] := (skip_eq_kept (ms := [A, B]) (s := .none)).symm
    rw [hadamard_core (ms := [A, B]) (s := .none) (sh := A.shape) (by rw [hk]; simp) (by rw [hk]; simp [hs]), hk]
    simp
  · obtain ⟨ps, rfl, rfl⟩ : ∃ ps : List (Nat × Tensor α), axis = ps.map Prod.fst ∧ ms = ps.map Prod.snd :=
      ⟨axis.zip ms, by rw [List.map_fst_zip (by omega)], by rw [List.map_snd_zip (by omega)]⟩
    have hp : ∀ p ∈ ps, p.1 < X.order := fun p hp => hlt _ (List.mem_map_of_mem hp)
    have e1 := ttm_einsumL X ((n, A) :: (n, B) :: ps) tr (by simp) hN (by simpa using ⟨hn, fun a b h => hp (a, b) h⟩)
    have e2 := ttm_einsumL X ((n, ofFn A.shape fun i => A.at_ i * B.at_ i) :: ps) tr (by simp) hN
      (by simpa using ⟨hn, fun a b h => hp (a, b) h⟩)
    simp only [List.map_cons] at e1 e2
    rw [e1, e2]
    have := einsumL_merge (q := ((List.range X.order).map fun i => letter (26 - X.order + i), X))
      (ps := ps.map fun p => (if tr then [letter (26 - X.order + p.1), letter p.1] else [letter p.1, letter (26 - X.order + p.1)], p.2))
      (w := if tr then [letter (26 - X.order + n), letter n] else [letter n, letter (26 - X.order + n)])
      (out := (List.range X.order).map fun k => if k ∈ n :: ps.map Prod.fst then letter k else letter (26 - X.order + k)) hs
    simp only [List.map_cons] at this
    rw [← this]
    simp only [List.mem_cons, or_self_left]

/-- **C170**: any number of matrices, all for the mode `n`. -/
theorem C170_all [CommSemiring α] (X : Tensor α) (ms : List (Tensor α)) (n : Nat) (tr : Bool) (sh : List Nat)
    (hN : X.order ≤ 26) (hn : n < X.order) (hne : ms ≠ []) (hs : ∀ M ∈ ms, M.shape = sh) :
    ∃ H, hadamard ms = .ok H ∧ ttm X ms (some (ms.map fun _ => n)) tr = ttm X [H] (some [n]) tr := by
  cases ms with
  | nil => exact absurd rfl hne
  | cons A ms =>
    clear hne
    induction ms generalizing A with
    | nil => exact ⟨A, rfl, rfl⟩
    | cons B ms ih =>
      obtain ⟨H, h1, h2⟩ := C170_repeat X A B ms n (ms.map fun _ => n) tr hN hn (fun i hi => by
        obtain ⟨_, -, rfl⟩ := List.mem_map.1 hi; exact hn) (by simp) ((hs A (by simp)).trans (hs B (by simp)).symm)
      have hk : hadamard (A :: B :: ms) = hadamard (H :: ms) := by
        have h : tf.ewise (· * ·) A B = .ok H := by
          have : hadamard [A, B] = (tf.ewise (· * ·) A B >>= fun x => .ok x) := rfl
          rw [this] at h1
          cases he : tf.ewise (· * ·) A B with
          | error e => rw [he] at h1; cases h1
          | ok K => rw [he] at h1; exact h1
        change (tf.ewise (· * ·) A B >>= fun x => ms.foldlM (tf.ewise (· * ·)) x) = _
        rw [h]
        rfl
      have hH : H.shape = sh := by
        have hkk : kept [A, B] .none = [A, B] := (skip_eq_kept (ms := [A, B]) (s := .none)).symm
        rw [hadamard_core (ms := [A, B]) (s := .none) (sh := sh) (by rw [hkk]; simp)
          (by rw [hkk]; intro M hM; exact hs M (by simp at hM ⊢; tauto))] at h1
        cases h1
        rfl
      obtain ⟨K, h3, h4⟩ := ih H fun M hM => by
        rcases List.mem_cons.1 hM with rfl | hM
        · exact hH
        · exact hs M (by simp [hM])
      exact ⟨K, by rw [hk, h3], by simpa only [List.map_cons] using h2.trans h4⟩

/-- **C170** (entries, for a tensor of order at most 13). -/
theorem C170_entry [CommSemiring α] (X A B : Tensor α) (n J : Nat) (hN : X.order ≤ 13) (hn : n < X.order)
    (hA : A.shape = [J, X.shape.getD n 0]) (hB : B.shape = [J, X.shape.getD n 0]) :
    ∃ Y, ttm X [A, B] (some [n, n]) = .ok Y ∧ Y.shape = X.shape.set n J ∧ ∀ idx, InB Y.shape idx → Y.at_ idx =
      ∑ k ∈ Finset.range (X.shape.getD n 0), A.at_ [idx.getD n 0, k] * B.at_ [idx.getD n 0, k] * X.at_ (idx.set n k) := by
  obtain ⟨H, h1, h2⟩ := C170_repeat X A B [] n [] false (by omega) hn (by simp) rfl (hA.trans hB.symm)
  have hk : kept [A, B] .none = [A, B] := (skip_eq_kept (ms := [A, B]) (s := .none)).symm
  rw [hadamard_core (ms := [A, B]) (s := .none) (sh := [J, X.shape.getD n 0]) (by rw [hk]; simp) (by rw [hk]; simp [hA, hB]), hk] at h1
  cases h1
  obtain ⟨Y, h3, h4, h5⟩ := C10_ttm_single X (ofFn [J, X.shape.getD n 0] fun i => ([A, B].map (·.at_ i)).prod) n J hN hn rfl
  refine ⟨Y, h2.trans h3, h4, fun idx hi => ?_⟩
  rw [h5 idx hi]
  refine Finset.sum_congr rfl fun k hk => ?_
  rw [h4] at hi
  have hl : n < (X.shape.set n J).length := by simpa [Tensor.order] using hn
  have hi' := (InB_iff_getElem.1 hi)
  have := hi'.2 n (by rw [hi'.1]; exact hl) hl
  rw [List.getElem_set_self] at this
  rw [at_ofFn _ (InB_pair.2 ⟨_, _, rfl, by rw [List.getD_eq_getElem _ _ (by rw [hi'.1]; exact hl)]; exact this, Finset.mem_range.1 hk⟩)]
  simp

/-- **C170**: this is not the product with one matrix after the other. -/
theorem C170_not_successive : ∃ (X A B Y Z W : Tensor Int), ttm X [A, B] (some [0, 0]) = .ok Y ∧ ttm X [A] (some [0]) = .ok Z ∧
    ttm Z [B] (some [0]) = .ok W ∧ Y.shape = W.shape ∧ Y ≠ W :=
  ⟨⟨[2, 1], [1, 0], rfl⟩, ⟨[2, 2], [0, 1, 1, 0], rfl⟩, ⟨[2, 2], [0, 1, 1, 0], rfl⟩, ⟨[2, 1], [0, 1], rfl⟩, ⟨[2, 1], [0, 1], rfl⟩,
    ⟨[2, 1], [1, 0], rfl⟩, by decide +kernel, by decide +kernel, by decide +kernel, rfl, by decide⟩

/-- Three matrices of size 2 x 3, the first two for the mode of size 3. -/
example : ∃ Y, ttm (⟨[2, 3], [1, 2, 3, 4, 5, 6], rfl⟩ : Tensor Int)
    [⟨[2, 3], [1, 0, 2, 1, 1, 1], rfl⟩, ⟨[2, 3], [1, 5, 1, 0, 2, 1], rfl⟩, ⟨[1, 2], [1, 1], rfl⟩] (some [1, 1, 0]) = .ok Y ∧
    Y = ⟨[1, 2], [23, 23], rfl⟩ := ⟨_, by decide +kernel, rfl⟩

end TD.Props
