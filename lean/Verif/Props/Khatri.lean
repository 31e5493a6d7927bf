import Mathlib.Algebra.Ring.Int.Defs
import Verif.Props.Kron

/-!
# C18, C19 : `khatri`
-/
namespace TD.Props
open TD Tensor Spec ops
variable {α : Type}

/-- **C18** (value): `L` is the list of kept matrices, reversed when `reverse=True`; all have `R`
columns. -/
theorem C18_khatri_entry [CommSemiring α] (ms : List (Tensor α)) (s : Skip) (rev : Bool) (R : Nat)
    (L : List (Tensor α)) (hL : L = if rev then (kept ms s).reverse else kept ms s)
    (hmat : AllMat L) (hR : ∀ M ∈ L, M.shape.getD 1 0 = R) (hne : L ≠ []) (hlen : L.length ≤ 25) :
    ∃ K, khatri ms s rev = .ok K ∧ K.shape = [(rowDims L).prod, R] ∧
      ∀ is r, InB (rowDims L) is → r < R → K.at_ [ravel (rowDims L) is, r] = khatriEntry r L is := by
  rw [khatri_reduce, skip_eq_kept, ← hL]
  exact khatri_core hmat hne hR hlen

/-- **C18** (domain): `khatri` returns exactly when between 1 and 25 matrices with a common column count
are kept; otherwise it raises. Lists that mix one-column matrices with wider ones are left out by `_h1`:
TensorFlow may broadcast a label of size 1, which the model of `einsum` does not do. -/
theorem C18_khatri_accepts_iff [CommSemiring α] (ms : List (Tensor α)) (s : Skip) (rev : Bool)
    (_h1 : (∀ M ∈ kept ms s, M.shape.getD 1 0 ≠ 1) ∨ ∀ M ∈ kept ms s, M.shape.getD 1 0 = 1) :
    (∃ K, khatri ms s rev = .ok K) ↔ kept ms s ≠ [] ∧ (kept ms s).length ≤ 25 ∧ AllMat (kept ms s) ∧
      ∃ R, ∀ M ∈ kept ms s, M.shape.getD 1 0 = R := by
  constructor
  · rintro ⟨K, h⟩
    rw [khatri_reduce, skip_eq_kept] at h
    cases rev with
    | false => exact khatri_ok_imp h
    | true =>
        obtain ⟨h1, h2, h3, R, h4⟩ := khatri_ok_imp h
        simp only [if_true] at h1 h2 h3 h4
        exact ⟨by simpa using h1, by simpa using h2, fun M hM => h3 M (by simpa using hM), R,
          fun M hM => h4 M (by simpa using hM)⟩
  · rintro ⟨h1, h2, h3, R, h4⟩
    have hm : ∀ M ∈ (if rev then (kept ms s).reverse else kept ms s), M ∈ kept ms s := by
      intro M hM; cases rev <;> simpa using hM
    obtain ⟨K, hK, -⟩ := C18_khatri_entry ms s rev R _ rfl (fun M hM => h3 M (hm M hM))
      (fun M hM => h4 M (hm M hM)) (by cases rev <;> simpa using h1) (by cases rev <;> simpa using h2)
    exact ⟨K, hK⟩

/-- **C18** (columns): column `r` of `khatri` is `kron` of the `r`-th columns (as long as `kron` accepts
that many matrices). -/
theorem C18_khatri_column [CommSemiring α] (L : List (Tensor α)) (R r : Nat) (hmat : AllMat L)
    (hR : ∀ M ∈ L, M.shape.getD 1 0 = R) (hne : L ≠ []) (hlen : L.length ≤ 13) (hr : r < R) :
    ∃ K C, khatri L = .ok K ∧
      kron (L.map fun M => mat (M.shape.getD 0 0) 1 fun i _ => M.at_ [i, r]) = .ok C ∧
      C.shape = [(rowDims L).prod, 1] ∧ ∀ i < (rowDims L).prod, K.at_ [i, r] = C.at_ [i, 0] := by
  obtain ⟨K, hK, -, hKe⟩ := khatri_core hmat hne hR (by omega)
  set cols := L.map fun M => mat (M.shape.getD 0 0) 1 fun i _ => M.at_ [i, r] with hcols
  obtain ⟨C, hC, hCs, hCe⟩ := kron_core (ms := cols) (by
    intro M hM
    obtain ⟨N, -, rfl⟩ := List.mem_map.1 hM
    rfl) (by simpa [hcols] using hne) (by simpa [hcols] using hlen)
  have h1 : rowDims cols = rowDims L := by
    simp only [rowDims, hcols, List.map_map]; rfl
  have h2 : colDims cols = L.map fun _ => 1 := by
    simp only [colDims, hcols, List.map_map]; rfl
  have h3 : (colDims cols).prod = 1 := by
    rw [h2]; simp
  refine ⟨K, C, hK, hC, by rw [hCs, h1, h3], fun i hi => ?_⟩
  have hz : InB (colDims cols) (L.map fun _ => 0) := by
    rw [h2, InB_iff_getElem]; simp
  have hz0 : ravel (colDims cols) (L.map fun _ => 0) = 0 := by
    have := ravel_lt hz; omega
  have a := hKe _ r (unravel_inB hi) hr
  have b := hCe _ _ (by rw [h1]; exact unravel_inB hi) hz
  rw [h1, hz0, ravel_unravel hi] at b
  rw [ravel_unravel hi] at a
  rw [a, b, hcols]
  have key : ∀ (L : List (Tensor α)) (is : List Nat), InB (rowDims L) is → khatriEntry r L is =
      kronEntry (L.map fun M => mat (M.shape.getD 0 0) 1 fun i _ => M.at_ [i, r]) is (L.map fun _ => 0) := by
    intro L
    induction L with
    | nil => intro is _; simp [khatriEntry, kronEntry]
    | cons M L ih =>
        intro is his
        cases is with
        | nil => simp [rowDims] at his
        | cons i is =>
            have his : i < M.shape.getD 0 0 ∧ InB (rowDims L) is := (InB_cons _ _ _ _).1 his
            simp only [List.map_cons, khatriEntry, kronEntry]
            rw [at_mat _ his.1 (by omega), ih is his.2]
  exact key L _ (unravel_inB hi)

/-- **C18** (limits). -/
theorem C18_khatri_limits [CommSemiring α] (ms : List (Tensor α)) (s : Skip) (rev : Bool)
    (h : kept ms s = [] ∨ 25 < (kept ms s).length) : khatri ms s rev = .error .valueError := by
  rw [khatri_reduce, skip_eq_kept]
  rcases h with h | h
  · rw [h]; cases rev <;> exact khatri_nil
  · apply khatri_too_many; cases rev <;> simpa using h

/-- **C19**: `KᵀK` of the Khatri-Rao product is the Hadamard product of the Gram matrices `AᵀA`, for the
same skip argument and either order. -/
theorem C19_gram [CommSemiring α] (ms : List (Tensor α)) (s : Skip) (rev : Bool) (R : Nat)
    (hmat : AllMat ms) (hR : ∀ M ∈ ms, M.shape.getD 1 0 = R) (hne : kept ms s ≠ [])
    (hlen : (kept ms s).length ≤ 25) :
    ∃ K G grams, khatri ms s rev = .ok K ∧ tf.matmul K K true false = .ok G ∧
      ms.mapM (fun A => tf.matmul A A true false) = .ok grams ∧ hadamard grams s = .ok G := by
  set L := if rev then (kept ms s).reverse else kept ms s with hL
  have hLp : L.Perm (kept ms s) := by
    rw [hL]; cases rev
    · exact List.Perm.refl _
    · exact List.reverse_perm _
  have hLm : ∀ M ∈ L, M ∈ ms := fun M hM => kept_sub (hLp.mem_iff.1 hM)
  obtain ⟨K, hK, hKs, hKe⟩ := C18_khatri_entry ms s rev R L hL (fun M hM => hmat M (hLm M hM))
    (fun M hM => hR M (hLm M hM)) (fun e => hne (by rw [e] at hLp; exact hLp.symm.eq_nil))
    (by rw [hLp.length_eq]; exact hlen)
  let gram : Tensor α → Tensor α := fun A => mat R R fun i j =>
    ∑ l ∈ Finset.range (A.shape.getD 0 0), A.at_ [l, i] * A.at_ [l, j]
  have hgram : ∀ A ∈ ms, tf.matmul A A true false = .ok (gram A) := by
    intro A hA
    have := hmat.shape_eq hA
    rw [hR A hA] at this
    exact tf.matmul_tn this this
  have hmapM : ∀ l : List (Tensor α), (∀ A ∈ l, A ∈ ms) →
      l.mapM (fun A => tf.matmul A A true false) = (.ok (l.map gram) : Res _) := by
    intro l
    induction l with
    | nil => intro _; rfl
    | cons A l ih =>
        intro h
        rw [List.mapM_cons, hgram A (h A (by simp)), ok_bind, ih (fun B hB => h B (by simp [hB]))]
        rfl
  refine ⟨K, _, ms.map gram, hK, tf.matmul_tn hKs hKs, hmapM ms (fun _ h => h), ?_⟩
  rw [hadamard_core (sh := [R, R]) (by rw [kept_map]; simpa using hne) (by
    intro M hM
    rw [kept_map] at hM
    obtain ⟨N, -, rfl⟩ := List.mem_map.1 hM
    rfl)]
  congr 1
  apply ext_mat rfl rfl
  intro i hi j hj
  rw [at_ofFn _ (InB_pair.2 ⟨i, j, rfl, hi, hj⟩), at_mat _ hi hj, kept_map, List.map_map]
  have e1 : ((kept ms s).map ((fun x : Tensor α => x.at_ [i, j]) ∘ gram)).prod =
      (L.map fun M => ∑ l ∈ Finset.range (M.shape.getD 0 0), M.at_ [l, i] * M.at_ [l, j]).prod := by
    rw [(hLp.map _).prod_eq]
    congr 1
    apply List.map_congr_left
    intro M _
    exact at_mat _ hi hj
  rw [e1, ← gram_boxSum, boxSum_eq_sum_range]
  apply Finset.sum_congr rfl
  intro k hk
  rw [Finset.mem_range] at hk
  have a := hKe _ i (unravel_inB hk) hi
  have b := hKe _ j (unravel_inB hk) hj
  rw [ravel_unravel hk] at a b
  rw [a, b]

/-- Cases meeting the hypotheses. -/
example : let ms : List (Tensor Int) := [mat 2 2 fun i j => i + j, mat 3 2 fun i j => i - j, mat 1 2 fun _ j => j]
    AllMat ms ∧ (∀ M ∈ ms, M.shape.getD 1 0 = 2) ∧ kept ms (.int 1) ≠ [] := by
  refine ⟨?_, by decide, by decide⟩
  intro M hM; simp at hM; rcases hM with rfl | rfl | rfl <;> rfl
example : ∃ K, khatri [mat 2 2 fun i j => (i + 2 * j : Int), mat 2 2 fun i j => (3 * i + j : Int)] = .ok K ∧
    K.data = [0, 2, 0, 8, 0, 3, 3, 12] := ⟨_, rfl, by decide⟩

end TD.Props
