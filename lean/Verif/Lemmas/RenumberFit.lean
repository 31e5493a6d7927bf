import Verif.Lemmas.Renumber
import Verif.Lemmas.NTucker

/-! # Renumbering and the least squares problems of a mode -/
namespace TD
open Spec Tensor tf ops Matrix

/-! ### Columns of the unfolding -/
section cols
variable {shape : List Nat} {σ : Nat → Nat → Nat} {n : Nat}

/-- The column of the unfolding a renumbering moves column `j` to. -/
def colPerm (shape : List Nat) (n : Nat) (σ : Nat → Nat → Nat) (j : Nat) : Nat :=
  koldaCol shape ((unkolda shape n 0 j).mapIdx σ) n

theorem koldaCol_congr {i j : List Nat} (h : ∀ k < shape.length, k ≠ n → i.getD k 0 = j.getD k 0) :
    koldaCol shape i n = koldaCol shape j n := by
  unfold koldaCol
  refine Finset.sum_congr rfl fun k hk => ?_
  rw [Finset.mem_erase, Finset.mem_range] at hk
  rw [h k hk.2 hk.1]

theorem koldaCol_lt {i : List Nat} (h : InB shape i) : koldaCol shape i n < otherSize shape n := by
  rw [koldaCol_eq_ravel n h.length, otherSize_eq_prod]
  exact ravel_lt (InB_reverse (InB_eraseIdx h n))

theorem unkolda_off (i i' j : Nat) {k : Nat} (hk : k ≠ n) :
    (unkolda shape n i j).getD k 0 = (unkolda shape n i' j).getD k 0 := by
  unfold unkolda
  simp only [List.getD_eq_getElem?_getD]
  rw [List.getElem?_insertIdx, List.getElem?_insertIdx]
  split
  · rfl
  · simp

theorem mapIdx_unkolda (h : Renumbering shape σ) (hn : n < shape.length) {i j : Nat} (hi : i < shape.getD n 0)
    (hj : j < otherSize shape n) :
    (unkolda shape n i j).mapIdx σ = unkolda shape n (σ n i) (colPerm shape n σ j) := by
  obtain ⟨h1, h2, h3⟩ := unkolda_spec hn hi hj
  have hb := h.inB h1
  rw [← unkolda_eq hn hb, mapIdx_getD σ (by rw [h1.length]; exact hn), h2]
  congr 1
  refine koldaCol_congr fun k hk hkn => ?_
  have l0 : k < (unkolda shape n 0 j).length := by rw [(unkolda_facts hn 0 j).1]; exact hk
  rw [mapIdx_getD σ (by rw [h1.length]; exact hk), mapIdx_getD σ l0, unkolda_off i 0 j hkn]

theorem colPerm_lt (h : Renumbering shape σ) (hn : n < shape.length) (hpos : 0 < shape.getD n 0) {j : Nat}
    (hj : j < otherSize shape n) : colPerm shape n σ j < otherSize shape n :=
  koldaCol_lt (h.inB (unkolda_spec hn hpos hj).1)

theorem colPerm_inj (h : Renumbering shape σ) (hn : n < shape.length) (hpos : 0 < shape.getD n 0) {j j' : Nat}
    (hj : j < otherSize shape n) (hj' : j' < otherSize shape n) (e : colPerm shape n σ j = colPerm shape n σ j') :
    j = j' := by
  have h1 := mapIdx_unkolda h hn hpos hj
  have h2 := mapIdx_unkolda h hn hpos hj'
  rw [e, ← h2] at h1
  have := h.eq_of (unkolda_spec hn hpos hj).1 (unkolda_spec hn hpos hj').1 h1
  rw [← (unkolda_spec hn hpos hj).2.2, this, (unkolda_spec hn hpos hj').2.2]

theorem bijOn_of_inj {d : Nat} {f : Nat → Nat} (h1 : ∀ i < d, f i < d) (h2 : ∀ i < d, ∀ j < d, f i = f j → i = j) :
    Set.BijOn f (Set.Iio d) (Set.Iio d) := by
  have hi : Set.InjOn f (Set.Iio d) := fun i hi j hj e => h2 i hi j hj e
  refine ⟨fun i hi => h1 i hi, hi, ?_⟩
  have := Finset.surjOn_of_injOn_of_card_le (s := Finset.range d) (t := Finset.range d) f (fun i hi => by
    simpa using h1 i (by simpa using hi)) (by simpa using hi) le_rfl
  simpa using this

theorem colPerm_bij (h : Renumbering shape σ) (hn : n < shape.length) (hpos : 0 < shape.getD n 0) :
    Set.BijOn (colPerm shape n σ) (Set.Iio (otherSize shape n)) (Set.Iio (otherSize shape n)) :=
  bijOn_of_inj (fun _ hj => colPerm_lt h hn hpos hj) fun _ hj _ hj' => colPerm_inj h hn hpos hj hj'

end cols

/-! ### Products with renumbered rows -/

theorem matmul_tn_renum {A B : Tensor ℝ} {I R Q : Nat} (hA : A.shape = [I, R]) (hB : B.shape = [I, Q]) {π : Nat → Nat}
    (h : Set.BijOn π (Set.Iio I) (Set.Iio I)) :
    matmul (renumRows π A) (renumRows π B) true false = matmul A B true false := by
  rw [matmul_tn (by exact hA) (by exact hB), matmul_tn hA hB]
  congr 1
  refine ext_mat rfl rfl fun p hp q hq => ?_
  rw [at_mat _ hp hq, at_mat _ hp hq, ← sum_renum h fun i => A.at_ [i, p] * B.at_ [i, q]]
  refine Finset.sum_congr rfl fun i hi => ?_
  rw [at_renumRows π hA (Finset.mem_range.1 hi) hp, at_renumRows π hB (Finset.mem_range.1 hi) hq]

theorem matmul_nn_renum {A B : Tensor ℝ} {I R Q : Nat} (hA : A.shape = [I, R]) (hB : B.shape = [R, Q]) {π : Nat → Nat}
    (h : Set.BijOn π (Set.Iio I) (Set.Iio I)) : matmul (renumRows π A) B = renumRows π <$> matmul A B := by
  rw [matmul_nn (by exact hA) hB, matmul_nn hA hB]
  show Except.ok _ = Except.ok _
  congr 1
  refine ext_mat rfl rfl fun p hp q hq => ?_
  rw [at_mat _ hp hq, at_renumRows π (shape_mat _ _ _) hp hq, at_mat _ (h.mapsTo hp) hq]
  refine Finset.sum_congr rfl fun r hr => ?_
  rw [at_renumRows π hA hp (Finset.mem_range.1 hr)]

/-- Renumbered columns on the left and rows on the right cancel. -/
theorem matmul_cancel {M K M' K' : Tensor ℝ} {I J R : Nat} {π τ : Nat → Nat} (hM : M.shape = [I, J]) (hK : K.shape = [J, R])
    (hM' : M'.shape = [I, J]) (hK' : K'.shape = [J, R]) (hπ : Set.BijOn π (Set.Iio I) (Set.Iio I))
    (hτ : Set.BijOn τ (Set.Iio J) (Set.Iio J)) (eM : ∀ i < I, ∀ j < J, M'.at_ [i, j] = M.at_ [π i, τ j])
    (eK : ∀ j < J, ∀ r < R, K'.at_ [j, r] = K.at_ [τ j, r]) : matmul M' K' = renumRows π <$> matmul M K := by
  rw [matmul_nn hM' hK', matmul_nn hM hK]
  show Except.ok _ = Except.ok _
  congr 1
  refine ext_mat rfl rfl fun p hp q hq => ?_
  rw [at_mat _ hp hq, at_renumRows π (shape_mat _ _ _) hp hq, at_mat _ (hπ.mapsTo hp) hq,
    ← sum_renum hτ fun j => M.at_ [π p, j] * K.at_ [j, q]]
  refine Finset.sum_congr rfl fun j hj => ?_
  rw [eM p hp j (Finset.mem_range.1 hj), eK j (Finset.mem_range.1 hj) q hq]

/-- The same for `M Kᵀ`. -/
theorem matmul_nt_cancel {M K M' K' : Tensor ℝ} {I J R : Nat} {π τ : Nat → Nat} (hM : M.shape = [I, J])
    (hK : K.shape = [R, J]) (hM' : M'.shape = [I, J]) (hK' : K'.shape = [R, J]) (hπ : Set.BijOn π (Set.Iio I) (Set.Iio I))
    (hτ : Set.BijOn τ (Set.Iio J) (Set.Iio J)) (eM : ∀ i < I, ∀ j < J, M'.at_ [i, j] = M.at_ [π i, τ j])
    (eK : ∀ r < R, ∀ j < J, K'.at_ [r, j] = K.at_ [r, τ j]) :
    matmul M' K' false true = renumRows π <$> matmul M K false true := by
  rw [matmul_nt hM' hK', matmul_nt hM hK]
  show Except.ok _ = Except.ok _
  congr 1
  refine ext_mat rfl rfl fun p hp q hq => ?_
  rw [at_mat _ hp hq, at_renumRows π (shape_mat _ _ _) hp hq, at_mat _ (hπ.mapsTo hp) hq,
    ← sum_renum hτ fun j => M.at_ [π p, j] * K.at_ [q, j]]
  refine Finset.sum_congr rfl fun j hj => ?_
  rw [eM p hp j (Finset.mem_range.1 hj), eK q hq j (Finset.mem_range.1 hj)]

theorem renumRows_id {A : Tensor ℝ} {m n : Nat} (hA : A.shape = [m, n]) : renumRows id A = A :=
  ext_mat hA hA fun i hi j hj => by rw [at_renumRows _ hA hi hj]; rfl

/-! ### Entries of products of factors -/

theorem khatriEntry_renum {R r : Nat} (hr : r < R) : ∀ {shape : List Nat} {U : List (Tensor ℝ)} {σ : Nat → Nat → Nat}
    {i : List Nat}, FactorsFor shape R U → InB shape i →
    khatriEntry r (renumFactors σ U) i = khatriEntry r U (i.mapIdx σ)
  | [], [], _, _, _, _ => rfl
  | [], _ :: _, _, _, h, _ => by cases h
  | _ :: _, [], _, _, h, _ => by cases h
  | d :: shape, A :: U, σ, i, h, hi => by
      cases i with
      | nil => rw [renumFactors_cons]; rfl
      | cons a i =>
          rw [InB_cons] at hi
          have hA : A.shape = [d, R] := (List.cons.inj h).1
          have hU : FactorsFor shape R U := (List.cons.inj h).2
          rw [renumFactors_cons, List.mapIdx_cons, khatriEntry, khatriEntry, at_renumRows _ hA hi.1 hr,
            khatriEntry_renum hr hU hi.2]

theorem kronEntry_renum : ∀ {U : List (Tensor ℝ)} {σ : Nat → Nat → Nat} {i j : List Nat}, AllMat U → InB (rowDims U) i →
    InB (colDims U) j → kronEntry (renumFactors σ U) i j = kronEntry U (i.mapIdx σ) j
  | [], _, _, _, _, _, _ => by simp [renumFactors, kronEntry]
  | A :: U, σ, i, j, hm, hi, hj => by
      cases i with
      | nil => rw [renumFactors_cons]; rfl
      | cons a i =>
          cases j with
          | nil => rw [renumFactors_cons, List.mapIdx_cons]; rfl
          | cons b j =>
              have hi2 : InB (A.shape.getD 0 0 :: rowDims U) (a :: i) := hi
              have hj2 : InB (A.shape.getD 1 0 :: colDims U) (b :: j) := hj
              rw [InB_cons] at hi2 hj2
              rw [renumFactors_cons, List.mapIdx_cons, kronEntry, kronEntry,
                at_renumRows _ (hm.shape_eq (M := A) (by simp)) hi2.1 hj2.1,
                kronEntry_renum (fun M hM => hm M (by simp [hM])) hi2.2 hj2.2]

theorem Spec.FactorsFor.renum {shape : List Nat} {R : Nat} {U : List (Tensor ℝ)} (h : FactorsFor shape R U)
    (σ : Nat → Nat → Nat) : FactorsFor shape R (renumFactors σ U) := by
  unfold FactorsFor
  rw [map_shape_renumFactors]
  exact h

/-- The Khatri-Rao product of the renumbered factors of the other modes has its rows renumbered like the columns of the
unfolding. -/
theorem khatri_renum {shape : List Nat} {σ : Nat → Nat → Nat} {R n : Nat} {U : List (Tensor ℝ)} (hσ : Renumbering shape σ)
    (hU : FactorsFor shape R U) (h2 : 2 ≤ shape.length) (h25 : shape.length ≤ 25) (hn : n < shape.length)
    (hpos : 0 < shape.getD n 0) :
    ∃ K K', khatri U (.int n) true = .ok K ∧ khatri (renumFactors σ U) (.int n) true = .ok K' ∧
      K.shape = [otherSize shape n, R] ∧ K'.shape = [otherSize shape n, R] ∧
      ∀ j < otherSize shape n, ∀ r < R, K'.at_ [j, r] = K.at_ [colPerm shape n σ j, r] := by
  have hU' := hU.renum σ
  obtain ⟨K, hK, hs, he⟩ := khatri_skip_reverse (n := n) hU.allMat hU.cols (by rw [hU.length]; omega)
    (by rw [hU.length]; exact hn) (by rw [hU.length]; exact h2)
  obtain ⟨K', hK', hs', he'⟩ := khatri_skip_reverse (n := n) hU'.allMat hU'.cols (by rw [hU'.length]; omega)
    (by rw [hU'.length]; exact hn) (by rw [hU'.length]; exact h2)
  rw [hU.rowDims, ← otherSize_eq_prod] at hs
  rw [hU'.rowDims, ← otherSize_eq_prod] at hs'
  refine ⟨K, K', hK, hK', hs, hs', fun j hj r hr => ?_⟩
  rw [hU.rowDims] at he
  rw [hU'.rowDims] at he'
  obtain ⟨h1, h3, h4⟩ := unkolda_spec hn hpos hj
  have hb := hσ.inB h1
  have e1 : koldaCol shape ((unkolda shape n 0 j).mapIdx σ) n = colPerm shape n σ j := rfl
  have k1 := he' _ r h1 hr
  have k2 := he _ r hb hr
  rw [← koldaCol_eq_ravel n h1.length, h4] at k1
  rw [← koldaCol_eq_ravel n hb.length, e1] at k2
  rw [k1, k2]
  set W : Tensor ℝ := mat (shape.getD n 0) R fun _ _ => 1 with hW
  have hV := hU.set (n := n) (B := W) rfl
  have a1 := khatriEntry_renum (σ := σ) hr hV h1
  have g1 : (renumFactors σ (U.set n W))[n]? = some (renumRows (σ n) W) := by
    rw [getElem?_renumFactors, List.getElem?_set_self (by rw [hU.length]; exact hn)]; rfl
  have g2 : (U.set n W)[n]? = some W := List.getElem?_set_self (by rw [hU.length]; exact hn)
  rw [khatriEntry_eraseIdx r (n := n) (by rw [h1.length, (hV.renum σ).length]) g1,
    khatriEntry_eraseIdx r (n := n) (by rw [hb.length, hV.length]) g2, h3, at_renumRows _ (shape_mat _ _ _) hpos hr,
    mapIdx_getD σ (by rw [h1.length]; exact hn), h3, hW, at_mat _ (hσ.lt hn hpos) hr, renumFactors_set,
    eraseIdx_set_self, eraseIdx_set_self, one_mul, one_mul] at a1
  exact a1

end TD
