import Verif.Spec.AlsOne
import Verif.Lemmas.Ncp

/-! # One component: the vectors of the modes up to scale -/
namespace TD
open Spec Tensor tf ops Matrix

/-- The two families of vectors point in the same directions. -/
def Parallel (shape : List Nat) (v w : Nat → Nat → ℝ) : Prop :=
  ∃ c : Nat → ℝ, (∀ k < shape.length, c k ≠ 0) ∧ ∀ k < shape.length, ∀ a < shape.getD k 0, v k a = c k * w k a

theorem Parallel.refl (shape : List Nat) (v : Nat → Nat → ℝ) : Parallel shape v v :=
  ⟨fun _ => 1, fun _ _ => one_ne_zero, fun _ _ _ _ => (one_mul _).symm⟩

theorem sliceSum_congr {s : List Nat} {n a : Nat} {f g : List Nat → ℝ} (h : ∀ i, InB s i → i.getD n 0 = a → f i = g i) :
    sliceSum s n a f = sliceSum s n a g := by
  refine boxSum_congr fun i hi => ?_
  split
  · exact h i hi ‹_›
  · rfl

theorem sliceSum_mul (s : List Nat) (n a : Nat) (c : ℝ) (f : List Nat → ℝ) :
    sliceSum s n a (fun i => c * f i) = c * sliceSum s n a f := by
  unfold sliceSum
  rw [← boxSum_mul_left]
  refine boxSum_congr fun i _ => ?_
  split
  · rfl
  · rw [mul_zero]

theorem restEntry_par {shape : List Nat} {v w : Nat → Nat → ℝ} {c : Nat → ℝ}
    (h : ∀ k < shape.length, ∀ a < shape.getD k 0, v k a = c k * w k a) (n : Nat) {i : List Nat} (hi : InB shape i) :
    restEntry shape.length v n i = (∏ k ∈ (Finset.range shape.length).erase n, c k) * restEntry shape.length w n i := by
  unfold restEntry
  rw [← Finset.prod_mul_distrib]
  refine Finset.prod_congr rfl fun k hk => ?_
  have hk' := Finset.mem_range.1 (Finset.mem_of_mem_erase hk)
  exact h k hk' _ ((InB_iff_getD.1 hi).2 k hk')

/-- The best vector does not depend on the scales, up to a scale. -/
theorem bestVec_par {X : Tensor ℝ} {v w : Nat → Nat → ℝ} {c : Nat → ℝ}
    (h : ∀ k < X.order, ∀ a < X.shape.getD k 0, v k a = c k * w k a) {n : Nat}
    (hc : ∀ k < X.order, k ≠ n → c k ≠ 0) (a : Nat) :
    bestVec X v n a = (∏ k ∈ (Finset.range X.order).erase n, c k)⁻¹ * bestVec X w n a := by
  set C := ∏ k ∈ (Finset.range X.order).erase n, c k with hC
  have hC0 : C ≠ 0 := Finset.prod_ne_zero_iff.2 fun k hk => by
    rw [Finset.mem_erase, Finset.mem_range] at hk
    exact hc k hk.2 hk.1
  unfold bestVec
  have e1 : sliceSum X.shape n a (fun i => X.at_ i * restEntry X.order v n i) =
      C * sliceSum X.shape n a fun i => X.at_ i * restEntry X.order w n i := by
    rw [← sliceSum_mul]
    refine sliceSum_congr fun i hi _ => ?_
    rw [show restEntry X.order v n i = C * restEntry X.order w n i from restEntry_par h n hi]
    ring
  have e2 : sliceSum X.shape n a (fun i => restEntry X.order v n i ^ 2) =
      C ^ 2 * sliceSum X.shape n a fun i => restEntry X.order w n i ^ 2 := by
    rw [← sliceSum_mul]
    refine sliceSum_congr fun i hi _ => ?_
    rw [show restEntry X.order v n i = C * restEntry X.order w n i from restEntry_par h n hi]
    ring
  rw [e1, e2, pow_two, mul_assoc, mul_div_mul_left _ _ hC0, div_mul_eq_div_div_swap]
  ring

theorem outerEntry_split {N : Nat} (v : Nat → Nat → ℝ) {n : Nat} (hn : n < N) (i : List Nat) :
    outerEntry N v i = v n (i.getD n 0) * restEntry N v n i :=
  (Finset.mul_prod_erase _ _ (Finset.mem_range.2 hn)).symm

theorem restEntry_update (N : Nat) (v : Nat → Nat → ℝ) (n : Nat) (u : Nat → ℝ) (i : List Nat) :
    restEntry N (Function.update v n u) n i = restEntry N v n i :=
  Finset.prod_congr rfl fun k hk => by rw [Function.update_of_ne (Finset.ne_of_mem_erase hk)]

/-- The fitted outer product does not depend on the scales. -/
theorem outerEntry_refit_par {X : Tensor ℝ} {v w : Nat → Nat → ℝ} (h : Parallel X.shape v w) {n : Nat} (hn : n < X.order)
    {i : List Nat} (hi : InB X.shape i) :
    outerEntry X.order (refit X v n) i = outerEntry X.order (refit X w n) i := by
  obtain ⟨c, hc, he⟩ := h
  rw [outerEntry_split _ hn, outerEntry_split _ hn]
  unfold refit
  rw [restEntry_update, restEntry_update, Function.update_self, Function.update_self,
    bestVec_par he (fun k hk _ => hc k hk), show restEntry X.order v n i = _ from restEntry_par he n hi]
  have : (∏ k ∈ (Finset.range X.order).erase n, c k) ≠ 0 :=
    Finset.prod_ne_zero_iff.2 fun k hk => hc k (Finset.mem_range.1 (Finset.mem_of_mem_erase hk))
  change _ * ((∏ k ∈ (Finset.range X.order).erase n, c k) * _) = _
  field_simp
  rfl

/-- Replacing the vector of mode `n` by a multiple of the best one. -/
theorem Parallel.refit {X : Tensor ℝ} {v v' w : Nat → Nat → ℝ} (h : Parallel X.shape v w) {n : Nat} {d : ℝ} (hd : d ≠ 0)
    (hn : ∀ a < X.shape.getD n 0, v' n a = d * bestVec X v n a)
    (ho : ∀ k < X.order, k ≠ n → ∀ a < X.shape.getD k 0, v' k a = v k a) : Parallel X.shape v' (refit X w n) := by
  obtain ⟨c, hc, he⟩ := h
  have hC : (∏ k ∈ (Finset.range X.order).erase n, c k) ≠ 0 :=
    Finset.prod_ne_zero_iff.2 fun k hk => hc k (Finset.mem_range.1 (Finset.mem_of_mem_erase hk))
  refine ⟨Function.update c n (d * (∏ k ∈ (Finset.range X.order).erase n, c k)⁻¹), fun k hk => ?_, fun k hk a ha => ?_⟩
  · by_cases e : k = n
    · subst e; rw [Function.update_self]; exact mul_ne_zero hd (inv_ne_zero hC)
    · rw [Function.update_of_ne e]; exact hc k hk
  · unfold Spec.refit
    by_cases e : k = n
    · subst e
      rw [Function.update_self, Function.update_self, hn a ha, bestVec_par he (fun k hk _ => hc k hk), mul_assoc]
    · rw [Function.update_of_ne e, Function.update_of_ne e, ho k hk e a ha, he k hk a ha]

/-! ### Columns of factors -/

theorem firstCol_get {A : List (Tensor ℝ)} {k : Nat} {M : Tensor ℝ} (h : A[k]? = some M) (a : Nat) :
    firstCol A k a = M.at_ [a, 0] := by
  unfold firstCol; rw [h]; rfl

theorem firstCol_set_ne {A : List (Tensor ℝ)} {n k : Nat} (h : k ≠ n) (M : Tensor ℝ) (a : Nat) :
    firstCol (A.set n M) k a = firstCol A k a := by
  unfold firstCol; rw [List.getElem?_set_ne (Ne.symm h)]

theorem khatriEntry_outer : ∀ {A : List (Tensor ℝ)} {i : List Nat}, i.length = A.length →
    khatriEntry 0 A i = outerEntry A.length (firstCol A) i
  | [], [], _ => by simp [khatriEntry, outerEntry]
  | [], _ :: _, h => by simp at h
  | _ :: _, [], h => by simp at h
  | M :: A, a :: i, h => by
      rw [khatriEntry, khatriEntry_outer (by simpa using h), outerEntry, outerEntry, List.length_cons,
        Finset.prod_range_succ', mul_comm]
      congr 1

theorem khatriEntry_rest {A : List (Tensor ℝ)} {i : List Nat} {n : Nat} (hn : n < A.length) (h : i.length = A.length) :
    khatriEntry 0 (A.eraseIdx n) (i.eraseIdx n) = restEntry A.length (firstCol A) n i := by
  set B := A.set n (mat (i.getD n 0 + 1) 1 fun _ _ => 1) with hB
  have hBn : B[n]? = some (mat (i.getD n 0 + 1) 1 fun _ _ => 1) := List.getElem?_set_self hn
  have hl : B.length = A.length := List.length_set ..
  have e := khatriEntry_eraseIdx 0 (a := B) (n := n) (by rw [h, hl]) hBn
  rw [hB, eraseIdx_set_self, ← hB, at_mat _ (by omega) (by omega), one_mul] at e
  rw [← e, khatriEntry_outer (by rw [h, hl]), hl, outerEntry_split _ hn, firstCol_get hBn, at_mat _ (by omega) (by omega),
    one_mul]
  exact Finset.prod_congr rfl fun k hk => firstCol_set_ne (Finset.ne_of_mem_erase hk) _ _

theorem sliceSum_unkolda {s : List Nat} {n a : Nat} (hn : n < s.length) (ha : a < s.getD n 0) (f : List Nat → ℝ) :
    sliceSum s n a f = ∑ j : Fin (otherSize s n), f (unkolda s n a j) := by
  unfold sliceSum
  rw [boxSum_unkolda hn, Finset.sum_eq_single a, Finset.sum_range]
  · refine Finset.sum_congr rfl fun j _ => ?_
    rw [if_pos (unkolda_spec hn ha j.isLt).2.1]
  · intro b hb hne
    refine Finset.sum_eq_zero fun j hj => ?_
    rw [if_neg]
    rw [(unkolda_spec hn (Finset.mem_range.1 hb) (Finset.mem_range.1 hj)).2.1]
    exact hne
  · intro h
    exact absurd (Finset.mem_range.2 ha) h

/-- The Khatri-Rao product of one-column factors. -/
theorem khatri_one {X K : Tensor ℝ} {A : List (Tensor ℝ)} (hA : FactorsFor X.shape 1 A) (h2 : 2 ≤ X.order)
    (h25 : X.order ≤ 25) {n : Nat} (hn : n < X.order) (hK : khatri A (.int n) true = .ok K) {a : Nat}
    (ha : a < X.shape.getD n 0) (j : Fin (otherSize X.shape n)) :
    K.at_ [j, 0] = restEntry X.order (firstCol A) n (unkolda X.shape n a j) := by
  have hlen := hA.length
  obtain ⟨K', hK', hs, he⟩ := khatri_skip_reverse (n := n) hA.allMat hA.cols (by rw [hlen]; unfold order at *; omega)
    (by rw [hlen]; exact hn) (by rw [hlen]; exact h2)
  rw [hK] at hK'
  cases hK'
  obtain ⟨h1, h3, h4⟩ := unkolda_spec hn ha j.isLt
  have := he (unkolda X.shape n a j) 0 (by rw [hA.rowDims]; exact h1) (by omega)
  rw [hA.rowDims, ← koldaCol_eq_ravel n h1.length, h4, khatriEntry_rest (by rw [hlen]; exact hn) (by rw [h1.length, hlen]),
    hlen] at this
  exact this

/-- The two sums of a fit, in matrix form. -/
theorem fit_sums {X K : Tensor ℝ} {A : List (Tensor ℝ)} (hA : FactorsFor X.shape 1 A) (h2 : 2 ≤ X.order)
    (h25 : X.order ≤ 25) {n : Nat} (hn : n < X.order) (hK : khatri A (.int n) true = .ok K)
    (a : Fin (X.shape.getD n 0)) :
    (((Matrix.of fun (i : Fin (X.shape.getD n 0)) (j : Fin (otherSize X.shape n)) => X.at_ (unkolda X.shape n i j)) *
      toMat K (otherSize X.shape n) 1) a 0 =
        sliceSum X.shape n a fun i => X.at_ i * restEntry X.order (firstCol A) n i) ∧
    ((toMat K (otherSize X.shape n) 1)ᵀ * toMat K (otherSize X.shape n) 1) 0 0 =
        sliceSum X.shape n a fun i => restEntry X.order (firstCol A) n i ^ 2 := by
  constructor
  · rw [Matrix.mul_apply, sliceSum_unkolda hn a.isLt]
    refine Finset.sum_congr rfl fun j _ => ?_
    rw [of_apply, toMat_apply, ← khatri_one hA h2 h25 hn hK a.isLt j]
    rfl
  · rw [Matrix.mul_apply, sliceSum_unkolda hn a.isLt]
    refine Finset.sum_congr rfl fun j _ => ?_
    rw [transpose_apply, toMat_apply, ← khatri_one hA h2 h25 hn hK a.isLt j, pow_two]
    rfl

/-- Going through the modes. -/
theorem par_fold {σ : Type} {X : Tensor ℝ} {f : σ → Nat → Res σ} {col : σ → Nat → Nat → ℝ} {P : σ → Prop}
    (hstep : ∀ s n s', P s → n < X.order → f s n = .ok s' → P s' ∧
      (∃ d : ℝ, d ≠ 0 ∧ ∀ a < X.shape.getD n 0, col s' n a = d * bestVec X (col s) n a) ∧
      ∀ k < X.order, k ≠ n → ∀ a < X.shape.getD k 0, col s' k a = col s k a) :
    ∀ (l : List Nat) {s s' : σ} {w : Nat → Nat → ℝ}, (∀ n ∈ l, n < X.order) → P s → Parallel X.shape (col s) w →
      l.foldlM f s = .ok s' → P s' ∧ Parallel X.shape (col s') (l.foldl (refit X) w)
  | [], s, s', w, _, hP, hw, h => by cases h; exact ⟨hP, hw⟩
  | n :: l, s, s', w, hl, hP, hw, h => by
      rw [List.foldlM_cons] at h
      cases hf : f s n with
      | error e => rw [hf] at h; cases h
      | ok s1 =>
          rw [hf] at h
          obtain ⟨p, ⟨d, hd, e1⟩, e2⟩ := hstep s n s1 hP (hl n (by simp)) hf
          exact par_fold hstep l (fun m hm => hl m (by simp [hm])) p (hw.refit hd e1 e2) h

/-- The last mode apart. -/
theorem fold_last {σ : Type} {f : σ → Nat → Res σ} {N : Nat} (hN : 1 ≤ N) {s s' : σ}
    (h : (List.range N).foldlM f s = .ok s') :
    ∃ s1, (List.range (N - 1)).foldlM f s = .ok s1 ∧ f s1 (N - 1) = .ok s' := by
  obtain ⟨m, rfl⟩ : ∃ m, N = m + 1 := ⟨N - 1, by omega⟩
  rw [List.range_succ, List.foldlM_append] at h
  cases h1 : (List.range m).foldlM f s with
  | error e => rw [h1] at h; cases h
  | ok s1 =>
      rw [h1] at h
      refine ⟨s1, h1, ?_⟩
      change f s1 m >>= _ = _ at h
      change f s1 m = _
      cases h2 : f s1 m with
      | error e => rw [h2] at h; cases h
      | ok s2 => rw [h2] at h; cases h; rfl

theorem refitAll_last {X : Tensor ℝ} (hN : 1 ≤ X.order) (w : Nat → Nat → ℝ) :
    refitAll X w = refit X ((List.range (X.order - 1)).foldl (refit X) w) (X.order - 1) := by
  unfold refitAll
  obtain ⟨m, hm⟩ : ∃ m, X.order = m + 1 := ⟨X.order - 1, by omega⟩
  rw [hm, List.range_succ, List.foldl_append]
  rfl

end TD
