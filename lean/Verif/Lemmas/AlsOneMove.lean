import Verif.Lemmas.AlsOneBest
import Verif.Lemmas.EndlessBcu
import Verif.Spec.AlsOneLimit

/-! # One component: how far a fit moves the reconstruction, and what the reconstructions converge to -/
namespace TD
open Spec Tensor tf ops Filter Topology

/-- `‖X - v_0 ∘ v_1 ∘ …‖²`. -/
noncomputable def oneErr (X : Tensor ℝ) (v : Nat → Nat → ℝ) : ℝ :=
  boxSum X.shape fun i => (X.at_ i - outerEntry X.order v i) ^ 2

/-- `‖v_0 ∘ v_1 ∘ … - w_0 ∘ w_1 ∘ …‖²`. -/
noncomputable def oneMove (X : Tensor ℝ) (v w : Nat → Nat → ℝ) : ℝ :=
  boxSum X.shape fun i => (outerEntry X.order v i - outerEntry X.order w i) ^ 2

/-- Pythagoras: the fit is the projection of the data. -/
theorem refit_gap {X : Tensor ℝ} {n : Nat} (hn : n < X.order) (v : Nat → Nat → ℝ) (u : Nat → ℝ) :
    oneMove X (Function.update v n u) (refit X v n) = oneErr X (Function.update v n u) - oneErr X (refit X v n) := by
  have hsp : ∀ u : Nat → ℝ, oneErr X (Function.update v n u) =
      ∑ a ∈ Finset.range (X.shape.getD n 0), ∑ j : Fin (otherSize X.shape n),
        (X.at_ (unkolda X.shape n a j) - u a * restEntry X.order v n (unkolda X.shape n a j)) ^ 2 := by
    intro u
    unfold oneErr
    rw [boxSum_slices (n := n) hn]
    refine Finset.sum_congr rfl fun a ha => ?_
    have ha := Finset.mem_range.1 ha
    rw [sliceSum_unkolda hn ha]
    refine Finset.sum_congr rfl fun j _ => ?_
    rw [outerEntry_split _ hn, restEntry_update, Function.update_self, (unkolda_spec hn ha j.isLt).2.1]
  have hmv : oneMove X (Function.update v n u) (refit X v n) =
      ∑ a ∈ Finset.range (X.shape.getD n 0), ∑ j : Fin (otherSize X.shape n),
        ((u a - bestVec X v n a) * restEntry X.order v n (unkolda X.shape n a j)) ^ 2 := by
    unfold oneMove refit
    rw [boxSum_slices (n := n) hn]
    refine Finset.sum_congr rfl fun a ha => ?_
    have ha := Finset.mem_range.1 ha
    rw [sliceSum_unkolda hn ha]
    refine Finset.sum_congr rfl fun j _ => ?_
    rw [outerEntry_split _ hn, outerEntry_split _ hn, restEntry_update, restEntry_update, Function.update_self,
      Function.update_self, (unkolda_spec hn ha j.isLt).2.1]
    ring
  rw [hmv, hsp]
  unfold refit
  rw [hsp, ← Finset.sum_sub_distrib]
  refine Finset.sum_congr rfl fun a ha => ?_
  have ha := Finset.mem_range.1 ha
  have hb : bestVec X v n a * (∑ j : Fin (otherSize X.shape n), restEntry X.order v n (unkolda X.shape n a j) ^ 2) =
      ∑ j : Fin (otherSize X.shape n), X.at_ (unkolda X.shape n a j) * restEntry X.order v n (unkolda X.shape n a j) := by
    unfold bestVec
    rw [sliceSum_unkolda hn ha, sliceSum_unkolda hn ha]
    by_cases hV : (∑ j : Fin (otherSize X.shape n), restEntry X.order v n (unkolda X.shape n a j) ^ 2) = 0
    · rw [hV, mul_zero]
      have h0 := (Finset.sum_eq_zero_iff_of_nonneg fun j _ => sq_nonneg _).1 hV
      refine (Finset.sum_eq_zero fun j hj => ?_).symm
      rw [pow_eq_zero_iff two_ne_zero |>.1 (h0 j hj), mul_zero]
    · exact div_mul_cancel₀ _ hV
  have e : ∀ t : ℝ, ∑ j : Fin (otherSize X.shape n),
      (X.at_ (unkolda X.shape n a j) - t * restEntry X.order v n (unkolda X.shape n a j)) ^ 2 =
      ∑ j : Fin (otherSize X.shape n), X.at_ (unkolda X.shape n a j) ^ 2 -
      2 * t * (∑ j : Fin (otherSize X.shape n), X.at_ (unkolda X.shape n a j) * restEntry X.order v n (unkolda X.shape n a j)) +
      t ^ 2 * ∑ j : Fin (otherSize X.shape n), restEntry X.order v n (unkolda X.shape n a j) ^ 2 := by
    intro t
    rw [Finset.mul_sum, Finset.mul_sum, ← Finset.sum_sub_distrib, ← Finset.sum_add_distrib]
    exact Finset.sum_congr rfl fun j _ => by ring
  have e2 : ∑ j : Fin (otherSize X.shape n), ((u a - bestVec X v n a) * restEntry X.order v n (unkolda X.shape n a j)) ^ 2 =
      (u a - bestVec X v n a) ^ 2 * ∑ j : Fin (otherSize X.shape n), restEntry X.order v n (unkolda X.shape n a j) ^ 2 := by
    rw [Finset.mul_sum]
    exact Finset.sum_congr rfl fun j _ => by ring
  rw [e2, e, e, ← hb]
  ring

/-- A fit moves the reconstruction by exactly what it gains. -/
theorem refit_move {X : Tensor ℝ} {n : Nat} (hn : n < X.order) (v : Nat → Nat → ℝ) :
    oneMove X v (refit X v n) = oneErr X v - oneErr X (refit X v n) := by
  have := refit_gap hn v (v n)
  rwa [Function.update_eq_self] at this

/-- The norm of a fit is what it explains. -/
theorem refit_norm {X : Tensor ℝ} {n : Nat} (hn : n < X.order) (v : Nat → Nat → ℝ) :
    boxSum X.shape (fun i => outerEntry X.order (refit X v n) i ^ 2) = normSqT X - oneErr X (refit X v n) := by
  have h := refit_gap hn v 0
  have e : ∀ i, outerEntry X.order (Function.update v n 0) i = 0 := fun i => by
    rw [outerEntry_split _ hn, Function.update_self]; simp
  unfold oneMove at h
  unfold oneErr at h
  simp only [e, zero_sub, neg_sq, sub_zero] at h
  exact h

theorem oneMove_nonneg (X : Tensor ℝ) (v w : Nat → Nat → ℝ) : 0 ≤ oneMove X v w := by
  unfold oneMove; rw [boxSum_eq_sum_range]; exact Finset.sum_nonneg fun _ _ => sq_nonneg _

theorem oneErr_nonneg (X : Tensor ℝ) (v : Nat → Nat → ℝ) : 0 ≤ oneErr X v := by
  unfold oneErr; rw [boxSum_eq_sum_range]; exact Finset.sum_nonneg fun _ _ => sq_nonneg _

theorem oneMove_trans (X : Tensor ℝ) (u v w : Nat → Nat → ℝ) {m : ℝ} (hm : 0 < m) :
    oneMove X u w ≤ (1 + m) * oneMove X u v + (1 + m⁻¹) * oneMove X v w := by
  unfold oneMove
  simp only [boxSum_eq_sum_range]
  rw [Finset.mul_sum, Finset.mul_sum, ← Finset.sum_add_distrib]
  refine Finset.sum_le_sum fun i _ => ?_
  generalize outerEntry X.order u _ = a
  generalize outerEntry X.order v _ = b
  generalize outerEntry X.order w _ = c
  have h : 0 ≤ m⁻¹ * (m * (a - b) - (b - c)) ^ 2 := mul_nonneg (inv_nonneg.2 hm.le) (sq_nonneg _)
  have e : m⁻¹ * (m * (a - b) - (b - c)) ^ 2 = m * (a - b) ^ 2 - 2 * (a - b) * (b - c) + m⁻¹ * (b - c) ^ 2 := by
    field_simp
    ring
  rw [e] at h
  nlinarith [h]

/-- Fits of several modes. -/
theorem fits_move (X : Tensor ℝ) : ∀ (l : List Nat), (∀ n ∈ l, n < X.order) → ∀ v : Nat → Nat → ℝ,
    oneMove X v (l.foldl (refit X) v) ≤ l.length * (oneErr X v - oneErr X (l.foldl (refit X) v))
  | [], _, v => by simp [oneMove, boxSum_eq_sum_range]
  | n :: l, hl, v => by
      have ih := fits_move X l (fun m hm => hl m (by simp [hm])) (refit X v n)
      have hm := refit_move (hl n (by simp)) v
      rw [List.foldl_cons, List.length_cons]
      by_cases h0 : l = []
      · subst h0
        simp [hm]
      · have hpos : (0 : ℝ) < l.length := by
          exact_mod_cast List.length_pos_iff.2 h0
        have := oneMove_trans X v (refit X v n) (l.foldl (refit X) (refit X v n)) hpos
        rw [hm] at this
        have h2 := mul_le_mul_of_nonneg_left ih (show (0 : ℝ) ≤ 1 + (l.length : ℝ)⁻¹ by positivity)
        have e : (1 + (l.length : ℝ)⁻¹) * (l.length * (oneErr X (refit X v n) - oneErr X (l.foldl (refit X) (refit X v n)))) =
            (l.length + 1) * (oneErr X (refit X v n) - oneErr X (l.foldl (refit X) (refit X v n))) := by
          field_simp
        rw [e] at h2
        push_cast
        linarith

/-! ### Iterates -/

theorem boxSum_tendsto_in {s : List Nat} {f : ℕ → List Nat → ℝ} {g : List Nat → ℝ}
    (h : ∀ i, InB s i → Tendsto (fun n => f n i) atTop (𝓝 (g i))) : Tendsto (fun n => boxSum s (f n)) atTop (𝓝 (boxSum s g)) := by
  simp only [boxSum_eq_sum_range]
  exact tendsto_finsetSum _ fun k hk => h _ (unravel_inB (Finset.mem_range.1 hk))

theorem alsOne_at {X : Tensor ℝ} (v : Nat → Nat → ℝ) (j : Nat) {i : List Nat} (hi : InB X.shape i) :
    (alsOne X v j).at_ i = outerEntry X.order ((refitAll X)^[j] v) i := at_ofFn (s := X.shape) _ hi

theorem distSqT_alsOne (X : Tensor ℝ) (v : Nat → Nat → ℝ) (j : Nat) :
    distSqT X (alsOne X v j) = oneErr X ((refitAll X)^[j] v) :=
  boxSum_congr fun i hi => by rw [alsOne_at v j hi]

theorem move_alsOne (X : Tensor ℝ) (v : Nat → Nat → ℝ) (j k : Nat) :
    distSqT (alsOne X v j) (alsOne X v k) = oneMove X ((refitAll X)^[j] v) ((refitAll X)^[k] v) :=
  boxSum_congr (s := X.shape) fun i hi => by rw [alsOne_at v j hi, alsOne_at v k hi]

theorem alsOne_move (X : Tensor ℝ) (v : Nat → Nat → ℝ) (j : Nat) :
    distSqT (alsOne X v j) (alsOne X v (j + 1)) ≤ X.order * (distSqT X (alsOne X v j) - distSqT X (alsOne X v (j + 1))) := by
  rw [move_alsOne, distSqT_alsOne, distSqT_alsOne, Function.iterate_succ_apply']
  have := fits_move X (List.range X.order) (fun n hn => List.mem_range.1 hn) ((refitAll X)^[j] v)
  rwa [List.length_range] at this

/-- What a step explains is the norm of its reconstruction. -/
theorem alsOne_norm {X : Tensor ℝ} (h1 : 1 ≤ X.order) (v : Nat → Nat → ℝ) (j : Nat) :
    normSqT (alsOne X v (j + 1)) = normSqT X - distSqT X (alsOne X v (j + 1)) := by
  rw [distSqT_alsOne, Function.iterate_succ_apply']
  obtain ⟨N, hN⟩ : ∃ N, X.order = N + 1 := ⟨X.order - 1, by omega⟩
  have e : refitAll X ((refitAll X)^[j] v) = refit X ((List.range N).foldl (refit X) ((refitAll X)^[j] v)) N := by
    show (List.range X.order).foldl (refit X) _ = _
    rw [hN, List.range_succ, List.foldl_append]; rfl
  have : normSqT (alsOne X v (j + 1)) = boxSum X.shape fun i => outerEntry X.order (refitAll X ((refitAll X)^[j] v)) i ^ 2 :=
    boxSum_congr (s := X.shape) fun i hi => by rw [alsOne_at v _ hi, Function.iterate_succ_apply']
  rw [this, e]
  exact refit_norm (by omega) _

theorem entry_le {s : List Nat} {f : List Nat → ℝ} {i : List Nat} (hi : InB s i) : f i ^ 2 ≤ boxSum s fun i => f i ^ 2 := by
  rw [boxSum_eq_sum_range]
  have := Finset.single_le_sum (f := fun k => f (unravel s k) ^ 2) (fun _ _ => sq_nonneg _) (Finset.mem_range.2 (ravel_lt hi))
  simpa only [unravel_ravel hi] using this

theorem alsOne_bounded {X : Tensor ℝ} (h1 : 1 ≤ X.order) (v : Nat → Nat → ℝ) :
    ∃ (φ : ℕ → ℕ) (L : Tensor ℝ), StrictMono φ ∧ Approaches (fun m => alsOne X v (φ m + 1)) L := by
  obtain ⟨φ, L, hφ, hL⟩ := exists_limit (F := fun m => [alsOne X v (m + 1)]) (shapes := [X.shape]) (fun _ => rfl)
    (c := Real.sqrt (normSqT X)) (by
      intro n M hM x hx
      obtain rfl := List.mem_singleton.1 hM
      refine (abs_le_of_normSqT hx).trans (Real.sqrt_le_sqrt ?_)
      rw [alsOne_norm h1]
      linarith [distSqT_nonneg X (alsOne X v (n + 1))])
  have hl : L.length = 1 := (hL.1 0).symm
  obtain ⟨M, K, g1, g2, g3⟩ := hL.2 0 (by omega)
  refine ⟨φ, K, hφ, ?_⟩
  have : M = fun m => alsOne X v (φ m + 1) := funext fun m => by
    have := g1 m
    simp only [List.getElem?_cons_zero, Option.some.injEq] at this
    exact this.symm
  rwa [this] at g3

/-- The errors converge. -/
theorem alsOne_err_tendsto (X : Tensor ℝ) (v : Nat → Nat → ℝ) :
    ∃ e, Tendsto (fun j => distSqT X (alsOne X v j)) atTop (𝓝 e) :=
  ⟨_, tendsto_atTop_ciInf (antitone_nat_of_succ_le (f := fun j => distSqT X (alsOne X v j)) (alsOne_le X v))
    ⟨0, by rintro _ ⟨j, rfl⟩; exact distSqT_nonneg _ _⟩⟩

/-- The reconstructions move less and less. -/
theorem alsOne_still (X : Tensor ℝ) (v : Nat → Nat → ℝ) :
    Tendsto (fun j => distSqT (alsOne X v j) (alsOne X v (j + 1))) atTop (𝓝 0) := by
  obtain ⟨e, he⟩ := alsOne_err_tendsto X v
  have h2 := (he.sub (he.comp (tendsto_add_atTop_nat 1))).const_mul (X.order : ℝ)
  rw [sub_self, mul_zero] at h2
  exact squeeze_zero (fun j => distSqT_nonneg _ _) (fun j => alsOne_move X v j) h2

/-! ### Limits -/

/-- The vectors inside step `k`, when the modes below `n` have been fitted. -/
noncomputable def oneStage (X : Tensor ℝ) (v : Nat → Nat → ℝ) (k n : Nat) : Nat → Nat → ℝ :=
  (List.range n).foldl (refit X) ((refitAll X)^[k] v)

theorem oneStage_succ (X : Tensor ℝ) (v : Nat → Nat → ℝ) (k n : Nat) : oneStage X v k (n + 1) = refit X (oneStage X v k n) n := by
  unfold oneStage
  rw [List.range_succ, List.foldl_append]; rfl

theorem oneStage_last (X : Tensor ℝ) (v : Nat → Nat → ℝ) (k n : Nat) (hn : n ≤ X.order) :
    oneErr X ((refitAll X)^[k + 1] v) ≤ oneErr X (oneStage X v k n) := by
  rw [Function.iterate_succ_apply']
  obtain ⟨m, hm⟩ : ∃ m, X.order = n + m := ⟨X.order - n, by omega⟩
  have : refitAll X ((refitAll X)^[k] v) = ((List.range m).map (n + ·)).foldl (refit X) (oneStage X v k n) := by
    show (List.range X.order).foldl (refit X) _ = _
    rw [hm, List.range_add, List.foldl_append]; rfl
  rw [this]
  refine refitAll_le X _ (fun k hk => ?_) _
  obtain ⟨a, ha, rfl⟩ := List.mem_map.1 hk
  have := List.mem_range.1 ha
  omega

theorem oneStage_tendsto {X : Tensor ℝ} {v : Nat → Nat → ℝ} {φ : ℕ → ℕ} {L : Tensor ℝ} (hφ : StrictMono φ)
    (hL : Approaches (fun m => alsOne X v (φ m)) L) {n : Nat} (hn : n ≤ X.order) {i : List Nat} (hi : InB X.shape i) :
    Tendsto (fun m => outerEntry X.order (oneStage X v (φ m) n) i) atTop (𝓝 (L.at_ i)) := by
  obtain ⟨e, he⟩ := alsOne_err_tendsto X v
  have h2 := (he.sub (he.comp (tendsto_add_atTop_nat 1))).const_mul (X.order : ℝ)
  rw [sub_self, mul_zero] at h2
  have h3 : Tendsto (fun k => (outerEntry X.order ((refitAll X)^[k] v) i - outerEntry X.order (oneStage X v k n) i) ^ 2)
      atTop (𝓝 0) := by
    refine squeeze_zero (fun j => sq_nonneg _) (fun k => ?_) h2
    refine (entry_le (f := fun i => outerEntry X.order ((refitAll X)^[k] v) i - outerEntry X.order (oneStage X v k n) i) hi).trans ?_
    have h4 := fits_move X (List.range n) (fun a ha => by have := List.mem_range.1 ha; omega) ((refitAll X)^[k] v)
    rw [List.length_range] at h4
    refine h4.trans ?_
    have h5 := oneStage_last X v k n hn
    have h6 : oneErr X (oneStage X v k n) ≤ oneErr X ((refitAll X)^[k] v) :=
      refitAll_le X (List.range n) (fun a ha => by have := List.mem_range.1 ha; omega) ((refitAll X)^[k] v)
    simp only [Function.comp, distSqT_alsOne]
    have h7 : (n : ℝ) ≤ X.order := by exact_mod_cast hn
    have h8 : (0 : ℝ) ≤ n := Nat.cast_nonneg n
    change (n : ℝ) * (oneErr X ((refitAll X)^[k] v) - oneErr X (oneStage X v k n)) ≤ _
    exact mul_le_mul h7 (by linarith) (by linarith) (by linarith)
  have h4 : Tendsto (fun k => outerEntry X.order ((refitAll X)^[k] v) i - outerEntry X.order (oneStage X v k n) i)
      atTop (𝓝 0) := by
    have := (Real.continuous_sqrt.tendsto 0).comp h3
    rw [Real.sqrt_zero] at this
    rw [tendsto_zero_iff_abs_tendsto_zero]
    exact this.congr fun k => Real.sqrt_sq_eq_abs _
  have h5 := h4.comp hφ.tendsto_atTop
  have hs : L.shape = X.shape := (hL.1 0).symm
  have h6 := hL.2 i (by rw [hs]; exact hi)
  have h7 := h6.sub h5
  rw [sub_zero] at h7
  refine h7.congr fun m => ?_
  rw [alsOne_at v _ hi]
  simp only [Function.comp]
  ring

/-- The vectors of an outer product, read off it at the entry `j`. -/
noncomputable def fibre (T : List Nat → ℝ) (j : List Nat) (k a : Nat) : ℝ := T (j.set k a) / T j

theorem restEntry_set (N : Nat) (v : Nat → Nat → ℝ) (n a : Nat) (j : List Nat) :
    restEntry N v n (j.set n a) = restEntry N v n j :=
  Finset.prod_congr rfl fun k hk => by
    rw [List.getD_eq_getElem?_getD, List.getElem?_set_ne (Finset.ne_of_mem_erase hk).symm, ← List.getD_eq_getElem?_getD]

theorem fibre_outer {N : Nat} {v : Nat → Nat → ℝ} {j : List Nat} (hj : j.length = N) (h0 : outerEntry N v j ≠ 0) {k : Nat}
    (hk : k < N) (a : Nat) : v k a = v k (j.getD k 0) * fibre (outerEntry N v) j k a := by
  unfold fibre
  rw [outerEntry_split v hk j] at h0 ⊢
  rw [outerEntry_split v hk, restEntry_set]
  have e : (j.set k a).getD k 0 = a := by
    rw [List.getD_eq_getElem?_getD, List.getElem?_set_self (by omega)]; rfl
  rw [e]
  have h1 := left_ne_zero_of_mul h0
  have h2 := right_ne_zero_of_mul h0
  field_simp

theorem restEntry_fibre {N : Nat} {v : Nat → Nat → ℝ} {j : List Nat} (hj : j.length = N) (h0 : outerEntry N v j ≠ 0) (n : Nat)
    (i : List Nat) : restEntry N v n i = restEntry N v n j * restEntry N (fibre (outerEntry N v) j) n i := by
  unfold restEntry
  rw [← Finset.prod_mul_distrib]
  exact Finset.prod_congr rfl fun k hk => fibre_outer hj h0 (Finset.mem_range.1 (Finset.mem_of_mem_erase hk)) _

theorem outerEntry_fibre {N : Nat} {v : Nat → Nat → ℝ} {j : List Nat} (hj : j.length = N) (h0 : outerEntry N v j ≠ 0)
    (i : List Nat) : outerEntry N v i = outerEntry N v j * outerEntry N (fibre (outerEntry N v) j) i := by
  unfold outerEntry
  rw [← Finset.prod_mul_distrib]
  exact Finset.prod_congr rfl fun k hk => fibre_outer hj h0 (Finset.mem_range.1 hk) _

/-- A fit is no worse than any outer product with the directions of the other modes. -/
theorem fit_le_fibre {X : Tensor ℝ} {n : Nat} (hn : n < X.order) (v : Nat → Nat → ℝ) {j : List Nat} (hj : j.length = X.order)
    (h0 : outerEntry X.order (refit X v n) j ≠ 0) (u : Nat → ℝ) :
    oneErr X (refit X v n) ≤ oneErr X (Function.update (fibre (outerEntry X.order (refit X v n)) j) n u) := by
  have hr : restEntry X.order (refit X v n) n j ≠ 0 := by
    rw [outerEntry_split _ hn] at h0
    exact right_ne_zero_of_mul h0
  have h := refit_best hn v fun a => u a / restEntry X.order (refit X v n) n j
  refine h.trans (le_of_eq (boxSum_congr fun i _ => ?_))
  rw [outerEntry_split _ hn, outerEntry_split _ hn, restEntry_update, restEntry_update, Function.update_self, Function.update_self]
  have e : restEntry X.order v n i = restEntry X.order (refit X v n) n i := (restEntry_update _ _ _ _ _).symm
  rw [e, restEntry_fibre hj h0 n i]
  congr 2
  field_simp

/-- Limits of reconstructions are optimal in every mode. -/
theorem alsOne_limit {X : Tensor ℝ} (h2 : 2 ≤ X.order) {v : Nat → Nat → ℝ} {φ : ℕ → ℕ} {L : Tensor ℝ} (hφ : StrictMono φ)
    (hL : Approaches (fun m => alsOne X v (φ m)) L) : OneOptimal X L := by
  have hs : L.shape = X.shape := (hL.1 0).symm
  refine ⟨hs, ?_⟩
  by_cases hz : ∀ i, InB X.shape i → L.at_ i = 0
  · have hd : distSqT X L = boxSum X.shape fun i => (X.at_ i - 0) ^ 2 := boxSum_congr fun i hi => by rw [hz i hi]
    refine ⟨fun _ _ => 0, fun i hi => ?_, fun n hn w => ?_⟩
    · rw [hz i hi, outerEntry_split _ (show 0 < X.order by omega), zero_mul]
    · rw [hd]
      refine le_of_eq (boxSum_congr fun i _ => ?_)
      obtain ⟨k, hk, hkn⟩ : ∃ k < X.order, k ≠ n := by
        by_cases h : n = 0
        · exact ⟨1, by omega, by omega⟩
        · exact ⟨0, by omega, by omega⟩
      rw [outerEntry_split _ hk, Function.update_of_ne hkn, zero_mul]
  · push Not at hz
    obtain ⟨j, hjB, hj0⟩ := hz
    have hjl : j.length = X.order := hjB.length
    let F := fibre L.at_ j
    -- the directions inside the steps converge
    have hF : ∀ n ≤ X.order, ∀ k < X.order, ∀ a < X.shape.getD k 0,
        Tendsto (fun m => fibre (outerEntry X.order (oneStage X v (φ m) n)) j k a) atTop (𝓝 (F k a)) := by
      intro n hn k hk a ha
      have hB : InB X.shape (j.set k a) := InB_set (d := X.shape.getD k 0) (by rw [set_getD_self]; exact hjB) ha
      exact (oneStage_tendsto hφ hL hn hB).div (oneStage_tendsto hφ hL hn hjB) hj0
    have hne : ∀ n ≤ X.order, ∀ᶠ m in atTop, outerEntry X.order (oneStage X v (φ m) n) j ≠ 0 := fun n hn =>
      (oneStage_tendsto hφ hL hn hjB).eventually_ne hj0
    have hout : ∀ i, InB X.shape i → L.at_ i = L.at_ j * outerEntry X.order F i := by
      intro i hi
      have h1 := oneStage_tendsto hφ hL (Nat.zero_le _) hi
      have h3 : Tendsto (fun m => outerEntry X.order (oneStage X v (φ m) 0) j *
          outerEntry X.order (fibre (outerEntry X.order (oneStage X v (φ m) 0)) j) i) atTop (𝓝 (L.at_ j * outerEntry X.order F i)) := by
        refine (oneStage_tendsto hφ hL (Nat.zero_le _) hjB).mul (tendsto_finsetProd _ fun k hk => ?_)
        exact hF 0 (Nat.zero_le _) k (Finset.mem_range.1 hk) _ ((InB_iff_getD.1 hi).2 k (Finset.mem_range.1 hk))
      refine tendsto_nhds_unique h1 (h3.congr' ?_)
      filter_upwards [hne 0 (Nat.zero_le _)] with m hm
      exact (outerEntry_fibre hjl hm i).symm
    have hopt : ∀ n < X.order, ∀ w : Nat → ℝ, distSqT X L ≤ oneErr X (Function.update F n w) := by
      intro n hn w
      have h1 : Tendsto (fun m => oneErr X (oneStage X v (φ m) (n + 1))) atTop (𝓝 (distSqT X L)) :=
        boxSum_tendsto_in fun i hi => (tendsto_const_nhds.sub (oneStage_tendsto hφ hL hn hi)).pow 2
      have h3 : Tendsto (fun m => oneErr X (Function.update (fibre (outerEntry X.order (oneStage X v (φ m) (n + 1))) j) n w))
          atTop (𝓝 (oneErr X (Function.update F n w))) := by
        refine boxSum_tendsto_in fun i hi => (tendsto_const_nhds.sub ?_).pow 2
        refine tendsto_finsetProd _ fun k hk => ?_
        by_cases e : k = n
        · subst e
          simp only [Function.update_self]
          exact tendsto_const_nhds
        · simp only [Function.update_of_ne e]
          exact hF (n + 1) hn k (Finset.mem_range.1 hk) _ ((InB_iff_getD.1 hi).2 k (Finset.mem_range.1 hk))
      refine le_of_tendsto_of_tendsto h1 h3 ?_
      filter_upwards [hne (n + 1) hn] with m hm
      rw [oneStage_succ] at hm ⊢
      exact fit_le_fibre hn _ hjl hm w
    refine ⟨Function.update F 0 fun a => L.at_ j * F 0 a, fun i hi => ?_, fun n hn w => ?_⟩
    · rw [hout i hi, outerEntry_split _ (show 0 < X.order by omega), outerEntry_split _ (show 0 < X.order by omega),
        restEntry_update, Function.update_self]
      ring
    · by_cases e : n = 0
      · subst e
        rw [Function.update_idem]
        exact hopt 0 hn w
      · refine (hopt n hn fun a => L.at_ j * w a).trans (le_of_eq (boxSum_congr fun i _ => ?_))
        have h0 : 0 < X.order := by omega
        rw [Function.update_comm (Ne.symm e), outerEntry_split _ h0, outerEntry_split (Function.update _ 0 _) h0, restEntry_update,
          Function.update_self, Function.update_of_ne (Ne.symm e)]
        have hr : restEntry X.order (Function.update F n fun a => L.at_ j * w a) 0 i =
            L.at_ j * restEntry X.order (Function.update F n w) 0 i := by
          have hm : n ∈ (Finset.range X.order).erase 0 := Finset.mem_erase.2 ⟨e, Finset.mem_range.2 hn⟩
          unfold restEntry
          rw [← Finset.mul_prod_erase _ _ hm, ← Finset.mul_prod_erase _ (fun k => Function.update F n w k _) hm,
            Function.update_self, Function.update_self, mul_assoc]
          congr 2
          exact Finset.prod_congr rfl fun k hk => by
            rw [Function.update_of_ne (Finset.ne_of_mem_erase hk), Function.update_of_ne (Finset.ne_of_mem_erase hk)]
        rw [hr]
        ring

theorem alsOne_settles {X : Tensor ℝ} (h2 : 2 ≤ X.order) (v : Nat → Nat → ℝ) :
    SettlesAtOptima X fun n => alsOne X v (n + 1) := by
  refine ⟨alsOne_bounded (by omega) v, (alsOne_still X v).comp (tendsto_add_atTop_nat 1), fun φ L hφ hL => ?_⟩
  have hφ' : StrictMono fun m => φ m + 1 := fun a b h => Nat.add_lt_add_right (hφ h) 1
  have hs : L.shape = X.shape := (hL.1 0).symm
  have hd : Tendsto (fun n => distSqT X (alsOne X v (n + 1))) atTop (𝓝 (distSqT X L)) := by
    obtain ⟨e, he⟩ := alsOne_err_tendsto X v
    have h1 := he.comp hφ'.tendsto_atTop
    have h3 := distSqT_tendsto (B := X) hL
    rw [tendsto_nhds_unique h3 h1]
    exact he.comp (tendsto_add_atTop_nat 1)
  have hn : Tendsto (fun n => normSqT (alsOne X v (φ n + 1))) atTop (𝓝 (normSqT L)) := by
    unfold normSqT
    have := boxSum_tendsto (s := X.shape) fun i => (hL.all i).pow 2
    rw [hs]
    exact this
  have hanti : Antitone fun j => distSqT X (alsOne X v j) := antitone_nat_of_succ_le (alsOne_le X v)
  refine ⟨alsOne_limit h2 hφ' hL, fun n => ge_of_tendsto hn ?_, hd⟩
  filter_upwards [eventually_ge_atTop n] with m hm
  rw [alsOne_norm (by omega), alsOne_norm (by omega)]
  have : distSqT X (alsOne X v (φ m + 1)) ≤ distSqT X (alsOne X v (n + 1)) :=
    hanti (Nat.succ_le_succ (hm.trans (hφ.id_le m)))
  linarith

theorem entries_move {X : Tensor ℝ} (h1 : 1 ≤ X.order) {v : Nat → Nat → ℝ} {hist : List (ℝ × ℝ)}
    (h : ∀ j p, hist[j]? = some p → EntryOf X (alsOne X v (j + 1)) p) : SmallMoves X (fun j => alsOne X v (j + 1)) hist := by
  have e : ∀ j p, hist[j]? = some p → p.2 ^ 2 * normSqT X = distSqT X (alsOne X v (j + 1)) := by
    intro j p hp
    have hN : 0 ≤ normSqT X := loss.boxSum_nonneg _ fun _ _ => sq_nonneg _
    rw [(h j p hp).2, div_pow, Real.sq_sqrt (distSqT_nonneg _ _), Real.sq_sqrt hN]
    by_cases h0 : normSqT X = 0
    · have := alsOne_norm h1 v j
      have h3 : 0 ≤ normSqT (alsOne X v (j + 1)) := loss.boxSum_nonneg _ fun _ _ => sq_nonneg _
      have := distSqT_nonneg X (alsOne X v (j + 1))
      rw [h0, mul_zero]
      linarith
    · exact div_mul_cancel₀ _ h0
  intro j p q hp hq
  rw [sub_mul, e j p hp, e (j + 1) q hq]
  exact alsOne_move X v (j + 1)

end TD
