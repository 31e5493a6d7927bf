import Mathlib.Topology.Instances.Matrix
import Verif.Lemmas.LimitSv
import Verif.Props.Cp

/-!
# The inverse is continuous
-/
namespace TD
namespace Lim
open Spec Tensor fact sp Num Filter Topology
variable {F : ℕ → Fmt}

/-- The pseudo-inverse of an invertible matrix is its inverse. -/
theorem pinv_inv {n : Nat} {V P : Mat n n} (h : IsPinv V P) (hd : V.det ≠ 0) : P = V⁻¹ := by
  have hu : IsUnit V.det := isUnit_iff_ne_zero.2 hd
  have h1 := h.vpv
  have h2 : V⁻¹ * (V * P * V) * V⁻¹ = V⁻¹ * V * V⁻¹ := by rw [h1]
  rw [Matrix.mul_assoc V P V, ← Matrix.mul_assoc V⁻¹ V (P * V), Matrix.nonsing_inv_mul _ hu, Matrix.one_mul, Matrix.mul_assoc,
    Matrix.mul_nonsing_inv _ hu, Matrix.mul_one, Matrix.one_mul] at h2
  exact h2

/-- A pseudo-inverse routine whose results are rounded correctly. -/
theorem pinvTends_rounded (hF : Refining F) {pinv pinv0 : Tensor ℝ → Res (Tensor ℝ)} (h : PinvOk pinv)
    (h0 : ∀ V P, pinv0 V = .ok P → pinv V = .ok P ∧ ∃ n, V.shape = [n, n] ∧ (toMat V n n).det ≠ 0) :
    PinvTends (fun j M => (pinv (reals M)).map (rounded (F j))) pinv0 := by
  intro A B hAB P hP
  obtain ⟨hP, n, hs, hd⟩ := h0 B P hP
  have hsA : ∀ j, (reals (A j)).shape = [n, n] := fun j => (hAB.1 j).trans hs
  choose Q hQ hQs hQ' using fun j => h (reals (A j)) n (hsA j)
  obtain ⟨P', hP', hPs, hPi⟩ := h B n hs
  obtain rfl : P' = P := by cases hP'.symm.trans hP; rfl
  have hV : Tendsto (fun j => toMat (reals (A j)) n n) atTop (𝓝 (toMat B n n)) := by
    refine tendsto_pi_nhds.2 fun i => tendsto_pi_nhds.2 fun k => ?_
    have hi : InB B.shape [(i : Nat), (k : Nat)] := by rw [hs]; exact InB_pair.2 ⟨i, k, rfl, i.2, k.2⟩
    refine (hAB.2 _ hi).2.congr fun j => ?_
    show _ = (reals (A j)).at_ [(i : Nat), (k : Nat)]
    rw [reals_at _ (by rw [hAB.1 j]; exact hi)]
  have hdet : ∀ᶠ j in atTop, (toMat (reals (A j)) n n).det ≠ 0 :=
    ((continuous_id.matrix_det.tendsto _).comp hV).eventually_ne hd
  have hinv : Tendsto (fun j => (toMat (reals (A j)) n n)⁻¹) atTop (𝓝 (toMat B n n)⁻¹) := by
    refine Tendsto.comp (ContinuousAt.tendsto ?_) hV
    refine continuousAt_matrix_inv _ ?_
    rw [Ring.inverse_eq_inv']
    exact continuousAt_inv₀ hd
  refine ⟨fun j => rounded (F j) (Q j), Eventually.of_forall fun j => by simp only [hQ j]; rfl,
    fun j => (hQs j).trans hPs.symm, fun i hi => ?_⟩
  rw [hPs] at hi
  obtain ⟨a, b, rfl, ha, hb⟩ := InB_pair.1 hi
  have h1 : Tendsto (fun j => (Q j).at_ [a, b]) atTop (𝓝 (P'.at_ [a, b])) := by
    have h2 : Tendsto (fun j => (toMat (reals (A j)) n n)⁻¹ ⟨a, ha⟩ ⟨b, hb⟩) atTop (𝓝 (P'.at_ [a, b])) := by
      have := tendsto_pi_nhds.1 (tendsto_pi_nhds.1 hinv ⟨a, ha⟩) ⟨b, hb⟩
      rw [← pinv_inv hPi hd] at this
      exact this
    refine h2.congr' ?_
    filter_upwards [hdet] with j hj
    rw [← pinv_inv (hQ' j) hj]
    rfl
  refine (tends_round hF h1).congr (Eventually.of_forall fun j => ?_)
  exact (at_map _ _ (by rw [hQs j]; exact hi)).symm

open Classical in
/-- The routine that raises on singular matrices. -/
noncomputable def strict (pinv : Tensor ℝ → Res (Tensor ℝ)) (V : Tensor ℝ) : Res (Tensor ℝ) :=
  if ∃ n, V.shape = [n, n] ∧ (toMat V n n).det ≠ 0 then pinv V else .error .nonFinite

theorem strict_ok {pinv : Tensor ℝ → Res (Tensor ℝ)} {V P : Tensor ℝ} (h : strict pinv V = .ok P) :
    pinv V = .ok P ∧ ∃ n, V.shape = [n, n] ∧ (toMat V n n).det ≠ 0 := by
  unfold strict at h
  split at h
  · exact ⟨h, ‹_›⟩
  · cases h

open tf ops cp Matrix in
/-- On positive data with rank one the matrices to invert are never singular. -/
theorem modeUpdate_strict {pinv : Tensor ℝ → Res (Tensor ℝ)} {X : Tensor ℝ} {n : Nat} {A : List (Tensor ℝ)}
    (hA : PosFactors X.shape 1 A) (h2 : 2 ≤ X.order) (h25 : X.order ≤ 25) (hn : n < X.order) (hpos : ∀ d ∈ X.shape, 0 < d) :
    cp.modeUpdate (strict pinv) X 1 A n = cp.modeUpdate pinv X 1 A n := by
  obtain ⟨hF, hAp⟩ := hA
  have hpn := getD_pos hpos hn
  have hlen := hF.length
  have hn' : n < A.length := by rw [hlen]; exact hn
  have hke : kept A (.int n) ≠ [] := by
    rw [kept_int]; intro e
    have := congrArg List.length e
    rw [List.length_eraseIdx, if_pos hn', hlen] at this
    unfold order at h2
    simp at this; omega
  obtain ⟨K, G, grams, hK, hG, hgr, hhad⟩ := Props.C19_gram A (.int n) true 1 hF.allMat hF.cols hke (by
    rw [kept_int, List.length_eraseIdx, if_pos hn', hlen]; unfold order at h25; omega)
  obtain ⟨hKs, -⟩ := cpErr_frob (fun _ => 1) hF h2 h25 hn (hF.get (List.getElem?_eq_getElem hn')) hK
  obtain ⟨K', hK', -, hKe⟩ := khatri_skip_reverse (n := n) hF.allMat hF.cols
    (by rw [hlen]; unfold order at *; omega) (by rw [hlen]; exact hn) (by rw [hlen]; exact h2)
  rw [hK] at hK'
  cases hK'
  have hKpos : ∀ j < otherSize X.shape n, 0 < K.at_ [j, 0] := by
    intro j hj
    obtain ⟨h1, h3, h4⟩ := unkolda_spec hn hpn hj
    have := hKe _ 0 (by rw [hF.rowDims]; exact h1) (by omega)
    rw [hF.rowDims, ← koldaCol_eq_ravel n h1.length, h4] at this
    rw [this]
    refine khatriEntry_pos (fun M hM i hi => hAp M (List.mem_of_mem_eraseIdx hM) i hi 0 (by omega)) ?_
    rw [rowDims_eraseIdx, hF.rowDims]
    exact InB_eraseIdx h1 n
  obtain ⟨hGs, hGm⟩ := toMat_matmul_tn hKs hKs hG
  have hJpos : 0 < otherSize X.shape n := otherSize_pos hpos n
  have hg : (toMat G 1 1).det ≠ 0 := by
    rw [Matrix.det_fin_one, hGm]
    refine ne_of_gt ?_
    rw [Matrix.mul_apply]
    refine Finset.sum_pos (fun j _ => ?_) ⟨⟨0, hJpos⟩, Finset.mem_univ _⟩
    rw [transpose_apply]
    exact mul_pos (hKpos j j.isLt) (hKpos j j.isLt)
  have he : strict pinv G = pinv G := if_pos ⟨1, hGs, hg⟩
  unfold cp.modeUpdate
  cases hM : ops.unfold X n with
  | error e => rfl
  | ok M =>
  rw [ok_bind, ok_bind, hgr, ok_bind, ok_bind, hK, ok_bind, ok_bind]
  cases hXA : tf.matmul M K with
  | error e => rfl
  | ok XA => rw [ok_bind, ok_bind, hhad, ok_bind, ok_bind, he]

open cp in
theorem cp_main_strict {pinv : Tensor ℝ → Res (Tensor ℝ)} (hp : PinvOk pinv) {X : Tensor ℝ} {A : List (Tensor ℝ)}
    (hA : PosFactors X.shape 1 A) (h2 : 2 ≤ X.order) (h25 : X.order ≤ 25)
    (hpos : ∀ d ∈ X.shape, 0 < d) (hX : ∀ i, InB X.shape i → 0 < X.at_ i) :
    cp.main (strict pinv) X 1 A = cp.main pinv X 1 A := by
  have key : ∀ (l : List Nat) (st : List (Tensor ℝ) × Option (Tensor ℝ)), (∀ n ∈ l, n < X.order) → PosFactors X.shape 1 st.1 →
      l.foldlM (fun (st : List (Tensor ℝ) × Option (Tensor ℝ)) mode => (do
        let u ← modeUpdate (strict pinv) X 1 st.1 mode
        return (u.A, some u.lam) : Res _)) st =
      l.foldlM (fun (st : List (Tensor ℝ) × Option (Tensor ℝ)) mode => (do
        let u ← modeUpdate pinv X 1 st.1 mode
        return (u.A, some u.lam) : Res _)) st := by
    intro l
    induction l with
    | nil => intro st _ _; rfl
    | cons n l ih =>
        intro st hl hst
        obtain ⟨u, hu, hu'⟩ := modeUpdate_pos hp hst h2 h25 (hl n (by simp)) hpos hX
        rw [List.foldlM_cons, List.foldlM_cons, modeUpdate_strict hst h2 h25 (hl n (by simp)) hpos, hu, ok_bind]
        exact ih (u.A, some u.lam) (fun m hm => hl m (by simp [hm])) hu'
  unfold cp.main cp.sweep
  rw [key _ _ (by simp) hA]

end Lim
end TD
