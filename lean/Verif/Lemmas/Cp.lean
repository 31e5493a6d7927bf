import Verif.Lemmas.Mats
import Verif.Model.Cp
import Verif.Props.Khatri
import Verif.Props.Kruskal

/-! # Lemmas on `CP_ALS` -/
namespace TD
open Spec Tensor tf ops Matrix

/-! ### Shapes of factors -/
section shapes
variable {α : Type} {shape : List Nat} {R : Nat} {U : List (Tensor α)}

theorem Spec.FactorsFor.length (h : FactorsFor shape R U) : U.length = shape.length := by
  have := congrArg List.length h
  simpa using this

theorem Spec.FactorsFor.get (h : FactorsFor shape R U) {n : Nat} {A : Tensor α} (hA : U[n]? = some A) :
    A.shape = [shape.getD n 0, R] := by
  have h1 := congrArg (fun l => l[n]?) h
  simp only [List.getElem?_map, hA, Option.map_some] at h1
  have hn : n < shape.length := by rw [← h.length]; exact (List.getElem?_eq_some_iff.1 hA).1
  rw [List.getElem?_eq_getElem hn] at h1
  rw [List.getD_eq_getElem _ _ hn]
  simpa using h1

theorem Spec.FactorsFor.allMat (h : FactorsFor shape R U) : AllMat U := by
  intro M hM
  obtain ⟨n, hn⟩ := List.mem_iff_getElem?.1 hM
  rw [h.get hn]; rfl

theorem Spec.FactorsFor.cols (h : FactorsFor shape R U) : ∀ M ∈ U, M.shape.getD 1 0 = R := by
  intro M hM
  obtain ⟨n, hn⟩ := List.mem_iff_getElem?.1 hM
  rw [h.get hn]; rfl

theorem Spec.FactorsFor.rowDims (h : FactorsFor shape R U) : rowDims U = shape := by
  have := congrArg (List.map fun s : List Nat => s.getD 0 0) h
  rw [List.map_map, List.map_map] at this
  simpa [Spec.rowDims, Function.comp_def] using this

theorem Spec.FactorsFor.set (h : FactorsFor shape R U) {n : Nat} {B : Tensor α}
    (hB : B.shape = [shape.getD n 0, R]) : FactorsFor shape R (U.set n B) := by
  unfold FactorsFor at h ⊢
  rw [List.map_set, h, hB]
  apply List.ext_getElem?
  intro k
  rw [List.getElem?_set]
  by_cases hk : n = k
  · subst hk
    by_cases hn : n < shape.length
    · simp [hn]
    · simp [hn]
  · simp [hk]

theorem Spec.FactorsFor.factors (h : FactorsFor shape R U) (hne : shape ≠ []) (hle : shape.length ≤ 25) :
    Factors U R :=
  ⟨fun e => hne (by have := h.length; rw [e] at this; exact List.eq_nil_of_length_eq_zero this.symm),
    by rw [h.length]; exact hle, h.allMat, h.cols⟩

theorem eraseIdx_set_self (n : Nat) (B : Tensor α) (U : List (Tensor α)) :
    (U.set n B).eraseIdx n = U.eraseIdx n := by
  induction U generalizing n with
  | nil => rfl
  | cons A U ih =>
      cases n with
      | zero => rfl
      | succ n => simp [ih]

end shapes

/-- The error of a Kruskal model, seen from mode `n`. -/
theorem cpErr_frob {X K : Tensor ℝ} {R n : Nat} {U : List (Tensor ℝ)} {B : Tensor ℝ} (w : Nat → ℝ)
    (hU : FactorsFor X.shape R U) (h2 : 2 ≤ X.order) (h25 : X.order ≤ 25) (hn : n < X.order)
    (hB : B.shape = [X.shape.getD n 0, R]) (hK : khatri U (.int n) true = .ok K) :
    K.shape = [otherSize X.shape n, R] ∧
    cpErr X R (U.set n B) w = frobSq
      ((Matrix.of fun (i : Fin (X.shape.getD n 0)) (j : Fin (otherSize X.shape n)) => X.at_ (unkolda X.shape n i j)) -
        (Matrix.of fun (i : Fin (X.shape.getD n 0)) (r : Fin R) => B.at_ [i, r] * w r) *
          (toMat K (otherSize X.shape n) R)ᵀ) := by
  have hlen := hU.length
  obtain ⟨K', hK', hs, he⟩ := khatri_skip_reverse (n := n) hU.allMat hU.cols (by rw [hlen]; unfold order at *; omega)
    (by rw [hlen]; exact hn) (by rw [hlen]; exact h2)
  rw [hK] at hK'
  cases hK'
  rw [hU.rowDims, ← otherSize_eq_prod] at hs
  refine ⟨hs, ?_⟩
  have hV := hU.set hB
  rw [cpErr, boxSum_sq_unfold hn]
  congr 1
  ext i j
  rw [Matrix.sub_apply, of_apply, of_apply]
  congr 1
  obtain ⟨h1, h3, h4⟩ := unkolda_spec hn i.isLt j.isLt
  rw [Matrix.mul_apply, Finset.sum_range]
  refine Finset.sum_congr rfl fun r _ => ?_
  have hget : (U.set n B)[n]? = some B := by
    rw [List.getElem?_set_self (by rw [hlen]; exact hn)]
  rw [khatriEntry_eraseIdx (r : Nat) (a := U.set n B) (n := n) (A := B)
    (by rw [h1.length, hV.length]) hget, eraseIdx_set_self, h3,
    ← he _ r (by rw [hU.rowDims]; exact h1) r.isLt, hU.rowDims, ← koldaCol_eq_ravel n h1.length, h4]
  rw [of_apply, transpose_apply, toMat_apply]
  ring

namespace cp

/-- A division that went through had no zero divisor. -/
theorem div_ok {a b c : Tensor ℝ} (h : tf.div a b = .ok c) : (0 : ℝ) ∉ b.data ∧ ewise (· / ·) a b = .ok c := by
  unfold tf.div at h
  by_cases h0 : (0 : ℝ) ∈ b.data
  · rw [if_pos h0] at h; cases h
  · rw [if_neg h0] at h; exact ⟨h0, h⟩

theorem at_ne_zero {b : Tensor ℝ} (h0 : (0 : ℝ) ∉ b.data) {i : List Nat} (hi : InB b.shape i) : b.at_ i ≠ 0 := by
  intro e
  apply h0
  unfold at_ at e
  have hl : ravel b.shape i < b.data.length := by rw [b.wf]; exact ravel_lt hi
  rw [List.getD_eq_getElem _ _ hl] at e
  rw [← e]
  exact List.getElem_mem hl

theorem reduceMax0_ok (N : Tensor ℝ) {m n : Nat} (hs : N.shape = [m, n]) (hm : 0 < m) :
    ∃ lam, reduceMax0 N = .ok lam ∧ lam.shape = [n] ∧
      ∀ r < n, (∀ i < m, N.at_ [i, r] ≤ lam.at_ [r]) ∧ ∃ i < m, N.at_ [i, r] = lam.at_ [r] := by
  obtain ⟨m, rfl⟩ : ∃ k, m = k + 1 := ⟨m - 1, by omega⟩
  refine ⟨_, by unfold reduceMax0; rw [hs], rfl, fun r hr => ?_⟩
  rw [at_ofFn _ (by simpa using hr)]
  simp only [List.getD_cons_zero]
  have key : ∀ (k : Nat), (∀ i < k + 1, N.at_ [i, r] ≤ (List.range k).foldl (fun acc i => max acc (N.at_ [i + 1, r])) (N.at_ [0, r])) ∧
      ∃ i < k + 1, N.at_ [i, r] = (List.range k).foldl (fun acc i => max acc (N.at_ [i + 1, r])) (N.at_ [0, r]) := by
    intro k
    induction k with
    | zero => exact ⟨fun i hi => by obtain rfl : i = 0 := by omega
                                    exact le_refl _, 0, by omega, rfl⟩
    | succ k ih =>
        rw [List.range_succ, List.foldl_append, List.foldl_cons, List.foldl_nil]
        obtain ⟨h1, i, hi, he⟩ := ih
        refine ⟨fun j hj => ?_, ?_⟩
        · rcases Nat.lt_or_ge j (k + 1) with h | h
          · exact le_max_of_le_left (h1 j h)
          · obtain rfl : j = k + 1 := by omega
            exact le_max_right _ _
        · rcases le_total ((List.range k).foldl (fun acc i => max acc (N.at_ [i + 1, r])) (N.at_ [0, r])) (N.at_ [k + 1, r]) with h | h
          · exact ⟨k + 1, by omega, (max_eq_right h).symm⟩
          · exact ⟨i, by omega, by rw [max_eq_left h]; exact he⟩
  exact key m

theorem bcast_row (m n : Nat) : bcastShape [m, n] [n] = some [m, n] := by
  simp [bcastShape, bcastRev]

theorem div_rows {N lam : Tensor ℝ} {m n : Nat} (hN : N.shape = [m, n]) (hl : lam.shape = [n])
    (h0 : (0 : ℝ) ∉ lam.data) :
    tf.div N lam = .ok (mat m n fun i r => N.at_ [i, r] / lam.at_ [r]) := by
  unfold tf.div
  rw [if_neg h0]
  unfold ewise
  rw [hN, hl, bcast_row]
  simp only
  congr 1
  refine ext_mat rfl rfl fun i hi j hj => ?_
  rw [at_ofFn _ (InB_pair.2 ⟨i, j, rfl, hi, hj⟩), at_mat _ hi hj]
  have e1 : (if m = 1 then 0 else i) = i := by split_ifs <;> omega
  have e2 : (if n = 1 then 0 else j) = j := by split_ifs <;> omega
  simp [bcastIdx, e1, e2]

/-- One mode update, in closed form. -/
theorem modeUpdate_eq {pinv : Tensor ℝ → Res (Tensor ℝ)} (hp : PinvOk pinv) {X : Tensor ℝ} {R n : Nat}
    {A : List (Tensor ℝ)} (hA : FactorsFor X.shape R A) (h2 : 2 ≤ X.order) (h25 : X.order ≤ 25)
    (hn : n < X.order) (hpos : 0 < X.shape.getD n 0) :
    ∃ K N lam P, khatri A (.int n) true = .ok K ∧ K.shape = [otherSize X.shape n, R] ∧
      N.shape = [X.shape.getD n 0, R] ∧ lam.shape = [R] ∧
      (toMat K (otherSize X.shape n) R)ᵀ * toMat K (otherSize X.shape n) R * P *
        ((toMat K (otherSize X.shape n) R)ᵀ * toMat K (otherSize X.shape n) R) =
        (toMat K (otherSize X.shape n) R)ᵀ * toMat K (otherSize X.shape n) R ∧
      toMat N (X.shape.getD n 0) R = (Matrix.of fun (i : Fin (X.shape.getD n 0))
        (j : Fin (otherSize X.shape n)) => X.at_ (unkolda X.shape n i j)) * toMat K (otherSize X.shape n) R * P ∧
      (∀ r < R, (∀ i < X.shape.getD n 0, N.at_ [i, r] ≤ lam.at_ [r]) ∧
        ∃ i < X.shape.getD n 0, N.at_ [i, r] = lam.at_ [r]) ∧
      modeUpdate pinv X R A n = if (0 : ℝ) ∈ lam.data then .error .nonFinite else
        .ok ⟨A.set n (mat (X.shape.getD n 0) R fun i r => N.at_ [i, r] / lam.at_ [r]), lam, N⟩ := by
  have hlen := hA.length
  have hn' : n < A.length := by rw [hlen]; exact hn
  have hke : kept A (.int n) ≠ [] := by
    rw [kept_int]; intro e
    have := congrArg List.length e
    rw [List.length_eraseIdx, if_pos hn', hlen] at this
    unfold order at h2
    simp at this; omega
  obtain ⟨K, G, grams, hK, hG, hgr, hhad⟩ := Props.C19_gram A (.int n) true R hA.allMat hA.cols hke (by
    rw [kept_int, List.length_eraseIdx, if_pos hn', hlen]; unfold order at h25; omega)
  have hget : A[n]? = some A[n] := List.getElem?_eq_getElem hn'
  obtain ⟨hKs, -⟩ := cpErr_frob (fun _ => 1) hA h2 h25 hn (hA.get hget) hK
  obtain ⟨M, hM⟩ : ∃ M, unfold X n = .ok M := ⟨_, unfold_closed X hn hpos⟩
  obtain ⟨hMs, hMm⟩ := toMat_unfold hn hpos hM
  obtain ⟨hGs, hGm⟩ := toMat_matmul_tn hKs hKs hG
  obtain ⟨P, hP, hPs, hPp⟩ := hp G R hGs
  obtain ⟨XA, hXA⟩ : ∃ XA, matmul M K = .ok XA := ⟨_, matmul_nn hMs hKs⟩
  obtain ⟨hXAs, hXAm⟩ := toMat_matmul_nn hMs hKs hXA
  obtain ⟨N, hN⟩ : ∃ N, matmul XA P = .ok N := ⟨_, matmul_nn hXAs hPs⟩
  obtain ⟨hNs, hNm⟩ := toMat_matmul_nn hXAs hPs hN
  obtain ⟨lam, hlam, hls, hmax⟩ := reduceMax0_ok N hNs hpos
  have hre : reshape N [(X.shape.getD n 0 : Nat), (R : Nat)] = .ok N := by
    have := reshape_nat (t := N) (s := [X.shape.getD n 0, R]) (by rw [N.wf, hNs])
    simp only [List.map_cons, List.map_nil] at this
    rw [this]
    congr 1
    cases N with
    | mk s d wf => simp only at hNs; subst hNs; rfl
  refine ⟨K, N, lam, toMat P R R, hK, hKs, hNs, hls, ?_, ?_, hmax, ?_⟩
  · rw [← hGm]; exact hPp.vpv
  · rw [hNm, hXAm, hMm]
  · unfold modeUpdate
    rw [hM, ok_bind, hgr, ok_bind, hK, ok_bind, hXA, ok_bind, hhad, ok_bind, hP, ok_bind, hN, ok_bind, hre, ok_bind,
      hlam, ok_bind]
    by_cases h0 : (0 : ℝ) ∈ lam.data
    · rw [if_pos h0]
      unfold tf.div
      rw [if_pos h0]
      rfl
    · rw [if_neg h0, div_rows hNs hls h0, ok_bind]
      unfold tf.assign
      simp only [hget]
      rw [if_pos (by rw [hA.get hget]; rfl)]
      rfl

end cp
end TD

namespace TD.cp
open TD Spec Tensor tf ops Matrix

/-- Multiplying the columns back gives the unnormalised factor. -/
theorem scale_back {N lam : Tensor ℝ} {I R : Nat} (hl : lam.shape = [R]) (h0 : (0 : ℝ) ∉ lam.data) :
    (Matrix.of fun (i : Fin I) (r : Fin R) =>
      (mat I R fun i r => N.at_ [i, r] / lam.at_ [r]).at_ [i, r] * lam.at_ [(r : Nat)]) = toMat N I R := by
  ext i r
  rw [of_apply, at_mat _ i.isLt r.isLt, toMat_apply]
  have : lam.at_ [(r : Nat)] ≠ 0 := at_ne_zero h0 (by rw [hl]; simp)
  field_simp

theorem modeUpdate_descends {pinv : Tensor ℝ → Res (Tensor ℝ)} (hp : PinvOk pinv) {X : Tensor ℝ} {R n : Nat}
    {A : List (Tensor ℝ)} (hA : FactorsFor X.shape R A) (h2 : 2 ≤ X.order) (h25 : X.order ≤ 25)
    (hn : n < X.order) (hpos : 0 < X.shape.getD n 0) {u : Upd ℝ} (h : modeUpdate pinv X R A n = .ok u) :
    FactorsFor X.shape R u.A ∧ u.lam.shape = [R] ∧
      (∀ B w, B.shape = [X.shape.getD n 0, R] → cpErr X R u.A (fun r => u.lam.at_ [r]) ≤ cpErr X R (A.set n B) w) ∧
      ∀ w, cpErr X R u.A (fun r => u.lam.at_ [r]) ≤ cpErr X R A w := by
  obtain ⟨K, N, lam, P, hK, hKs, hNs, hls, hP, hN, -, he⟩ := modeUpdate_eq hp hA h2 h25 hn hpos
  rw [he] at h
  by_cases h0 : (0 : ℝ) ∈ lam.data
  · rw [if_pos h0] at h; cases h
  rw [if_neg h0] at h
  cases h
  have hn' : n < A.length := by rw [hA.length]; exact hn
  have main : ∀ B w, B.shape = [X.shape.getD n 0, R] →
      cpErr X R (A.set n (mat (X.shape.getD n 0) R fun i r => N.at_ [i, r] / lam.at_ [r])) (fun r => lam.at_ [r]) ≤
        cpErr X R (A.set n B) w := by
    intro B w hB
    rw [(cpErr_frob _ hA h2 h25 hn rfl hK).2, (cpErr_frob w hA h2 h25 hn hB hK).2, scale_back hls h0, hN]
    exact least_squares_le _ _ _ hP _
  refine ⟨hA.set rfl, hls, main, fun w => ?_⟩
  have := main A[n] w (hA.get (List.getElem?_eq_getElem hn'))
  rwa [List.set_getElem_self] at this

theorem getD_pos {s : List Nat} (h : ∀ d ∈ s, 0 < d) {n : Nat} (hn : n < s.length) : 0 < s.getD n 0 := by
  rw [List.getD_eq_getElem _ _ hn]; exact h _ (List.getElem_mem hn)

/-- Weights as a function. -/
def wt (lam : Tensor ℝ) (r : Nat) : ℝ := lam.at_ [r]

theorem sweep_descends {pinv : Tensor ℝ → Res (Tensor ℝ)} (hp : PinvOk pinv) {X : Tensor ℝ} {R : Nat}
    {A A' : List (Tensor ℝ)} {lam : Tensor ℝ} (hA : FactorsFor X.shape R A) (h2 : 2 ≤ X.order) (h25 : X.order ≤ 25)
    (hpos : ∀ d ∈ X.shape, 0 < d) (h : sweep pinv X R A = .ok (A', lam)) :
    FactorsFor X.shape R A' ∧ lam.shape = [R] ∧ (∀ w, cpErr X R A' (wt lam) ≤ cpErr X R A w) ∧
      cpErr X R A' (wt lam) ≤ normSqT X := by
  have key : ∀ (l : List Nat) (st st' : List (Tensor ℝ) × Option (Tensor ℝ)), (∀ n ∈ l, n < X.order) →
      FactorsFor X.shape R st.1 →
      l.foldlM (fun (st : List (Tensor ℝ) × Option (Tensor ℝ)) mode => (do
        let u ← modeUpdate pinv X R st.1 mode
        return (u.A, some u.lam) : Res _)) st = .ok st' → l ≠ [] →
      ∃ lam, st'.2 = some lam ∧ FactorsFor X.shape R st'.1 ∧ lam.shape = [R] ∧
        (∀ w, cpErr X R st'.1 (wt lam) ≤ cpErr X R st.1 w) ∧ cpErr X R st'.1 (wt lam) ≤ normSqT X := by
    intro l
    induction l with
    | nil => intro st st' _ _ _ hne; exact absurd rfl hne
    | cons n l ih =>
        intro st st' hl hst hf _
        rw [List.foldlM_cons] at hf
        cases hu : modeUpdate pinv X R st.1 n with
        | error e => rw [hu] at hf; cases hf
        | ok u =>
            have hn := hl n (by simp)
            have hpn : 0 < X.shape.getD n 0 := getD_pos hpos hn
            obtain ⟨a1, a2, a4, a3⟩ := modeUpdate_descends hp hst h2 h25 hn hpn hu
            have h1 : cpErr X R u.A (fun r => u.lam.at_ [r]) ≤ normSqT X := by
              refine le_trans (a4 (mat (X.shape.getD n 0) R fun _ _ => 0) (fun _ => 0) rfl) (le_of_eq ?_)
              unfold cpErr normSqT
              exact boxSum_congr fun i _ => by simp
            rw [hu] at hf
            have hf' : l.foldlM (fun (st : List (Tensor ℝ) × Option (Tensor ℝ)) mode => (do
              let u ← modeUpdate pinv X R st.1 mode
              return (u.A, some u.lam) : Res _)) (u.A, some u.lam) = .ok st' := hf
            by_cases hln : l = []
            · subst hln
              cases hf'
              exact ⟨u.lam, rfl, a1, a2, a3, h1⟩
            · obtain ⟨lam, b1, b2, b3, b4, b5⟩ := ih (u.A, some u.lam) st' (fun m hm => hl m (by simp [hm])) a1 hf' hln
              exact ⟨lam, b1, b2, b3, fun w => le_trans (b4 (wt u.lam)) (a3 w), b5⟩
  unfold sweep at h
  cases hf : (List.range X.order).foldlM (fun (st : List (Tensor ℝ) × Option (Tensor ℝ)) mode => (do
        let u ← modeUpdate pinv X R st.1 mode
        return (u.A, some u.lam) : Res _)) (A, none) with
  | error e => rw [hf] at h; cases h
  | ok st' =>
      rw [hf, ok_bind] at h
      obtain ⟨lam', b1, b2, b3, b4, b5⟩ := key (List.range X.order) (A, none) st' (by simp) hA hf (by
        intro e; have := congrArg List.length e; simp at this; omega)
      rw [b1] at h
      cases h
      exact ⟨b2, b3, b4, b5⟩

theorem fullOf_spec {A : List (Tensor ℝ)} {lam : Tensor ℝ} {shape : List Nat} {R : Nat} (hA : FactorsFor shape R A)
    (hne : shape ≠ []) (h25 : shape.length ≤ 25) (hl : lam.shape = [R]) :
    ∃ Y, fullOf A lam = .ok Y ∧ Y.shape = shape ∧
      ∀ i, InB shape i → Y.at_ i = ∑ r ∈ Finset.range R, wt lam r * khatriEntry r A i := by
  obtain ⟨k, Y, h1, h2, h3, h4⟩ := Props.C23_extract_entry .tf .float32 A (some ⟨.tf, .float32, lam⟩) R
    (hA.factors hne h25) (Or.inl hl) rfl
  refine ⟨Y, by unfold fullOf; rw [h1, ok_bind, h2], by rw [h3, hA.rowDims], fun i hi => ?_⟩
  rw [h4 i (by rw [hA.rowDims]; exact hi)]
  refine Finset.sum_congr rfl fun r _ => ?_
  rw [weight, if_pos (by rw [hl]; rfl)]
  rfl

theorem norm_sq (t : Tensor ℝ) : tf.norm t ^ 2 = normSqT t := by
  rw [tf.norm, Real.sq_sqrt (by rw [reduceSum_sq]; exact normSqT_nonneg t), reduceSum_sq]

theorem scalars_ok {X full : Tensor ℝ} {l obj rel : ℝ} (hs : full.shape = X.shape)
    (h : scalars X full = .ok (l, obj, rel)) :
    obj = distSqT X full / 2 ∧ rel = Real.sqrt (distSqT X full) / Real.sqrt (normSqT X) ∧ 0 < normSqT X := by
  unfold scalars at h
  cases h1 : loss.rmseIgnoreZero X full with
  | error e => rw [h1] at h; cases h
  | ok ls =>
      rw [h1, ok_bind, ewise_same _ hs, ok_bind] at h
      have hd : normSqT (ofFn full.shape fun idx => full.at_ idx - X.at_ idx) = distSqT X full := by
        unfold normSqT distSqT
        rw [shape_ofFn, hs]
        exact boxSum_congr fun i hi => by rw [at_ofFn _ hi]; ring
      cases ls with
      | none => cases h
      | some l' =>
          simp only at h
          unfold loss.fdiv at h
          by_cases h0 : tf.norm X = 0
          · rw [if_pos h0] at h; cases h
          · rw [if_neg h0] at h
            simp only [Except.ok.injEq, Prod.mk.injEq] at h
            obtain ⟨-, h2, h3⟩ := h
            have hn : tf.norm X = Real.sqrt (normSqT X) := by rw [tf.norm, reduceSum_sq]
            refine ⟨?_, ?_, ?_⟩
            · rw [← h2, norm_sq, hd]; ring
            · rw [← h3, hn, tf.norm, reduceSum_sq, hd]
            · rw [hn] at h0
              exact Real.sqrt_pos.1 (lt_of_le_of_ne (Real.sqrt_nonneg _) (Ne.symm h0))

theorem distSqT_full {X Y : Tensor ℝ} {R : Nat} {A : List (Tensor ℝ)} {w : Nat → ℝ}
    (hY : ∀ i, InB X.shape i → Y.at_ i = ∑ r ∈ Finset.range R, w r * khatriEntry r A i) :
    distSqT X Y = cpErr X R A w :=
  boxSum_congr fun i hi => by rw [hY i hi]

/-- What one run of the fetch list returns. -/
theorem main_ok {pinv : Tensor ℝ → Res (Tensor ℝ)} (hp : PinvOk pinv) {X : Tensor ℝ} {R : Nat}
    {A A' : List (Tensor ℝ)} {o : fact.Out (List (Tensor ℝ)) (Tensor ℝ) (Tensor ℝ) ℝ}
    (hA : FactorsFor X.shape R A) (h2 : 2 ≤ X.order) (h25 : X.order ≤ 25)
    (hpos : ∀ d ∈ X.shape, 0 < d) (h : main pinv X R A = .ok (A', o)) :
    ∃ lam, sweep pinv X R A = .ok (A', lam) ∧ FactorsFor X.shape R A' ∧ lam.shape = [R] ∧ o.factors = A' ∧
      o.aux = some lam ∧ fullOf A' lam = .ok o.full ∧ o.full.shape = X.shape ∧
      distSqT X o.full = cpErr X R A' (wt lam) ∧ o.obj = cpErr X R A' (wt lam) / 2 ∧
      o.rel = Real.sqrt (cpErr X R A' (wt lam)) / Real.sqrt (normSqT X) ∧ 0 < normSqT X ∧
      (∀ w, cpErr X R A' (wt lam) ≤ cpErr X R A w) ∧ cpErr X R A' (wt lam) ≤ normSqT X := by
  unfold main at h
  cases hsw : sweep pinv X R A with
  | error e => rw [hsw] at h; cases h
  | ok p =>
      obtain ⟨A1, lam⟩ := p
      rw [hsw, ok_bind] at h
      obtain ⟨a1, a2, a3, a4⟩ := sweep_descends hp hA h2 h25 hpos hsw
      have hne : X.shape ≠ [] := by
        intro e; unfold order at h2; rw [e] at h2; simp at h2
      obtain ⟨Y, y1, y2, y3⟩ := fullOf_spec a1 hne h25 a2
      simp only [y1, ok_bind] at h
      cases hsc : scalars X Y with
      | error e => rw [hsc] at h; cases h
      | ok q =>
          obtain ⟨l, obj, rel⟩ := q
          rw [hsc, ok_bind] at h
          obtain ⟨s1, s2, s3⟩ := scalars_ok y2 hsc
          rw [distSqT_full y3] at s1 s2
          cases h
          exact ⟨lam, rfl, a1, a2, rfl, rfl, y1, y2, distSqT_full y3, s1, s2, s3, a3, a4⟩

end TD.cp

namespace TD.cp
open TD Spec Tensor tf ops Matrix

/-- All factors have positive entries. -/
def PosFactors (shape : List Nat) (R : Nat) (A : List (Tensor ℝ)) : Prop :=
  FactorsFor shape R A ∧ ∀ M ∈ A, ∀ i < M.shape.getD 0 0, ∀ r < R, 0 < M.at_ [i, r]

theorem khatriEntry_pos {r : Nat} : ∀ {A : List (Tensor ℝ)} {is : List Nat},
    (∀ M ∈ A, ∀ i < M.shape.getD 0 0, 0 < M.at_ [i, r]) → InB (rowDims A) is → 0 < khatriEntry r A is
  | [], [], _, _ => by simp [khatriEntry]
  | [], _ :: _, _, h => by simp [rowDims] at h
  | M :: A, [], _, h => by simp [rowDims] at h
  | M :: A, i :: is, hp, h => by
      simp only [rowDims, List.map_cons, InB_cons] at h
      exact mul_pos (hp M (by simp) i h.1) (khatriEntry_pos (fun M' hM' => hp M' (by simp [hM'])) h.2)

theorem otherSize_pos {s : List Nat} (h : ∀ d ∈ s, 0 < d) (n : Nat) : 0 < otherSize s n :=
  Finset.prod_pos fun _ hm => getD_pos h (Finset.mem_range.1 (Finset.mem_of_mem_erase hm))

theorem modeUpdate_pos {pinv : Tensor ℝ → Res (Tensor ℝ)} (hp : PinvOk pinv) {X : Tensor ℝ} {n : Nat}
    {A : List (Tensor ℝ)} (hA : PosFactors X.shape 1 A) (h2 : 2 ≤ X.order) (h25 : X.order ≤ 25)
    (hn : n < X.order) (hpos : ∀ d ∈ X.shape, 0 < d) (hX : ∀ i, InB X.shape i → 0 < X.at_ i) :
    ∃ u, modeUpdate pinv X 1 A n = .ok u ∧ PosFactors X.shape 1 u.A := by
  obtain ⟨hF, hAp⟩ := hA
  have hpn := getD_pos hpos hn
  obtain ⟨K, N, lam, P, hK, hKs, hNs, hls, hP, hN, hmax, he⟩ := modeUpdate_eq hp hF h2 h25 hn hpn
  have hlen := hF.length
  obtain ⟨K', hK', -, hKe⟩ := khatri_skip_reverse (n := n) hF.allMat hF.cols
    (by rw [hlen]; unfold order at *; omega) (by rw [hlen]; exact hn) (by rw [hlen]; exact h2)
  rw [hK] at hK'
  cases hK'
  have hKpos : ∀ j < otherSize X.shape n, 0 < K.at_ [j, 0] := by
    intro j hj
    obtain ⟨h1, h3, h4⟩ := unkolda_spec hn hpn hj
    have := hKe _ 0 (by rw [hF.rowDims]; exact h1) (by omega)
    rw [hF.rowDims, ← koldaCol_eq_ravel n h1.length, h4] at this
    rw [this]
    refine khatriEntry_pos (fun M hM i hi => hAp M (List.mem_of_mem_eraseIdx hM) i hi 0 (by omega)) ?_
    rw [rowDims_eraseIdx, hF.rowDims]
    exact InB_eraseIdx h1 n
  set J := otherSize X.shape n with hJ
  set Km := toMat K J 1 with hKm
  have hJpos : 0 < J := otherSize_pos hpos n
  have hg : 0 < (Kmᵀ * Km) 0 0 := by
    rw [Matrix.mul_apply]
    refine Finset.sum_pos (fun j _ => ?_) ⟨⟨0, hJpos⟩, Finset.mem_univ _⟩
    rw [transpose_apply]
    exact mul_pos (hKpos j j.isLt) (hKpos j j.isLt)
  have hPpos : 0 < P 0 0 := by
    have e := congrFun (congrFun hP 0) 0
    rw [Matrix.mul_apply, Fin.sum_univ_one, Matrix.mul_apply, Fin.sum_univ_one] at e
    have : (Kmᵀ * Km) 0 0 * P 0 0 = 1 := by
      have h' : ((Kmᵀ * Km) 0 0 * P 0 0 - 1) * (Kmᵀ * Km) 0 0 = 0 := by rw [sub_mul, e]; ring
      rcases mul_eq_zero.1 h' with h' | h'
      · linarith
      · exact absurd h' (ne_of_gt hg)
    by_contra hle
    push Not at hle
    nlinarith [mul_nonneg (le_of_lt hg) (neg_nonneg.2 hle)]
  have hNpos : ∀ i < X.shape.getD n 0, 0 < N.at_ [i, 0] := by
    intro i hi
    have e := congrFun (congrFun hN ⟨i, hi⟩) (0 : Fin 1)
    rw [toMat_apply, Matrix.mul_apply, Fin.sum_univ_one, Matrix.mul_apply] at e
    have e' : N.at_ [i, 0] = _ := e
    rw [e']
    refine mul_pos (Finset.sum_pos (fun j _ => ?_) ⟨⟨0, hJpos⟩, Finset.mem_univ _⟩) hPpos
    exact mul_pos (hX _ (unkolda_spec hn hi j.isLt).1) (hKpos j j.isLt)
  have hlpos : 0 < lam.at_ [0] := by
    obtain ⟨h1, i, hi, h3⟩ := hmax 0 (by omega)
    rw [← h3]; exact hNpos i hi
  have h0 : (0 : ℝ) ∉ lam.data := by
    intro hm
    obtain ⟨k, hk, hk'⟩ := List.mem_iff_getElem.1 hm
    have hlen : lam.data.length = 1 := by rw [lam.wf, hls]; rfl
    have : lam.at_ [0] = lam.data[k] := by
      unfold at_
      rw [hls, List.getD_eq_getElem _ _ (by simp [ravel, hlen])]
      congr 1
      simp [ravel]; omega
    rw [this, hk'] at hlpos
    exact lt_irrefl _ hlpos
  refine ⟨_, by rw [he, if_neg h0], hF.set rfl, fun M hM i hi r hr => ?_⟩
  rcases List.mem_or_eq_of_mem_set hM with h | rfl
  · exact hAp M h i hi r hr
  · have hi : i < X.shape.getD n 0 := hi
    rw [at_mat _ hi hr]
    obtain rfl : r = 0 := by omega
    exact div_pos (hNpos i hi) hlpos

theorem sweep_pos {pinv : Tensor ℝ → Res (Tensor ℝ)} (hp : PinvOk pinv) {X : Tensor ℝ}
    {A : List (Tensor ℝ)} (hA : PosFactors X.shape 1 A) (h2 : 2 ≤ X.order) (h25 : X.order ≤ 25)
    (hpos : ∀ d ∈ X.shape, 0 < d) (hX : ∀ i, InB X.shape i → 0 < X.at_ i) :
    ∃ A' lam, sweep pinv X 1 A = .ok (A', lam) ∧ PosFactors X.shape 1 A' := by
  have key : ∀ (l : List Nat) (st : List (Tensor ℝ) × Option (Tensor ℝ)), (∀ n ∈ l, n < X.order) →
      PosFactors X.shape 1 st.1 → (l ≠ [] ∨ st.2.isSome) → ∃ st',
      l.foldlM (fun (st : List (Tensor ℝ) × Option (Tensor ℝ)) mode => (do
        let u ← modeUpdate pinv X 1 st.1 mode
        return (u.A, some u.lam) : Res _)) st = .ok st' ∧ PosFactors X.shape 1 st'.1 ∧ st'.2.isSome := by
    intro l
    induction l with
    | nil => intro st _ hst hne; exact ⟨st, rfl, hst, by simpa using hne⟩
    | cons n l ih =>
        intro st hl hst _
        obtain ⟨u, hu, hu'⟩ := modeUpdate_pos hp hst h2 h25 (hl n (by simp)) hpos hX
        obtain ⟨st', h1, h3⟩ := ih (u.A, some u.lam) (fun m hm => hl m (by simp [hm])) hu' (Or.inr rfl)
        refine ⟨st', ?_, h3⟩
        rw [List.foldlM_cons, hu]
        exact h1
  obtain ⟨st', h1, h3, h4⟩ := key (List.range X.order) (A, none) (by simp) hA
    (Or.inl (by intro e; have := congrArg List.length e; simp at this; omega))
  obtain ⟨lam, hl⟩ := Option.isSome_iff_exists.1 h4
  refine ⟨st'.1, lam, ?_, h3⟩
  unfold sweep
  rw [h1, ok_bind, hl]

theorem scalars_total {X Y : Tensor ℝ} (hs : Y.shape = X.shape) (hX : ∃ i, InB X.shape i ∧ X.at_ i ≠ 0) :
    ∃ q, scalars X Y = .ok q := by
  obtain ⟨i, hi, hne⟩ := hX
  have hpos : 0 < normSqT X := by
    refine lt_of_le_of_ne (normSqT_nonneg X) fun e => hne ?_
    have := (loss.boxSum_eq_zero X.shape (fun i _ => sq_nonneg (X.at_ i))).1 e.symm i hi
    simpa using this
  have hcount : tf.reduceSum (loss.nonzero X) ≠ 0 := by
    intro e
    unfold loss.nonzero at e
    rw [loss.reduceSum_map] at e
    have := (loss.boxSum_eq_zero X.shape (fun i _ => by split_ifs <;> norm_num)).1 e i hi
    simp [hne] at this
  unfold scalars loss.rmseIgnoreZero
  rw [if_neg (by simp [hs]), ewise_same (A := Y) (B := loss.nonzero X) _ (by rw [hs]; rfl)]
  simp only [ok_bind]
  rw [ewise_same (A := X) _ (by rw [shape_ofFn, hs]), ewise_same (A := Y) (B := X) _ hs]
  simp only [ok_bind]
  have hn : tf.norm X ≠ 0 := by
    rw [tf.norm, reduceSum_sq]; exact ne_of_gt (Real.sqrt_pos.2 hpos)
  simp only [loss.fdiv, if_neg hcount, if_neg hn, loss.fsqrt, Option.map_some, pure, Except.pure, bind, Except.bind]
  exact ⟨_, rfl⟩

end TD.cp
