import Verif.Lemmas.Cp

/-! # `CP_ALS` on tensors of rank one, and the weights of a sweep -/
namespace TD.cp
open TD Spec Tensor tf ops Matrix

/-- Factors that are nonzero multiples of each other, column by column 0. -/
def Prop0 (A B : Tensor ℝ) : Prop := ∃ c : ℝ, c ≠ 0 ∧ ∀ i < B.shape.getD 0 0, A.at_ [i, 0] = c * B.at_ [i, 0]

theorem khatri_prop {A B : List (Tensor ℝ)} (h : List.Forall₂ Prop0 A B) :
    ∃ c : ℝ, c ≠ 0 ∧ ∀ i, InB (rowDims B) i → khatriEntry 0 A i = c * khatriEntry 0 B i := by
  induction h with
  | nil =>
      refine ⟨1, one_ne_zero, fun i hi => ?_⟩
      have : i = [] := by cases i with
        | nil => rfl
        | cons => simp [rowDims] at hi
      subst this
      simp [khatriEntry]
  | @cons M M' A B hM _ ih =>
      obtain ⟨c, hc, he⟩ := ih
      obtain ⟨d, hd, hde⟩ := hM
      refine ⟨d * c, mul_ne_zero hd hc, fun i hi => ?_⟩
      cases i with
      | nil => simp [rowDims] at hi
      | cons a i =>
          simp only [rowDims, List.map_cons, InB_cons] at hi
          simp only [khatriEntry]
          rw [hde a hi.1, he i hi.2]
          ring

/-- One update on a rank-one tensor gives a multiple of the right factor. -/
theorem modeUpdate_rank_one {pinv : Tensor ℝ → Res (Tensor ℝ)} (hp : PinvOk pinv) {X : Tensor ℝ} {n : Nat}
    {A B : List (Tensor ℝ)} (hA : FactorsFor X.shape 1 A) (hB : FactorsFor X.shape 1 B)
    (hX : ∀ i, InB X.shape i → X.at_ i = khatriEntry 0 B i) (h2 : 2 ≤ X.order) (h25 : X.order ≤ 25)
    (hn : n < X.order) (hpos : 0 < X.shape.getD n 0) {u : Upd ℝ} (h : modeUpdate pinv X 1 A n = .ok u) :
    ∃ M M', u.A = A.set n M ∧ M.shape = [X.shape.getD n 0, 1] ∧ B[n]? = some M' ∧ Prop0 M M' := by
  obtain ⟨K, N, lam, P, hK, hKs, hNs, hls, hP, hN, hmax, he⟩ := modeUpdate_eq hp hA h2 h25 hn hpos
  rw [he] at h
  by_cases h0 : (0 : ℝ) ∈ lam.data
  · rw [if_pos h0] at h; cases h
  rw [if_neg h0] at h
  cases h
  have hnB : n < B.length := by rw [hB.length]; exact hn
  have hBn : B[n]? = some B[n] := List.getElem?_eq_getElem hnB
  have hBs := hB.get hBn
  set W : Mat (otherSize X.shape n) 1 := toMat K (otherSize X.shape n) 1 * P with hW
  obtain ⟨c0, hc0⟩ : ∃ c0 : ℝ, ∀ i < X.shape.getD n 0, N.at_ [i, 0] = c0 * B[n].at_ [i, 0] := by
    refine ⟨∑ j : Fin (otherSize X.shape n), khatriEntry 0 (B.eraseIdx n) ((unkolda X.shape n 0 j).eraseIdx n) * W j 0,
      fun i hi => ?_⟩
    have e := congrFun (congrFun hN ⟨i, hi⟩) 0
    rw [Matrix.mul_assoc, ← hW, Matrix.mul_apply] at e
    have e' : N.at_ [i, 0] = toMat N (X.shape.getD n 0) 1 ⟨i, hi⟩ 0 := rfl
    rw [e', e, Finset.sum_mul]
    refine Finset.sum_congr rfl fun j _ => ?_
    obtain ⟨k1, k2, -⟩ := unkolda_spec hn hi j.isLt
    obtain ⟨-, -, f1⟩ := unkolda_facts (shape := X.shape) hn i j
    obtain ⟨-, -, f2⟩ := unkolda_facts (shape := X.shape) hn 0 j
    rw [of_apply, hX _ k1, khatriEntry_eraseIdx 0 (by rw [k1.length, hB.length]) hBn, k2, f1, f2]
    ring
  have hl : lam.at_ [0] ≠ 0 := at_ne_zero h0 (by rw [hls]; simp)
  obtain ⟨-, i0, hi0, hie⟩ := hmax 0 (by omega)
  have hc : c0 ≠ 0 := by
    rintro rfl
    rw [hc0 i0 hi0, zero_mul] at hie
    exact hl hie.symm
  refine ⟨_, B[n], rfl, rfl, hBn, c0 / lam.at_ [0], div_ne_zero hc hl, fun i hi => ?_⟩
  rw [hBs] at hi
  have hi : i < X.shape.getD n 0 := hi
  rw [at_mat _ hi (by omega), hc0 i hi]
  ring

/-- The weights returned by a sweep are the best ones for the factors it returns. -/
theorem sweep_weights {pinv : Tensor ℝ → Res (Tensor ℝ)} (hp : PinvOk pinv) {X : Tensor ℝ} {R : Nat}
    {A A' : List (Tensor ℝ)} {lam : Tensor ℝ} (hA : FactorsFor X.shape R A) (h2 : 2 ≤ X.order) (h25 : X.order ≤ 25)
    (hpos : ∀ d ∈ X.shape, 0 < d) (h : sweep pinv X R A = .ok (A', lam)) (w : Nat → ℝ) :
    cpErr X R A' (wt lam) ≤ cpErr X R A' w := by
  have key : ∀ (l : List Nat) (st st' : List (Tensor ℝ) × Option (Tensor ℝ)), (∀ n ∈ l, n < X.order) →
      FactorsFor X.shape R st.1 →
      l.foldlM (fun (st : List (Tensor ℝ) × Option (Tensor ℝ)) mode => (do
        let u ← modeUpdate pinv X R st.1 mode
        return (u.A, some u.lam) : Res _)) st = .ok st' → l ≠ [] →
      ∃ lam, st'.2 = some lam ∧ cpErr X R st'.1 (wt lam) ≤ cpErr X R st'.1 w := by
    intro l
    induction l with
    | nil => intro st st' _ _ _ hne; exact absurd rfl hne
    | cons n l ih =>
        intro st st' hl hst hf _
        rw [List.foldlM_cons] at hf
        cases hu : modeUpdate pinv X R st.1 n with
        | error e => rw [hu] at hf; cases hf
        | ok u =>
            have hn := hl n (by simp)
            have hpn : 0 < X.shape.getD n 0 := getD_pos hpos hn
            obtain ⟨a1, a2, a4, a3⟩ := modeUpdate_descends hp hst h2 h25 hn hpn hu
            rw [hu] at hf
            have hf' : l.foldlM (fun (st : List (Tensor ℝ) × Option (Tensor ℝ)) mode => (do
              let u ← modeUpdate pinv X R st.1 mode
              return (u.A, some u.lam) : Res _)) (u.A, some u.lam) = .ok st' := hf
            by_cases hln : l = []
            · subst hln
              cases hf'
              refine ⟨u.lam, rfl, ?_⟩
              obtain ⟨K, N, lam, P, -, -, -, -, -, -, -, he⟩ := modeUpdate_eq hp hst h2 h25 hn hpn
              rw [he] at hu
              by_cases h0 : (0 : ℝ) ∈ lam.data
              · rw [if_pos h0] at hu; cases hu
              rw [if_neg h0] at hu
              cases hu
              exact a4 _ w rfl
            · exact ih (u.A, some u.lam) st' (fun m hm => hl m (by simp [hm])) a1 hf' hln
  unfold sweep at h
  cases hf : (List.range X.order).foldlM (fun (st : List (Tensor ℝ) × Option (Tensor ℝ)) mode => (do
        let u ← modeUpdate pinv X R st.1 mode
        return (u.A, some u.lam) : Res _)) (A, none) with
  | error e => rw [hf] at h; cases h
  | ok st' =>
      rw [hf, ok_bind] at h
      obtain ⟨lam', b1, b2⟩ := key (List.range X.order) (A, none) st' (by simp) hA hf (by
        intro e; have := congrArg List.length e; simp at this; omega)
      rw [b1] at h
      cases h
      exact b2

/-- A sweep on a rank-one tensor makes every factor a multiple of the right one. -/
theorem sweep_rank_one {pinv : Tensor ℝ → Res (Tensor ℝ)} (hp : PinvOk pinv) {X : Tensor ℝ}
    {A A' B : List (Tensor ℝ)} {lam : Tensor ℝ} (hA : FactorsFor X.shape 1 A) (hB : FactorsFor X.shape 1 B)
    (hX : ∀ i, InB X.shape i → X.at_ i = khatriEntry 0 B i) (h2 : 2 ≤ X.order) (h25 : X.order ≤ 25)
    (hpos : ∀ d ∈ X.shape, 0 < d) (h : sweep pinv X 1 A = .ok (A', lam)) : List.Forall₂ Prop0 A' B := by
  have key : ∀ (l : List Nat) (st st' : List (Tensor ℝ) × Option (Tensor ℝ)), (∀ n ∈ l, n < X.order) → l.Nodup →
      FactorsFor X.shape 1 st.1 →
      l.foldlM (fun (st : List (Tensor ℝ) × Option (Tensor ℝ)) mode => (do
        let u ← modeUpdate pinv X 1 st.1 mode
        return (u.A, some u.lam) : Res _)) st = .ok st' →
      FactorsFor X.shape 1 st'.1 ∧ (∀ k ∈ l, ∃ M M', st'.1[k]? = some M ∧ B[k]? = some M' ∧ Prop0 M M') ∧
        ∀ k ∉ l, st'.1[k]? = st.1[k]? := by
    intro l
    induction l with
    | nil =>
        intro st st' _ _ hst hf
        cases hf
        exact ⟨hst, fun k hk => absurd hk (by simp), fun _ _ => rfl⟩
    | cons n l ih =>
        intro st st' hl hnd hst hf
        have hn := hl n (by simp)
        rw [List.nodup_cons] at hnd
        rw [List.foldlM_cons] at hf
        cases hu : modeUpdate pinv X 1 st.1 n with
        | error e => rw [hu] at hf; cases hf
        | ok u =>
            obtain ⟨M, M', e1, e2, e3, e4⟩ := modeUpdate_rank_one hp hst hB hX h2 h25 hn (getD_pos hpos hn) hu
            rw [hu] at hf
            obtain ⟨b0, b1, b2⟩ := ih (u.A, some u.lam) st' (fun m hm => hl m (by simp [hm])) hnd.2
              (by simp only [e1]; exact hst.set e2) hf
            refine ⟨b0, fun k hk => ?_, fun k hk => ?_⟩
            · rcases List.mem_cons.1 hk with rfl | hk
              · refine ⟨M, M', ?_, e3, e4⟩
                rw [b2 k hnd.1, e1]
                exact List.getElem?_set_self (by rw [hst.length]; exact hn)
              · exact b1 k hk
            · rw [List.mem_cons, not_or] at hk
              rw [b2 k hk.2, e1]
              exact List.getElem?_set_ne (Ne.symm hk.1)
  unfold sweep at h
  cases hf : (List.range X.order).foldlM (fun (st : List (Tensor ℝ) × Option (Tensor ℝ)) mode => (do
        let u ← modeUpdate pinv X 1 st.1 mode
        return (u.A, some u.lam) : Res _)) (A, none) with
  | error e => rw [hf] at h; cases h
  | ok st' =>
      rw [hf, ok_bind] at h
      have hst : st'.1 = A' := by
        cases h2' : st'.2 with
        | none => rw [h2'] at h; cases h
        | some l => rw [h2'] at h; cases h; rfl
      obtain ⟨c0, c1, -⟩ := key _ (A, none) st' (by simp) List.nodup_range hA hf
      rw [hst] at c0 c1
      rw [List.forall₂_iff_get]
      refine ⟨by rw [c0.length, hB.length], fun k hk hk' => ?_⟩
      obtain ⟨M, M', d1, d2, d3⟩ := c1 k (by rw [List.mem_range]; rw [c0.length] at hk; exact hk)
      rw [List.getElem?_eq_getElem hk, Option.some.injEq] at d1
      rw [List.getElem?_eq_getElem hk', Option.some.injEq] at d2
      simp only [List.get_eq_getElem, d1, d2]
      exact d3

/-- A sweep on a rank-one tensor fits it exactly. -/
theorem sweep_rank_one_exact {pinv : Tensor ℝ → Res (Tensor ℝ)} (hp : PinvOk pinv) {X : Tensor ℝ}
    {A A' B : List (Tensor ℝ)} {lam : Tensor ℝ} (hA : FactorsFor X.shape 1 A) (hB : FactorsFor X.shape 1 B)
    (hX : ∀ i, InB X.shape i → X.at_ i = khatriEntry 0 B i) (h2 : 2 ≤ X.order) (h25 : X.order ≤ 25)
    (hpos : ∀ d ∈ X.shape, 0 < d) (h : sweep pinv X 1 A = .ok (A', lam)) : cpErr X 1 A' (wt lam) = 0 := by
  obtain ⟨c, hc, he⟩ := khatri_prop (sweep_rank_one hp hA hB hX h2 h25 hpos h)
  refine le_antisymm (le_trans (sweep_weights hp hA h2 h25 hpos h fun _ => c⁻¹) (le_of_eq ?_))
    (loss.boxSum_nonneg _ fun _ _ => sq_nonneg _)
  unfold cpErr
  refine (loss.boxSum_eq_zero X.shape fun i _ => sq_nonneg _).2 fun i hi => ?_
  rw [Finset.sum_range_one, he i (by rw [hB.rowDims]; exact hi), hX i hi]
  field_simp
  ring

end TD.cp
