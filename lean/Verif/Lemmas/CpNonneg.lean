import Verif.Lemmas.Cp
import Verif.Lemmas.RenumberFit

/-! # One component on nonnegative data: no update breaks down -/
namespace TD.cp
open TD Spec Tensor tf ops Matrix

/-- The factors of the modes with `p` have nonnegative entries, and those the entry `e` is computed from are positive. -/
def PosAt (shape : List Nat) (e : List Nat) (p : Nat → Prop) (A : List (Tensor ℝ)) : Prop :=
  FactorsFor shape 1 A ∧ (∀ (k : Nat) (M : Tensor ℝ), p k → A[k]? = some M → ∀ i < M.shape.getD 0 0, 0 ≤ M.at_ [i, 0]) ∧
    ∀ (k : Nat) (M : Tensor ℝ), p k → A[k]? = some M → 0 < M.at_ [e.getD k 0, 0]

theorem khatriEntry_nonneg_of {r : Nat} : ∀ {A : List (Tensor ℝ)} {is : List Nat},
    (∀ M ∈ A, ∀ i < M.shape.getD 0 0, 0 ≤ M.at_ [i, r]) → InB (rowDims A) is → 0 ≤ khatriEntry r A is
  | [], [], _, _ => by simp [khatriEntry]
  | [], _ :: _, _, h => by simp [rowDims] at h
  | M :: A, [], _, h => by simp [rowDims] at h
  | M :: A, i :: is, hp, h => by
      simp only [rowDims, List.map_cons, InB_cons] at h
      exact mul_nonneg (hp M (by simp) i h.1) (khatriEntry_nonneg_of (fun M' hM' => hp M' (by simp [hM'])) h.2)

theorem khatriEntry_pos_at {r : Nat} : ∀ {A : List (Tensor ℝ)} {is : List Nat}, A.length = is.length →
    (∀ (k : Nat) (M : Tensor ℝ) (a : Nat), A[k]? = some M → is[k]? = some a → 0 < M.at_ [a, r]) → 0 < khatriEntry r A is
  | [], [], _, _ => by simp [khatriEntry]
  | [], _ :: _, h, _ => by simp at h
  | M :: A, [], h, _ => by simp at h
  | M :: A, i :: is, h, hp =>
      mul_pos (hp 0 M i rfl rfl) (khatriEntry_pos_at (by simpa using h) fun k M' a h1 h2 =>
        hp (k + 1) M' a (by simpa using h1) (by simpa using h2))

theorem modeUpdate_at {pinv : Tensor ℝ → Res (Tensor ℝ)} (hp : PinvOk pinv) {X : Tensor ℝ} {n : Nat} {e : List Nat}
    {A : List (Tensor ℝ)} {p : Nat → Prop} (hA : PosAt X.shape e p A) (hpn : ∀ k, k ≠ n → p k)
    (h2 : 2 ≤ X.order) (h25 : X.order ≤ 25) (hn : n < X.order) (hX : ∀ i, InB X.shape i → 0 ≤ X.at_ i) (he : InB X.shape e) (hXe : 0 < X.at_ e) :
    ∃ u, modeUpdate pinv X 1 A n = .ok u ∧ PosAt X.shape e (fun _ => True) u.A := by
  obtain ⟨hF, hAn, hAp⟩ := hA
  have hen : e.getD n 0 < X.shape.getD n 0 := (InB_iff_getD.1 he).2 n hn
  have hdn : 0 < X.shape.getD n 0 := by omega
  obtain ⟨K, N, lam, P, hK, hKs, hNs, hls, hP, hN, hmax, hu⟩ := modeUpdate_eq hp hF h2 h25 hn hdn
  have hlen := hF.length
  obtain ⟨K', hK', -, hKe⟩ := khatri_skip_reverse (n := n) hF.allMat hF.cols
    (by rw [hlen]; unfold order at *; omega) (by rw [hlen]; exact hn) (by rw [hlen]; exact h2)
  rw [hK] at hK'
  cases hK'
  have hKnn : ∀ j < otherSize X.shape n, 0 ≤ K.at_ [j, 0] := by
    intro j hj
    obtain ⟨h1, h3, h4⟩ := unkolda_spec hn hdn hj
    have := hKe _ 0 (by rw [hF.rowDims]; exact h1) (by omega)
    rw [hF.rowDims, ← koldaCol_eq_ravel n h1.length, h4] at this
    rw [this]
    refine khatriEntry_nonneg_of (fun M hM i hi => ?_) ?_
    · obtain ⟨k, hk⟩ := List.getElem?_of_mem hM
      rw [List.getElem?_eraseIdx] at hk
      split at hk
      · exact hAn k M (hpn k (by omega)) hk i hi
      · exact hAn (k + 1) M (hpn _ (by omega)) hk i hi
    rw [rowDims_eraseIdx, hF.rowDims]
    exact InB_eraseIdx h1 n
  have hej := koldaCol_lt (n := n) he
  have hKpos : 0 < K.at_ [koldaCol X.shape e n, 0] := by
    have := hKe e 0 (by rw [hF.rowDims]; exact he) (by omega)
    rw [hF.rowDims, ← koldaCol_eq_ravel n he.length] at this
    rw [this]
    refine khatriEntry_pos_at ?_ fun k M a h1 h3 => ?_
    · rw [List.length_eraseIdx, List.length_eraseIdx, hlen, he.length]
    · rw [List.getElem?_eraseIdx] at h1 h3
      split at h1
      · rw [if_pos (by assumption)] at h3
        have := hAp k M (hpn k (by omega)) h1
        rwa [List.getD_eq_getElem?_getD, h3] at this
      · rw [if_neg (by assumption)] at h3
        have := hAp (k + 1) M (hpn _ (by omega)) h1
        rwa [List.getD_eq_getElem?_getD, h3] at this
  have hue : unkolda X.shape n (e.getD n 0) (koldaCol X.shape e n) = e := unkolda_eq hn he
  set J := otherSize X.shape n with hJ
  set Km := toMat K J 1 with hKm
  have hg : 0 < (Kmᵀ * Km) 0 0 := by
    rw [Matrix.mul_apply]
    refine Finset.sum_pos' (fun j _ => ?_) ⟨⟨_, hej⟩, Finset.mem_univ _, ?_⟩
    · rw [transpose_apply]
      exact mul_self_nonneg _
    · rw [transpose_apply]
      exact mul_pos hKpos hKpos
  have hPpos : 0 < P 0 0 := by
    have e := congrFun (congrFun hP 0) 0
    rw [Matrix.mul_apply, Fin.sum_univ_one, Matrix.mul_apply, Fin.sum_univ_one] at e
    have : (Kmᵀ * Km) 0 0 * P 0 0 = 1 := by
      have h' : ((Kmᵀ * Km) 0 0 * P 0 0 - 1) * (Kmᵀ * Km) 0 0 = 0 := by rw [sub_mul, e]; ring
      rcases mul_eq_zero.1 h' with h' | h'
      · linarith
      · exact absurd h' (ne_of_gt hg)
    by_contra hle
    push Not at hle
    nlinarith [mul_nonneg (le_of_lt hg) (neg_nonneg.2 hle)]
  have hNe : ∀ i (hi : i < X.shape.getD n 0), N.at_ [i, 0] =
      (∑ j : Fin J, X.at_ (unkolda X.shape n i j) * K.at_ [j.val, 0]) * P 0 0 := by
    intro i hi
    have e := congrFun (congrFun hN ⟨i, hi⟩) (0 : Fin 1)
    rw [toMat_apply, Matrix.mul_apply, Fin.sum_univ_one, Matrix.mul_apply] at e
    exact e
  have hNnn : ∀ i < X.shape.getD n 0, 0 ≤ N.at_ [i, 0] := fun i hi => by
    rw [hNe i hi]
    exact mul_nonneg (Finset.sum_nonneg fun j _ => mul_nonneg (hX _ (unkolda_spec hn hi j.isLt).1) (hKnn j j.isLt)) hPpos.le
  have hNpos : 0 < N.at_ [e.getD n 0, 0] := by
    rw [hNe _ hen]
    refine mul_pos (Finset.sum_pos' (fun j _ => mul_nonneg (hX _ (unkolda_spec hn hen j.isLt).1) (hKnn j j.isLt))
      ⟨⟨_, hej⟩, Finset.mem_univ _, ?_⟩) hPpos
    show 0 < X.at_ (unkolda X.shape n (e.getD n 0) (koldaCol X.shape e n)) * _
    rw [hue]
    exact mul_pos hXe hKpos
  have hlpos : 0 < lam.at_ [0] := lt_of_lt_of_le hNpos ((hmax 0 (by omega)).1 _ hen)
  have h0 : (0 : ℝ) ∉ lam.data := by
    intro hm
    obtain ⟨k, hk, hk'⟩ := List.mem_iff_getElem.1 hm
    have hlen : lam.data.length = 1 := by rw [lam.wf, hls]; rfl
    have : lam.at_ [0] = lam.data[k] := by
      unfold at_
      rw [hls, List.getD_eq_getElem _ _ (by simp [ravel, hlen])]
      congr 1
      simp [ravel]; omega
    rw [this, hk'] at hlpos
    exact lt_irrefl _ hlpos
  refine ⟨_, by rw [hu, if_neg h0], hF.set rfl, fun k M _ hk i hi => ?_, fun k M _ hk => ?_⟩
  · by_cases hkn : k = n
    · subst hkn
      change (A.set k _)[k]? = some M at hk
      rw [List.getElem?_set_self (by rw [hlen]; exact hn)] at hk
      cases hk
      have hi : i < X.shape.getD k 0 := hi
      rw [at_mat _ hi (by omega)]
      exact div_nonneg (hNnn i hi) hlpos.le
    · change (A.set n _)[k]? = some M at hk
      rw [List.getElem?_set_ne (Ne.symm hkn)] at hk
      exact hAn k M (hpn k hkn) hk i hi
  · by_cases hkn : k = n
    · subst hkn
      change (A.set k _)[k]? = some M at hk
      rw [List.getElem?_set_self (by rw [hlen]; exact hn)] at hk
      cases hk
      rw [at_mat _ hen (by omega)]
      exact div_pos hNpos hlpos
    · change (A.set n _)[k]? = some M at hk
      rw [List.getElem?_set_ne (Ne.symm hkn)] at hk
      exact hAp k M (hpn k hkn) hk

theorem sweep_at {pinv : Tensor ℝ → Res (Tensor ℝ)} (hp : PinvOk pinv) {X : Tensor ℝ} {e : List Nat}
    {A : List (Tensor ℝ)} (hA : PosAt X.shape e (1 ≤ ·) A) (h2 : 2 ≤ X.order) (h25 : X.order ≤ 25)
    (hX : ∀ i, InB X.shape i → 0 ≤ X.at_ i) (he : InB X.shape e) (hXe : 0 < X.at_ e) :
    ∃ A' lam, sweep pinv X 1 A = .ok (A', lam) ∧ PosAt X.shape e (1 ≤ ·) A' := by
  have key : ∀ (l : List Nat) (st : List (Tensor ℝ) × Option (Tensor ℝ)), (∀ n ∈ l, n < X.order) →
      PosAt X.shape e (fun _ => True) st.1 → st.2.isSome → ∃ st',
      l.foldlM (fun (st : List (Tensor ℝ) × Option (Tensor ℝ)) mode => (do
        let u ← modeUpdate pinv X 1 st.1 mode
        return (u.A, some u.lam) : Res _)) st = .ok st' ∧ PosAt X.shape e (fun _ => True) st'.1 ∧ st'.2.isSome := by
    intro l
    induction l with
    | nil => intro st _ hst hne; exact ⟨st, rfl, hst, hne⟩
    | cons n l ih =>
        intro st hl hst _
        obtain ⟨u, hu, hu'⟩ := modeUpdate_at hp hst (fun _ _ => trivial) h2 h25 (hl n (by simp)) hX he hXe
        obtain ⟨st', h1, h3⟩ := ih (u.A, some u.lam) (fun m hm => hl m (by simp [hm])) hu' rfl
        refine ⟨st', ?_, h3⟩
        rw [List.foldlM_cons, hu]
        exact h1
  obtain ⟨u, hu, hu'⟩ := modeUpdate_at hp hA (n := 0) (fun k hk => Nat.pos_of_ne_zero hk) h2 h25 (by omega) hX he hXe
  obtain ⟨N, hN⟩ : ∃ N, X.order = N + 1 := ⟨X.order - 1, by omega⟩
  obtain ⟨st', h1, h3, h4⟩ := key ((List.range N).map (· + 1)) (u.A, some u.lam) (by
    intro n hn
    obtain ⟨a, ha, rfl⟩ := List.mem_map.1 hn
    have := List.mem_range.1 ha
    omega) hu' rfl
  obtain ⟨lam, hl⟩ := Option.isSome_iff_exists.1 h4
  refine ⟨st'.1, lam, ?_, h3.1, fun k M _ hk => h3.2.1 k M trivial hk, fun k M _ hk => h3.2.2 k M trivial hk⟩
  have h5 : (List.range X.order).foldlM (fun (st : List (Tensor ℝ) × Option (Tensor ℝ)) mode => (do
        let u ← modeUpdate pinv X 1 st.1 mode
        return (u.A, some u.lam) : Res _)) (A, none) = .ok st' := by
    rw [hN, List.range_succ_eq_map, List.foldlM_cons, hu]
    exact h1
  unfold sweep
  rw [h5, ok_bind, hl]

theorem khatriEntry_ne {r : Nat} : ∀ {A : List (Tensor ℝ)} {is : List Nat}, khatriEntry r A is ≠ 0 →
    ∀ (k : Nat) (M : Tensor ℝ) (a : Nat), A[k]? = some M → is[k]? = some a → M.at_ [a, r] ≠ 0
  | [], _, _, k, M, a, h, _ => by simp at h
  | _ :: _, [], _, k, M, a, _, h => by simp at h
  | M' :: A, i :: is, h, 0, M, a, h1, h2 => by
      simp only [List.getElem?_cons_zero, Option.some.injEq] at h1 h2
      subst h1 h2
      exact left_ne_zero_of_mul h
  | M' :: A, i :: is, h, k + 1, M, a, h1, h2 =>
      khatriEntry_ne (right_ne_zero_of_mul h) k M a (by simpa using h1) (by simpa using h2)

/-- If the first update succeeds, there is an entry of the data with which the other factors have something in common. -/
theorem modeUpdate_entry {pinv : Tensor ℝ → Res (Tensor ℝ)} (hp : PinvOk pinv) {X : Tensor ℝ} {n : Nat}
    {A : List (Tensor ℝ)} (hA : FactorsFor X.shape 1 A) (h2 : 2 ≤ X.order) (h25 : X.order ≤ 25) (hn : n < X.order)
    (hdn : 0 < X.shape.getD n 0) {u : Upd ℝ} (h : modeUpdate pinv X 1 A n = .ok u) :
    ∃ e, InB X.shape e ∧ X.at_ e ≠ 0 ∧ ∀ (k : Nat) (M : Tensor ℝ), k ≠ n → A[k]? = some M → M.at_ [e.getD k 0, 0] ≠ 0 := by
  obtain ⟨K, N, lam, P, hK, hKs, hNs, hls, hP, hN, hmax, hu⟩ := modeUpdate_eq hp hA h2 h25 hn hdn
  have hlen := hA.length
  obtain ⟨K', hK', -, hKe⟩ := khatri_skip_reverse (n := n) hA.allMat hA.cols
    (by rw [hlen]; unfold order at *; omega) (by rw [hlen]; exact hn) (by rw [hlen]; exact h2)
  rw [hK] at hK'
  cases hK'
  obtain ⟨i, hi, hil⟩ := (hmax 0 (by omega)).2
  have hl0 : lam.at_ [0] ≠ 0 := by
    intro h0
    rw [hu, if_pos] at h
    · cases h
    · have hd : lam.data.length = 1 := by rw [lam.wf, hls]; rfl
      unfold at_ at h0
      rw [hls, List.getD_eq_getElem _ _ (by simp [ravel, hd])] at h0
      rw [← h0]
      exact List.getElem_mem _
  have hNe : N.at_ [i, 0] = (∑ j : Fin (otherSize X.shape n), X.at_ (unkolda X.shape n i j) * K.at_ [j.val, 0]) * P 0 0 := by
    have e := congrFun (congrFun hN ⟨i, hi⟩) (0 : Fin 1)
    rw [toMat_apply, Matrix.mul_apply, Fin.sum_univ_one, Matrix.mul_apply] at e
    exact e
  rw [← hil, hNe] at hl0
  obtain ⟨j, -, hj⟩ := Finset.exists_ne_zero_of_sum_ne_zero (left_ne_zero_of_mul hl0)
  obtain ⟨h1, h3, h4⟩ := unkolda_spec hn hi j.isLt
  have hk := hKe _ 0 (by rw [hA.rowDims]; exact h1) (by omega)
  rw [hA.rowDims, ← koldaCol_eq_ravel n h1.length, h4] at hk
  have hk0 := right_ne_zero_of_mul hj
  rw [hk] at hk0
  refine ⟨_, h1, left_ne_zero_of_mul hj, fun k M hkn hM => ?_⟩
  have hkl : k < X.shape.length := by
    have := (List.getElem?_eq_some_iff.1 hM).1
    rw [hlen] at this; exact this
  have he : (unkolda X.shape n i j)[k]? = some ((unkolda X.shape n i j).getD k 0) := by
    have : k < (unkolda X.shape n i j).length := by rw [h1.length]; exact hkl
    rw [List.getElem?_eq_getElem this, List.getD_eq_getElem _ _ this]
  rcases Nat.lt_or_gt_of_ne hkn with hlt | hgt
  · exact khatriEntry_ne hk0 k M _ (by rw [List.getElem?_eraseIdx_of_lt hlt]; exact hM)
      (by rw [List.getElem?_eraseIdx_of_lt hlt]; exact he)
  · obtain ⟨k', rfl⟩ : ∃ k', k = k' + 1 := ⟨k - 1, by omega⟩
    exact khatriEntry_ne hk0 k' M _ (by rw [List.getElem?_eraseIdx_of_ge (by omega)]; exact hM)
      (by rw [List.getElem?_eraseIdx_of_ge (by omega)]; exact he)

end TD.cp
