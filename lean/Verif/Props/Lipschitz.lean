import Verif.Lemmas.Lipschitz

/-!
# C22 : `max_single_value_mul`
-/
namespace TD.Props
open TD Spec Tensor ops

/-- The contract on the largest singular value can be met. -/
theorem exists_topSvOk : ∃ topSv, TopSvOk topSv := by
  classical
  refine ⟨fun M => if h : ∃ L : ℝ, ∃ m n, M.shape = [m, n] ∧ IsTopSv (toMat M m n) L then .ok h.choose
    else .error .nonFinite, fun M m n hM hm hn => ?_⟩
  have h : ∃ L : ℝ, ∃ m n, M.shape = [m, n] ∧ IsTopSv (toMat M m n) L := by
    obtain ⟨L, hL⟩ := exists_topSv (toMat M m n) hm hn
    exact ⟨L, m, n, hM, hL⟩
  obtain ⟨m', n', h1, h2⟩ := h.choose_spec
  rw [hM] at h1
  simp only [List.cons.injEq, and_true] at h1
  obtain ⟨rfl, rfl⟩ := h1
  exact ⟨h.choose, dif_pos h, h2⟩

theorem matmul_kron {ms : List (Tensor ℝ)} {K x y : Tensor ℝ}
    (hKs : K.shape = [(rowDims ms).prod, (colDims ms).prod])
    (hKe : ∀ rs cs, InB (rowDims ms) rs → InB (colDims ms) cs →
      K.at_ [ravel (rowDims ms) rs, ravel (colDims ms) cs] = kronEntry ms rs cs)
    (hx : x.shape = [(colDims ms).prod, 1]) (hy : tf.matmul K x = .ok y) :
    y.shape = [(rowDims ms).prod, 1] ∧ ∀ i, InB (rowDims ms) i → y.at_ [ravel (rowDims ms) i, 0] =
      boxSum (colDims ms) fun j => kronEntry ms i j * x.at_ [ravel (colDims ms) j, 0] := by
  rw [tf.matmul_nn hKs hx] at hy
  cases hy
  refine ⟨rfl, fun i hi => ?_⟩
  rw [at_mat _ (ravel_lt hi) (by norm_num), boxSum_eq_sum_range]
  refine Finset.sum_congr rfl fun k hk => ?_
  have hk := Finset.mem_range.1 hk
  have hu := unravel_inB hk
  have := hKe i _ hi hu
  rw [ravel_unravel hk] at this
  rw [this, ravel_unravel hk]

theorem distSqT_column {t : List Nat} {u v : Tensor ℝ} (hu : u.shape = [t.prod, 1]) :
    distSqT u v = boxSum t fun j => (u.at_ [ravel t j, 0] - v.at_ [ravel t j, 0]) ^ 2 := by
  rw [distSqT, hu, boxSum_pair, boxSum_eq_sum_range]
  refine Finset.sum_congr rfl fun k hk => ?_
  rw [Finset.sum_range_one, ravel_unravel (Finset.mem_range.1 hk)]

theorem boxSum_sub' (s : List Nat) (f g : List Nat → ℝ) :
    boxSum s f - boxSum s g = boxSum s fun i => f i - g i := by
  rw [boxSum_eq_sum_range, boxSum_eq_sum_range, boxSum_eq_sum_range, Finset.sum_sub_distrib]

/-- **C22**: `max_single_value_mul(mats)` is the product of the largest singular values `s_k`, and
`‖kron(mats) x - kron(mats) x'‖ ≤ max_single_value_mul(mats) ‖x - x'‖` for all vectors; no smaller constant will
do.  At most 13 non-empty matrices (`kron` raises beyond, C16). -/
theorem C22_lipschitz (topSv : Tensor ℝ → Res ℝ) (ht : TopSvOk topSv) (ms : List (Tensor ℝ)) (hm : AllMat ms)
    (hne : ms ≠ []) (h13 : ms.length ≤ 13) (hpos : ∀ M ∈ ms, 0 < M.shape.getD 0 0 ∧ 0 < M.shape.getD 1 0) :
    ∃ (s : List ℝ) (K : Tensor ℝ), maxSingleValueMul topSv ms = .ok s.prod ∧ s.length = ms.length ∧
      (∀ (k : Nat) (M : Tensor ℝ) (x : ℝ), ms[k]? = some M → s[k]? = some x →
        IsTopSv (toMat M (M.shape.getD 0 0) (M.shape.getD 1 0)) x) ∧
      kron ms = .ok K ∧
      (∀ x x' y y', x.shape = [K.shape.getD 1 0, 1] → x'.shape = [K.shape.getD 1 0, 1] →
        tf.matmul K x = .ok y → tf.matmul K x' = .ok y' →
        Real.sqrt (distSqT y y') ≤ s.prod * Real.sqrt (distSqT x x')) ∧
      ∃ x y, x.shape = [K.shape.getD 1 0, 1] ∧ tf.matmul K x = .ok y ∧ normSqT x = 1 ∧
        Real.sqrt (normSqT y) = s.prod := by
  obtain ⟨s, s1, s2⟩ := maxSingleValueMul_ok ht hm hne hpos
  obtain ⟨K, k1, k2, k3⟩ := C16_kron_entry ms .none false ms (by rw [kept_none]; rfl) hm hne h13
  have h0 : 0 ≤ s.prod := by
    refine List.prod_nonneg fun x hx => ?_
    obtain ⟨k, hk, rfl⟩ := List.getElem_of_mem hx
    rw [List.forall₂_iff_get] at s2
    exact (s2.2 k (by rw [s2.1]; exact hk) hk).nonneg
  have hsq : (s.map fun x => x ^ 2).prod = s.prod ^ 2 := by
    clear s1 s2 h0
    induction s with
    | nil => simp
    | cons x s ih => rw [List.map_cons, List.prod_cons, List.prod_cons, ih, mul_pow]
  refine ⟨s, K, s1, s2.length_eq.symm, fun k M x h1 h2 => ?_, k1, fun x x' y y' hx hx' hy hy' => ?_, ?_⟩
  · rw [List.forall₂_iff_get] at s2
    obtain ⟨a1, e1⟩ := List.getElem?_eq_some_iff.1 h1
    obtain ⟨a2, e2⟩ := List.getElem?_eq_some_iff.1 h2
    have := s2.2 k a1 a2
    rw [List.get_eq_getElem, List.get_eq_getElem, e2] at this
    subst e1
    exact this
  · rw [k2] at hx hx'
    obtain ⟨p1, p2⟩ := matmul_kron k2 k3 hx hy
    obtain ⟨q1, q2⟩ := matmul_kron k2 k3 hx' hy'
    have hb : List.Forall₂ VecBound ms (s.map fun x => x ^ 2) := by
      rw [List.forall₂_map_right_iff]
      exact s2.imp fun _ _ h => vecBound_of_topSv h
    have hk := kron_bound hb fun j => x.at_ [ravel (colDims ms) j, 0] - x'.at_ [ravel (colDims ms) j, 0]
    rw [hsq, ← distSqT_column hx] at hk
    have e : distSqT y y' ≤ s.prod ^ 2 * distSqT x x' := by
      refine le_trans (le_of_eq ?_) hk
      rw [distSqT_column p1]
      refine boxSum_congr fun i hi => ?_
      rw [p2 i hi, q2 i hi, boxSum_sub']
      congr 1
      exact boxSum_congr fun j _ => by ring
    rw [← Real.sqrt_sq h0, ← Real.sqrt_mul (sq_nonneg _)]
    exact Real.sqrt_le_sqrt e
  · obtain ⟨v, v1, v2⟩ := kron_attained (cs := s.map fun x => x ^ 2) (by
      rw [List.forall₂_map_right_iff]
      exact s2.imp fun _ _ h => topSv_vec h)
    rw [hsq] at v2
    let x : Tensor ℝ := ofFn [(colDims ms).prod, 1] fun i => v (unravel (colDims ms) (i.getD 0 0))
    have hxs : x.shape = [(colDims ms).prod, 1] := rfl
    have hxe : ∀ j, InB (colDims ms) j → x.at_ [ravel (colDims ms) j, 0] = v j := by
      intro j hj
      rw [at_ofFn _ (InB_pair.2 ⟨_, _, rfl, ravel_lt hj, by norm_num⟩)]
      rw [List.getD_cons_zero, unravel_ravel hj]
    have hn : ∀ {t : List Nat} {u : Tensor ℝ}, u.shape = [t.prod, 1] →
        normSqT u = boxSum t fun j => u.at_ [ravel t j, 0] ^ 2 := by
      intro t u hu
      rw [normSqT, hu, boxSum_pair, boxSum_eq_sum_range]
      refine Finset.sum_congr rfl fun k hk => ?_
      rw [Finset.sum_range_one, ravel_unravel (Finset.mem_range.1 hk)]
    obtain ⟨y, hy⟩ : ∃ y, tf.matmul K x = .ok y := ⟨_, tf.matmul_nn k2 hxs⟩
    obtain ⟨p1, p2⟩ := matmul_kron k2 k3 hxs hy
    refine ⟨x, y, by rw [k2]; rfl, hy, ?_, ?_⟩
    · rw [hn hxs, ← v1]
      exact boxSum_congr fun j hj => by rw [hxe j hj]
    · rw [hn p1, ← Real.sqrt_sq h0, ← v2]
      congr 1
      refine boxSum_congr fun i hi => ?_
      rw [p2 i hi]
      congr 1
      exact boxSum_congr fun j hj => by rw [hxe j hj]

/-- The hypotheses are met by every list of at most 13 non-empty matrices, for instance by these two. -/
example : ∃ topSv, TopSvOk topSv ∧ ∃ ms : List (Tensor ℝ), AllMat ms ∧ ms.length = 2 ∧
    ∀ M ∈ ms, 0 < M.shape.getD 0 0 ∧ 0 < M.shape.getD 1 0 := by
  obtain ⟨f, hf⟩ := exists_topSvOk
  refine ⟨f, hf, [ofFn [2, 3] fun i => i.getD 0 0 + 1, ofFn [1, 2] fun i => i.getD 1 0 + 2], ?_, rfl, ?_⟩
  · intro M hM
    rcases List.mem_cons.1 hM with rfl | hM
    · rfl
    · rw [List.mem_singleton.1 hM]; rfl
  · intro M hM
    rcases List.mem_cons.1 hM with rfl | hM
    · simp [ofFn]
    · rw [List.mem_singleton.1 hM]; simp [ofFn]

end TD.Props
