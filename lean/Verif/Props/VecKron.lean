import Verif.Spec.Column
import Verif.Props.Tucker
import Verif.Props.Kruskal
import Verif.Props.T2mat
import Verif.Props.Lipschitz

/-!
# C171 : vectorised reconstructions
-/
namespace TD.Props
open TD Spec Tensor ops
variable {α : Type}

/-- `vectorize` never fails, and position `k` of the vector holds the entry number `k` in row-major order. -/
theorem vectorize_unravel [Zero α] (X : Tensor α) :
    ∃ x, vectorize X = .ok x ∧ x.shape = [X.shape.prod] ∧ ∀ k < X.shape.prod, x.at_ [k] = X.at_ (unravel X.shape k) := by
  obtain ⟨x, h1, h2, -, h4⟩ := C07_vectorize_entry X
  refine ⟨x, h1, h2, fun k hk => ?_⟩
  have hi := unravel_inB hk
  have := (h4 _ hi).2
  rwa [← ravel_map, map_getD_range _ X.order rfl, map_getD_range _ X.order hi.length, ravel_unravel hk] at this

theorem asColumn_at [Zero α] {x : Tensor α} {n i : Nat} (hx : x.shape = [n]) (hi : i < n) : (asColumn x).at_ [i, 0] = x.at_ [i] := by
  rw [asColumn, at_mat _ (by rw [hx]; exact hi) (by omega)]

/-- **C171** (`ttm`): `vectorize(ttm(X, ms)) = kron(ms) vectorize(X)`. -/
theorem C171_ttm [CommSemiring α] (X : Tensor α) (ms : List (Tensor α)) (hne : ms ≠ []) (hN : ms.length ≤ 13) (hm : AllMat ms)
    (hX : X.shape = colDims ms) :
    ∃ Y K x y, ttm X ms = .ok Y ∧ Y.shape = rowDims ms ∧ kron ms = .ok K ∧ vectorize X = .ok x ∧ vectorize Y = .ok y ∧
      tf.matmul K (asColumn x) = .ok (asColumn y) := by
  obtain ⟨t, Y, ht, hY, hYs, hYe⟩ := C27_extract_entry X .float64 ms hne hN hm hX
  have hY' : ttm X ms = .ok Y := by
    cases ms with
    | nil => exact absurd rfl hne
    | cons A ms =>
      cases ht
      exact hY
  obtain ⟨K, hK, hKs, hKe⟩ := C16_kron_entry ms .none false ms
    (skip_eq_kept (ms := ms) (s := .none)) hm hne hN
  obtain ⟨x, hx, hxs, hxe⟩ := vectorize_unravel X
  obtain ⟨y, hy, hys, hye⟩ := vectorize_unravel Y
  refine ⟨Y, K, x, y, hY', hYs, hK, hx, hy, ?_⟩
  have hxc : (asColumn x).shape = [(colDims ms).prod, 1] := by
    change [x.shape.getD 0 0, 1] = _
    rw [hxs, hX]; rfl
  have hyc : (asColumn y).shape = [(rowDims ms).prod, 1] := by
    change [y.shape.getD 0 0, 1] = _
    rw [hys, hYs]; rfl
  rw [tf.matmul_nn hKs hxc]
  congr 1
  refine ext_mat rfl hyc fun i hi j hj => ?_
  have hj0 : j = 0 := by omega
  subst hj0
  rw [at_mat _ hi (by omega), asColumn_at hys (by rw [hYs]; exact hi), hye i (by rw [hYs]; exact hi), hYs,
    hYe _ (unravel_inB hi), hX, boxSum_eq_sum_range]
  refine Finset.sum_congr rfl fun k hk => ?_
  rw [Finset.mem_range] at hk
  have := hKe _ _ (unravel_inB hi) (unravel_inB hk)
  rw [ravel_unravel hi, ravel_unravel hk] at this
  rw [this, asColumn_at hxs (by rw [hX]; exact hk), hxe k (by rw [hX]; exact hk), hX, mul_comm]

/-- **C171** (Kruskal tensors): `vectorize(KTensor(U, lam).extract()) = khatri(U) lam`. -/
theorem C171_kruskal [CommSemiring α] (src : Src) (dt : DType) (U : List (Tensor α)) (lam : Option (KTensor.Arr α)) (R : Nat)
    (hU : Factors U R) (hw : WeightShape R lam) (hd : storedDtype src dt = weightDtype lam) :
    ∃ k X K y, KTensor.init src dt U lam = .ok k ∧ k.extract = .ok X ∧ khatri U = .ok K ∧ vectorize X = .ok y ∧
      tf.matmul K (mat R 1 fun r _ => weight lam r) = .ok (asColumn y) := by
  obtain ⟨k, X, hk, hX, hXs, hXe⟩ := C23_extract_entry src dt U lam R hU hw hd
  obtain ⟨y, hy, hys, hye⟩ := vectorize_unravel X
  obtain ⟨K, hK, hKs, hKe⟩ := C18_khatri_entry U .none false R U (skip_eq_kept (ms := U) (s := .none)) hU.2.2.1 hU.2.2.2 hU.1 hU.2.1
  refine ⟨k, X, K, y, hk, hX, hK, hy, ?_⟩
  have hyc : (asColumn y).shape = [(rowDims U).prod, 1] := by
    change [y.shape.getD 0 0, 1] = _
    rw [hys, hXs]; rfl
  rw [tf.matmul_nn hKs (n := 1) rfl]
  congr 1
  refine ext_mat rfl hyc fun i hi j hj => ?_
  have hj0 : j = 0 := by omega
  subst hj0
  rw [at_mat _ hi (by omega), asColumn_at hys (by rw [hXs]; exact hi), hye i (by rw [hXs]; exact hi), hXs, hXe _ (unravel_inB hi)]
  refine Finset.sum_congr rfl fun r hr => ?_
  rw [Finset.mem_range] at hr
  have := hKe _ r (unravel_inB hi) hr
  rw [ravel_unravel hi] at this
  rw [this, at_mat _ hr (by omega), mul_comm]

theorem dist_asColumn {X X' x x' : Tensor ℝ} (hs : X'.shape = X.shape) (hx : vectorize X = .ok x) (hx' : vectorize X' = .ok x') :
    distSqT (asColumn x) (asColumn x') = distSqT X X' := by
  obtain ⟨_, h1, h2, h3⟩ := vectorize_unravel X
  cases h1.symm.trans hx
  obtain ⟨_, k1, k2, k3⟩ := vectorize_unravel X'
  cases k1.symm.trans hx'
  rw [hs] at k2 k3
  have hc : (asColumn x).shape = [X.shape.prod, 1] := by
    change [x.shape.getD 0 0, 1] = _
    rw [h2]; rfl
  unfold distSqT
  rw [hc, boxSum_eq_sum_range X.shape]
  simp only [boxSum, Finset.sum_range_one]
  refine Finset.sum_congr rfl fun k hk => ?_
  rw [Finset.mem_range] at hk
  rw [asColumn_at h2 hk, asColumn_at k2 hk, h3 k hk, k3 k hk]

theorem norm_asColumn {X x : Tensor ℝ} (hx : vectorize X = .ok x) : normSqT (asColumn x) = normSqT X := by
  obtain ⟨_, h1, h2, h3⟩ := vectorize_unravel X
  cases h1.symm.trans hx
  have hc : (asColumn x).shape = [X.shape.prod, 1] := by
    change [x.shape.getD 0 0, 1] = _
    rw [h2]; rfl
  unfold normSqT
  rw [hc, boxSum_eq_sum_range X.shape]
  simp only [boxSum, Finset.sum_range_one]
  refine Finset.sum_congr rfl fun k hk => ?_
  rw [Finset.mem_range] at hk
  rw [asColumn_at h2 hk, h3 k hk]

/-- **C171** (sensitivity): `max_single_value_mul(ms)` is the smallest constant by which `ttm(·, ms)` - the reconstruction of a Tucker
tensor as a function of its core - can enlarge distances. -/
theorem C171_sensitivity (topSv : Tensor ℝ → Res ℝ) (ht : TopSvOk topSv) (ms : List (Tensor ℝ)) (hm : AllMat ms)
    (hne : ms ≠ []) (h13 : ms.length ≤ 13) (hpos : ∀ M ∈ ms, 0 < M.shape.getD 0 0 ∧ 0 < M.shape.getD 1 0) :
    ∃ s, maxSingleValueMul topSv ms = .ok s ∧
      (∀ X X' Y Y', X.shape = colDims ms → X'.shape = colDims ms → ttm X ms = .ok Y → ttm X' ms = .ok Y' →
        Real.sqrt (distSqT Y Y') ≤ s * Real.sqrt (distSqT X X')) ∧
      ∃ X Y, X.shape = colDims ms ∧ ttm X ms = .ok Y ∧ normSqT X = 1 ∧ Real.sqrt (normSqT Y) = s := by
  obtain ⟨s, K, hs, -, -, hK, hlip, x, y, hxs, hxy, hx1, hy1⟩ := C22_lipschitz topSv ht ms hm hne h13 hpos
  have hKs : K.shape = [(rowDims ms).prod, (colDims ms).prod] := by
    obtain ⟨K', hK', h, -⟩ := C16_kron_entry ms .none false ms (skip_eq_kept (ms := ms) (s := .none)) hm hne h13
    cases hK.symm.trans hK'
    exact h
  have hcol : ∀ {X v : Tensor ℝ}, X.shape = colDims ms → vectorize X = .ok v → (asColumn v).shape = [K.shape.getD 1 0, 1] := by
    intro X v hX hv
    obtain ⟨_, h1, h2, -⟩ := vectorize_unravel X
    cases h1.symm.trans hv
    change [v.shape.getD 0 0, 1] = _
    rw [h2, hX, hKs]; rfl
  refine ⟨s.prod, hs, fun X X' Y Y' hX hX' hY hY' => ?_, ?_⟩
  · obtain ⟨Y1, K1, v, w, e1, e1s, e2, e3, e4, e5⟩ := C171_ttm X ms hne h13 hm hX
    obtain ⟨Y2, K2, v', w', f1, f1s, f2, f3, f4, f5⟩ := C171_ttm X' ms hne h13 hm hX'
    cases e1.symm.trans hY
    cases f1.symm.trans hY'
    cases e2.symm.trans hK
    cases f2.symm.trans hK
    have := hlip _ _ _ _ (hcol hX e3) (hcol hX' f3) e5 f5
    rwa [dist_asColumn (f1s.trans e1s.symm) e4 f4, dist_asColumn (hX'.trans hX.symm) e3 f3] at this
  · rw [hKs] at hxs
    let X : Tensor ℝ := ofFn (colDims ms) fun i => x.at_ [ravel (colDims ms) i, 0]
    obtain ⟨Y, K1, v, w, e1, e1s, e2, e3, e4, e5⟩ := C171_ttm X ms hne h13 hm rfl
    cases e2.symm.trans hK
    have hv : asColumn v = x := by
      obtain ⟨_, h1, h2, h3⟩ := vectorize_unravel X
      cases h1.symm.trans e3
      refine ext_mat (m := (colDims ms).prod) (n := 1) ?_ hxs fun i hi j hj => ?_
      · change [v.shape.getD 0 0, 1] = _
        rw [h2]; rfl
      · have hj0 : j = 0 := by omega
        subst hj0
        rw [asColumn_at h2 hi, h3 i hi]
        change (ofFn (colDims ms) fun i => x.at_ [ravel (colDims ms) i, 0]).at_ (unravel (colDims ms) i) = _
        rw [at_ofFn _ (unravel_inB hi), ravel_unravel hi]
    rw [hv, hxy] at e5
    cases e5
    refine ⟨X, Y, rfl, e1, ?_, ?_⟩
    · rw [← norm_asColumn e3, hv, hx1]
    · rw [← hy1, norm_asColumn e4]

/-- A core of shape 2 x 1 and its factors, and weights for two factors of rank 2. -/
example : let ms : List (Tensor Int) := [⟨[3, 2], [1, 0, 0, 1, 1, 1], rfl⟩, ⟨[2, 1], [1, 2], rfl⟩]
    ms ≠ [] ∧ ms.length ≤ 13 ∧ AllMat ms ∧ (⟨[2, 1], [5, 7], rfl⟩ : Tensor Int).shape = colDims ms := by
  refine ⟨by simp, by decide, ?_, rfl⟩
  intro M hM; simp at hM; rcases hM with rfl | rfl <;> rfl
example : Factors ([⟨[3, 2], [1, 0, 0, 1, 1, 1], rfl⟩, ⟨[1, 2], [1, 2], rfl⟩] : List (Tensor Int)) 2 := by
  refine ⟨by simp, by decide, ?_, by decide⟩
  intro M hM; simp at hM; rcases hM with rfl | rfl <;> rfl
example : ∃ topSv, TopSvOk topSv := exists_topSvOk

end TD.Props
