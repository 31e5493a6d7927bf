import Verif.Lemmas.Transposed
import Verif.Lemmas.RotateExample
import Verif.Props.Kruskal
import Verif.Props.Tucker
import Verif.Props.Inner
import Verif.Props.AlsOne
import Verif.Props.Cp

/-!
# C134: the order of the modes

Moving the modes of the data commutes with everything that has no order of its own: Kruskal and Tucker forms, the losses, the
inner product and HOSVD.  The sweeps of CP_ALS have an order, and their results depend on it.
-/
namespace TD.Props
open TD Tensor Spec ops fact
variable {α : Type}

/-- **C134**: `tf.transpose` succeeds exactly when the permutation is one of the modes, and returns the tensor
`Y[i_{p_0}, i_{p_1}, ...] = X[i_0, i_1, ...]`. -/
theorem C134_transpose [Zero α] (X Y : Tensor α) (p : List Nat) : tf.transpose X p = .ok Y ↔ IsTransposed p X Y :=
  transpose_iff

/-- **C134**: the Kruskal tensor of the factors in another order is the Kruskal tensor with its modes in that order. -/
theorem C134_kruskal [CommSemiring α] (src : Src) (dt : DType) (U U' : List (Tensor α)) (lam : Option (KTensor.Arr α))
    (R : Nat) (hU : Factors U R) (hw : WeightShape R lam) (hd : storedDtype src dt = weightDtype lam) (p : List Nat)
    (hp : p.Perm (List.range U.length)) (hU' : Picked p U U') :
    ∃ k k' X X', KTensor.init src dt U lam = .ok k ∧ KTensor.init src dt U' lam = .ok k' ∧ k.extract = .ok X ∧
      k'.extract = .ok X' ∧ IsTransposed p X X' := by
  have hlen : U'.length = U.length := by rw [hU'.length]; simpa using hp.length_eq
  have hmem : ∀ M ∈ U', M ∈ U := fun M hM => by
    have : some M ∈ p.map (U[·]?) := hU' ▸ List.mem_map_of_mem hM
    obtain ⟨k, -, hk⟩ := List.mem_map.1 this
    exact List.mem_of_getElem? hk
  have hF : Factors U' R := by
    obtain ⟨h1, h2, h3, h4⟩ := hU
    exact ⟨fun e => h1 (List.length_eq_zero_iff.1 (by rw [← hlen, e]; rfl)), by omega, fun M hM => h3 M (hmem M hM),
      fun M hM => h4 M (hmem M hM)⟩
  obtain ⟨k, X, e1, e2, e3, e4⟩ := C23_extract_entry src dt U lam R hU hw hd
  obtain ⟨k', X', f1, f2, f3, f4⟩ := C23_extract_entry src dt U' lam R hF hw hd
  have hl : X.shape.length = U.length := by rw [e3, rowDims, List.length_map]
  refine ⟨k, k', X, X', e1, f1, e2, f2, by rw [hl]; exact hp, by rw [f3, e3, rowDims_picked hU'], fun i hi => ?_⟩
  have hp' : p.Perm (List.range (rowDims U).length) := by rw [← e3, hl]; exact hp
  rw [e3] at hi
  rw [e4 i hi, f4 _ (by rw [rowDims_picked hU']; exact InB_permute hp' hi)]
  refine Finset.sum_congr rfl fun r _ => ?_
  rw [khatriEntry_permute hp hU' (by rw [hi.length, rowDims, List.length_map])]

/-- **C134**: the Tucker tensor of a transposed core and the factors in that order is the Tucker tensor with its modes in that
order. -/
theorem C134_tucker [CommSemiring α] (G G' : Tensor α) (dt : DType) (U U' : List (Tensor α)) (hne : U ≠ [])
    (hN : U.length ≤ 13) (hm : AllMat U) (hG : G.shape = colDims U) (p : List Nat) (hG' : IsTransposed p G G')
    (hU' : Picked p U U') :
    ∃ t t' X X', TTensor.init G dt U dt = .ok t ∧ TTensor.init G' dt U' dt = .ok t' ∧ t.extract = .ok X ∧
      t'.extract = .ok X' ∧ IsTransposed p X X' := by
  have hgl : G.shape.length = U.length := by rw [hG, colDims, List.length_map]
  have hp : p.Perm (List.range U.length) := by rw [← hgl]; exact hG'.perm
  have hlen : U'.length = U.length := by rw [hU'.length]; simpa using hp.length_eq
  have hmem : ∀ M ∈ U', M ∈ U := fun M hM => by
    have : some M ∈ p.map (U[·]?) := hU' ▸ List.mem_map_of_mem hM
    obtain ⟨k, -, hk⟩ := List.mem_map.1 this
    exact List.mem_of_getElem? hk
  obtain ⟨t, X, e1, e2, e3, e4⟩ := C27_extract_entry G dt U hne hN hm hG
  obtain ⟨t', X', f1, f2, f3, f4⟩ := C27_extract_entry G' dt U'
    (fun e => hne (List.length_eq_zero_iff.1 (by rw [← hlen, e]; rfl))) (by omega) (fun M hM => hm M (hmem M hM))
    (by rw [hG'.shape, hG, colDims_picked hU'])
  have hl : X.shape.length = U.length := by rw [e3, rowDims, List.length_map]
  refine ⟨t, t', X, X', e1, f1, e2, f2, by rw [hl]; exact hp, by rw [f3, e3, rowDims_picked hU'], fun i hi => ?_⟩
  have hp' : p.Perm (List.range (rowDims U).length) := by rw [← e3, hl]; exact hp
  rw [e3] at hi
  rw [e4 i hi, f4 _ (by rw [rowDims_picked hU']; exact InB_permute hp' hi), hG'.boxSum]
  refine boxSum_congr fun j hj => ?_
  rw [hG'.entry j hj, kronEntry_permute hp hU' (by rw [hi.length, rowDims, List.length_map]) (by rw [hj.length, hgl])]

/-- **C134**: the losses and the inner product of two tensors do not change when the modes of both are put in another
order. -/
theorem C134_losses (p : List Nat) (X Y Z W : Tensor ℝ) (h : IsTransposed p X Y) (h' : IsTransposed p Z W)
    (hs : X.shape = Z.shape) :
    loss.l2 Y W = loss.l2 X Z ∧ loss.rmse Y W = loss.rmse X Z ∧ loss.rmseIgnoreZero Y W = loss.rmseIgnoreZero X Z ∧
      inner Y W = inner X Z := by
  have hs' : Y.shape = W.shape := by rw [h.shape, h'.shape, hs]
  obtain ⟨U, V, e1, e2, h1, s1⟩ := h.ewise h' hs (· - ·)
  refine ⟨?_, ?_, h.rmseIgnoreZero h' hs, ?_⟩
  · unfold loss.l2
    rw [e1, e2, ok_bind, ok_bind, (h1.map _).reduceSum]
  · unfold loss.rmse
    rw [if_neg (not_not.2 hs), if_neg (not_not.2 hs'), e1, e2, ok_bind, ok_bind, (h1.map _).reduceSum]
    have : V.shape.prod = U.shape.prod := by
      rw [← V.wf, ← U.wf]; exact (tf.transpose_data_perm (transpose_iff.2 h1)).length_eq
    rw [this]
  · rw [C14_inner_value _ _ hs', C14_inner_value _ _ hs, h.boxSum]
    refine congrArg _ (boxSum_congr fun i hi => ?_)
    rw [h.entry i hi, h'.entry i (by rw [← hs]; exact hi)]

/-- **C134**: HOSVD of the data with its modes in another order, asked for the ranks in that order, returns the reconstruction
with its modes in that order, factors that span the same spaces in that order and a core of the same norm, whichever
decompositions the two runs are given, when in every mode the kept singular values are separated from the dropped
ones. -/
theorem C134_hosvd (svd svd' : Tensor ℝ → Res (Tensor ℝ × Tensor ℝ × Tensor ℝ)) (hs : SvdOk svd) (hs' : SvdOk svd')
    (X Y : Tensor ℝ) (ranks p : List Nat) (h1 : 1 ≤ X.order) (h13 : X.order ≤ 13) (hpos : ∀ d ∈ X.shape, 0 < d)
    (hlen : X.order ≤ ranks.length) (h : IsTransposed p X Y)
    (hsep : ∀ n < X.order, ∀ M, unfold X n = .ok M → Separated (toMat M (X.shape.getD n 0) (otherSize X.shape n))
      (min (ranks.getD n 0) (min (X.shape.getD n 0) (otherSize X.shape n)))) :
    ∃ A A' g g' full full', tucker.HOSVD.run svd X ranks = .ok (A, g, full) ∧
      tucker.HOSVD.run svd' Y (permute p ranks) = .ok (A', g', full') ∧ IsTransposed p full full' ∧
      Picked p (A.map projector) (A'.map projector) ∧ normSqT g' = normSqT g ∧ cp.scalars Y full' = cp.scalars X full := by
  obtain ⟨A, A', g, g', full, full', e1, e2, e3, e4, e5, e6⟩ := hosvd_transposed hs hs' h1 h13 hpos hlen h hsep
  exact ⟨A, A', g, g', full, full', e1, e2, e3, e5, e6, h.scalars e3 e4.symm⟩

/-! ### CP_ALS -/

/-- The symmetric matrix `[[2, 1], [1, 1]]`. -/
noncomputable def symX : Tensor ℝ := mat 2 2 fun i j => if i = 0 ∧ j = 0 then 2 else 1
/-- The column `(1, 1)`. -/
noncomputable def symU : Tensor ℝ := mat 2 1 fun _ _ => 1
/-- The column `(1, 2)`. -/
noncomputable def symV : Tensor ℝ := mat 2 1 fun i _ => (i : ℝ) + 1

theorem symX_transposed : IsTransposed [1, 0] symX symX := by
  refine ⟨by decide, rfl, fun i hi => ?_⟩
  obtain ⟨a, b, rfl, ha, hb⟩ := InB_pair.1 hi
  change symX.at_ [b, a] = _
  rw [symX, at_mat _ hb ha, at_mat _ ha hb]
  simp only [and_comm]

theorem sym_best0 (v : Nat → Nat → ℝ) (a : Nat) (ha : a < 2) :
    bestVec symX v 0 a = (symX.at_ [a, 0] * v 1 0 + symX.at_ [a, 1] * v 1 1) / (v 1 0 ^ 2 + v 1 1 ^ 2) := by
  unfold bestVec sliceSum restEntry
  change boxSum [2, 2] _ / boxSum [2, 2] _ = _
  rw [boxSum_pair, boxSum_pair, show (Finset.range symX.order).erase 0 = {1} from by decide]
  simp only [Finset.sum_range_succ, Finset.sum_range_zero, Finset.prod_singleton]
  interval_cases a <;> simp

theorem sym_best1 (v : Nat → Nat → ℝ) (a : Nat) (ha : a < 2) :
    bestVec symX v 1 a = (symX.at_ [0, a] * v 0 0 + symX.at_ [1, a] * v 0 1) / (v 0 0 ^ 2 + v 0 1 ^ 2) := by
  unfold bestVec sliceSum restEntry
  change boxSum [2, 2] _ / boxSum [2, 2] _ = _
  rw [boxSum_pair, boxSum_pair, show (Finset.range symX.order).erase 1 = {0} from by decide]
  simp only [Finset.sum_range_succ, Finset.sum_range_zero, Finset.prod_singleton]
  interval_cases a <;> simp

theorem sym_entries : symX.at_ [0, 0] = 2 ∧ symX.at_ [0, 1] = 1 ∧ symX.at_ [1, 0] = 1 ∧ symX.at_ [1, 1] = 1 := by
  unfold symX
  refine ⟨?_, ?_, ?_, ?_⟩ <;> rw [at_mat _ (by omega) (by omega)] <;> norm_num

/-- One step on `symX` from a pair of vectors, of which only the second matters. -/
theorem sym_step (v : Nat → Nat → ℝ) (x y : ℝ) (hx : v 1 0 = x) (hy : v 1 1 = y) :
    distSqT symX (alsOne symX v 1) =
      let s := x ^ 2 + y ^ 2
      let a := (2 * x + y) / s
      let b := (x + y) / s
      let t := a ^ 2 + b ^ 2
      let c := (2 * a + b) / t
      let d := (a + b) / t
      (a * c - 2) ^ 2 + (a * d - 1) ^ 2 + ((b * c - 1) ^ 2 + (b * d - 1) ^ 2) := by
  subst hx hy
  obtain ⟨e1, e2, e3, e4⟩ := sym_entries
  have hr : refitAll symX v = refit symX (refit symX v 0) 1 := rfl
  have h00 : ∀ a, refitAll symX v 0 a = bestVec symX v 0 a := fun a => by
    rw [hr]; unfold refit; rw [Function.update_of_ne (by decide), Function.update_self]
  have h1 : ∀ a < 2, refitAll symX v 1 a = (symX.at_ [0, a] * bestVec symX v 0 0 + symX.at_ [1, a] * bestVec symX v 0 1) /
      (bestVec symX v 0 0 ^ 2 + bestVec symX v 0 1 ^ 2) := fun a ha => by
    rw [hr]; conv_lhs => unfold refit
    rw [Function.update_self, sym_best1 _ a ha]
    simp only [Function.update_self]
  have hat : ∀ a < 2, ∀ b < 2, (alsOne symX v 1).at_ [a, b] = refitAll symX v 0 a * refitAll symX v 1 b := fun a ha b hb => by
    unfold alsOne
    rw [at_ofFn (s := symX.shape) _ (InB_pair.2 ⟨a, b, rfl, ha, hb⟩)]
    unfold outerEntry
    rw [show Finset.range symX.order = {0, 1} from by decide, Finset.prod_pair (by decide)]
    rfl
  unfold distSqT
  change boxSum [2, 2] _ = _
  rw [boxSum_pair]
  simp only [Finset.sum_range_succ, Finset.sum_range_zero, zero_add]
  rw [hat 0 (by omega) 0 (by omega), hat 0 (by omega) 1 (by omega), hat 1 (by omega) 0 (by omega), hat 1 (by omega) 1 (by omega)]
  simp only [h00, h1 0 (by omega), h1 1 (by omega), sym_best0 v 0 (by omega), sym_best0 v 1 (by omega), e1, e2, e3, e4]
  ring

/-- **C134**: CP_ALS is not among them.  The symmetric matrix `[[2, 1], [1, 1]]` is its own transpose, yet trainings that start
at `(1, 1), (1, 2)` and at `(1, 2), (1, 1)` report different residuals from the first step on: the vector of the first
mode is replaced before it is ever used, so the start of the other mode decides. -/
theorem C134_cp_depends_on_order : ∃ (X : Tensor ℝ) (A A' : List (Tensor ℝ)), IsTransposed [1, 0] X X ∧ FactorsFor X.shape 1 A ∧
    Picked [1, 0] A A' ∧ ∀ (pinv : Tensor ℝ → Res (Tensor ℝ)), PinvOk pinv → ∀ (Ar : Arith ℝ) (args : Args ℝ),
      args.validationInternal ≠ 0 → ∀ (steps : Int), 1 ≤ steps → ∀ (self : Self (List (Tensor ℝ)) (Tensor ℝ) (Tensor ℝ)),
      ∃ p q hist hist', (train Ar (CP_ALS.cls (cp.main pinv X 1)) args steps (.ok A) self).2.2 = .ok (p :: hist) ∧
        (train Ar (CP_ALS.cls (cp.main pinv X 1)) args steps (.ok A') self).2.2 = .ok (q :: hist') ∧ p.2 ≠ q.2 := by
  have hU : ∀ i < 2, symU.at_ [i, 0] = 1 := fun i hi => by rw [symU, at_mat _ hi (by omega)]
  have hV : ∀ i < 2, symV.at_ [i, 0] = (i : ℝ) + 1 := fun i hi => by rw [symV, at_mat _ hi (by omega)]
  obtain ⟨e1, e2, e3, e4⟩ := sym_entries
  have hX : ∀ i, InB symX.shape i → 0 < symX.at_ i := fun i hi => by
    obtain ⟨a, b, rfl, ha, hb⟩ := InB_pair.1 hi
    interval_cases a <;> interval_cases b <;> simp only [e1, e2, e3, e4] <;> norm_num
  refine ⟨symX, [symU, symV], [symV, symU], symX_transposed, rfl, rfl, fun pinv hp Ar args hv steps hs self => ?_⟩
  have hpU : ∀ i < symU.shape.getD 0 0, 0 < symU.at_ [i, 0] := fun i hi => by rw [hU i hi]; norm_num
  have hpV : ∀ i < symV.shape.getD 0 0, 0 < symV.at_ [i, 0] := fun i hi => by rw [hV i hi]; positivity
  have key : ∀ A : List (Tensor ℝ), FactorsFor symX.shape 1 A → (∀ M ∈ A, ∀ i < M.shape.getD 0 0, 0 < M.at_ [i, 0]) →
      ∃ p hist, (train Ar (CP_ALS.cls (cp.main pinv symX 1)) args steps (.ok A) self).2.2 = .ok (p :: hist) ∧
        p.2 = Real.sqrt (distSqT symX (alsOne symX (firstCol A) 1)) / Real.sqrt (normSqT symX) := fun A hA hA0 => by
    obtain ⟨hist, hh⟩ := C73_rank_one_positive pinv hp symX A hA hA0 (by decide) (by decide) (by decide) hX Ar args hv steps hs self
    obtain ⟨g1, q, hq, -⟩ := C126_cp pinv hp symX A hA (by decide) (by decide) (by decide) Ar args steps self _ _ hist
      (Prod.ext rfl (Prod.ext rfl hh))
    cases hist with
    | nil => simp at hq
    | cons p hist => exact ⟨p, hist, hh, (g1 0 p rfl).2⟩
  obtain ⟨p, hist, h1, h2⟩ := key [symU, symV] rfl (by
    intro M hM; simp only [List.mem_cons, List.not_mem_nil, or_false] at hM
    rcases hM with rfl | rfl
    exacts [hpU, hpV])
  obtain ⟨q, hist', h3, h4⟩ := key [symV, symU] rfl (by
    intro M hM; simp only [List.mem_cons, List.not_mem_nil, or_false] at hM
    rcases hM with rfl | rfl
    exacts [hpV, hpU])
  refine ⟨p, q, hist, hist', h1, h3, fun e => ?_⟩
  have hn : 0 < normSqT symX := by
    unfold normSqT
    change 0 < boxSum [2, 2] _
    rw [boxSum_pair]
    simp only [Finset.sum_range_succ, Finset.sum_range_zero, zero_add, e1, e2, e3, e4]
    norm_num
  have d1 : distSqT symX (alsOne symX (firstCol [symU, symV]) 1) = 1 / 5 := by
    rw [sym_step _ 1 2 (by change symV.at_ [0, 0] = _; rw [hV 0 (by omega)]; norm_num)
      (by change symV.at_ [1, 0] = _; rw [hV 1 (by omega)]; norm_num)]
    norm_num
  have d2 : distSqT symX (alsOne symX (firstCol [symV, symU]) 1) = 2 / 13 := by
    rw [sym_step _ 1 1 (hU 0 (by omega)) (hU 1 (by omega))]
    norm_num
  rw [h2, h4, d1, d2, div_left_inj' (ne_of_gt (Real.sqrt_pos.2 hn)),
    Real.sqrt_inj (by norm_num) (by norm_num)] at e
  norm_num at e

/-! ### The hypotheses are met -/

/-- The hypotheses of the theorems on forms and losses, by tensors with three modes of different length. -/
example : let p := [2, 0, 1]
    let X : Tensor ℝ := ofFn [2, 3, 4] fun i => (i.getD 0 0 : ℝ) + 2 * i.getD 1 0 - i.getD 2 0
    (∃ Y, IsTransposed p X Y ∧ Y.shape = [4, 2, 3]) ∧
    (let U : List (Tensor ℝ) := [mat 2 2 fun i _ => i, mat 3 2 fun i j => i + j, mat 4 2 fun _ j => j];
      Factors U 2 ∧ p.Perm (List.range U.length) ∧ (∃ U', Picked p U U') ∧
      WeightShape 2 (none : Option (KTensor.Arr ℝ)) ∧ storedDtype .np .float64 = weightDtype (none : Option (KTensor.Arr ℝ))) ∧
    (let U : List (Tensor ℝ) := [mat 5 2 fun i _ => i, mat 1 3 fun i j => i + j, mat 3 4 fun _ j => j];
      AllMat U ∧ X.shape = colDims U) := by
  refine ⟨?_, ⟨⟨by simp, by decide, by simp [AllMat, mat], by simp [mat]⟩, by decide, exists_picked (by decide), trivial, rfl⟩, by simp [AllMat, mat], rfl⟩
  obtain ⟨Y, hY, hs, -⟩ := tf.transpose_spec (t := (ofFn [2, 3, 4] fun i => (i.getD 0 0 : ℝ) + 2 * i.getD 1 0 - i.getD 2 0))
    (p := [2, 0, 1]) (by decide)
  exact ⟨Y, transpose_iff.1 hY, hs⟩

/-- Those of the theorem on HOSVD, by `diag(2, 1)` with ranks one, which is its own transpose. -/
example : (1 ≤ diag21.order ∧ diag21.order ≤ 13 ∧ (∀ d ∈ diag21.shape, 0 < d) ∧ diag21.order ≤ [1, 1].length) ∧
    IsTransposed [1, 0] diag21 diag21 ∧
    ∀ n < diag21.order, ∀ M, unfold diag21 n = .ok M → Separated (toMat M (diag21.shape.getD n 0) (otherSize diag21.shape n))
      (min ([1, 1].getD n 0) (min (diag21.shape.getD n 0) (otherSize diag21.shape n))) := by
  refine ⟨by decide, ⟨by decide, rfl, fun i hi => ?_⟩, fun n hn M hM => ?_⟩
  · obtain ⟨a, b, rfl, ha, hb⟩ := InB_pair.1 hi
    change diag21.at_ [b, a] = _
    rw [diag21, at_mat _ hb ha, at_mat _ ha hb]
    by_cases e : a = b
    · subst e; rfl
    · rw [if_neg e, if_neg (Ne.symm e)]
  · have : min ([1, 1].getD n 0) (min (diag21.shape.getD n 0) (otherSize diag21.shape n)) = 1 := by
      match n, hn with
      | 0, _ => decide
      | 1, _ => decide
    rw [this]
    exact diag21_separated hn hM

end TD.Props
