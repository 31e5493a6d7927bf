import Verif.Lemmas.Components

/-! # Renumbered components in `CP_ALS` -/
namespace TD
open Spec Tensor tf ops Matrix

theorem length_renumComponents (π : Nat → Nat) (U : List (Tensor ℝ)) : (renumComponents π U).length = U.length := by
  simp [renumComponents]

theorem getElem?_renumComponents (π : Nat → Nat) (U : List (Tensor ℝ)) (k : Nat) :
    (renumComponents π U)[k]? = U[k]?.map (renumCols π) := by simp [renumComponents]

theorem map_shape_renumComponents (π : Nat → Nat) (U : List (Tensor ℝ)) :
    (renumComponents π U).map Tensor.shape = U.map Tensor.shape := by
  unfold renumComponents
  rw [List.map_map]
  rfl

theorem Spec.FactorsFor.components {shape : List Nat} {R : Nat} {U : List (Tensor ℝ)} (h : FactorsFor shape R U)
    (π : Nat → Nat) : FactorsFor shape R (renumComponents π U) := by
  unfold FactorsFor
  rw [map_shape_renumComponents]
  exact h

theorem assign_components (π : Nat → Nat) (U : List (Tensor ℝ)) (k : Nat) (v : Tensor ℝ) :
    tf.assign (renumComponents π U) k (renumCols π v) = renumComponents π <$> tf.assign U k v := by
  unfold tf.assign
  rw [getElem?_renumComponents]
  cases U[k]? with
  | none => rfl
  | some old =>
      simp only [Option.map_some]
      by_cases h : v.shape = old.shape
      · rw [if_pos (show (renumCols π v).shape = (renumCols π old).shape from h), if_pos h]
        show Except.ok _ = Except.ok _
        rw [renumComponents, renumComponents, List.map_set]
      · rw [if_neg (show ¬ (renumCols π v).shape = (renumCols π old).shape from h), if_neg h]; rfl

theorem khatriEntry_components {π : Nat → Nat} {R r : Nat} (hr : r < R) : ∀ {shape : List Nat} {U : List (Tensor ℝ)}
    {i : List Nat}, FactorsFor shape R U → InB shape i →
    khatriEntry r (renumComponents π U) i = khatriEntry (π r) U i
  | [], [], _, _, _ => rfl
  | [], _ :: _, _, h, _ => by cases h
  | _ :: _, [], _, h, _ => by cases h
  | d :: shape, A :: U, i, h, hi => by
      cases i with
      | nil => rfl
      | cons a i =>
          rw [InB_cons] at hi
          have hA : A.shape = [d, R] := (List.cons.inj h).1
          have hU : FactorsFor shape R U := (List.cons.inj h).2
          change (renumCols π A).at_ [a, r] * khatriEntry r (renumComponents π U) i = A.at_ [a, π r] * khatriEntry (π r) U i
          rw [at_renumCols hA hi.1 hr, khatriEntry_components hr hU hi.2]

theorem eraseIdx_factorsFor {shape : List Nat} {R : Nat} {U : List (Tensor ℝ)} (h : FactorsFor shape R U) (n : Nat) :
    FactorsFor (shape.eraseIdx n) R (U.eraseIdx n) := by
  unfold FactorsFor at h ⊢
  rw [← List.eraseIdx_map, ← List.eraseIdx_map, h]

theorem khatri_components {shape : List Nat} {π : Nat → Nat} {R n : Nat} {U : List (Tensor ℝ)}
    (hπ : Set.BijOn π (Set.Iio R) (Set.Iio R))
    (hU : FactorsFor shape R U) (h2 : 2 ≤ shape.length) (h25 : shape.length ≤ 25) (hn : n < shape.length) (hpos : 0 < shape.getD n 0) :
    ∃ K, khatri U (.int n) true = .ok K ∧ khatri (renumComponents π U) (.int n) true = .ok (renumCols π K) ∧
      K.shape = [otherSize shape n, R] := by
  have hU' := hU.components π
  obtain ⟨K, hK, hs, he⟩ := khatri_skip_reverse (n := n) hU.allMat hU.cols (by rw [hU.length]; omega)
    (by rw [hU.length]; exact hn) (by rw [hU.length]; exact h2)
  obtain ⟨K', hK', hs', he'⟩ := khatri_skip_reverse (n := n) hU'.allMat hU'.cols (by rw [hU'.length]; omega)
    (by rw [hU'.length]; exact hn) (by rw [hU'.length]; exact h2)
  rw [hU.rowDims, ← otherSize_eq_prod] at hs
  rw [hU'.rowDims, ← otherSize_eq_prod] at hs'
  rw [hU.rowDims] at he
  rw [hU'.rowDims] at he'
  refine ⟨K, hK, ?_, hs⟩
  rw [hK']
  congr 1
  refine ext_mat hs' hs fun j hj r hr => ?_
  obtain ⟨h1, -, h4⟩ := unkolda_spec hn hpos hj
  rw [at_renumCols hs hj hr]
  have k1 := he' _ r h1 hr
  have k2 := he _ (π r) h1 (hπ.mapsTo hr)
  rw [← koldaCol_eq_ravel n h1.length, h4] at k1 k2
  rw [k1, k2]
  have : (renumComponents π U).eraseIdx n = renumComponents π (U.eraseIdx n) := by
    unfold renumComponents
    rw [List.eraseIdx_map]
  rw [this, khatriEntry_components hr (eraseIdx_factorsFor hU n) (InB_eraseIdx h1 n)]

theorem zero_mem_weights {π : Nat → Nat} {R : Nat} (h : Set.BijOn π (Set.Iio R) (Set.Iio R)) {w : Tensor ℝ}
    (hw : w.shape = [R]) : (0 : ℝ) ∈ (renumWeights π w).data ↔ (0 : ℝ) ∈ w.data := by
  have hc : ∀ (v : Tensor ℝ), v.shape = [R] → ((0 : ℝ) ∈ v.data ↔ ∃ r < R, v.at_ [r] = 0) := fun v hv => by
    rw [data_eq, List.mem_map, hv]
    constructor
    · rintro ⟨i, hi, e⟩
      rw [mem_indices] at hi
      match i, hi.length with
      | [r], _ => exact ⟨r, by simpa using hi, e⟩
    · rintro ⟨r, hr, e⟩
      exact ⟨[r], mem_indices.2 (by simpa using hr), e⟩
  rw [hc _ (by exact hw), hc _ hw]
  constructor
  · rintro ⟨r, hr, e⟩
    rw [at_renumWeights hw hr] at e
    exact ⟨π r, h.mapsTo hr, e⟩
  · rintro ⟨r, hr, e⟩
    obtain ⟨q, hq, rfl⟩ := h.surjOn (show r ∈ Set.Iio R from hr)
    exact ⟨q, hq, by rw [at_renumWeights hw hq, e]⟩

theorem reduceMax0_cols {N : Tensor ℝ} {m R : Nat} {π : Nat → Nat} (hs : N.shape = [m, R]) (hm : 0 < m)
    (h : Set.BijOn π (Set.Iio R) (Set.Iio R)) : reduceMax0 (renumCols π N) = renumWeights π <$> reduceMax0 N := by
  obtain ⟨a, ha, has, ha2⟩ := cp.reduceMax0_ok N hs hm
  obtain ⟨b, hb, hbs, hb2⟩ := cp.reduceMax0_ok (renumCols π N) hs hm
  rw [ha, hb]
  show Except.ok _ = Except.ok _
  congr 1
  refine ext_at (hbs.trans has.symm) fun i hi => ?_
  rw [hbs] at hi
  obtain ⟨r, rfl⟩ : ∃ r, i = [r] := by
    have := hi.length
    match i, this with
    | [r], _ => exact ⟨r, rfl⟩
  have hr : r < R := by simpa using hi
  obtain ⟨a1, p, hp, a3⟩ := ha2 (π r) (h.mapsTo hr)
  obtain ⟨b1, q, hq, b3⟩ := hb2 r hr
  rw [at_renumWeights has hr]
  refine le_antisymm ?_ ?_
  · rw [← b3, at_renumCols hs hq hr]
    exact a1 _ hq
  · rw [← a3, ← at_renumCols hs hp hr]
    exact b1 _ hp

theorem div_cols {N lam : Tensor ℝ} {m R : Nat} {π : Nat → Nat} (hN : N.shape = [m, R]) (hl : lam.shape = [R])
    (h : Set.BijOn π (Set.Iio R) (Set.Iio R)) :
    tf.div (renumCols π N) (renumWeights π lam) = renumCols π <$> tf.div N lam := by
  by_cases h0 : (0 : ℝ) ∈ lam.data
  · unfold tf.div
    rw [if_pos h0, if_pos ((zero_mem_weights h hl).2 h0)]; rfl
  · rw [cp.div_rows hN hl h0, cp.div_rows (by exact hN) (by exact hl) (fun h1 => h0 ((zero_mem_weights h hl).1 h1))]
    show Except.ok _ = Except.ok _
    congr 1
    refine ext_mat rfl rfl fun i hi j hj => ?_
    rw [at_mat _ hi hj, at_renumCols (shape_mat _ _ _) hi hj, at_mat _ hi (h.mapsTo hj), at_renumCols hN hi hj,
      at_renumWeights hl hj]

namespace cp

theorem modeUpdate_components {pinv : Tensor ℝ → Res (Tensor ℝ)} (hp : PinvOk pinv) {X : Tensor ℝ} {π : Nat → Nat}
    {R n : Nat} (hπ : Set.BijOn π (Set.Iio R) (Set.Iio R)) {A : List (Tensor ℝ)} (hA : FactorsFor X.shape R A) (h2 : 2 ≤ X.order)
    (h25 : X.order ≤ 25) (hn : n < X.order) (hpos : 0 < X.shape.getD n 0) :
    modeUpdate pinv X R (renumComponents π A) n =
      (fun u : Upd ℝ => ⟨renumComponents π u.A, renumWeights π u.lam, renumCols π u.nonNorm⟩) <$> modeUpdate pinv X R A n := by
  obtain ⟨M, hM⟩ : ∃ M, unfold X n = .ok M := ⟨_, unfold_closed X hn hpos⟩
  obtain ⟨hMs, -⟩ := toMat_unfold hn hpos hM
  obtain ⟨K, hK, hK', hKs⟩ := khatri_components hπ hA h2 h25 hn hpos
  obtain ⟨XA, hXA⟩ : ∃ XA, matmul M K = .ok XA := ⟨_, matmul_nn hMs hKs⟩
  obtain ⟨hXAs, -⟩ := toMat_matmul_nn hMs hKs hXA
  have hn' : n < A.length := by rw [hA.length]; exact hn
  have hgram : ∀ {B : List (Tensor ℝ)}, FactorsFor X.shape R B → ∃ K G grams, khatri B (.int n) true = .ok K ∧
      matmul K K true false = .ok G ∧ (B.mapM fun a => tf.matmul a a true false) = .ok grams ∧
      hadamard grams (.int n) = .ok G := fun {B} hB => by
    have hn' : n < B.length := by rw [hB.length]; exact hn
    have hke : kept B (.int n) ≠ [] := by
      rw [kept_int]; intro e
      have := congrArg List.length e
      rw [List.length_eraseIdx, if_pos hn', hB.length] at this
      unfold order at h2
      simp at this; omega
    exact Props.C19_gram B (.int n) true R hB.allMat hB.cols hke (by
      rw [kept_int, List.length_eraseIdx, if_pos hn', hB.length]; unfold order at h25; omega)
  obtain ⟨K2, G, grams, hK2, hG, hgr, hhad⟩ := hgram hA
  rw [hK] at hK2
  cases hK2
  obtain ⟨K3, G', grams', hK3, hG', hgr', hhad'⟩ := hgram (hA.components π)
  rw [hK'] at hK3
  cases hK3
  rw [matmul_tn_cols hπ hKs hKs, hG] at hG'
  cases hG'
  obtain ⟨hGs, -⟩ := toMat_matmul_tn hKs hKs hG
  obtain ⟨P, hP, hPs, -⟩ := hp G R hGs
  obtain ⟨N, hN⟩ : ∃ N, matmul XA P = .ok N := ⟨_, matmul_nn hXAs hPs⟩
  obtain ⟨hNs, -⟩ := toMat_matmul_nn hXAs hPs hN
  obtain ⟨lam, hlam, hls, -⟩ := reduceMax0_ok N hNs hpos
  unfold modeUpdate
  rw [hM, ok_bind, ok_bind, hgr, hgr', ok_bind, ok_bind, hK, hK', ok_bind, ok_bind, matmul_nn_cols hπ hMs hKs, hXA, ok_bind]
  change (do let XA ← (Except.ok (renumCols π XA) : Res (Tensor ℝ)); _) = _
  rw [ok_bind, hhad, hhad', ok_bind, ok_bind, pinv_both hp hπ hGs, hP, ok_bind]
  change (do let XA ← (Except.ok (renumBoth π P) : Res (Tensor ℝ)); _) = _
  rw [ok_bind, matmul_cols_both hπ hXAs hPs, hN, ok_bind]
  change (do let N ← (Except.ok (renumCols π N) : Res (Tensor ℝ)); _) = _
  rw [ok_bind, reshape_same hNs, reshape_same (by exact hNs), ok_bind, ok_bind, reduceMax0_cols hNs hpos hπ, hlam, ok_bind]
  change (do let N ← (Except.ok (renumWeights π lam) : Res (Tensor ℝ)); _) = _
  rw [ok_bind, div_cols hNs hls hπ]
  cases tf.div N lam with
  | error e => rfl
  | ok B =>
  rw [ok_bind]
  change (do let B ← (Except.ok (renumCols π B) : Res (Tensor ℝ)); _) = _
  rw [ok_bind, assign_components]
  cases tf.assign A n B <;> rfl

theorem sweep_components {pinv : Tensor ℝ → Res (Tensor ℝ)} (hp : PinvOk pinv) {X : Tensor ℝ} {π : Nat → Nat}
    {R : Nat} (hπ : Set.BijOn π (Set.Iio R) (Set.Iio R)) {A : List (Tensor ℝ)} (hA : FactorsFor X.shape R A) (h2 : 2 ≤ X.order)
    (h25 : X.order ≤ 25) (hpos : ∀ d ∈ X.shape, 0 < d) :
    sweep pinv X R (renumComponents π A) = (fun r => (renumComponents π r.1, renumWeights π r.2)) <$> sweep pinv X R A := by
  unfold sweep
  have key : ∀ (l : List Nat), (∀ n ∈ l, n < X.order) → ∀ (A : List (Tensor ℝ)) (o : Option (Tensor ℝ)), FactorsFor X.shape R A →
      (l.foldlM (init := (renumComponents π A, o.map (renumWeights π))) fun st mode => do
        let u ← modeUpdate pinv X R st.1 mode
        return (u.A, some u.lam) : Res (List (Tensor ℝ) × Option (Tensor ℝ))) =
      (fun r => (renumComponents π r.1, r.2.map (renumWeights π))) <$> (l.foldlM (init := (A, o)) fun st mode => do
        let u ← modeUpdate pinv X R st.1 mode
        return (u.A, some u.lam) : Res (List (Tensor ℝ) × Option (Tensor ℝ))) := by
    intro l
    induction l with
    | nil => intro _ A o _; rfl
    | cons n l ih =>
        intro hl A o hA
        have hn := hl n (by simp)
        rw [List.foldlM_cons, List.foldlM_cons]
        simp only [modeUpdate_components hp hπ hA h2 h25 hn (getD_pos hpos hn)]
        cases hu : modeUpdate pinv X R A n with
        | error e => rfl
        | ok u => exact ih (fun m hm => hl m (by simp [hm])) u.A (some u.lam) (modeUpdate_factors hA hu)
  have := key (List.range X.order) (fun n hn => by simpa using hn) A none hA
  rw [Option.map_none] at this
  rw [this]
  cases ((List.range X.order).foldlM (init := (A, (none : Option (Tensor ℝ)))) fun st mode => do
    let u ← modeUpdate pinv X R st.1 mode
    return (u.A, some u.lam) : Res (List (Tensor ℝ) × Option (Tensor ℝ))) with
  | error e => rfl
  | ok r =>
      obtain ⟨r1, r2⟩ := r
      cases r2 <;> rfl

theorem fullOf_components {A : List (Tensor ℝ)} {lam : Tensor ℝ} {shape : List Nat} {R : Nat} {π : Nat → Nat}
    (hπ : Set.BijOn π (Set.Iio R) (Set.Iio R)) (hA : FactorsFor shape R A) (hne : shape ≠ []) (h25 : shape.length ≤ 25)
    (hl : lam.shape = [R]) : fullOf (renumComponents π A) (renumWeights π lam) = fullOf A lam := by
  obtain ⟨Y, h1, h2, h3⟩ := fullOf_spec hA hne h25 hl
  obtain ⟨Y', h1', h2', h3'⟩ := fullOf_spec (hA.components π) hne h25 (show (renumWeights π lam).shape = [R] from hl)
  rw [h1, h1']
  congr 1
  refine ext_at (h2'.trans h2.symm) fun i hi => ?_
  rw [h2'] at hi
  rw [h3' i hi, h3 i hi, ← sum_renum hπ fun r => wt lam r * khatriEntry r A i]
  refine Finset.sum_congr rfl fun r hr => ?_
  rw [khatriEntry_components (Finset.mem_range.1 hr) hA hi, wt, wt, at_renumWeights hl (Finset.mem_range.1 hr)]

theorem main_components {pinv : Tensor ℝ → Res (Tensor ℝ)} (hp : PinvOk pinv) {X : Tensor ℝ} {π : Nat → Nat}
    {R : Nat} (hπ : Set.BijOn π (Set.Iio R) (Set.Iio R)) {A : List (Tensor ℝ)} (hA : FactorsFor X.shape R A) (h2 : 2 ≤ X.order)
    (h25 : X.order ≤ 25) (hpos : ∀ d ∈ X.shape, 0 < d) :
    main pinv X R (renumComponents π A) =
      (fun r => (renumComponents π r.1, (r.2.mapAux (renumWeights π)).mapOut (renumComponents π) id)) <$> main pinv X R A := by
  have hne : X.shape ≠ [] := by intro e; unfold order at h2; rw [e] at h2; simp at h2
  unfold main
  rw [sweep_components hp hπ hA h2 h25 hpos]
  cases hs : sweep pinv X R A with
  | error e => rfl
  | ok r =>
  obtain ⟨B, lam⟩ := r
  obtain ⟨b1, b2, -⟩ := sweep_descends hp hA h2 h25 hpos hs
  rw [ok_bind]
  change (do let r ← (Except.ok (renumComponents π B, renumWeights π lam) : Res _); _) = _
  rw [ok_bind]
  simp only
  rw [fullOf_components hπ b1 hne h25 b2]
  cases fullOf B lam with
  | error e => rfl
  | ok Y => cases h : cp.scalars X Y <;> simp only [ok_bind, h] <;> rfl

end cp
end TD
