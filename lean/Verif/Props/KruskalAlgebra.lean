import Verif.Spec.KruskalAlgebra
import Verif.Props.TtmLaws
import Verif.Props.Kruskal
import Verif.Props.Tucker
import Verif.Props.Hadamard

/-! # C132 : the algebra of Kruskal and Tucker tensors -/
namespace TD.Props
open TD Spec Tensor ops
variable {α : Type}

theorem boxSum_khatri_mul [CommSemiring α] (r s : Nat) : ∀ {U V : List (Tensor α)}, rowDims U = rowDims V →
    boxSum (rowDims U) (fun i => khatriEntry r U i * khatriEntry s V i) =
      ((U.zip V).map fun p => ∑ l ∈ Finset.range (p.1.shape.getD 0 0), p.1.at_ [l, r] * p.2.at_ [l, s]).prod
  | [], [], _ => by simp [rowDims, boxSum, khatriEntry]
  | [], _ :: _, h => by simp [rowDims] at h
  | _ :: _, [], h => by simp [rowDims] at h
  | A :: U, B :: V, h => by
      have h2 : rowDims U = rowDims V := (List.cons.inj h).2
      change (∑ l ∈ Finset.range (A.shape.getD 0 0), boxSum (rowDims U) fun is =>
        A.at_ [l, r] * khatriEntry r U is * (B.at_ [l, s] * khatriEntry s V is)) = _
      rw [List.zip_cons_cons, List.map_cons, List.prod_cons, ← boxSum_khatri_mul r s h2, Finset.sum_mul]
      refine Finset.sum_congr rfl fun l _ => ?_
      rw [← boxSum_mul_left]
      exact boxSum_congr fun i _ => by ring

theorem mul_tn [CommSemiring α] {A B : Tensor α} {k m n : Nat} (hA : A.shape = [k, m]) (hB : B.shape = [k, n]) :
    ∃ C, mul A B (.int 0) (.int 0) = .ok C ∧ C.shape = [m, n] ∧
      ∀ i < m, ∀ j < n, C.at_ [i, j] = ∑ l ∈ Finset.range k, A.at_ [l, i] * B.at_ [l, j] := by
  have hAo : A.order = 2 := by simp [order, hA]
  have hBo : B.order = 2 := by simp [order, hB]
  obtain ⟨C, hC, hs, he⟩ := C08_mul_entry A B [0] [0] (by simp) (by simp [hAo]) (by simp) (by simp [hBo]) (by simp [hA, hB])
  have hf : freeAxes 2 [0] = [1] := by decide
  simp only [hAo, hBo, hf, hA, hB] at hs he
  refine ⟨C, hC, hs, fun i hi j hj => ?_⟩
  have := he [i] [j] (by simpa using hi) (by simpa using hj)
  simp only [List.singleton_append] at this
  rw [this]
  simp only [List.map_cons, List.map_nil, boxSum]
  rfl

/-- **C132** (inner product): the inner product of two Kruskal tensors of the same shape is
`∑_{r,s} λ_r μ_s H[r, s]`, where `H` is the Hadamard product of the small matrices `U_nᵀ V_n` = `mul(U_n, V_n, 0, 0)`. -/
theorem C132_inner [CommSemiring α] (src src' : Src) (dt dt' : DType) (U V : List (Tensor α)) (lam mu : Option (KTensor.Arr α))
    (R S : Nat) (hU : Factors U R) (hV : Factors V S) (hw : WeightShape R lam) (hw' : WeightShape S mu)
    (hd : storedDtype src dt = weightDtype lam) (hd' : storedDtype src' dt' = weightDtype mu) (hUV : rowDims U = rowDims V) :
    ∃ k l X Y grams H, KTensor.init src dt U lam = .ok k ∧ KTensor.init src' dt' V mu = .ok l ∧ k.extract = .ok X ∧
      l.extract = .ok Y ∧ (U.zip V).mapM (fun p => mul p.1 p.2 (.int 0) (.int 0)) = .ok grams ∧ hadamard grams = .ok H ∧
      H.shape = [R, S] ∧
      inner X Y = .ok (∑ r ∈ Finset.range R, ∑ s ∈ Finset.range S, weight lam r * weight mu s * H.at_ [r, s]) := by
  obtain ⟨k, X, hk, hX, sX, eX⟩ := C23_extract_entry src dt U lam R hU hw hd
  obtain ⟨l, Y, hl, hY, sY, eY⟩ := C23_extract_entry src' dt' V mu S hV hw' hd'
  obtain ⟨hU1, -, hU2, hU3⟩ := hU
  obtain ⟨hV1, -, hV2, hV3⟩ := hV
  have hlen : U.length = V.length := by have := congrArg List.length hUV; simpa [rowDims] using this
  have hz : ∀ p ∈ U.zip V, p.1.shape = [p.1.shape.getD 0 0, R] ∧ p.2.shape = [p.1.shape.getD 0 0, S] := by
    intro p hp
    have h1 := List.of_mem_zip hp
    obtain ⟨q, hq, e⟩ := List.mem_iff_getElem.1 hp
    have hq1 : q < U.length := by simp only [List.length_zip] at hq; omega
    have hr : p.1.shape.getD 0 0 = p.2.shape.getD 0 0 := by
      rw [List.getElem_zip] at e
      have := congrArg (fun l => l[q]?) hUV
      simp only [rowDims, List.getElem?_map, List.getElem?_eq_getElem hq1, List.getElem?_eq_getElem (hlen ▸ hq1), Option.map_some,
        Option.some.injEq] at this
      rw [← e]
      exact this
    refine ⟨?_, ?_⟩
    · have := hU2.shape_eq h1.1
      rw [hU3 _ h1.1] at this
      exact this
    · have := hV2.shape_eq h1.2
      rw [hV3 _ h1.2, ← hr] at this
      exact this
  let gram : Tensor α × Tensor α → Tensor α := fun p => mat R S fun i j =>
    ∑ l ∈ Finset.range (p.1.shape.getD 0 0), p.1.at_ [l, i] * p.2.at_ [l, j]
  have hg : (U.zip V).mapM (fun p => mul p.1 p.2 (.int 0) (.int 0)) = (.ok ((U.zip V).map gram) : Res _) := by
    refine mapM_ok fun p hp => ?_
    obtain ⟨C, c1, c2, c3⟩ := mul_tn (hz p hp).1 (hz p hp).2
    rw [c1]
    congr 1
    refine ext_mat c2 rfl fun i hi j hj => ?_
    rw [c3 i hi j hj, at_mat _ hi hj]
  have hne : (U.zip V).map gram ≠ [] := by
    cases U with
    | nil => simp at hU1
    | cons a U => cases V with
      | nil => simp at hV1
      | cons b V => simp
  have hk0 : kept ((U.zip V).map gram) .none = (U.zip V).map gram := kept_none _
  obtain ⟨H, h1, h2, h3⟩ := C15_hadamard_entry ((U.zip V).map gram) .none [R, S] (by rw [hk0]; exact hne) (by
    intro M hM
    rw [hk0] at hM
    obtain ⟨p, -, rfl⟩ := List.mem_map.1 hM
    rfl)
  refine ⟨k, l, X, Y, _, H, hk, hl, hX, hY, hg, h1, h2, ?_⟩
  rw [inner_same (by rw [sX, sY, hUV]), sX]
  congr 1
  have e1 : (boxSum (rowDims U) fun i => X.at_ i * Y.at_ i) = boxSum (rowDims U) fun i => ∑ r ∈ Finset.range R, ∑ s ∈ Finset.range S,
      weight lam r * weight mu s * (khatriEntry r U i * khatriEntry s V i) := by
    refine boxSum_congr fun i hi => ?_
    rw [eX i hi, eY i (hUV ▸ hi), Finset.sum_mul_sum]
    exact Finset.sum_congr rfl fun r _ => Finset.sum_congr rfl fun s _ => by ring
  rw [e1, boxSum_comm]
  refine Finset.sum_congr rfl fun r hr => ?_
  rw [boxSum_comm]
  refine Finset.sum_congr rfl fun s hs => ?_
  have hr := Finset.mem_range.1 hr
  have hs := Finset.mem_range.1 hs
  rw [boxSum_mul_left, boxSum_khatri_mul r s hUV, h3 [r, s] (InB_pair.2 ⟨r, s, rfl, hr, hs⟩)]
  congr 2
  rw [hk0, List.map_map]
  exact List.map_congr_left fun p _ => by
    change _ = (gram p).at_ [r, s]
    rw [at_mat _ hr hs]

theorem kronEntry_diag [CommSemiring α] (r : Nat) : ∀ (U : List (Tensor α)) {i : List Nat}, i.length = U.length →
    kronEntry U i (List.replicate U.length r) = khatriEntry r U i
  | [], [], _ => rfl
  | _ :: U, _ :: i, h => by
      rw [List.length_cons, List.replicate_succ, kronEntry, khatriEntry, kronEntry_diag r U (by simpa using h)]

theorem boxSum_superdiagonal [CommSemiring α] {N R : Nat} {w : Nat → α} {G : Tensor α} (hN : 0 < N) (hG : IsSuperdiagonal G N R w)
    (f : List Nat → α) : (boxSum (List.replicate N R) fun j => G.at_ j * f j) = ∑ r ∈ Finset.range R, w r * f (List.replicate N r) := by
  have h1 : ∀ j, InB (List.replicate N R) j → G.at_ j * f j =
      ∑ r ∈ Finset.range R, if j = List.replicate N r then w r * f (List.replicate N r) else 0 := by
    intro j hj
    obtain ⟨a, b⟩ := hG.2 j hj
    by_cases h : ∃ r < R, j = List.replicate N r
    · obtain ⟨r, hr, e⟩ := h
      rw [Finset.sum_eq_single r]
      · rw [if_pos e, a r hr e, e]
      · intro s _ hs
        rw [if_neg]
        rw [e]
        intro e'
        exact hs ((List.replicate_right_inj (by omega)).1 e').symm
      · intro hr'
        exact absurd (Finset.mem_range.2 hr) hr'
    · rw [b fun r hr e => h ⟨r, hr, e⟩, zero_mul, Finset.sum_eq_zero]
      intro r hr
      rw [if_neg fun e => h ⟨r, Finset.mem_range.1 hr, e⟩]
  rw [boxSum_congr h1, boxSum_comm]
  refine Finset.sum_congr rfl fun r hr => ?_
  have hin : List.replicate N r ∈ indices (List.replicate N R) := mem_indices.2 (InB_iff_getD.2 ⟨by simp, fun k hk => by
    simp only [List.length_replicate] at hk
    simp only [List.getD_eq_getElem?_getD, List.getElem?_replicate, hk, if_true, Option.getD_some]
    exact Finset.mem_range.1 hr⟩)
  generalize List.replicate N R = s at hin
  generalize w r * f (List.replicate N r) = c
  generalize List.replicate N r = j at hin
  rw [mem_indices] at hin
  induction s generalizing j with
  | nil =>
      cases j with
      | nil => simp [boxSum]
      | cons => simp [InB] at hin
  | cons d s ih =>
      cases j with
      | nil => simp [InB] at hin
      | cons a j =>
          rw [InB_cons] at hin
          rw [boxSum, Finset.sum_eq_single a]
          · refine Eq.trans (boxSum_congr fun i _ => ?_) (ih j hin.2)
            simp
          · intro b _ hb
            rw [boxSum_congr (g := fun _ => 0) fun i _ => by rw [if_neg]; simp [hb], boxSum_zero]
          · intro h
            exact absurd (Finset.mem_range.2 hin.1) h

/-- **C132** (superdiagonal core): a Kruskal tensor is the Tucker tensor with the same factors and the weights on the
superdiagonal of the core. -/
theorem C132_superdiagonal [CommSemiring α] (src : Src) (dt dt' : DType) (U : List (Tensor α)) (lam : Option (KTensor.Arr α))
    (R : Nat) (G : Tensor α) (hU : Factors U R) (h13 : U.length ≤ 13) (hw : WeightShape R lam)
    (hd : storedDtype src dt = weightDtype lam) (hG : IsSuperdiagonal G U.length R (weight lam)) :
    ∃ k t X, KTensor.init src dt U lam = .ok k ∧ TTensor.init G dt' U dt' = .ok t ∧ k.extract = .ok X ∧ t.extract = .ok X := by
  obtain ⟨k, X, hk, hX, sX, eX⟩ := C23_extract_entry src dt U lam R hU hw hd
  obtain ⟨h1, -, h2, h3⟩ := hU
  have hc : colDims U = List.replicate U.length R := by
    rw [colDims, List.eq_replicate_iff]
    refine ⟨by simp, fun b hb => ?_⟩
    obtain ⟨M, hM, rfl⟩ := List.mem_map.1 hb
    exact h3 M hM
  obtain ⟨t, Y, ht, hY, sY, eY⟩ := C27_extract_entry G dt' U h1 h13 h2 (hG.1.trans hc.symm)
  refine ⟨k, t, X, hk, ht, hX, ?_⟩
  rw [hY]
  congr 1
  refine ext_at (sY.trans sX.symm) fun i hi => ?_
  rw [sY] at hi
  rw [eY i hi, eX i hi, hG.1, boxSum_superdiagonal (List.length_pos_iff.2 h1) hG]
  refine Finset.sum_congr rfl fun r _ => ?_
  rw [kronEntry_diag r U (by rw [hi.length]; simp [rowDims])]

theorem khatriEntry_beside [CommSemiring α] {R S : Nat} : ∀ {U V W : List (Tensor α)}, List.Forall₂ (fun (p : Tensor α × Tensor α) C => IsBeside p.1 p.2 C R S) (U.zip V) W →
    U.length = V.length → rowDims W = rowDims U ∧ rowDims V = rowDims U ∧ ∀ i, InB (rowDims U) i →
      (∀ r < R, khatriEntry r W i = khatriEntry r U i) ∧ ∀ s < S, khatriEntry (R + s) W i = khatriEntry s V i
  | [], [], [], _, _ => ⟨rfl, rfl, fun i hi => by simp [khatriEntry]⟩
  | [], _ :: _, _, _, h => by simp at h
  | _ :: _, [], _, _, h => by simp at h
  | A :: U, B :: V, [], h, _ => by simp at h
  | A :: U, B :: V, C :: W, h, hl => by
      rw [List.zip_cons_cons, List.forall₂_cons] at h
      obtain ⟨⟨m, a1, a2, a3, a4⟩, h⟩ := h
      simp only at a1 a2 a3 a4
      obtain ⟨b1, b2, b3⟩ := khatriEntry_beside h (by simpa using hl)
      refine ⟨by simp only [rowDims, List.map_cons] at b1 ⊢; rw [b1, a1, a3]; rfl,
        by simp only [rowDims, List.map_cons] at b2 ⊢; rw [b2, a1, a2]; rfl, ?_⟩
      intro i hi
      cases i with
      | nil => simp [rowDims, InB] at hi
      | cons x i =>
          simp only [rowDims, List.map_cons, InB_cons, a1, List.getD_cons_zero] at hi
          obtain ⟨c1, c2⟩ := b3 i hi.2
          obtain ⟨d1, d2⟩ := a4 x hi.1
          exact ⟨fun r hr => by rw [khatriEntry, khatriEntry, c1 r hr, d1 r hr],
            fun s hs => by rw [khatriEntry, khatriEntry, c2 s hs, d2 s hs]⟩
  | [], [], _ :: _, h, _ => by simp at h

/-- **C132** (sum): putting the factors of two Kruskal tensors side by side, and the weights one after the other, gives the
sum. -/
theorem C132_sum [CommSemiring α] (src : Src) (dt : DType) (U V W : List (Tensor α)) (lam mu nu : Option (KTensor.Arr α)) (R S : Nat)
    (hU : Factors U R) (hV : Factors V S) (hW : List.Forall₂ (fun (p : Tensor α × Tensor α) C => IsBeside p.1 p.2 C R S) (U.zip V) W)
    (hl : U.length = V.length) (hw : WeightShape R lam) (hw' : WeightShape S mu) (hw'' : WeightShape (R + S) nu)
    (hd : storedDtype src dt = weightDtype lam) (hd' : storedDtype src dt = weightDtype mu) (hd'' : storedDtype src dt = weightDtype nu)
    (h1 : ∀ r < R, weight nu r = weight lam r) (h2 : ∀ s < S, weight nu (R + s) = weight mu s) :
    ∃ k l m X Y Z, KTensor.init src dt U lam = .ok k ∧ KTensor.init src dt V mu = .ok l ∧ KTensor.init src dt W nu = .ok m ∧
      k.extract = .ok X ∧ l.extract = .ok Y ∧ m.extract = .ok Z ∧ IsComb 1 1 X Y Z := by
  obtain ⟨r1, r2, r3⟩ := khatriEntry_beside hW hl
  have hlW : W.length = U.length := by have := congrArg List.length r1; simpa [rowDims] using this
  have hFW : Factors W (R + S) := by
    have hs : ∀ C ∈ W, ∃ m, C.shape = [m, R + S] := by
      intro C hC
      obtain ⟨q, hq, rfl⟩ := List.mem_iff_getElem.1 hC
      obtain ⟨m, -, -, h, -⟩ := (List.forall₂_iff_get.1 hW).2 q (by simp; omega) hq
      exact ⟨m, h⟩
    refine ⟨fun e => hU.1 (List.length_eq_zero_iff.1 (by rw [← hlW, e]; rfl)), by rw [hlW]; exact hU.2.1, fun C hC => ?_, fun C hC => ?_⟩
    · obtain ⟨m, h⟩ := hs C hC
      rw [h]; rfl
    · obtain ⟨m, h⟩ := hs C hC
      rw [h]; rfl
  obtain ⟨k, X, hk, hX, sX, eX⟩ := C23_extract_entry src dt U lam R hU hw hd
  obtain ⟨l, Y, hl', hY, sY, eY⟩ := C23_extract_entry src dt V mu S hV hw' hd'
  obtain ⟨m, Z, hm, hZ, sZ, eZ⟩ := C23_extract_entry src dt W nu (R + S) hFW hw'' hd''
  refine ⟨k, l, m, X, Y, Z, hk, hl', hm, hX, hY, hZ, by rw [sX, sZ, r1], by rw [sY, sZ, r1, r2], fun i hi => ?_⟩
  rw [sZ] at hi
  have hi' : InB (rowDims U) i := r1 ▸ hi
  obtain ⟨c1, c2⟩ := r3 i hi'
  rw [eZ i hi, eX i hi', eY i (r2.symm ▸ hi'), Finset.sum_range_add, one_mul, one_mul]
  congr 1
  · exact Finset.sum_congr rfl fun r hr => by rw [h1 r (Finset.mem_range.1 hr), c1 r (Finset.mem_range.1 hr)]
  · exact Finset.sum_congr rfl fun s hs => by rw [h2 s (Finset.mem_range.1 hs), c2 s (Finset.mem_range.1 hs)]

/-- **C132** (Tucker, projection): the inner product of a Tucker tensor with any tensor is that of its core with the tensor
multiplied by the transposed factors. -/
theorem C132_tucker_inner [CommSemiring α] (G X : Tensor α) (dt : DType) (U : List (Tensor α)) (hne : U ≠ []) (hN : U.length ≤ 13)
    (hm : AllMat U) (hG : G.shape = colDims U) (hX : X.shape = rowDims U) :
    ∃ t T P v, TTensor.init G dt U dt = .ok t ∧ t.extract = .ok T ∧ ttm X U (some (List.range U.length)) true = .ok P ∧
      inner T X = .ok v ∧ inner G P = .ok v := by
  obtain ⟨t, T, h1, h2, h3, -⟩ := C27_extract_entry G dt U hne hN hm hG
  obtain ⟨t', h1', h2'⟩ := C27_extract_mode_products G dt U hne hN hm hG
  rw [h1] at h1'
  obtain rfl : t = t' := Except.ok.inj h1'
  rw [h2] at h2'
  have hT := Except.ok.inj h2'
  have ho : G.order = U.length := by rw [Tensor.order, hG, length_colDims]
  have hax : List.range U.length ≠ [] := by
    intro e; exact hne (List.length_eq_zero_iff.1 (List.range_eq_nil.1 e))
  have hc := conformable_all hm hG
  have hlt : ∀ i ∈ List.range U.length, i < G.order := fun i hi => by rw [ho]; exact List.mem_range.1 hi
  have e : ttm G U (some (List.range U.length)) = .ok T := by
    rw [C10_ttm_mode_products G U _ false (by omega) hax List.nodup_range hlt hc, hT]; rfl
  obtain ⟨P, v, p1, p2, p3⟩ := C130_adjoint G X T U _ (by omega) hax List.nodup_range hlt hc e (hX.trans h3.symm)
  exact ⟨t, T, P, v, h1, h2, p1, p2, p3⟩

/-- **C132** (Tucker, orthonormal factors): inner products of Tucker tensors with the same orthonormal factors are those of the
cores; in particular the norm is the norm of the core. -/
theorem C132_tucker_orthonormal [CommSemiring α] (G G' : Tensor α) (dt : DType) (U : List (Tensor α)) (hne : U ≠ []) (hN : U.length ≤ 13)
    (hm : AllMat U) (hG : G.shape = colDims U) (hG' : G'.shape = colDims U) (ho : ∀ M ∈ U, Spec.Orthonormal M (M.shape.getD 1 0)) :
    ∃ t t' T T' v, TTensor.init G dt U dt = .ok t ∧ TTensor.init G' dt U dt = .ok t' ∧ t.extract = .ok T ∧ t'.extract = .ok T' ∧
      inner T T' = .ok v ∧ inner G G' = .ok v := by
  have hax : List.range U.length ≠ [] := by
    intro e; exact hne (List.length_eq_zero_iff.1 (List.range_eq_nil.1 e))
  have ho' : ∀ G : Tensor α, G.shape = colDims U → G.order = U.length := fun G hG => by rw [Tensor.order, hG, length_colDims]
  have key : ∀ G : Tensor α, G.shape = colDims U → ∃ t T, TTensor.init G dt U dt = .ok t ∧ t.extract = .ok T ∧
      ttm G U (some (List.range U.length)) = .ok T := by
    intro G hG
    obtain ⟨t, h1, h2⟩ := C27_extract_mode_products G dt U hne hN hm hG
    refine ⟨t, _, h1, h2, ?_⟩
    rw [C10_ttm_mode_products G U _ false (by rw [ho' G hG]; omega) hax List.nodup_range
      (fun i hi => by rw [ho' G hG]; exact List.mem_range.1 hi) (conformable_all hm hG)]
    rfl
  obtain ⟨t, T, a1, a2, a3⟩ := key G hG
  obtain ⟨t', T', b1, b2, b3⟩ := key G' hG'
  obtain ⟨X', Y', v, c1, c2, c3, c4⟩ := C130_isometry G G' (hG.trans hG'.symm) U (List.range U.length) (by rw [ho' G hG]; exact hN) hax
    List.nodup_range (fun i hi => by rw [ho' G hG]; exact List.mem_range.1 hi) (by simp) (by
      intro p hp
      obtain ⟨q, hq, e⟩ := List.mem_iff_getElem.1 hp
      have hq1 : q < U.length := by simpa using hq
      rw [List.getElem_zip] at e
      have e1 : p.1 = q := by rw [← e]; simp
      have e2 : p.2 = U[q] := by rw [← e]
      have := ho U[q] (List.getElem_mem _)
      rw [e1, e2, hG]
      have e3 : (colDims U).getD q 0 = U[q].shape.getD 1 0 := by
        rw [colDims, List.getD_eq_getElem _ _ (by simpa using hq1), List.getElem_map]
      rw [e3]
      exact this)
  rw [a3] at c1; rw [b3] at c2
  cases c1; cases c2
  exact ⟨t, t', T, T', v, a1, b1, a2, b2, c3, c4⟩

/-! Concrete cases: the 2 × 3 Kruskal tensor of C23 with itself, its superdiagonal core, two tensors side by side. -/
example : ∃ k X, KTensor.init .np .float64 exU (some exLam) = .ok k ∧ k.extract = .ok X ∧ inner X X = .ok 1553 ∧
    ∃ t, TTensor.init (⟨[2, 2], [3, 0, 0, 4], rfl⟩ : Tensor Int) .float32 exU .float32 = .ok t ∧ t.extract = .ok X := by
  refine ⟨_, _, rfl, rfl, ?_, _, rfl, ?_⟩ <;> rfl

example : IsSuperdiagonal (⟨[2, 2], [3, 0, 0, 4], rfl⟩ : Tensor Int) 2 2 (weight (some exLam)) := by
  refine ⟨rfl, fun j hj => ?_⟩
  obtain ⟨a, b, rfl, ha, hb⟩ := InB_pair.1 hj
  interval_cases a <;> interval_cases b <;> decide +kernel

example : IsBeside (⟨[2, 1], [1, 2], rfl⟩ : Tensor Int) ⟨[2, 2], [3, 4, 5, 6], rfl⟩ ⟨[2, 3], [1, 3, 4, 2, 5, 6], rfl⟩ 1 2 :=
  ⟨2, rfl, rfl, rfl, by decide⟩

end TD.Props
