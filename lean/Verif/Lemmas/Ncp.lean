import Verif.Lemmas.Bcu

/-! # Lemmas on `NCP_BCU` -/
namespace TD.bcu
open TD Spec Tensor tf ops Matrix

/-- A mode update is a factor step with the Gram matrix and right hand side of the least squares problem of that
mode. -/
theorem NCP.reduce (topSv : Tensor ℝ → Res ℝ) {X : Tensor ℝ} {R n : Nat} {st : State}
    (hA : FactorsFor X.shape R st.A) (h2 : 2 ≤ X.order) (h25 : X.order ≤ 25) (hn : n < X.order)
    (hpos : 0 < X.shape.getD n 0) :
    ∃ K V XA, khatri st.A (.int n) true = .ok K ∧ V.shape = [R, R] ∧ XA.shape = [X.shape.getD n 0, R] ∧
      toMat V R R = (toMat K (otherSize X.shape n) R)ᵀ * toMat K (otherSize X.shape n) R ∧
      toMat XA (X.shape.getD n 0) R = (Matrix.of fun (i : Fin (X.shape.getD n 0))
        (j : Fin (otherSize X.shape n)) => X.at_ (unkolda X.shape n i j)) * toMat K (otherSize X.shape n) R ∧
      NCP.modeUpdate topSv X st n = factorStep topSv st n V XA := by
  have hlen := hA.length
  have hn' : n < st.A.length := by rw [hlen]; exact hn
  have hke : kept st.A (.int n) ≠ [] := by
    rw [kept_int]; intro e
    have := congrArg List.length e
    rw [List.length_eraseIdx, if_pos hn', hlen] at this
    unfold order at h2
    simp at this; omega
  obtain ⟨K, G, grams, hK, hG, hgr, hhad⟩ := Props.C19_gram st.A (.int n) true R hA.allMat hA.cols hke (by
    rw [kept_int, List.length_eraseIdx, if_pos hn', hlen]; unfold order at h25; omega)
  have hget : st.A[n]? = some st.A[n] := List.getElem?_eq_getElem hn'
  obtain ⟨hKs, -⟩ := cpErr_frob (fun _ => 1) hA h2 h25 hn (hA.get hget) hK
  obtain ⟨M, hM⟩ : ∃ M, unfold X n = .ok M := ⟨_, unfold_closed X hn hpos⟩
  obtain ⟨hMs, hMm⟩ := toMat_unfold hn hpos hM
  obtain ⟨hGs, hGm⟩ := toMat_matmul_tn hKs hKs hG
  obtain ⟨XA, hXA⟩ : ∃ XA, matmul M K = .ok XA := ⟨_, matmul_nn hMs hKs⟩
  obtain ⟨hXAs, hXAm⟩ := toMat_matmul_nn hMs hKs hXA
  refine ⟨K, G, XA, hK, hGs, hXAs, hGm, by rw [hXAm, hMm], ?_⟩
  unfold NCP.modeUpdate
  rw [hM, ok_bind, hgr, ok_bind, hK, ok_bind, hXA, ok_bind, hhad, ok_bind]

theorem of_mul_one (B : Tensor ℝ) (I R : Nat) :
    (Matrix.of fun (i : Fin I) (r : Fin R) => B.at_ [(i : Nat), (r : Nat)] * 1) = toMat B I R := by
  ext i r; rw [Matrix.of_apply, mul_one]; rfl

/-- The three-point inequality of a mode update. -/
theorem NCP.three_point {topSv : Tensor ℝ → Res ℝ} (ht : TopSvOk topSv) {X : Tensor ℝ} {R n : Nat} {st st' : State}
    {m : Tensor ℝ}
    (hA : FactorsFor X.shape R st.A) (h2 : 2 ≤ X.order) (h25 : X.order ≤ 25) (hn : n < X.order) (hR : 0 < R)
    (hpos : 0 < X.shape.getD n 0) (hm : st.Am[n]? = some m) (hms : m.shape = [X.shape.getD n 0, R])
    (h : NCP.modeUpdate topSv X st n = .ok st') :
    ∃ Z, Z.shape = [X.shape.getD n 0, R] ∧ Nonneg Z ∧ st'.A = st.A.set n Z ∧ 0 < st'.L n ∧
      ∀ B, B.shape = [X.shape.getD n 0, R] → Nonneg B →
        cpErr X R (st.A.set n Z) (fun _ => 1) ≤ cpErr X R (st.A.set n B) (fun _ => 1) +
          st'.L n * distSqT B m - st'.L n * distSqT B Z := by
  obtain ⟨K, V, XA, hK, hV, hXA, hVm, hXAm, he⟩ := NCP.reduce topSv hA h2 h25 hn hpos (st := st)
  have hn' : n < st.A.length := by rw [hA.length]; exact hn
  have hget : st.A[n]? = some st.A[n] := List.getElem?_eq_getElem hn'
  obtain ⟨l, hl, hsv⟩ := ht V R R hV hR hR
  obtain ⟨e0, e1⟩ := factorStep_eq hV hXA hm hms hget (hA.get hget) hl
  rw [he] at h
  by_cases h0 : l = 0
  · rw [e0 h0] at h; cases h
  obtain ⟨Z, hZs, hZn, hZe, hf⟩ := e1 h0
  rw [hf] at h
  cases h
  have hlpos : 0 < l := lt_of_le_of_ne hsv.nonneg (Ne.symm h0)
  have hup : Function.update st.L n l n = l := Function.update_self _ _ _
  refine ⟨Z, hZs, hZn, rfl, by simp only; rw [hup]; exact hlpos, fun B hB hBn => ?_⟩
  simp only
  rw [hup, (cpErr_frob _ hA h2 h25 hn hZs hK).2, (cpErr_frob _ hA h2 h25 hn hB hK).2, of_mul_one, of_mul_one]
  have hd : ∀ T : Tensor ℝ, T.shape = [X.shape.getD n 0, R] →
      distSqT B T = frobSq (toMat B (X.shape.getD n 0) R - toMat T (X.shape.getD n 0) R) := by
    intro T hT
    rw [distSqT, hB, boxSum_pair, frobSq, Finset.sum_range]
    refine Finset.sum_congr rfl fun i _ => ?_
    rw [Finset.sum_range]
    rfl
  rw [hd m hms, hd Z hZs]
  rw [hVm] at hsv
  refine prox_three_point _ _ hlpos (fun D => ?_) _ _ _ (fun i r => ?_) fun i r => hBn.at _
  · have := hsv.gram_le Dᵀ
    rwa [← frobSq_transpose, transpose_mul, transpose_transpose, frobSq_transpose] at this
  · rw [hZe i r, hVm, hXAm]

/-- Domain: a mode update never raises, it stops exactly when the Gram matrix vanishes. -/
theorem NCP.modeUpdate_total {topSv : Tensor ℝ → Res ℝ} (ht : TopSvOk topSv) {X : Tensor ℝ} {R n : Nat} {st : State}
    (hA : FactorsFor X.shape R st.A) (hAm : FactorsFor X.shape R st.Am) (h2 : 2 ≤ X.order) (h25 : X.order ≤ 25)
    (hn : n < X.order) (hR : 0 < R) (hpos : 0 < X.shape.getD n 0) :
    (∃ st', NCP.modeUpdate topSv X st n = .ok st') ∨ NCP.modeUpdate topSv X st n = .error .nonFinite := by
  obtain ⟨K, V, XA, hK, hV, hXA, hVm, hXAm, he⟩ := NCP.reduce topSv hA h2 h25 hn hpos (st := st)
  have hn' : n < st.A.length := by rw [hA.length]; exact hn
  have hget : st.A[n]? = some st.A[n] := List.getElem?_eq_getElem hn'
  have hnm : n < st.Am.length := by rw [hAm.length]; exact hn
  have hgm : st.Am[n]? = some st.Am[n] := List.getElem?_eq_getElem hnm
  obtain ⟨l, hl, hsv⟩ := ht V R R hV hR hR
  obtain ⟨e0, e1⟩ := factorStep_eq hV hXA hgm (hAm.get hgm) hget (hA.get hget) hl
  rw [he]
  by_cases h0 : l = 0
  · exact Or.inr (e0 h0)
  · obtain ⟨Z, -, -, -, hf⟩ := e1 h0
    exact Or.inl ⟨_, hf⟩

/-- Some entry of column `r` of the Khatri-Rao product is nonzero iff column `r` of every member is. -/
theorem khatriEntry_ne_zero {L : List (Tensor ℝ)} {r : Nat} :
    (∃ i, InB (rowDims L) i ∧ khatriEntry r L i ≠ 0) ↔ ∀ M ∈ L, ∃ a < M.shape.getD 0 0, M.at_ [a, r] ≠ 0 := by
  induction L with
  | nil => exact ⟨fun _ M hM => absurd hM (by simp), fun _ => ⟨[], (InB_nil _).2 rfl, by simp [khatriEntry]⟩⟩
  | cons M L ih =>
      constructor
      · rintro ⟨i, hi, hne⟩
        cases i with
        | nil => exact absurd hi (by simp [rowDims, InB])
        | cons a i =>
            obtain ⟨h1, h2⟩ : a < M.shape.getD 0 0 ∧ InB (rowDims L) i := (InB_cons _ _ _ _).1 hi
            have hne' : M.at_ [a, r] * khatriEntry r L i ≠ 0 := hne
            intro N hN
            rcases List.mem_cons.1 hN with rfl | hN
            · exact ⟨a, h1, left_ne_zero_of_mul hne'⟩
            · exact ih.1 ⟨i, h2, right_ne_zero_of_mul hne'⟩ N hN
      · intro h
        obtain ⟨a, h1, h2⟩ := h M (by simp)
        obtain ⟨i, h3, h4⟩ := ih.2 fun N hN => h N (by simp [hN])
        exact ⟨a :: i, (InB_cons _ _ _ _).2 ⟨h1, h3⟩, mul_ne_zero h2 h4⟩

/-- A mode update is defined iff some component is nonzero in all the other factors. -/
theorem NCP.modeUpdate_defined {topSv : Tensor ℝ → Res ℝ} (ht : TopSvOk topSv) {X : Tensor ℝ} {R n : Nat} {st : State}
    (hA : FactorsFor X.shape R st.A) (hAm : FactorsFor X.shape R st.Am) (h2 : 2 ≤ X.order) (h25 : X.order ≤ 25)
    (hn : n < X.order) (hR : 0 < R) (hpos : 0 < X.shape.getD n 0) :
    (∃ st', NCP.modeUpdate topSv X st n = .ok st') ↔
      ∃ r < R, ∀ M ∈ st.A.eraseIdx n, ∃ a < M.shape.getD 0 0, M.at_ [a, r] ≠ 0 := by
  obtain ⟨K, V, XA, hK, hV, hXA, hVm, hXAm, he⟩ := NCP.reduce topSv hA h2 h25 hn hpos (st := st)
  have hn' : n < st.A.length := by rw [hA.length]; exact hn
  have hget : st.A[n]? = some st.A[n] := List.getElem?_eq_getElem hn'
  have hnm : n < st.Am.length := by rw [hAm.length]; exact hn
  have hgm : st.Am[n]? = some st.Am[n] := List.getElem?_eq_getElem hnm
  obtain ⟨l, hl, hsv⟩ := ht V R R hV hR hR
  obtain ⟨e0, e1⟩ := factorStep_eq hV hXA hgm (hAm.get hgm) hget (hA.get hget) hl
  have hk : kept st.A (.int n) = st.A.eraseIdx n := kept_int _ _
  have hlen : (st.A.eraseIdx n).length + 1 = X.order := by
    rw [List.length_eraseIdx, if_pos hn', hA.length]; unfold order at h2 ⊢; omega
  have hsub : ∀ M ∈ (st.A.eraseIdx n).reverse, M ∈ st.A := fun M hM =>
    List.mem_of_mem_eraseIdx (List.mem_reverse.1 hM)
  obtain ⟨K', hK', hKs', hKe'⟩ := Props.C18_khatri_entry st.A (.int n) true R (st.A.eraseIdx n).reverse
    (by rw [hk]; rfl) (fun M hM => hA.allMat M (hsub M hM)) (fun M hM => hA.cols M (hsub M hM))
    (by intro e; have := congrArg List.length e; rw [List.length_reverse, List.length_nil] at this; omega)
    (by rw [List.length_reverse]; omega)
  rw [hK] at hK'; cases hK'
  have hKs := (cpErr_frob (fun _ => 1) hA h2 h25 hn (hA.get hget) hK).1
  have hJ : (rowDims (st.A.eraseIdx n).reverse).prod = otherSize X.shape n := by
    rw [hKs'] at hKs; simpa using hKs
  have hzero : toMat K (otherSize X.shape n) R = 0 ↔
      ¬ ∃ r < R, ∀ M ∈ st.A.eraseIdx n, ∃ a < M.shape.getD 0 0, M.at_ [a, r] ≠ 0 := by
    constructor
    · rintro h0 ⟨r, hr, hall⟩
      obtain ⟨i, hi, hne⟩ := (khatriEntry_ne_zero (L := (st.A.eraseIdx n).reverse) (r := r)).2
        fun M hM => hall M (List.mem_reverse.1 hM)
      have hlt := ravel_lt hi
      rw [hJ] at hlt
      have := congrFun (congrFun h0 ⟨_, hlt⟩) ⟨r, hr⟩
      rw [toMat_apply, Matrix.zero_apply, hKe' i r hi hr] at this
      exact hne this
    · intro h0
      ext j r
      rw [toMat_apply, Matrix.zero_apply]
      by_contra hne
      refine h0 ⟨r, r.isLt, fun M hM => ?_⟩
      have hj : (j : Nat) < (rowDims (st.A.eraseIdx n).reverse).prod := by rw [hJ]; exact j.isLt
      have := hKe' _ r (unravel_inB hj) r.isLt
      rw [ravel_unravel hj] at this
      rw [this] at hne
      exact khatriEntry_ne_zero.1 ⟨_, unravel_inB hj, hne⟩ M (List.mem_reverse.2 hM)
  rw [hVm] at hsv
  rw [he]
  constructor
  · rintro ⟨st', h⟩
    by_contra hno
    rw [e0 (hsv.gram_eq_zero.2 (hzero.2 hno))] at h
    cases h
  · intro h
    obtain ⟨Z, -, -, -, hf⟩ := e1 fun h0 => hzero.1 (hsv.gram_eq_zero.1 h0) h
    exact ⟨_, hf⟩

theorem NCP.modeUpdate_inv {topSv : Tensor ℝ → Res ℝ} {X : Tensor ℝ} {st st' : State} {n : Nat}
    (h : NCP.modeUpdate topSv X st n = .ok st') : ∃ V XA, factorStep topSv st n V XA = .ok st' := by
  unfold NCP.modeUpdate at h
  cases h1 : unfold X n with
  | error e => rw [h1] at h; cases h
  | ok M =>
  rw [h1, ok_bind] at h
  cases h2 : st.A.mapM (fun a => tf.matmul a a true false) with
  | error e => rw [h2] at h; cases h
  | ok AtA =>
  rw [h2, ok_bind] at h
  cases h3 : khatri st.A (.int n) true with
  | error e => rw [h3] at h; cases h
  | ok K =>
  rw [h3, ok_bind] at h
  cases h4 : matmul M K with
  | error e => rw [h4] at h; cases h
  | ok XA =>
  rw [h4, ok_bind] at h
  cases h5 : hadamard AtA (.int n) with
  | error e => rw [h5] at h; cases h
  | ok V =>
  rw [h5, ok_bind] at h
  exact ⟨V, XA, h⟩

/-- The sweep as a fold. -/
theorem NCP.sweep_inv {topSv : Tensor ℝ → Res ℝ} {X : Tensor ℝ} {sh : List (List Nat)} {l : List Nat} {st st' : State}
    (hst : FactorsOk sh st) (h : l.foldlM (NCP.modeUpdate topSv X) st = .ok st') :
    FactorsOk sh st' ∧ st'.t = st.t ∧ st'.t0 = st.t0 ∧ st'.Am = st.Am ∧ st'.A0 = st.A0 := by
  refine foldlM_inv (P := fun s => FactorsOk sh s ∧ s.t = st.t ∧ s.t0 = st.t0 ∧ s.Am = st.Am ∧ s.A0 = st.A0)
    (Q := fun _ => True) ?_ (fun _ _ => trivial) ⟨hst, rfl, rfl, rfl, rfl⟩ h
  intro s b s' hs _ hf
  obtain ⟨V, XA, hf⟩ := NCP.modeUpdate_inv hf
  obtain ⟨a, b, c, d⟩ := factorStep_momentum hf
  exact ⟨hs.1.factorStep hf, a.trans hs.2.1, b.trans hs.2.2.1, c.trans hs.2.2.2.1, d.trans hs.2.2.2.2⟩

theorem NCP.fullOf_spec {A : List (Tensor ℝ)} {shape : List Nat} {R : Nat} (hA : FactorsFor shape R A)
    (hne : shape ≠ []) (h25 : shape.length ≤ 25) :
    ∃ Y, NCP.fullOf A = .ok Y ∧ Y.shape = shape ∧
      ∀ i, InB shape i → Y.at_ i = ∑ r ∈ Finset.range R, khatriEntry r A i := by
  obtain ⟨k, Y, h1, h2, h3, h4⟩ := Props.C23_extract_entry .tf .float32 A none R
    (hA.factors hne h25) trivial rfl
  refine ⟨Y, by unfold NCP.fullOf; rw [h1, ok_bind, h2], by rw [h3, hA.rowDims], fun i hi => ?_⟩
  rw [h4 i (by rw [hA.rowDims]; exact hi)]
  refine Finset.sum_congr rfl fun r _ => ?_
  rw [Spec.weight, one_mul]

theorem NCP.main_inv {topSv : Tensor ℝ → Res ℝ} {X : Tensor ℝ} {st st' : State}
    {o : fact.Out (List (Tensor ℝ)) (Tensor ℝ) (Tensor ℝ) ℝ} (h : NCP.main topSv X st = .ok (st', o)) :
    ∃ s, (List.range X.order).foldlM (NCP.modeUpdate topSv X) st = .ok s ∧ st' = tUpdate s ∧ o.factors = s.A ∧
      o.aux = none ∧ NCP.fullOf s.A = .ok o.full ∧ cp.scalars X o.full = .ok (o.loss, o.obj, o.rel) := by
  unfold NCP.main at h
  cases h1 : (List.range X.order).foldlM (NCP.modeUpdate topSv X) st with
  | error e => rw [h1] at h; cases h
  | ok s =>
  rw [h1, ok_bind] at h
  cases h2 : NCP.fullOf s.A with
  | error e => rw [h2] at h; cases h
  | ok Y =>
  rw [h2, ok_bind] at h
  cases h3 : cp.scalars X Y with
  | error e => rw [h3] at h; cases h
  | ok p =>
  obtain ⟨l, obj, rel⟩ := p
  rw [h3, ok_bind] at h
  cases h
  exact ⟨s, rfl, rfl, rfl, rfl, h2, h3⟩

theorem FactorsOk.factorsFor {shape : List Nat} {R : Nat} {st : State}
    (h : FactorsOk (shape.map fun d => [d, R]) st) :
    FactorsFor shape R st.A ∧ FactorsFor shape R st.A0 ∧ FactorsFor shape R st.Am := ⟨h.A, h.A0, h.Am⟩

/-- What one run of the main fetch list does. -/
theorem NCP.main_ok {topSv : Tensor ℝ → Res ℝ} {X : Tensor ℝ} {R : Nat} {st st' : State}
    {o : fact.Out (List (Tensor ℝ)) (Tensor ℝ) (Tensor ℝ) ℝ} (hst : FactorsOk (X.shape.map fun d => [d, R]) st)
    (hne : X.shape ≠ []) (h25 : X.order ≤ 25) (h : NCP.main topSv X st = .ok (st', o)) :
    FactorsOk (X.shape.map fun d => [d, R]) st' ∧ (MomentumOk st → MomentumOk st' ∧ st.t ≤ st'.t) ∧
      st'.t0 = st.t0 ∧ st'.Am = st.Am ∧ st'.A0 = st.A0 ∧ o.factors = st'.A ∧
      o.full.shape = X.shape ∧ (∀ i, InB X.shape i → o.full.at_ i = ∑ r ∈ Finset.range R, khatriEntry r st'.A i) ∧
      Nonneg o.full ∧ distSqT X o.full = cpErr X R st'.A (fun _ => 1) ∧
      o.obj = cpErr X R st'.A (fun _ => 1) / 2 ∧ o.rel = Real.sqrt (cpErr X R st'.A (fun _ => 1)) / Real.sqrt (normSqT X) ∧
      0 < normSqT X := by
  obtain ⟨s, h1, rfl, h2, -, h3, h4⟩ := NCP.main_inv h
  obtain ⟨f1, f2, f3, f4, f5⟩ := NCP.sweep_inv hst h1
  obtain ⟨Y, y1, y2, y3⟩ := NCP.fullOf_spec f1.factorsFor.1 hne h25
  rw [h3] at y1; cases y1
  obtain ⟨s1, s2, s3⟩ := cp.scalars_ok y2 h4
  have hd : distSqT X o.full = cpErr X R s.A (fun _ => 1) := by
    unfold distSqT cpErr
    refine boxSum_congr fun i hi => ?_
    rw [y3 i hi]
    simp
  refine ⟨⟨f1.A, f1.A0, f1.Am, f1.nonneg, f1.nonneg0⟩, fun hm => ?_, f3, f4, f5, h2, y2, y3, ?_, hd, ?_, ?_, s3⟩
  · have hm' : MomentumOk s := ⟨by rw [f3]; exact hm.1, by rw [f2, f3]; exact hm.2⟩
    obtain ⟨a, b⟩ := hm'.tUpdate
    exact ⟨a, by rw [← f2]; exact b⟩
  · refine nonneg_of_at fun i hi => ?_
    rw [y2] at hi
    rw [y3 i hi]
    exact Finset.sum_nonneg fun r _ => nonneg_khatriEntry f1.nonneg r i
  · rw [s1, hd]; rfl
  · rw [s2, hd]; rfl

theorem NCP.op1_ok {sh : List (List Nat)} {N : Nat} {st st' : State} (hst : FactorsOk sh st) (hm : MomentumOk st)
    (h : NCP.op1 N st = .ok st') :
    FactorsOk sh st' ∧ MomentumOk st' ∧ st'.A = st.A ∧ st'.t = st.t ∧ st'.t0 = st.t ∧
      ∀ k < N, 0 ≤ st'.wA k ∧ st'.wA k < 1 ∧ st'.wA k ≤ (st.t0 - 1) / st.t ∧ ∃ a a0 m, st.A[k]? = some a ∧ st.A0[k]? = some a0 ∧ st'.Am[k]? = some m ∧
        st'.A0[k]? = some a ∧ m.shape = a.shape ∧
        ∀ i, InB a.shape i → m.at_ i = a.at_ i + st'.wA k * (a.at_ i - a0.at_ i) := by
  obtain ⟨w, hw, hwe, w0, w1⟩ := weight_ok hm
  unfold NCP.op1 at h
  rw [hw, ok_bind] at h
  cases h1 : (List.range N).foldlM (extrapolateMode w) st with
  | error e => rw [h1] at h; cases h
  | ok s =>
      rw [h1, ok_bind] at h
      cases h
      obtain ⟨a1, a2, a3, a4, -, -, -, a5⟩ := extrapolateAll w0 w1 List.nodup_range hst h1
      refine ⟨⟨a1.A, a1.A0, a1.Am, a1.nonneg, a1.nonneg0⟩, ⟨?_, Or.inl rfl⟩, a2, a3, a3, fun k hk => ?_⟩
      · show 1 ≤ s.t
        rw [a3]; linarith [hm.1, hm.le]
      · rw [← hwe]; exact a5 k (List.mem_range.2 hk)

theorem NCP.op2_ok {sh : List (List Nat)} {st st' : State} (hst : FactorsOk sh st) (hm : MomentumOk st)
    (h : NCP.op2 st = .ok st') : FactorsOk sh st' ∧ MomentumOk st' ∧ st'.t = st.t := by
  cases h
  exact ⟨⟨hst.A, hst.A0, hst.A0, hst.nonneg, hst.nonneg0⟩, hm, rfl⟩

/-- A sweep from a state with `Am = A` does not increase the error. -/
theorem NCP.sweep_descends {topSv : Tensor ℝ → Res ℝ} (ht : TopSvOk topSv) {X : Tensor ℝ} {R : Nat}
    (h2 : 2 ≤ X.order) (h25 : X.order ≤ 25) (hR : 0 < R) (hpos : ∀ d ∈ X.shape, 0 < d) :
    ∀ {l : List Nat} {st st' : State}, l.Nodup → (∀ n ∈ l, n < X.order) → FactorsOk (X.shape.map fun d => [d, R]) st →
      (∀ n ∈ l, st.Am[n]? = st.A[n]?) → l.foldlM (NCP.modeUpdate topSv X) st = .ok st' →
      cpErr X R st'.A (fun _ => 1) ≤ cpErr X R st.A fun _ => 1 := by
  intro l
  induction l with
  | nil => intro st st' _ _ _ _ h; cases h; exact le_refl _
  | cons n l ih =>
      intro st st' hnd hl hst heq h
      rw [List.foldlM_cons] at h
      cases e : NCP.modeUpdate topSv X st n with
      | error e' => rw [e] at h; cases h
      | ok s1 =>
          rw [e, ok_bind] at h
          obtain ⟨hkl, hnd'⟩ := List.nodup_cons.1 hnd
          have hn := hl n (by simp)
          have hA := hst.factorsFor.1
          have hn' : n < st.A.length := by rw [hA.length]; exact hn
          have hget : st.A[n]? = some st.A[n] := List.getElem?_eq_getElem hn'
          have hm : st.Am[n]? = some st.A[n] := by rw [heq n (by simp), hget]
          obtain ⟨Z, z1, z2, z3, z4, z5⟩ := NCP.three_point ht hA h2 h25 hn hR (cp.getD_pos hpos hn) hm (hA.get hget) e
          have hd := z5 st.A[n] (hA.get hget) (hst.nonneg _ (List.getElem_mem hn'))
          rw [List.set_getElem_self, ← z3] at hd
          have h0 : distSqT st.A[n] st.A[n] = 0 := by
            unfold distSqT
            rw [boxSum_congr (g := fun _ => (0 : ℝ)) (fun i _ => by ring), boxSum_zero]
          have h3 := mul_nonneg z4.le (distSqT_nonneg st.A[n] Z)
          obtain ⟨V, XA, hf⟩ := NCP.modeUpdate_inv e
          obtain ⟨-, -, q1, -⟩ := factorStep_momentum hf
          refine le_trans (ih hnd' (fun k hk => hl k (by simp [hk])) (hst.factorStep hf) (fun k hk => ?_) h) ?_
          · have hne : n ≠ k := by rintro rfl; exact hkl hk
            rw [q1, z3, List.getElem?_set_ne hne]
            exact heq k (by simp [hk])
          · rw [h0] at hd; linarith

theorem NCP.main_descends {topSv : Tensor ℝ → Res ℝ} (ht : TopSvOk topSv) {X : Tensor ℝ} {R : Nat} {st st' : State}
    {o : fact.Out (List (Tensor ℝ)) (Tensor ℝ) (Tensor ℝ) ℝ}
    (h2 : 2 ≤ X.order) (h25 : X.order ≤ 25) (hR : 0 < R) (hpos : ∀ d ∈ X.shape, 0 < d)
    (hst : FactorsOk (X.shape.map fun d => [d, R]) st) (hAm : st.Am = st.A)
    (h : NCP.main topSv X st = .ok (st', o)) :
    cpErr X R st'.A (fun _ => 1) ≤ cpErr X R st.A fun _ => 1 := by
  obtain ⟨s, h1, rfl, -, -, -, -⟩ := NCP.main_inv h
  exact NCP.sweep_descends (st' := s) ht h2 h25 hR hpos List.nodup_range
    (fun n hn => List.mem_range.1 hn) hst (fun n _ => by rw [hAm]) h1

theorem cpErr_eq_zero {X : Tensor ℝ} {R : Nat} {A : List (Tensor ℝ)} (h : cpErr X R A (fun _ => 1) = 0) {i : List Nat}
    (hi : InB X.shape i) : X.at_ i = ∑ r ∈ Finset.range R, khatriEntry r A i := by
  have := (loss.boxSum_eq_zero X.shape (fun i _ => sq_nonneg
    (X.at_ i - ∑ r ∈ Finset.range R, (1 : ℝ) * khatriEntry r A i))).1 h i hi
  have h2 := pow_eq_zero_iff (by norm_num) |>.1 this
  simp only [one_mul] at h2
  linarith

/-- From an exact fit of a nonzero tensor the sweep is defined. -/
theorem NCP.sweep_exact {topSv : Tensor ℝ → Res ℝ} (ht : TopSvOk topSv) {X : Tensor ℝ} {R : Nat}
    (h2 : 2 ≤ X.order) (h25 : X.order ≤ 25) (hR : 0 < R) (hpos : ∀ d ∈ X.shape, 0 < d)
    (hX : ∃ i, InB X.shape i ∧ X.at_ i ≠ 0) :
    ∀ {l : List Nat} {st : State}, l.Nodup → (∀ n ∈ l, n < X.order) → FactorsOk (X.shape.map fun d => [d, R]) st →
      (∀ n ∈ l, st.Am[n]? = st.A[n]?) → cpErr X R st.A (fun _ => 1) = 0 →
      ∃ st', l.foldlM (NCP.modeUpdate topSv X) st = .ok st' ∧ cpErr X R st'.A (fun _ => 1) = 0 := by
  intro l
  induction l with
  | nil => intro st _ _ _ _ h; exact ⟨st, rfl, h⟩
  | cons n l ih =>
      intro st hnd hl hst heq h0
      obtain ⟨hkl, hnd'⟩ := List.nodup_cons.1 hnd
      have hn := hl n (by simp)
      obtain ⟨hA, -, hAm⟩ := hst.factorsFor
      obtain ⟨i, hi, hne⟩ := hX
      rw [cpErr_eq_zero h0 hi] at hne
      obtain ⟨r, hr, hne⟩ := Finset.exists_ne_zero_of_sum_ne_zero hne
      have hall := khatriEntry_ne_zero.1 ⟨i, by rw [hA.rowDims]; exact hi, hne⟩
      obtain ⟨s1, e⟩ := (NCP.modeUpdate_defined ht hA hAm h2 h25 hn hR (cp.getD_pos hpos hn)).2
        ⟨r, Finset.mem_range.1 hr, fun M hM => hall M (List.mem_of_mem_eraseIdx hM)⟩
      have hd := NCP.sweep_descends ht h2 h25 hR hpos (l := [n]) (st := st) (st' := s1) (by simp)
        (by simpa using hn) hst (by simpa using heq n (by simp)) (by rw [List.foldlM_cons, e, ok_bind]; rfl)
      rw [h0] at hd
      have h1 : cpErr X R s1.A (fun _ => 1) = 0 :=
        le_antisymm hd (loss.boxSum_nonneg _ fun _ _ => sq_nonneg _)
      obtain ⟨V, XA, hf⟩ := NCP.modeUpdate_inv e
      obtain ⟨l', Z, -, -, -, -, -, hs1⟩ := factorStep_inv hf
      obtain ⟨-, -, q1, -⟩ := factorStep_momentum hf
      obtain ⟨st', e', h'⟩ := ih hnd' (fun k hk => hl k (by simp [hk])) (hst.factorStep hf) (fun k hk => by
        have hnek : n ≠ k := by rintro rfl; exact hkl hk
        rw [q1, hs1]
        simp only
        rw [List.getElem?_set_ne hnek]
        exact heq k (by simp [hk])) h1
      exact ⟨st', by rw [List.foldlM_cons, e, ok_bind, e'], h'⟩

/-- From an exact fit of a nonzero tensor the main run returns residual 0. -/
theorem NCP.main_exact {topSv : Tensor ℝ → Res ℝ} (ht : TopSvOk topSv) {X : Tensor ℝ} {R : Nat}
    (h2 : 2 ≤ X.order) (h25 : X.order ≤ 25) (hR : 0 < R) (hpos : ∀ d ∈ X.shape, 0 < d)
    (hX : ∃ i, InB X.shape i ∧ X.at_ i ≠ 0) {st : State} (hst : FactorsOk (X.shape.map fun d => [d, R]) st)
    (heq : st.Am = st.A) (h0 : cpErr X R st.A (fun _ => 1) = 0) :
    ∃ st' o, NCP.main topSv X st = .ok (st', o) ∧ o.rel = 0 := by
  have hne : X.shape ≠ [] := by intro e; unfold order at h2; rw [e] at h2; simp at h2
  obtain ⟨s, e, h⟩ := NCP.sweep_exact ht h2 h25 hR hpos hX List.nodup_range (fun n hn => List.mem_range.1 hn) hst
    (fun n _ => by rw [heq]) h0
  obtain ⟨f1, -⟩ := NCP.sweep_inv hst e
  obtain ⟨Y, y1, y2, -⟩ := NCP.fullOf_spec f1.factorsFor.1 hne h25
  obtain ⟨⟨l, obj, rel⟩, q⟩ := cp.scalars_total y2 hX
  have hm : NCP.main topSv X st = .ok (tUpdate s, ⟨s.A, none, Y, l, obj, rel⟩) := by
    unfold NCP.main
    rw [e, ok_bind, y1, ok_bind, q, ok_bind]; rfl
  refine ⟨_, _, hm, ?_⟩
  obtain ⟨-, -, -, -, -, -, -, -, -, -, -, e12, -⟩ := NCP.main_ok hst hne h25 hm
  rw [e12]
  rw [show (tUpdate s).A = s.A from rfl, h]
  simp

end TD.bcu
