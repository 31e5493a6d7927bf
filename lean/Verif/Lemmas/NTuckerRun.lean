import Verif.Lemmas.NTuckerCore

/-! # Runs of `NTUCKER_BCU` -/
namespace TD.bcu
open TD Spec Tensor tf ops Matrix

theorem NTUCKER.modeUpdate_inv {topSv : Tensor ℝ → Res ℝ} {X g : Tensor ℝ} {st st' : State} {n : Nat}
    (h : NTUCKER.modeUpdate topSv X g st n = .ok st') : ∃ V XA, factorStep topSv st n V XA = .ok st' := by
  unfold NTUCKER.modeUpdate at h
  cases h1 : unfold X n with
  | error e => rw [h1] at h; cases h
  | ok M =>
  rw [h1, ok_bind] at h
  cases h2 : ttm g st.A none false (.int n) with
  | error e => rw [h2] at h; cases h
  | ok Y =>
  rw [h2, ok_bind] at h
  cases h3 : unfold Y n with
  | error e => rw [h3] at h; cases h
  | ok B =>
  rw [h3, ok_bind] at h
  cases h4 : matmul M B false true with
  | error e => rw [h4] at h; cases h
  | ok XA =>
  rw [h4, ok_bind] at h
  cases h5 : matmul B B false true with
  | error e => rw [h5] at h; cases h
  | ok V =>
  rw [h5, ok_bind] at h
  exact ⟨V, XA, h⟩

theorem NTUCKER.sweep_inv {topSv : Tensor ℝ → Res ℝ} {X g : Tensor ℝ} {sh : List (List Nat)} {l : List Nat} {st st' : State}
    (hst : FactorsOk sh st) (h : l.foldlM (NTUCKER.modeUpdate topSv X g) st = .ok st') :
    FactorsOk sh st' ∧ st'.t = st.t ∧ st'.t0 = st.t0 ∧ st'.Am = st.Am ∧ st'.A0 = st.A0 := by
  refine foldlM_inv (P := fun s => FactorsOk sh s ∧ s.t = st.t ∧ s.t0 = st.t0 ∧ s.Am = st.Am ∧ s.A0 = st.A0)
    (Q := fun _ => True) ?_ (fun _ _ => trivial) ⟨hst, rfl, rfl, rfl, rfl⟩ h
  intro s b s' hs _ hf
  obtain ⟨V, XA, hf⟩ := NTUCKER.modeUpdate_inv hf
  obtain ⟨a, b, c, d⟩ := factorStep_momentum hf
  exact ⟨hs.1.factorStep hf, a.trans hs.2.1, b.trans hs.2.2.1, c.trans hs.2.2.2.1, d.trans hs.2.2.2.2⟩

theorem assignCore_inv {old v r : Tensor ℝ} (h : assignCore old v = .ok r) : r = v ∧ v.shape = old.shape := by
  unfold assignCore at h
  by_cases e : v.shape = old.shape
  · rw [if_pos e] at h; cases h; exact ⟨rfl, e⟩
  · rw [if_neg e] at h; cases h

/-- What a core run does to the variables. -/
theorem NTUCKER.core_inv {topSv : Tensor ℝ → Res ℝ} {X k : Tensor ℝ} {st st' : TState}
    (h : NTUCKER.core topSv X st = .ok (st', k)) :
    ∃ l, k.shape = st.g.shape ∧ Nonneg k ∧ st' = { st with
        g := k
        L0 := Function.update st.L0 X.order (st.L X.order)
        L := Function.update st.L X.order l } := by
  unfold NTUCKER.core at h
  cases h1 : st.A.mapM (fun a => tf.matmul a a true false) with
  | error e => rw [h1] at h; cases h
  | ok AtA =>
  rw [h1, ok_bind] at h
  cases h2 : ops.maxSingleValueMul topSv AtA with
  | error e => rw [h2] at h; cases h
  | ok l =>
  rw [h2, ok_bind] at h
  cases h3 : ops.ttm st.gm AtA with
  | error e => rw [h3] at h; cases h
  | ok B =>
  rw [h3, ok_bind] at h
  cases h4 : assignCore st.g B with
  | error e => rw [h4] at h; cases h
  | ok B' =>
  rw [h4, ok_bind] at h
  cases h5 : ops.ttm X st.A none true with
  | error e => rw [h5] at h; cases h
  | ok XA =>
  rw [h5, ok_bind] at h
  cases h6 : tf.ewise (· - ·) B' XA with
  | error e => rw [h6] at h; cases h
  | ok G =>
  rw [h6, ok_bind] at h
  cases h7 : assignCore st.g G with
  | error e => rw [h7] at h; cases h
  | ok G' =>
  rw [h7, ok_bind] at h
  cases h8 : proxStep st.gm G' l with
  | error e => rw [h8] at h; cases h
  | ok v =>
  rw [h8, ok_bind] at h
  cases h9 : assignCore st.g v with
  | error e => rw [h9] at h; cases h
  | ok g =>
  rw [h9, ok_bind] at h
  cases h
  obtain ⟨rfl, e⟩ := assignCore_inv h9
  exact ⟨l, e, (proxStep_inv h8).2, rfl⟩

theorem NTUCKER.core_ok {topSv : Tensor ℝ → Res ℝ} {X k : Tensor ℝ} {shape ranks : List Nat} {st st' : TState}
    (hst : TkOk shape ranks st) (h : NTUCKER.core topSv X st = .ok (st', k)) :
    TkOk shape ranks st' ∧ (MomentumOk st.toState → MomentumOk st'.toState) ∧ st'.t = st.t ∧ st'.t0 = st.t0 ∧
      st'.A = st.A ∧ st'.Am = st.Am ∧ st'.gm = st.gm ∧ st'.g = k ∧ Nonneg k ∧ k.shape = ranks := by
  obtain ⟨l, e, hn, rfl⟩ := NTUCKER.core_inv h
  have hk : k.shape = ranks := by rw [e, hst.g]
  exact ⟨⟨⟨hst.factors.A, hst.factors.A0, hst.factors.Am, hst.factors.nonneg, hst.factors.nonneg0⟩, hk, hst.g0, hst.gm,
    hn, hst.nonneg0⟩, fun h => h, rfl, rfl, rfl, rfl, rfl, rfl, hn, hk⟩

theorem NTUCKER.main_inv {topSv : Tensor ℝ → Res ℝ} {X : Tensor ℝ} {st st' : TState}
    {o : fact.Out (List (Tensor ℝ)) (Tensor ℝ) (Tensor ℝ) ℝ} (h : NTUCKER.main topSv X st = .ok (st', o)) :
    ∃ s, (List.range X.order).foldlM (NTUCKER.modeUpdate topSv X st.g) st.toState = .ok s ∧
      st' = { st with toState := tUpdate s } ∧ o.factors = s.A ∧
      o.aux = none ∧ NTUCKER.fullOf st.g s.A = .ok o.full ∧ cp.scalars X o.full = .ok (o.loss, o.obj, o.rel) := by
  unfold NTUCKER.main at h
  cases h1 : (List.range X.order).foldlM (NTUCKER.modeUpdate topSv X st.g) st.toState with
  | error e => rw [h1] at h; cases h
  | ok s =>
  rw [h1, ok_bind] at h
  cases h2 : NTUCKER.fullOf st.g s.A with
  | error e => rw [h2] at h; cases h
  | ok Y =>
  rw [h2, ok_bind] at h
  cases h3 : cp.scalars X Y with
  | error e => rw [h3] at h; cases h
  | ok p =>
  obtain ⟨l, obj, rel⟩ := p
  rw [h3, ok_bind] at h
  cases h
  exact ⟨s, rfl, rfl, rfl, rfl, h2, h3⟩

/-- What one run of the main fetch list does. -/
theorem NTUCKER.main_ok {topSv : Tensor ℝ → Res ℝ} {X : Tensor ℝ} {ranks : List Nat} {st st' : TState}
    {o : fact.Out (List (Tensor ℝ)) (Tensor ℝ) (Tensor ℝ) ℝ} (hst : TkOk X.shape ranks st)
    (hr : ranks.length = X.shape.length) (h1 : 1 ≤ X.order) (h13 : X.order ≤ 13)
    (h : NTUCKER.main topSv X st = .ok (st', o)) :
    TkOk X.shape ranks st' ∧ (MomentumOk st.toState → MomentumOk st'.toState ∧ st.t ≤ st'.t) ∧
      st'.t0 = st.t0 ∧ st'.Am = st.Am ∧ st'.A0 = st.A0 ∧ st'.g = st.g ∧ st'.gm = st.gm ∧ o.factors = st'.A ∧ o.aux = none ∧
      o.full.shape = X.shape ∧
      (∀ i, InB X.shape i → o.full.at_ i = boxSum st'.g.shape fun j => st'.g.at_ j * kronEntry st'.A i j) ∧
      Nonneg o.full ∧ distSqT X o.full = tkErr X st'.g st'.A ∧
      o.obj = tkErr X st'.g st'.A / 2 ∧ o.rel = Real.sqrt (tkErr X st'.g st'.A) / Real.sqrt (normSqT X) ∧
      0 < normSqT X := by
  obtain ⟨s, e1, rfl, e2, e5, e3, e4⟩ := NTUCKER.main_inv h
  obtain ⟨f1, f2, f3, f4, f5⟩ := NTUCKER.sweep_inv hst.factors e1
  obtain ⟨y2, hd, y3⟩ := tkErr_eq h1 h13 (tuckerShapes_iff.1 f1.A) hr hst.g e3
  obtain ⟨s1, s2, s3⟩ := cp.scalars_ok y2 e4
  refine ⟨⟨⟨f1.A, f1.A0, f1.Am, f1.nonneg, f1.nonneg0⟩, hst.g, hst.g0, hst.gm, hst.nonneg, hst.nonneg0⟩, fun hm => ?_,
    f3, f4, f5, rfl, rfl, e2, e5, y2, y3, ?_, hd, ?_, ?_, s3⟩
  · have hm' : MomentumOk s := ⟨by rw [f3]; exact hm.1, by rw [f2, f3]; exact hm.2⟩
    obtain ⟨a, b⟩ := hm'.tUpdate
    exact ⟨a, by rw [← f2]; exact b⟩
  · refine nonneg_of_at fun i hi => ?_
    rw [y2] at hi
    rw [y3 i hi]
    exact loss.boxSum_nonneg _ fun j _ => mul_nonneg (hst.nonneg.at _) (nonneg_kronEntry f1.nonneg i j)
  · rw [s1, hd]; rfl
  · rw [s2, hd]; rfl

theorem NTUCKER.op1_ok {shape ranks : List Nat} {N : Nat} {st st' : TState} (hst : TkOk shape ranks st)
    (hm : MomentumOk st.toState) (h : NTUCKER.op1 N st = .ok st') :
    TkOk shape ranks st' ∧ MomentumOk st'.toState ∧ st'.A = st.A ∧ st'.t = st.t ∧ st'.t0 = st.t ∧ st'.g = st.g ∧
      st'.g0 = st.g ∧
      (∀ k < N, 0 ≤ st'.wA k ∧ st'.wA k < 1 ∧ st'.wA k ≤ (st.t0 - 1) / st.t ∧ ∃ a a0 m, st.A[k]? = some a ∧ st.A0[k]? = some a0 ∧ st'.Am[k]? = some m ∧
        st'.A0[k]? = some a ∧ m.shape = a.shape ∧
        ∀ i, InB a.shape i → m.at_ i = a.at_ i + st'.wA k * (a.at_ i - a0.at_ i)) ∧
      0 ≤ st'.wA N ∧ st'.wA N < 1 ∧ st'.wA N ≤ (st.t0 - 1) / st.t ∧
      ∀ i, InB st.g.shape i → st'.gm.at_ i = st.g.at_ i + st'.wA N * (st.g.at_ i - st.g0.at_ i) := by
  obtain ⟨w, hw, hwe, w0, w1⟩ := weight_ok hm
  unfold NTUCKER.op1 at h
  rw [hw, ok_bind] at h
  cases h1 : (List.range N).foldlM (extrapolateMode w) st.toState with
  | error e => rw [h1] at h; cases h
  | ok s =>
      rw [h1, ok_bind] at h
      obtain ⟨a1, a2, a3, a4, -, -, -, a5⟩ := extrapolateAll w0 w1 List.nodup_range hst.factors h1
      cases h2 : cappedWeight s w N with
      | error e => rw [h2] at h; cases h
      | ok wk =>
      rw [h2, ok_bind] at h
      cases h3 : extrapolate wk st.g st.g0 with
      | error e => rw [h3] at h; cases h
      | ok m =>
      rw [h3, ok_bind] at h
      cases h4 : assignCore st.gm m with
      | error e => rw [h4] at h; cases h
      | ok gm =>
      rw [h4, ok_bind] at h
      cases h
      obtain ⟨rfl, e5⟩ := assignCore_inv h4
      obtain ⟨c0, c1, c2⟩ := cappedWeight_inv h2 w0 w1
      obtain ⟨m1, m2⟩ := extrapolate_inv (by rw [hst.g, hst.g0]) h3
      refine ⟨⟨⟨a1.A, a1.A0, a1.Am, a1.nonneg, a1.nonneg0⟩, hst.g, hst.g, by rw [m1, hst.g], hst.nonneg, hst.nonneg⟩,
        ⟨?_, Or.inl rfl⟩, a2, a3, a3, rfl, rfl, fun k hk => ?_, ?_⟩
      · show 1 ≤ s.t
        rw [a3]; linarith [hm.1, hm.le]
      · have := a5 k (List.mem_range.2 hk)
        simp only [Function.update_of_ne (Nat.ne_of_lt hk)]
        rw [← hwe]; exact this
      · simp only [Function.update_self]
        exact ⟨c0, c1, by rw [← hwe]; exact c2, m2⟩

theorem NTUCKER.op2_ok {shape ranks : List Nat} {st st' : TState} (hst : TkOk shape ranks st) (hm : MomentumOk st.toState)
    (h : NTUCKER.op2 st = .ok st') : TkOk shape ranks st' ∧ MomentumOk st'.toState ∧ st'.t = st.t := by
  cases h
  exact ⟨⟨⟨hst.factors.A, hst.factors.A0, hst.factors.A0, hst.factors.nonneg, hst.factors.nonneg0⟩, hst.g, hst.g0, hst.g0,
    hst.nonneg, hst.nonneg0⟩, hm, rfl⟩

theorem NTUCKER.init_inv {X gdraw : Tensor ℝ} {draws : List (Tensor ℝ)} {st : TState}
    (h : NTUCKER.init X draws gdraw = .ok st) {shape ranks : List Nat} (hd : draws.map Tensor.shape = tuckerShapes shape ranks)
    (hg : gdraw.shape = ranks) :
    TkOk shape ranks st ∧ MomentumOk st.toState ∧ st.Am = st.A ∧ st.A0 = st.A ∧ st.gm = st.g ∧ st.g0 = st.g ∧ st.t0 = 1 := by
  unfold NTUCKER.init at h
  cases h1 : bcu.init X (X.order + 1) draws with
  | error e => rw [h1] at h; cases h
  | ok s =>
  rw [h1, ok_bind] at h
  cases h2 : normInit X (X.order + 1) (relu gdraw) with
  | error e => rw [h2] at h; cases h
  | ok g =>
  rw [h2, ok_bind] at h
  cases h
  obtain ⟨a, b, c, d⟩ := bcu.init_inv h1
  obtain ⟨e, f⟩ := normInit_inv h2
  have hgs : g.shape = ranks := by rw [e]; exact hg
  have hgn := f (relu_nonneg _)
  rw [hd] at a
  refine ⟨⟨a, hgs, hgs, hgs, hgn, hgn⟩, b, c, d, rfl, rfl, ?_⟩
  unfold bcu.init at h1
  cases h3 : draws.mapM (fun d => normInit X (X.order + 1) (relu d)) with
  | error e => rw [h3] at h1; cases h1
  | ok A => rw [h3, ok_bind] at h1; cases h1; rfl

theorem distSqT_self (t : Tensor ℝ) : distSqT t t = 0 := by
  unfold distSqT
  rw [boxSum_congr (g := fun _ => (0 : ℝ)) (fun i _ => by ring), boxSum_zero]

/-- A mode update never raises; when it divides by zero the factor of that mode is irrelevant. -/
theorem NTUCKER.modeUpdate_total {topSv : Tensor ℝ → Res ℝ} (ht : TopSvOk topSv) {X g : Tensor ℝ} {ranks : List Nat} {n : Nat}
    {st : State} (hA : TuckerShapes X.shape ranks st.A) (hAm : TuckerShapes X.shape ranks st.Am)
    (hr : ranks.length = X.shape.length)
    (hg : g.shape = ranks) (h2 : 2 ≤ X.order) (h13 : X.order ≤ 13) (hn : n < X.order)
    (hpos : 0 < X.shape.getD n 0) (hrp : 0 < ranks.getD n 0) :
    (∃ st', NTUCKER.modeUpdate topSv X g st n = .ok st') ∨
    NTUCKER.modeUpdate topSv X g st n = .error .nonFinite ∧
      ∀ B, B.shape = [X.shape.getD n 0, ranks.getD n 0] → tkErr X g (st.A.set n B) = normSqT X := by
  obtain ⟨K, V, XA, hV, hXA, hVm, hXAm, herr, he⟩ := NTUCKER.reduce topSv hA hr hg h2 h13 hn hpos hrp (st := st)
  have hn' : n < st.A.length := by rw [hA.1]; exact hn
  have hget : st.A[n]? = some st.A[n] := List.getElem?_eq_getElem hn'
  have hnm : n < st.Am.length := by rw [hAm.1]; exact hn
  have hgm : st.Am[n]? = some st.Am[n] := List.getElem?_eq_getElem hnm
  obtain ⟨l, hl, hsv⟩ := ht V _ _ hV hrp hrp
  obtain ⟨e0, e1⟩ := factorStep_eq hV hXA hgm (hAm.2 n _ hgm) hget (hA.2 n _ hget) hl
  rw [he]
  by_cases h0 : l = 0
  · right
    refine ⟨e0 h0, fun B hB => ?_⟩
    rw [hVm] at hsv
    have hK := hsv.gram_eq_zero.1 h0
    rw [herr B hB, hK, transpose_zero, Matrix.mul_zero, sub_zero, normSqT, boxSum_sq_unfold hn]
    rfl
  · obtain ⟨Z, -, -, -, hf⟩ := e1 h0
    exact Or.inl ⟨_, hf⟩

/-- A sweep from a state with `Am = A` does not increase the error. -/
theorem NTUCKER.sweep_descends {topSv : Tensor ℝ → Res ℝ} (ht : TopSvOk topSv) {X g : Tensor ℝ} {ranks : List Nat}
    (hr : ranks.length = X.shape.length) (hg : g.shape = ranks)
    (h2 : 2 ≤ X.order) (h13 : X.order ≤ 13) (hrp : ∀ d ∈ ranks, 0 < d) (hpos : ∀ d ∈ X.shape, 0 < d) :
    ∀ {l : List Nat} {st st' : State}, l.Nodup → (∀ n ∈ l, n < X.order) → FactorsOk (tuckerShapes X.shape ranks) st →
      (∀ n ∈ l, st.Am[n]? = st.A[n]?) → l.foldlM (NTUCKER.modeUpdate topSv X g) st = .ok st' →
      tkErr X g st'.A ≤ tkErr X g st.A := by
  intro l
  induction l with
  | nil => intro st st' _ _ _ _ h; cases h; exact le_refl _
  | cons n l ih =>
      intro st st' hnd hl hst heq h
      rw [List.foldlM_cons] at h
      cases e : NTUCKER.modeUpdate topSv X g st n with
      | error e' => rw [e] at h; cases h
      | ok s1 =>
          rw [e, ok_bind] at h
          obtain ⟨hkl, hnd'⟩ := List.nodup_cons.1 hnd
          have hn := hl n (by simp)
          have hA := tuckerShapes_iff.1 hst.A
          have hn' : n < st.A.length := by rw [hA.1]; exact hn
          have hget : st.A[n]? = some st.A[n] := List.getElem?_eq_getElem hn'
          have hm : st.Am[n]? = some st.A[n] := by rw [heq n (by simp), hget]
          obtain ⟨Z, z1, z2, z3, z4, z5⟩ := NTUCKER.three_point ht hA hr hg h2 h13 hn (cp.getD_pos hpos hn)
            (cp.getD_pos hrp (by rw [hr]; exact hn)) hm (hA.2 n _ hget) e
          have hd := z5 st.A[n] (hA.2 n _ hget) (hst.nonneg _ (List.getElem_mem hn'))
          rw [List.set_getElem_self, ← z3, distSqT_self] at hd
          have h3 := mul_nonneg z4.le (distSqT_nonneg st.A[n] Z)
          obtain ⟨V, XA, hf⟩ := NTUCKER.modeUpdate_inv e
          obtain ⟨-, -, q1, -⟩ := factorStep_momentum hf
          refine le_trans (ih hnd' (fun k hk => hl k (by simp [hk])) (hst.factorStep hf) (fun k hk => ?_) h) ?_
          · have hne : n ≠ k := by rintro rfl; exact hkl hk
            rw [q1, z3, List.getElem?_set_ne hne]
            exact heq k (by simp [hk])
          · linarith

/-- From an exact fit of a nonzero tensor the sweep is defined. -/
theorem NTUCKER.sweep_exact {topSv : Tensor ℝ → Res ℝ} (ht : TopSvOk topSv) {X g : Tensor ℝ} {ranks : List Nat}
    (hr : ranks.length = X.shape.length) (hg : g.shape = ranks)
    (h2 : 2 ≤ X.order) (h13 : X.order ≤ 13) (hrp : ∀ d ∈ ranks, 0 < d) (hpos : ∀ d ∈ X.shape, 0 < d)
    (hX : 0 < normSqT X) :
    ∀ {l : List Nat} {st : State}, l.Nodup → (∀ n ∈ l, n < X.order) → FactorsOk (tuckerShapes X.shape ranks) st →
      (∀ n ∈ l, st.Am[n]? = st.A[n]?) → tkErr X g st.A = 0 →
      ∃ st', l.foldlM (NTUCKER.modeUpdate topSv X g) st = .ok st' ∧ tkErr X g st'.A = 0 := by
  intro l
  induction l with
  | nil => intro st _ _ _ _ h; exact ⟨st, rfl, h⟩
  | cons n l ih =>
      intro st hnd hl hst heq h0
      obtain ⟨hkl, hnd'⟩ := List.nodup_cons.1 hnd
      have hn := hl n (by simp)
      have hA := tuckerShapes_iff.1 hst.A
      have hAm := tuckerShapes_iff.1 hst.Am
      have hn' : n < st.A.length := by rw [hA.1]; exact hn
      have hget : st.A[n]? = some st.A[n] := List.getElem?_eq_getElem hn'
      rcases NTUCKER.modeUpdate_total ht hA hAm hr hg h2 h13 hn (cp.getD_pos hpos hn)
        (cp.getD_pos hrp (by rw [hr]; exact hn)) with ⟨s1, e⟩ | ⟨-, hz⟩
      · have hd := NTUCKER.sweep_descends ht hr hg h2 h13 hrp hpos (l := [n]) (st := st) (st' := s1) (by simp)
          (by simpa using hn) hst (by simpa using heq n (by simp)) (by rw [List.foldlM_cons, e, ok_bind]; rfl)
        rw [h0] at hd
        have h1 : tkErr X g s1.A = 0 := le_antisymm hd (loss.boxSum_nonneg _ fun _ _ => sq_nonneg _)
        obtain ⟨V, XA, hf⟩ := NTUCKER.modeUpdate_inv e
        obtain ⟨l', Z, -, -, -, -, -, hs1⟩ := factorStep_inv hf
        obtain ⟨-, -, q1, -⟩ := factorStep_momentum hf
        obtain ⟨st', e', h'⟩ := ih hnd' (fun k hk => hl k (by simp [hk])) (hst.factorStep hf) (fun k hk => by
          have hnek : n ≠ k := by rintro rfl; exact hkl hk
          rw [q1, hs1]
          simp only
          rw [List.getElem?_set_ne hnek]
          exact heq k (by simp [hk])) h1
        exact ⟨st', by rw [List.foldlM_cons, e, ok_bind, e'], h'⟩
      · have := hz st.A[n] (hA.2 n _ hget)
        rw [List.set_getElem_self, h0] at this
        linarith

/-- One step (core run and main run) from a state with `Am = A`, `gm = g` does not increase the error. -/
theorem NTUCKER.step_descends {topSv : Tensor ℝ → Res ℝ} (ht : TopSvOk topSv) {X k : Tensor ℝ} {ranks : List Nat}
    {st s st' : TState} {o : fact.Out (List (Tensor ℝ)) (Tensor ℝ) (Tensor ℝ) ℝ}
    (hr : ranks.length = X.shape.length) (h2 : 2 ≤ X.order) (h13 : X.order ≤ 13) (hrp : ∀ d ∈ ranks, 0 < d)
    (hpos : ∀ d ∈ X.shape, 0 < d) (hst : TkOk X.shape ranks st) (hAm : st.Am = st.A) (hgm : st.gm = st.g)
    (hc : NTUCKER.core topSv X st = .ok (s, k)) (h : NTUCKER.main topSv X s = .ok (st', o)) :
    tkErr X k st.A ≤ tkErr X st.g st.A ∧ tkErr X st'.g st'.A ≤ tkErr X k st.A := by
  obtain ⟨c1, -, -, -, c2, c3, -, c4, c5, c6⟩ := NTUCKER.core_ok hst hc
  constructor
  · rcases NTUCKER.core_spec ht hst hr (by omega) h13 hrp with ⟨e, -⟩ | ⟨-, Z, l, e, l0, z1, z2, z3⟩
    · rw [e] at hc; cases hc
    · rw [e] at hc
      cases hc
      have := z3 st.g hst.g hst.nonneg
      rw [hgm, distSqT_self] at this
      have h3 := mul_nonneg l0.le (distSqT_nonneg st.g k)
      linarith
  · obtain ⟨s', h1, rfl, -, -, -, -⟩ := NTUCKER.main_inv h
    have := NTUCKER.sweep_descends (st' := s') ht hr c1.g h2 h13 hrp hpos List.nodup_range
      (fun n hn => List.mem_range.1 hn) c1.factors (fun n _ => by rw [c3, hAm, c2]) h1
    rw [c2, c4] at this
    rw [← c4] at this ⊢
    exact this

theorem kronEntry_ne_zero {U : List (Tensor ℝ)} : ∀ {i j : List Nat}, InB (rowDims U) i → InB (colDims U) j →
    kronEntry U i j ≠ 0 → ∀ M ∈ U, ∃ a < M.shape.getD 0 0, ∃ b < M.shape.getD 1 0, M.at_ [a, b] ≠ 0 := by
  induction U with
  | nil => intro _ _ _ _ _ M hM; cases hM
  | cons M U ih =>
      intro i j hi hj hne
      cases i with
      | nil => exact absurd hi.length (by simp [rowDims])
      | cons a i =>
          cases j with
          | nil => exact absurd hj.length (by simp [colDims])
          | cons b j =>
              obtain ⟨i1, i2⟩ : a < M.shape.getD 0 0 ∧ InB (rowDims U) i := (InB_cons _ _ _ _).1 hi
              obtain ⟨j1, j2⟩ : b < M.shape.getD 1 0 ∧ InB (colDims U) j := (InB_cons _ _ _ _).1 hj
              have hne' : M.at_ [a, b] * kronEntry U i j ≠ 0 := hne
              intro N hN
              rcases List.mem_cons.1 hN with rfl | hN
              · exact ⟨a, i1, b, j1, left_ne_zero_of_mul hne'⟩
              · exact ih i2 j2 (right_ne_zero_of_mul hne') N hN

/-- An exact fit of a nonzero tensor has no zero factor. -/
theorem tkErr_zero_factors {X g : Tensor ℝ} {ranks : List Nat} {A : List (Tensor ℝ)} (hr : ranks.length = X.shape.length)
    (hA : TuckerShapes X.shape ranks A) (hg : g.shape = ranks) (hX : ∃ i, InB X.shape i ∧ X.at_ i ≠ 0) (h0 : tkErr X g A = 0) :
    ∀ M ∈ A, ∃ a < M.shape.getD 0 0, ∃ b < M.shape.getD 1 0, M.at_ [a, b] ≠ 0 := by
  obtain ⟨i, hi, hne⟩ := hX
  have := (loss.boxSum_eq_zero X.shape (fun i _ => sq_nonneg
    (X.at_ i - boxSum g.shape fun j => g.at_ j * kronEntry A i j))).1 h0 i hi
  have h2 := sub_eq_zero.1 (pow_eq_zero_iff (by norm_num) |>.1 this)
  rw [h2, boxSum_eq_sum_range] at hne
  obtain ⟨k, hk, hne⟩ := Finset.exists_ne_zero_of_sum_ne_zero hne
  have hj := unravel_inB (Finset.mem_range.1 hk)
  exact kronEntry_ne_zero (by rw [hA.rowDims]; exact hi) (by rw [hA.colDims hr, ← hg]; exact hj)
    (right_ne_zero_of_mul hne)

/-- From an exact fit of a nonzero tensor the step is defined and returns residual 0. -/
theorem NTUCKER.step_exact {topSv : Tensor ℝ → Res ℝ} (ht : TopSvOk topSv) {X : Tensor ℝ} {ranks : List Nat}
    {st : TState} (hr : ranks.length = X.shape.length) (h2 : 2 ≤ X.order) (h13 : X.order ≤ 13) (hrp : ∀ d ∈ ranks, 0 < d)
    (hpos : ∀ d ∈ X.shape, 0 < d) (hX : ∃ i, InB X.shape i ∧ X.at_ i ≠ 0) (hst : TkOk X.shape ranks st)
    (hAm : st.Am = st.A) (hgm : st.gm = st.g) (h0 : tkErr X st.g st.A = 0) :
    ∃ s k st' o, NTUCKER.core topSv X st = .ok (s, k) ∧ NTUCKER.main topSv X s = .ok (st', o) ∧ o.rel = 0 := by
  rcases NTUCKER.core_spec ht hst hr (by omega) h13 hrp with ⟨-, M, hM, hz⟩ | ⟨-, Z, l, e, l0, z1, z2, z3⟩
  · obtain ⟨a, ha, b, hb, hne⟩ := tkErr_zero_factors hr hst.shapes hst.g hX h0 M hM
    exact absurd (hz a ha b hb) hne
  · obtain ⟨c1, -, -, -, c2, c3, -, c4, c5, c6⟩ := NTUCKER.core_ok hst e
    have hd := z3 st.g hst.g hst.nonneg
    rw [hgm, distSqT_self, h0] at hd
    have h3 := mul_nonneg l0.le (distSqT_nonneg st.g Z)
    have hZ0 : tkErr X Z st.A = 0 := le_antisymm (by linarith) (loss.boxSum_nonneg _ fun _ _ => sq_nonneg _)
    set s1 : TState := { st with
        g := Z, L0 := Function.update st.L0 X.order (st.L X.order), L := Function.update st.L X.order l } with hs1
    have hXn : 0 < normSqT X := by
      obtain ⟨i, hi, hne⟩ := hX
      refine lt_of_le_of_ne (loss.boxSum_nonneg _ fun _ _ => sq_nonneg _) fun hz => hne ?_
      have := (loss.boxSum_eq_zero X.shape (fun i _ => sq_nonneg (X.at_ i))).1 hz.symm i hi
      exact pow_eq_zero_iff (by norm_num) |>.1 this
    obtain ⟨s2, e2, f2⟩ := NTUCKER.sweep_exact ht hr c1.g h2 h13 hrp hpos hXn List.nodup_range
      (fun n hn => List.mem_range.1 hn) c1.factors (fun n _ => by rw [c3, hAm, c2]) (by rw [c2, c4]; exact hZ0)
    obtain ⟨f1, -⟩ := NTUCKER.sweep_inv c1.factors e2
    obtain ⟨y1, y2, -⟩ := tk_full (by unfold order at h2; omega) h13 (tuckerShapes_iff.1 f1.A) hr c1.g
    obtain ⟨⟨l, obj, rel⟩, q⟩ := cp.scalars_total y2 hX
    have hm : NTUCKER.main topSv X s1 = .ok ({ s1 with toState := tUpdate s2 }, ⟨s2.A, none,
        modeProds s1.g ((List.range X.shape.length).zip s2.A), l, obj, rel⟩) := by
      unfold NTUCKER.main
      rw [e2, ok_bind, y1, ok_bind, q, ok_bind]; rfl
    refine ⟨_, _, _, _, e, hm, ?_⟩
    obtain ⟨-, -, -, -, -, -, -, -, -, -, -, -, -, -, e15, -⟩ := NTUCKER.main_ok c1 hr (by omega) h13 hm
    rw [e15]
    have : tkErr X s1.g (tUpdate s2).A = 0 := f2
    rw [this]
    simp

end TD.bcu
