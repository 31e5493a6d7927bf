import Verif.Lemmas.NTuckerRun
import Verif.Lemmas.LowRank
import Verif.Spec.Fixed

/-!
# Lemmas on steps that change nothing
-/
namespace TD
open Spec Tensor tf ops Matrix

/-- A loop that writes each block once and ends where it began did not change anything on the way. -/
theorem fold_fixed {σ τ : Type} {f : σ → Nat → Res σ} {get : σ → List τ} {P : σ → Prop}
    (hset : ∀ {s k s'}, f s k = .ok s' → ∃ v, get s' = (get s).set k v)
    (hP : ∀ {s k s'}, P s → get s' = get s → f s k = .ok s' → P s') :
    ∀ {l : List Nat} {s s' : σ}, l.Nodup → (∀ k ∈ l, k < (get s).length) → P s → l.foldlM f s = .ok s' → get s' = get s →
      ∀ k ∈ l, ∃ a b, P a ∧ get a = get s ∧ f a k = .ok b ∧ get b = get s := by
  have hout : ∀ {l : List Nat} {s s' : σ} {k : Nat}, k ∉ l → l.foldlM f s = .ok s' → (get s')[k]? = (get s)[k]? := by
    intro l
    induction l with
    | nil => intro s s' k _ h; cases h; rfl
    | cons n l ih =>
        intro s s' k hk h
        rw [List.foldlM_cons] at h
        cases e : f s n with
        | error e' => rw [e] at h; cases h
        | ok s1 =>
            rw [e, ok_bind] at h
            simp only [List.mem_cons, not_or] at hk
            obtain ⟨v, hv⟩ := hset e
            rw [ih hk.2 h, hv, List.getElem?_set_ne (Ne.symm hk.1)]
  intro l
  induction l with
  | nil => intro s s' _ _ _ _ _ k hk; simp at hk
  | cons n l ih =>
      intro s s' hnd hl hs h hfix k hk
      rw [List.foldlM_cons] at h
      cases e : f s n with
      | error e' => rw [e] at h; cases h
      | ok s1 =>
          rw [e, ok_bind] at h
          obtain ⟨hnl, hnd'⟩ := List.nodup_cons.1 hnd
          obtain ⟨v, hv⟩ := hset e
          have h1 : get s1 = get s := by
            have := hout hnl h
            rw [hfix, hv, List.getElem?_set_self (hl n (by simp))] at this
            rw [hv]
            apply List.ext_getElem?
            intro j
            by_cases hj : n = j
            · subst hj; rw [List.getElem?_set_self (hl n (by simp)), this]
            · rw [List.getElem?_set_ne hj]
          rcases List.mem_cons.1 hk with rfl | hk
          · exact ⟨s, s1, hs, rfl, e, h1⟩
          · obtain ⟨a, b, p1, p2, p3, p4⟩ := ih hnd' (fun k hk => by rw [h1]; exact hl k (by simp [hk])) (hP hs h1 e) h
              (by rw [hfix, h1]) k hk
            exact ⟨a, b, p1, by rw [p2, h1], p3, by rw [p4, h1]⟩

/-! ### CP -/

theorem cp.sweep_fixed {pinv : Tensor ℝ → Res (Tensor ℝ)} {X : Tensor ℝ} {R : Nat} {A : List (Tensor ℝ)} {lam : Tensor ℝ}
    (hA : A.length = X.order) (h : cp.sweep pinv X R A = .ok (A, lam)) :
    ∀ n < X.order, ∃ u, cp.modeUpdate pinv X R A n = .ok u ∧ u.A = A := by
  intro n hn
  unfold cp.sweep at h
  cases hf : (List.range X.order).foldlM (fun (st : List (Tensor ℝ) × Option (Tensor ℝ)) mode => (do
        let u ← cp.modeUpdate pinv X R st.1 mode
        return (u.A, some u.lam) : Res _)) (A, none) with
  | error e => rw [hf] at h; cases h
  | ok st' =>
      rw [hf, ok_bind] at h
      have hst : st'.1 = A := by
        cases h2 : st'.2 with
        | none => rw [h2] at h; cases h
        | some l => rw [h2] at h; cases h; rfl
      obtain ⟨a, b, -, a1, a2, a3⟩ := fold_fixed (get := Prod.fst) (P := fun _ => True) (s := (A, none)) (s' := st') (by
          intro s k s' e
          cases hu : cp.modeUpdate pinv X R s.1 k with
          | error e' => rw [hu] at e; cases e
          | ok u =>
              rw [hu] at e
              cases e
              unfold cp.modeUpdate at hu
              cases h1 : ops.unfold X k with
              | error e => rw [h1] at hu; cases hu
              | ok M =>
              rw [h1, ok_bind] at hu
              cases h2 : s.1.mapM (fun a => tf.matmul a a true false) with
              | error e => rw [h2] at hu; cases hu
              | ok AtA =>
              rw [h2, ok_bind] at hu
              cases h3 : ops.khatri s.1 (.int k) true with
              | error e => rw [h3] at hu; cases hu
              | ok K =>
              rw [h3, ok_bind] at hu
              cases h4 : tf.matmul M K with
              | error e => rw [h4] at hu; cases hu
              | ok XA =>
              rw [h4, ok_bind] at hu
              cases h5 : ops.hadamard AtA (.int k) with
              | error e => rw [h5] at hu; cases hu
              | ok V =>
              rw [h5, ok_bind] at hu
              cases h6 : pinv V with
              | error e => rw [h6] at hu; cases hu
              | ok P =>
              rw [h6, ok_bind] at hu
              cases h7 : tf.matmul XA P with
              | error e => rw [h7] at hu; cases hu
              | ok N =>
              rw [h7, ok_bind] at hu
              cases h8 : tf.reshape N [(X.shape.getD k 0 : Nat), (R : Nat)] with
              | error e => rw [h8] at hu; cases hu
              | ok N' =>
              rw [h8, ok_bind] at hu
              cases h9 : tf.reduceMax0 N' with
              | error e => rw [h9] at hu; cases hu
              | ok lam =>
              rw [h9, ok_bind] at hu
              cases h10 : tf.div N lam with
              | error e => rw [h10] at hu; cases hu
              | ok A' =>
              rw [h10, ok_bind] at hu
              cases h11 : tf.assign s.1 k A' with
              | error e => rw [h11] at hu; cases hu
              | ok A'' =>
              rw [h11, ok_bind] at hu
              cases hu
              obtain ⟨old, -, -, e⟩ := assign_inv h11
              exact ⟨A', e.1⟩)
        (fun _ _ _ => trivial) List.nodup_range (fun k hk => by rw [hA]; exact List.mem_range.1 hk) trivial hf hst n
        (List.mem_range.2 hn)
      have a1 : a.1 = A := a1
      rw [a1] at a2
      cases hu : cp.modeUpdate pinv X R A n with
      | error e' => rw [hu] at a2; cases a2
      | ok u =>
          rw [hu] at a2
          cases a2
          exact ⟨u, rfl, a3⟩

/-- A CP step that returns the factors it started from has found a block-wise optimum. -/
theorem cp.main_fixed {pinv : Tensor ℝ → Res (Tensor ℝ)} (hp : PinvOk pinv) {X : Tensor ℝ} {R : Nat}
    {A : List (Tensor ℝ)} {o : fact.Out (List (Tensor ℝ)) (Tensor ℝ) (Tensor ℝ) ℝ}
    (hA : FactorsFor X.shape R A) (h2 : 2 ≤ X.order) (h25 : X.order ≤ 25)
    (hpos : ∀ d ∈ X.shape, 0 < d) (h : cp.main pinv X R A = .ok (A, o)) :
    ∃ lam, o.aux = some lam ∧ CpOptimal X R A (cp.wt lam) := by
  obtain ⟨lam, hsw, -, -, -, h5, -, -, -, -, -, -, hle, -⟩ := cp.main_ok hp hA h2 h25 hpos h
  refine ⟨lam, h5, fun n hn B hB w' => ?_⟩
  obtain ⟨u, hu, he⟩ := cp.sweep_fixed hA.length hsw n hn
  have := (cp.modeUpdate_descends hp hA h2 h25 hn (cp.getD_pos hpos hn) hu).2.2.1 B w' hB
  rw [he] at this
  exact le_trans (hle _) this

/-! ### HOOI -/

theorem kronMat_orth {shape : List Nat} {U : List (Tensor ℝ)} (ho : OrthoFactors shape U) {c : List Nat} (hc : colDims U = c) :
    (kronMat shape c U)ᵀ * kronMat shape c U = 1 := by
  subst hc
  ext i j
  rw [Matrix.mul_apply, Matrix.one_apply]
  have := kron_gram ho (unravel (colDims U) i) (unravel (colDims U) j) (unravel_inB i.isLt) (unravel_inB j.isLt)
  rw [boxSum_fin] at this
  simp only [kronMat, transpose_apply, of_apply]
  rw [this]
  by_cases hij : i = j
  · subst hij; simp
  · rw [if_neg hij, if_neg]
    intro e
    have := congrArg (ravel (colDims U)) e
    rw [ravel_unravel i.isLt, ravel_unravel j.isLt] at this
    exact hij (Fin.ext this)

/-- For orthonormal factors no core fits better than the projected one. -/
theorem core_optimal {X g' : Tensor ℝ} {U : List (Tensor ℝ)} (hne : X.shape ≠ []) (h13 : X.order ≤ 13)
    (ho : OrthoFactors X.shape U) (hg : g'.shape = colDims U) : normSqT X - coreSq X U ≤ tkErr X g' U := by
  obtain ⟨g, Y, e1, -, hgs, -, hge, -⟩ := tucker_entries hne h13 ho.allMat ho.rowDims
  have hq := kronMat_orth ho rfl
  have hc : coreSq X U = normSqT g := by rw [coreSq, e1]
  rw [hc, tkErr_rowVec hg, ← frobSq_transpose, transpose_sub, transpose_mul, transpose_transpose]
  set Q := kronMat X.shape (colDims U) U with hQ
  set x := (rowVec X.shape X.at_)ᵀ with hx
  set y := (rowVec (colDims U) g'.at_)ᵀ with hy
  have hW : Q * Qᵀ * (Q * y) = Q * y := by
    rw [Matrix.mul_assoc, ← Matrix.mul_assoc Qᵀ, hq, Matrix.one_mul]
  have h1 := frobSq_proj hq x (Q * y)
  rw [hW] at h1
  have h2 := frobSq_proj_zero hq x
  have h3 : frobSq x = normSqT X := by rw [hx, frobSq_transpose, frobSq_rowVec]; rfl
  have h4 : frobSq (Qᵀ * x) = normSqT g := by
    rw [hx, ← transpose_mul, frobSq_transpose, hQ, rowVec_kron', frobSq_rowVec, normSqT, hgs]
    exact boxSum_congr fun j hj => by rw [hge j (by rw [hgs]; exact hj)]
  have h5 := frobSq_nonneg (Qᵀ * (x - Q * y))
  linarith

/-- A factor `B` is as good as an orthonormal one. -/
theorem tkErr_orthonormalize {X g' : Tensor ℝ} {ranks : List Nat} {A : List (Tensor ℝ)} {B : Tensor ℝ} {n : Nat}
    (h2 : 2 ≤ X.order) (h13 : X.order ≤ 13) (hA : TuckerShapes X.shape ranks A) (hr : ranks.length = X.shape.length)
    (hg : g'.shape = ranks) (hn : n < X.order) (hle : ranks.getD n 0 ≤ X.shape.getD n 0)
    (hB : B.shape = [X.shape.getD n 0, ranks.getD n 0]) :
    ∃ Q g'', OrthoCols Q (X.shape.getD n 0) (ranks.getD n 0) ∧ g''.shape = ranks ∧
      tkErr X g' (A.set n B) = tkErr X g'' (A.set n Q) := by
  obtain ⟨U, s, V, hsv⟩ := exists_thinSvd (toMat B (X.shape.getD n 0) (ranks.getD n 0))
  have hmin : min (X.shape.getD n 0) (ranks.getD n 0) = ranks.getD n 0 := Nat.min_eq_right hle
  obtain ⟨U', C, hU', hUC⟩ : ∃ (U' : Mat (X.shape.getD n 0) (ranks.getD n 0)) (C : Mat (ranks.getD n 0) (ranks.getD n 0)),
      U'ᵀ * U' = 1 ∧ toMat B (X.shape.getD n 0) (ranks.getD n 0) = U' * C := by
    have e : ∀ p (hp : p = ranks.getD n 0) (U : Mat (X.shape.getD n 0) p) (D : Mat p (ranks.getD n 0)), Uᵀ * U = 1 →
        toMat B (X.shape.getD n 0) (ranks.getD n 0) = U * D → ∃ (U' : Mat (X.shape.getD n 0) (ranks.getD n 0))
          (C : Mat (ranks.getD n 0) (ranks.getD n 0)), U'ᵀ * U' = 1 ∧
          toMat B (X.shape.getD n 0) (ranks.getD n 0) = U' * C := by
      rintro p rfl U D h1 h2
      exact ⟨U, D, h1, h2⟩
    exact e _ hmin U (diagonal s * Vᵀ) hsv.orthU (by rw [← Matrix.mul_assoc]; exact hsv.eq)
  have hof : ∀ {a b : Nat} (M : Mat a b), ∃ T : Tensor ℝ, T.shape = [a, b] ∧ toMat T a b = M := by
    intro a b M
    refine ⟨mat a b fun i j => if h : i < a ∧ j < b then M ⟨i, h.1⟩ ⟨j, h.2⟩ else 0, rfl, ?_⟩
    rw [toMat_mat]
    ext i j
    simp
  obtain ⟨Q, hQs, hQ⟩ := hof U'
  obtain ⟨T, hTs, hT⟩ := hof C
  have hn' : n < ranks.length := by rw [hr]; exact hn
  have hgn : g'.shape.getD n 0 = ranks.getD n 0 := by rw [hg]
  have hg''s : (modeProd g' n T).shape = ranks := by
    rw [modeProd_shape hTs, hg, set_getD_self]
  refine ⟨Q, modeProd g' n T, ⟨hQs, by rw [hQ]; exact hU'⟩, hg''s, ?_⟩
  rw [tkErr_frob h2 h13 hA hr hg hn hB, tkErr_frob h2 h13 hA hr hg''s hn hQs]
  have hl : A.length = X.shape.length := hA.1
  obtain ⟨y1, y2, y3⟩ := tk_Y_shape hA hr hg (n := n)
  set ps := ((List.range X.shape.length).zip A).eraseIdx n with hps
  have hfst : ps.map Prod.fst = (List.range X.shape.length).eraseIdx n := by
    rw [hps, ← zip_eraseIdx _ _ _ (by simp [hl]), List.map_fst_zip]
    rw [List.length_eraseIdx, List.length_eraseIdx]; simp [hl]
  have hcomm : modeProds (modeProd g' n T) ps = modeProd (modeProds g' ps) n T := by
    have hp : ((n, T) :: ps).Perm (ps ++ [(n, T)]) := (List.perm_append_singleton _ _).symm
    have := modeProds_perm hp (by
      rw [List.map_cons, hfst, List.nodup_cons]
      refine ⟨fun hmem => ?_, (List.nodup_range (n := X.shape.length)).sublist (List.eraseIdx_sublist _ _)⟩
      rw [List.mem_eraseIdx_iff_getElem] at hmem
      obtain ⟨i, hi, hne, e⟩ := hmem
      rw [List.getElem_range] at e
      exact hne e) g'
    rw [modeProds_append] at this
    exact this
  rw [hcomm, unfM_modeProd (by rw [y1]; exact hn) hTs y2 y3, ← Matrix.mul_assoc, hQ, hT, ← hUC]

/-- A HOOI step that returns the factors it started from has found a block-wise optimum. -/
theorem hooi_fixed {svd : Tensor ℝ → Res (Tensor ℝ × Tensor ℝ × Tensor ℝ)} (hs : SvdOk svd) {X : Tensor ℝ}
    {ranks : List Nat} (h2 : 2 ≤ X.order) (h13 : X.order ≤ 13)
    (hpos : ∀ d ∈ X.shape, 0 < d) (hlen : ranks.length = X.order) {A : List (Tensor ℝ)}
    {o : fact.Out (List (Tensor ℝ)) (Tensor ℝ) (Tensor ℝ) ℝ} (hA : TuckerShapes X.shape ranks A)
    (h : tucker.HOOI.main svd X ranks A = .ok (A, o)) :
    ∃ g, o.aux = some g ∧ g.shape = ranks ∧ TuckerOptimal X ranks g A := by
  obtain ⟨g, -, a2, a3, -, a5, a6, a7, a8, a9, -, -, -, a13, -⟩ := hooi_main hs h2 h13 hpos hlen.ge hA h
  have hne : X.shape ≠ [] := by intro e; unfold order at h2; rw [e] at h2; simp at h2
  have hort : ∀ {U : List (Tensor ℝ)}, U.length = X.shape.length →
      (∀ k M, U[k]? = some M → OrthoCols M (X.shape.getD k 0) (ranks.getD k 0)) → OrthoFactors X.shape U := by
    intro U hl hU
    refine ⟨hl, fun k M hM => ?_⟩
    have := hU k M hM
    have e : M.shape.getD 1 0 = ranks.getD k 0 := by rw [this.1]; rfl
    rw [e]; exact this
  have ho := hort hA.1 a2
  obtain ⟨g1, Y, e1, e2, hgs, hYs, -, hYe⟩ := tucker_entries hne h13 ho.allMat ho.rowDims
  rw [a6] at e1; cases e1
  have hgr : g.shape = ranks := by rw [hgs, hA.colDims hlen]
  refine ⟨g, a5, hgr, fun n hn B g' hB hg' => ?_⟩
  rw [hgr] at hg'
  have hfix : ∀ n < X.order, tucker.HOOI.modeUpdate svd X ranks A n = .ok A := by
    intro n hn
    have hsw : tucker.HOOI.sweep svd X ranks A = .ok A := by
      unfold tucker.HOOI.main at h
      cases hsw : tucker.HOOI.sweep svd X ranks A with
      | error e => rw [hsw] at h; cases h
      | ok A1 =>
          rw [hsw, ok_bind] at h
          cases h3 : ttm X A1 none true with
          | error e => rw [h3] at h; cases h
          | ok g =>
          rw [h3, ok_bind] at h
          cases h4 : tucker.fullOf g A1 with
          | error e => rw [h4] at h; cases h
          | ok Y =>
          rw [h4, ok_bind] at h
          cases h5 : cp.scalars X Y with
          | error e => rw [h5] at h; cases h
          | ok p =>
          rw [h5, ok_bind] at h
          obtain ⟨l, obj, rel⟩ := p
          cases h
          rfl
    obtain ⟨a, b, -, p2, p3, p4⟩ := fold_fixed (get := fun A : List (Tensor ℝ) => A) (P := fun _ => True) (by
        intro s k s' e
        unfold tucker.HOOI.modeUpdate at e
        cases h1 : ttm X s none true (.int k) with
        | error e' => rw [h1] at e; cases e
        | ok Y =>
        rw [h1, ok_bind] at e
        cases h2 : tucker.leading svd Y ranks k with
        | error e' => rw [h2] at e; cases e
        | ok v =>
        rw [h2, ok_bind] at e
        obtain ⟨old, -, -, e⟩ := assign_inv e
        exact ⟨v, e.1⟩) (fun _ _ _ => trivial) List.nodup_range
      (fun k hk => by rw [hA.1]; exact List.mem_range.1 hk) trivial hsw rfl n (List.mem_range.2 hn)
    have p2 : a = A := p2
    have p4 : b = A := p4
    rw [p2, p4] at p3
    exact p3
  obtain ⟨u1, -⟩ := hooi_update hs h2 h13 hpos hlen.ge hA hn
  obtain ⟨B0, b1, b2, b3⟩ := u1 (Nat.le_min.2 (a3 n hn))
  rw [hfix n hn] at b1
  have b1 := Except.ok.inj b1
  obtain ⟨Q, g'', q1, q2, q3⟩ := tkErr_orthonormalize h2 h13 hA hlen hg' hn (a3 n hn).1 hB
  have hQ := b3 Q q1
  rw [← b1] at hQ
  have hoQ : OrthoFactors X.shape (A.set n Q) := by
    refine hort (by rw [List.length_set]; exact hA.1) fun k M hM => ?_
    by_cases e : n = k
    · subst e
      rw [List.getElem?_set_self (by rw [hA.1]; exact hn), Option.some.injEq] at hM
      subst hM; exact q1
    · rw [List.getElem?_set_ne e] at hM
      exact a2 k M hM
  have hco := core_optimal hne h13 hoQ (g' := g'') (by rw [q2, (hA.set q1.1).colDims hlen])
  have herr : tkErr X g A = normSqT X - normSqT g := by
    rw [e2] at a7; cases a7
    rw [← a9]
    exact (boxSum_congr fun i hi => by rw [hYe i hi]).symm
  rw [q3, herr, ← a13]
  linarith

/-! ### NCP and NTUCKER -/

namespace bcu

/-- A run of NCP with no extrapolation that returns the factors it started from has found a block-wise optimum. -/
theorem NCP.main_fixed {topSv : Tensor ℝ → Res ℝ} (ht : TopSvOk topSv) {X : Tensor ℝ} {R : Nat} {st st' : State}
    {o : fact.Out (List (Tensor ℝ)) (Tensor ℝ) (Tensor ℝ) ℝ} (hst : FactorsOk (X.shape.map fun d => [d, R]) st)
    (h2 : 2 ≤ X.order) (h25 : X.order ≤ 25) (hR : 0 < R) (hpos : ∀ d ∈ X.shape, 0 < d) (hAm : st.Am = st.A)
    (h : NCP.main topSv X st = .ok (st', o)) (hfix : st'.A = st.A) : NcpOptimal X R st.A := by
  obtain ⟨s, h1, rfl, -⟩ := NCP.main_inv h
  intro n hn B hB hBn
  have hA := hst.factorsFor.1
  obtain ⟨a, b, ⟨p1, p2⟩, p3, p4, p5⟩ := fold_fixed (get := State.A)
    (P := fun s => s.Am = st.A ∧ FactorsOk (X.shape.map fun d => [d, R]) s)
    (by
      intro s k s' e
      obtain ⟨V, XA, hf⟩ := NCP.modeUpdate_inv e
      obtain ⟨l, Z, -, -, -, -, -, rfl⟩ := factorStep_inv hf
      exact ⟨Z, rfl⟩)
    (by
      rintro s k s' ⟨q1, q2⟩ - e
      obtain ⟨V, XA, hf⟩ := NCP.modeUpdate_inv e
      refine ⟨?_, q2.factorStep hf⟩
      obtain ⟨l, Z, -, -, -, -, -, rfl⟩ := factorStep_inv hf
      exact q1) List.nodup_range
    (fun k hk => by rw [hA.length]; exact List.mem_range.1 hk) ⟨hAm, hst⟩ h1 hfix n (List.mem_range.2 hn)
  have hn' : n < st.A.length := by rw [hA.length]; exact hn
  have hget : st.A[n]? = some st.A[n] := List.getElem?_eq_getElem hn'
  obtain ⟨Z, z1, z2, z3, z4, z5⟩ := NCP.three_point ht p2.factorsFor.1 h2 h25 hn hR (cp.getD_pos hpos hn)
    (by rw [p1]; exact hget) (hA.get hget) p4
  have hZ : Z = st.A[n] := by
    have := congrArg (fun l => l[n]?) (z3.symm.trans p5)
    rw [p3] at this
    rw [List.getElem?_set_self hn', hget, Option.some.injEq] at this
    exact this
  have := z5 B hB hBn
  rw [hZ, p3, List.set_getElem_self] at this
  linarith

theorem NTUCKER.step_fixed {topSv : Tensor ℝ → Res ℝ} (ht : TopSvOk topSv) {X k : Tensor ℝ} {ranks : List Nat}
    {st s st' : TState} {o : fact.Out (List (Tensor ℝ)) (Tensor ℝ) (Tensor ℝ) ℝ}
    (hr : ranks.length = X.shape.length) (h2 : 2 ≤ X.order) (h13 : X.order ≤ 13) (hrp : ∀ d ∈ ranks, 0 < d)
    (hpos : ∀ d ∈ X.shape, 0 < d) (hst : TkOk X.shape ranks st) (hAm : st.Am = st.A) (hgm : st.gm = st.g)
    (hc : NTUCKER.core topSv X st = .ok (s, k)) (h : NTUCKER.main topSv X s = .ok (st', o)) (hk : k = st.g)
    (hfix : st'.A = st.A) : NtuckerOptimal X ranks st.g st.A := by
  subst hk
  obtain ⟨c1, -, -, -, c2, c3, -, c4, -, -⟩ := NTUCKER.core_ok hst hc
  obtain ⟨s', h1, rfl, -, -, -, -⟩ := NTUCKER.main_inv h
  have hA := hst.shapes
  constructor
  · intro n hn B hB hBn
    obtain ⟨a, b, ⟨p1, p2⟩, p3, p4, p5⟩ := fold_fixed (get := State.A)
      (P := fun s => s.Am = st.A ∧ FactorsOk (tuckerShapes X.shape ranks) s)
      (by
        intro s k s' e
        obtain ⟨V, XA, hf⟩ := NTUCKER.modeUpdate_inv e
        obtain ⟨l, Z, -, -, -, -, -, rfl⟩ := factorStep_inv hf
        exact ⟨Z, rfl⟩)
      (by
        rintro s k s' ⟨q1, q2⟩ - e
        obtain ⟨V, XA, hf⟩ := NTUCKER.modeUpdate_inv e
        refine ⟨?_, q2.factorStep hf⟩
        obtain ⟨l, Z, -, -, -, -, -, rfl⟩ := factorStep_inv hf
        exact q1) List.nodup_range
      (fun k hk => by rw [c2, hA.1]; exact List.mem_range.1 hk) ⟨by rw [c3, hAm], c1.factors⟩ h1
      (by rw [c2]; exact hfix) n (List.mem_range.2 hn)
    rw [c2] at p3 p5
    have hn' : n < st.A.length := by rw [hA.1]; exact hn
    have hget : st.A[n]? = some st.A[n] := List.getElem?_eq_getElem hn'
    obtain ⟨Z, z1, z2, z3, z4, z5⟩ := NTUCKER.three_point ht (tuckerShapes_iff.1 p2.A) hr c1.g h2 h13 hn
      (cp.getD_pos hpos hn) (cp.getD_pos hrp (by rw [hr]; exact hn)) (by rw [p1]; exact hget) (hA.2 n _ hget) p4
    have hZ : Z = st.A[n] := by
      have := congrArg (fun l => l[n]?) (z3.symm.trans p5)
      rw [p3] at this
      rw [List.getElem?_set_self hn', hget, Option.some.injEq] at this
      exact this
    have := z5 B hB hBn
    rw [hZ, p3, List.set_getElem_self, c4] at this
    linarith
  · intro g' hg' hn'
    rcases NTUCKER.core_spec ht hst hr (by omega) h13 hrp with ⟨e, -⟩ | ⟨-, Z, l, e, l0, z1, z2, z3⟩
    · rw [e] at hc; cases hc
    · rw [e] at hc
      simp only [Except.ok.injEq, Prod.mk.injEq] at hc
      have hZ := hc.2
      have := z3 g' hg' hn'
      rw [hZ, hgm] at this
      linarith

theorem eq_of_distSqT {Z m : Tensor ℝ} (hs : Z.shape = m.shape) (h : distSqT m Z = 0) : Z = m := by
  refine ext_at hs fun i hi => ?_
  rw [hs] at hi
  have := (loss.boxSum_eq_zero m.shape (fun i _ => sq_nonneg (m.at_ i - Z.at_ i))).1 h i hi
  have := pow_eq_zero_iff (by norm_num) |>.1 this
  linarith

/-- A step of NCP with no extrapolation that starts at a block-wise optimum does not move. -/
theorem NCP.main_optimal {topSv : Tensor ℝ → Res ℝ} (ht : TopSvOk topSv) {X : Tensor ℝ} {R : Nat} {st st' : State}
    {o : fact.Out (List (Tensor ℝ)) (Tensor ℝ) (Tensor ℝ) ℝ} (hst : FactorsOk (X.shape.map fun d => [d, R]) st)
    (h2 : 2 ≤ X.order) (h25 : X.order ≤ 25) (hR : 0 < R) (hpos : ∀ d ∈ X.shape, 0 < d) (hAm : st.Am = st.A)
    (h : NCP.main topSv X st = .ok (st', o)) (hopt : NcpOptimal X R st.A) : st'.A = st.A := by
  obtain ⟨s, h1, rfl, -⟩ := NCP.main_inv h
  have hA := hst.factorsFor.1
  have key : ∀ (l : List Nat) (a b : State), (∀ n ∈ l, n < X.order) → a.A = st.A → a.Am = st.A →
      FactorsOk (X.shape.map fun d => [d, R]) a → l.foldlM (NCP.modeUpdate topSv X) a = .ok b → b.A = st.A := by
    intro l
    induction l with
    | nil => intro a b _ h1 _ _ h; cases h; exact h1
    | cons n l ih =>
        intro a b hl a1 a2 a3 h
        rw [List.foldlM_cons] at h
        cases e : NCP.modeUpdate topSv X a n with
        | error e' => rw [e] at h; cases h
        | ok c =>
            rw [e, ok_bind] at h
            obtain ⟨V, XA, hf⟩ := NCP.modeUpdate_inv e
            have c3 := a3.factorStep hf
            have hn : n < X.order := hl n (by simp)
            have hn' : n < st.A.length := by rw [hA.length]; exact hn
            have hget : st.A[n]? = some st.A[n] := List.getElem?_eq_getElem hn'
            obtain ⟨Z, z1, z2, z3, z4, z5⟩ := NCP.three_point ht a3.factorsFor.1 h2 h25 hn hR (cp.getD_pos hpos hn)
              (by rw [a2]; exact hget) (hA.get hget) e
            have hz := z5 st.A[n] (hA.get hget) (hst.nonneg _ (List.getElem_mem hn'))
            rw [distSqT_self, a1, List.set_getElem_self] at hz
            have ho := hopt n hn Z z1 z2
            have hd := mul_nonneg z4.le (distSqT_nonneg st.A[n] Z)
            have hd0 : c.L n * distSqT st.A[n] Z = 0 := le_antisymm (by linarith) hd
            have hZ : Z = st.A[n] := eq_of_distSqT (by rw [z1, hA.get hget])
              ((mul_eq_zero.1 hd0).resolve_left z4.ne')
            refine ih c b (fun k hk => hl k (by simp [hk])) (by rw [z3, hZ, a1, List.set_getElem_self]) ?_ c3 h
            obtain ⟨l', Z', -, -, -, -, -, rfl⟩ := factorStep_inv hf
            exact a2
  exact key _ st s (fun n hn => List.mem_range.1 hn) rfl hAm hst h1

/-- A step of NTUCKER with no extrapolation that starts at a block-wise optimum does not move. -/
theorem NTUCKER.step_optimal {topSv : Tensor ℝ → Res ℝ} (ht : TopSvOk topSv) {X k : Tensor ℝ} {ranks : List Nat}
    {st s st' : TState} {o : fact.Out (List (Tensor ℝ)) (Tensor ℝ) (Tensor ℝ) ℝ}
    (hr : ranks.length = X.shape.length) (h2 : 2 ≤ X.order) (h13 : X.order ≤ 13) (hrp : ∀ d ∈ ranks, 0 < d)
    (hpos : ∀ d ∈ X.shape, 0 < d) (hst : TkOk X.shape ranks st) (hAm : st.Am = st.A) (hgm : st.gm = st.g)
    (hc : NTUCKER.core topSv X st = .ok (s, k)) (h : NTUCKER.main topSv X s = .ok (st', o))
    (hopt : NtuckerOptimal X ranks st.g st.A) : k = st.g ∧ st'.A = st.A := by
  obtain ⟨c1, -, -, -, c2, c3, -, c4, -, -⟩ := NTUCKER.core_ok hst hc
  have hk : k = st.g := by
    rcases NTUCKER.core_spec ht hst hr (by omega) h13 hrp with ⟨e, -⟩ | ⟨-, Z, l, e, l0, z1, z2, z3⟩
    · rw [e] at hc; cases hc
    · rw [e] at hc
      simp only [Except.ok.injEq, Prod.mk.injEq] at hc
      rw [← hc.2]
      have hz := z3 st.g hst.g hst.nonneg
      rw [hgm, distSqT_self] at hz
      have ho := hopt.2 Z z1 z2
      have hd := mul_nonneg l0.le (distSqT_nonneg st.g Z)
      have hd0 : l * distSqT st.g Z = 0 := le_antisymm (by linarith) hd
      exact eq_of_distSqT (by rw [z1, hst.g]) ((mul_eq_zero.1 hd0).resolve_left l0.ne')
  refine ⟨hk, ?_⟩
  subst hk
  obtain ⟨s', h1, rfl, -, -, -, -⟩ := NTUCKER.main_inv h
  have hA := hst.shapes
  have key : ∀ (l : List Nat) (a b : State), (∀ n ∈ l, n < X.order) → a.A = st.A → a.Am = st.A →
      FactorsOk (tuckerShapes X.shape ranks) a → l.foldlM (NTUCKER.modeUpdate topSv X s.g) a = .ok b → b.A = st.A := by
    intro l
    induction l with
    | nil => intro a b _ h1 _ _ h; cases h; exact h1
    | cons n l ih =>
        intro a b hl a1 a2 a3 h
        rw [List.foldlM_cons] at h
        cases e : NTUCKER.modeUpdate topSv X s.g a n with
        | error e' => rw [e] at h; cases h
        | ok c =>
            rw [e, ok_bind] at h
            obtain ⟨V, XA, hf⟩ := NTUCKER.modeUpdate_inv e
            have c3 := a3.factorStep hf
            have hn : n < X.order := hl n (by simp)
            have hn' : n < st.A.length := by rw [hA.1]; exact hn
            have hget : st.A[n]? = some st.A[n] := List.getElem?_eq_getElem hn'
            obtain ⟨Z, z1, z2, z3, z4, z5⟩ := NTUCKER.three_point ht (tuckerShapes_iff.1 a3.A) hr c1.g h2 h13 hn
              (cp.getD_pos hpos hn) (cp.getD_pos hrp (by rw [hr]; exact hn)) (by rw [a2]; exact hget) (hA.2 n _ hget) e
            have hz := z5 st.A[n] (hA.2 n _ hget) (hst.factors.nonneg _ (List.getElem_mem hn'))
            rw [distSqT_self, a1, List.set_getElem_self, c4] at hz
            have ho := hopt.1 n hn Z z1 z2
            have hd := mul_nonneg z4.le (distSqT_nonneg st.A[n] Z)
            have hd0 : c.L n * distSqT st.A[n] Z = 0 := le_antisymm (by linarith) hd
            have hZ : Z = st.A[n] := eq_of_distSqT (by rw [z1, hA.2 n _ hget])
              ((mul_eq_zero.1 hd0).resolve_left z4.ne')
            refine ih c b (fun k hk => hl k (by simp [hk])) (by rw [z3, hZ, a1, List.set_getElem_self]) ?_ c3 h
            obtain ⟨l', Z', -, -, -, -, -, rfl⟩ := factorStep_inv hf
            exact a2
  exact key _ s.toState s' (fun n hn => List.mem_range.1 hn) c2 (by rw [c3, hAm]) c1.factors h1

end bcu
end TD
