import Verif.Lemmas.ComponentsCp
import Verif.Lemmas.RenumberTucker

/-! # Renumbered components in `NCP_BCU` -/
namespace TD.bcu
open TD Spec Tensor tf ops Matrix fact

theorem length_renumModes (τ : Nat → Nat → Nat) (U : List (Tensor ℝ)) : (renumModes τ U).length = U.length := by
  simp [renumModes]

theorem getElem?_renumModes (τ : Nat → Nat → Nat) (U : List (Tensor ℝ)) (k : Nat) :
    (renumModes τ U)[k]? = U[k]?.map (renumCols (τ k)) := by simp [renumModes]

theorem renumModes_cons (τ : Nat → Nat → Nat) (A : Tensor ℝ) (U : List (Tensor ℝ)) :
    renumModes τ (A :: U) = renumCols (τ 0) A :: renumModes (fun k => τ (k + 1)) U := by
  simp [renumModes, List.mapIdx_cons]

theorem renumModes_const (π : Nat → Nat) (U : List (Tensor ℝ)) : renumModes (fun _ => π) U = renumComponents π U := by
  induction U with
  | nil => rfl
  | cons A U ih => rw [renumModes_cons, ih]; rfl

theorem renumModes_set (τ : Nat → Nat → Nat) (U : List (Tensor ℝ)) (k : Nat) (B : Tensor ℝ) :
    renumModes τ (U.set k B) = (renumModes τ U).set k (renumCols (τ k) B) := by
  refine List.ext_getElem? fun m => ?_
  rw [getElem?_renumModes, List.getElem?_set, List.getElem?_set, length_renumModes]
  split
  · rename_i h; subst h; split <;> rfl
  · rw [getElem?_renumModes]

theorem map_shape_renumModes (τ : Nat → Nat → Nat) (U : List (Tensor ℝ)) :
    (renumModes τ U).map Tensor.shape = U.map Tensor.shape := by
  refine List.ext_getElem? fun m => ?_
  rw [List.getElem?_map, getElem?_renumModes, List.getElem?_map]
  cases U[m]? <;> rfl

theorem assign_modes (τ : Nat → Nat → Nat) (U : List (Tensor ℝ)) (k : Nat) (v : Tensor ℝ) :
    tf.assign (renumModes τ U) k (renumCols (τ k) v) = renumModes τ <$> tf.assign U k v := by
  unfold tf.assign
  rw [getElem?_renumModes]
  cases U[k]? with
  | none => rfl
  | some old =>
      simp only [Option.map_some]
      by_cases h : v.shape = old.shape
      · rw [if_pos (show (renumCols (τ k) v).shape = (renumCols (τ k) old).shape from h), if_pos h, ← renumModes_set]; rfl
      · rw [if_neg (show ¬ (renumCols (τ k) v).shape = (renumCols (τ k) old).shape from h), if_neg h]; rfl

/-- The variables with renumbered columns. -/
noncomputable def colState (τ : Nat → Nat → Nat) (s : State) : State :=
  { s with A := renumModes τ s.A, A0 := renumModes τ s.A0, Am := renumModes τ s.Am }

theorem getVar_modes (τ : Nat → Nat → Nat) (vs : List (Tensor ℝ)) (k : Nat) :
    getVar (renumModes τ vs) k = renumCols (τ k) <$> getVar vs k := by
  unfold getVar
  rw [getElem?_renumModes]
  cases vs[k]? <;> rfl

section gen
variable {σ : Nat → Nat → Nat} {s : List Nat}

theorem proxStep_gen {m G : Tensor ℝ} (hm : m.shape = s) (hG : G.shape = s) (h : Renumbering s σ) (L : ℝ) :
    proxStep (renum σ m) (renum σ G) L = renum σ <$> proxStep m G L := by
  subst hm
  unfold proxStep
  by_cases h0 : L = 0
  · rw [if_pos h0, if_pos h0]; rfl
  · rw [if_neg h0, if_neg h0, map_renum (hG ▸ h), ewise_renum h (by exact hG.symm)]
    rw [ewise_same (A := m) _ (show m.shape = (tf.map (· / L) G).shape from hG.symm)]
    show Except.ok _ = Except.ok _
    congr 1
    exact map_renum (X := ofFn m.shape _) h _

theorem extrapolate_gen {v v0 : Tensor ℝ} (hv : v.shape = s) (hv0 : v0.shape = s) (h : Renumbering s σ) (w : ℝ) :
    extrapolate w (renum σ v) (renum σ v0) = renum σ <$> extrapolate w v v0 := by
  subst hv
  unfold extrapolate
  rw [ewise_renum h hv0.symm, ewise_same (A := v) (B := v0) _ hv0.symm]
  change (do let d ← (Except.ok (renum σ _) : Res (Tensor ℝ)); _) = _
  rw [ok_bind, ok_bind, map_renum (X := ofFn v.shape _) h, ewise_renum h (by rfl)]

theorem normInit_gen {X d : Tensor ℝ} (hd : Renumbering d.shape σ) (p : Nat) :
    normInit X p (relu (renum σ d)) = renum σ <$> normInit X p (relu d) := by
  unfold normInit relu
  rw [map_renum hd, norm_renum (X := tf.map _ d) hd]
  split
  · rfl
  · rw [map_renum (X := tf.map _ d) hd]; rfl

end gen

theorem stepVal_modes {topSv : Tensor ℝ → Res ℝ} (ht : TopSvOk topSv) {τ : Nat → Nat → Nat} {I R n : Nat} (hR : 0 < R)
    (h : Set.BijOn (τ n) (Set.Iio R) (Set.Iio R)) (A : List (Tensor ℝ)) {Am : List (Tensor ℝ)}
    (hm : ∀ m, Am[n]? = some m → m.shape = [I, R]) {V XA : Tensor ℝ} (hV : V.shape = [R, R]) (hXA : XA.shape = [I, R]) :
    stepVal topSv (renumModes τ A) (renumModes τ Am) n (renumBoth (τ n) V) (renumCols (τ n) XA) =
      (fun r => (renumModes τ r.1, r.2)) <$> stepVal topSv A Am n V XA := by
  unfold stepVal
  rw [topSv_both ht hR h hV]
  cases topSv V with
  | error e => rfl
  | ok l =>
  rw [ok_bind, ok_bind, getVar_modes]
  cases hg : getVar Am n with
  | error e => rfl
  | ok m =>
  have hms := hm m (getVar_inv hg)
  rw [ok_bind]
  change (do let m ← (Except.ok (renumCols (τ n) m) : Res (Tensor ℝ)); _) = _
  rw [ok_bind, matmul_cols_both h hms hV]
  obtain ⟨mV, hmV⟩ : ∃ mV, tf.matmul m V = .ok mV := ⟨_, matmul_nn hms hV⟩
  obtain ⟨hmVs, -⟩ := toMat_matmul_nn hms hV hmV
  have hc := renumbering_cols (m := I) h
  rw [hmV, ok_bind]
  change (do let m ← (Except.ok (renumCols (τ n) mV) : Res (Tensor ℝ)); _) = _
  rw [ok_bind, renumCols, renumCols, renumCols, ewise_renum (X := mV) (by rw [hmVs]; exact hc) (hmVs.trans hXA.symm),
    ewise_same (A := mV) (B := XA) _ (hmVs.trans hXA.symm), ok_bind]
  change (do let m ← (Except.ok (renum _ _) : Res (Tensor ℝ)); _) = _
  rw [ok_bind, proxStep_gen (G := ofFn mV.shape _) hms hmVs hc]
  cases proxStep m _ l with
  | error e => rfl
  | ok v =>
  rw [ok_bind]
  change (do let m ← (Except.ok (renumCols (τ n) v) : Res (Tensor ℝ)); _) = _
  rw [ok_bind, assign_modes]
  cases tf.assign A n v <;> rfl

theorem factorStep_modes {topSv : Tensor ℝ → Res ℝ} (ht : TopSvOk topSv) {τ : Nat → Nat → Nat} {I R n : Nat} (hR : 0 < R)
    (h : Set.BijOn (τ n) (Set.Iio R) (Set.Iio R)) {s : State}
    (hm : ∀ m, s.Am[n]? = some m → m.shape = [I, R]) {V XA : Tensor ℝ} (hV : V.shape = [R, R]) (hXA : XA.shape = [I, R]) :
    factorStep topSv (colState τ s) n (renumBoth (τ n) V) (renumCols (τ n) XA) = colState τ <$> factorStep topSv s n V XA := by
  rw [factorStep_val, factorStep_val]
  change _ <$> stepVal topSv (renumModes τ s.A) (renumModes τ s.Am) n (renumBoth (τ n) V) (renumCols (τ n) XA) = _
  rw [stepVal_modes ht hR h s.A hm hV hXA]
  cases stepVal topSv s.A s.Am n V XA <;> rfl

theorem passVal_modes {τ : Nat → Nat → Nat} {I R k : Nat} (h : Set.BijOn (τ k) (Set.Iio R) (Set.Iio R))
    {A A0 : List (Tensor ℝ)} (hA : ∀ m, A[k]? = some m → m.shape = [I, R]) (hA0 : ∀ m, A0[k]? = some m → m.shape = [I, R])
    (Am : List (Tensor ℝ)) (cap : Res ℝ) :
    passVal cap (renumModes τ A) (renumModes τ A0) (renumModes τ Am) k =
      (fun r => (r.1, renumModes τ r.2.1, renumModes τ r.2.2)) <$> passVal cap A A0 Am k := by
  unfold passVal
  cases cap with
  | error e => rfl
  | ok w =>
  rw [ok_bind, ok_bind, getVar_modes]
  cases hg : getVar A k with
  | error e => rfl
  | ok a =>
  rw [ok_bind]
  change (do let m ← (Except.ok (renumCols (τ k) a) : Res (Tensor ℝ)); _) = _
  rw [ok_bind, getVar_modes]
  cases hg0 : getVar A0 k with
  | error e => rfl
  | ok a0 =>
  rw [ok_bind]
  change (do let m ← (Except.ok (renumCols (τ k) a0) : Res (Tensor ℝ)); _) = _
  rw [ok_bind, show extrapolate w (renumCols (τ k) a) (renumCols (τ k) a0) = renumCols (τ k) <$> extrapolate w a a0 from
    extrapolate_gen (hA a (getVar_inv hg)) (hA0 a0 (getVar_inv hg0)) (renumbering_cols h) w]
  cases extrapolate w a a0 with
  | error e => rfl
  | ok m =>
  rw [ok_bind]
  change (do let m ← (Except.ok (renumCols (τ k) m) : Res (Tensor ℝ)); _) = _
  rw [ok_bind, assign_modes, assign_modes]
  cases tf.assign Am k m with
  | error e => rfl
  | ok B =>
  rw [ok_bind]
  change (do let m ← (Except.ok (renumModes τ B) : Res (List (Tensor ℝ))); _) = _
  rw [ok_bind]
  cases tf.assign A0 k a <;> rfl

/-- The factors are matrices and `τ k` permutes the columns of the factor of mode `k`. -/
def ColsOk (τ : Nat → Nat → Nat) (sh : List (List Nat)) : Prop :=
  ∀ k s, sh[k]? = some s → ∃ I R, s = [I, R] ∧ 0 < R ∧ Set.BijOn (τ k) (Set.Iio R) (Set.Iio R)

theorem ColsOk.get {τ : Nat → Nat → Nat} {sh : List (List Nat)} (h : ColsOk τ sh) {U : List (Tensor ℝ)}
    (hU : U.map Tensor.shape = sh) {k : Nat} (hk : k < U.length) : ∃ I R, sh[k]? = some [I, R] ∧ 0 < R ∧
      Set.BijOn (τ k) (Set.Iio R) (Set.Iio R) ∧ ∀ m, U[k]? = some m → m.shape = [I, R] := by
  have e : sh[k]? = some U[k].shape := by rw [← hU, List.getElem?_map, List.getElem?_eq_getElem hk]; rfl
  obtain ⟨I, R, h1, h2, h3⟩ := h k _ e
  refine ⟨I, R, by rw [e, h1], h2, h3, fun m hm => ?_⟩
  rw [List.getElem?_eq_getElem hk] at hm
  cases hm; exact h1

theorem extrapolateMode_modes {τ : Nat → Nat → Nat} {sh : List (List Nat)} (hsh : ColsOk τ sh)
    {s : State} (hs : FactorsOk sh s) (w : ℝ) (k : Nat) :
    extrapolateMode w (colState τ s) k = colState τ <$> extrapolateMode w s k := by
  have e1 : cappedWeight (colState τ s) w k = cappedWeight s w k := rfl
  rw [extrapolateMode_val, extrapolateMode_val, e1]
  change _ <$> passVal _ (renumModes τ s.A) (renumModes τ s.A0) (renumModes τ s.Am) k = _
  by_cases hk : k < s.A.length
  · obtain ⟨I, R, h2, -, hb, h3⟩ := hsh.get hs.A hk
    have hA0 : ∀ m, s.A0[k]? = some m → m.shape = [I, R] := fun m hm => by
      have := congrArg (fun l => l[k]?) hs.A0
      simp only [List.getElem?_map, hm, h2, Option.map_some, Option.some.injEq] at this
      exact this
    rw [passVal_modes hb h3 hA0]
    cases passVal (cappedWeight s w k) s.A s.A0 s.Am k <;> rfl
  · have e : ∀ A, s.A.length = A.length → getVar A k = .error .indexError := fun A hA => by
      unfold getVar; rw [List.getElem?_eq_none (by omega)]
    unfold passVal
    rw [e _ rfl, e _ (by rw [length_renumModes])]
    cases cappedWeight s w k <;> rfl

theorem extrapolates_modes {τ : Nat → Nat → Nat} {sh : List (List Nat)} (hsh : ColsOk τ sh) (w : ℝ) :
    ∀ (l : List Nat) {s : State}, FactorsOk sh s →
    l.foldlM (extrapolateMode w) (colState τ s) = colState τ <$> l.foldlM (extrapolateMode w) s
  | [], _, _ => rfl
  | k :: l, s, hs => by
      rw [List.foldlM_cons, List.foldlM_cons, extrapolateMode_modes hsh hs]
      cases he : extrapolateMode w s k with
      | error e => rfl
      | ok s' =>
          refine extrapolates_modes hsh w l ?_
          obtain ⟨wk, a, a0, m, -, h2, h3, -, h5, h6, -, rfl⟩ := extrapolateMode_inv he
          refine ⟨hs.A, h6.trans hs.A0, h5.trans hs.Am, hs.nonneg, fun M hM => ?_⟩
          rcases List.mem_or_eq_of_mem_set hM with hM | rfl
          · exact hs.nonneg0 M hM
          · exact hs.nonneg _ (List.mem_of_getElem? h2)

theorem NCP.op1_modes {τ : Nat → Nat → Nat} {sh : List (List Nat)} (hsh : ColsOk τ sh) {s : State} (hs : FactorsOk sh s)
    (N : Nat) : NCP.op1 N (colState τ s) = colState τ <$> NCP.op1 N s := by
  unfold NCP.op1
  rw [show weight (colState τ s) = weight s from rfl]
  cases weight s with
  | error e => rfl
  | ok w =>
  rw [ok_bind, ok_bind, extrapolates_modes hsh w _ hs]
  cases (List.range N).foldlM (extrapolateMode w) s <;> rfl

theorem init_modes {X : Tensor ℝ} {τ : Nat → Nat → Nat} (p : Nat) {draws : List (Tensor ℝ)}
    {sh : List (List Nat)} (hsh : ColsOk τ sh) (hd : draws.map Tensor.shape = sh) :
    bcu.init X p (renumModes τ draws) = colState τ <$> bcu.init X p draws := by
  have key : ∀ (l : List (Tensor ℝ)) (τ : Nat → Nat → Nat), ColsOk τ (l.map Tensor.shape) →
      (renumModes τ l).mapM (fun d => normInit X p (relu d)) = renumModes τ <$> l.mapM fun d => normInit X p (relu d) := by
    intro l
    induction l with
    | nil => intro _ _; rfl
    | cons d l ih =>
        intro τ h
        obtain ⟨I, R, h1, -, h2⟩ := h 0 d.shape rfl
        rw [renumModes_cons, List.mapM_cons, List.mapM_cons, show normInit X p (relu (renumCols (τ 0) d)) =
          renumCols (τ 0) <$> normInit X p (relu d) from normInit_gen (by rw [h1]; exact renumbering_cols h2) p,
          ih (fun k => τ (k + 1)) fun k s hk => h (k + 1) s hk]
        cases normInit X p (relu d) with
        | error e => rfl
        | ok v =>
        rw [ok_bind]
        change (do let m ← (Except.ok (renumCols (τ 0) v) : Res (Tensor ℝ)); _) = _
        rw [ok_bind]
        cases l.mapM fun d => normInit X p (relu d) with
        | error e => rfl
        | ok vs =>
            change Except.ok _ = Except.ok _
            rw [renumModes_cons]
  unfold bcu.init
  rw [key draws τ (hd ▸ hsh)]
  cases draws.mapM fun d => normInit X p (relu d) <;> rfl

/-! ### `NCP_BCU` -/

theorem colsOk_cp {π : Nat → Nat} {R : Nat} (hR : 0 < R) (hπ : Set.BijOn π (Set.Iio R) (Set.Iio R)) (shape : List Nat) :
    ColsOk (fun _ => π) (shape.map fun d => [d, R]) := by
  intro k s h
  rw [List.getElem?_map, Option.map_eq_some_iff] at h
  obtain ⟨d, -, rfl⟩ := h
  exact ⟨d, R, rfl, hR, hπ⟩

theorem NCP.modeUpdate_modes {topSv : Tensor ℝ → Res ℝ} (ht : TopSvOk topSv) {X : Tensor ℝ} {π : Nat → Nat} {R n : Nat}
    (hR : 0 < R) (hπ : Set.BijOn π (Set.Iio R) (Set.Iio R)) {s : State} (hs : FactorsOk (X.shape.map fun d => [d, R]) s)
    (h2 : 2 ≤ X.order) (h25 : X.order ≤ 25) (hn : n < X.order) (hpos : 0 < X.shape.getD n 0) :
    NCP.modeUpdate topSv X (colState (fun _ => π) s) n = colState (fun _ => π) <$> NCP.modeUpdate topSv X s n := by
  have hA := hs.factorsFor.1
  obtain ⟨M, hM⟩ : ∃ M, unfold X n = .ok M := ⟨_, unfold_closed X hn hpos⟩
  obtain ⟨hMs, -⟩ := toMat_unfold hn hpos hM
  obtain ⟨K, hK, hK', hKs⟩ := khatri_components hπ hA h2 h25 hn hpos
  obtain ⟨XA, hXA⟩ : ∃ XA, matmul M K = .ok XA := ⟨_, matmul_nn hMs hKs⟩
  obtain ⟨hXAs, -⟩ := toMat_matmul_nn hMs hKs hXA
  have hgram : ∀ {B : List (Tensor ℝ)}, FactorsFor X.shape R B → ∃ K G grams, khatri B (.int n) true = .ok K ∧
      matmul K K true false = .ok G ∧ (B.mapM fun a => tf.matmul a a true false) = .ok grams ∧
      hadamard grams (.int n) = .ok G := fun {B} hB => by
    have hn' : n < B.length := by rw [hB.length]; exact hn
    have hke : kept B (.int n) ≠ [] := by
      rw [kept_int]; intro e
      have := congrArg List.length e
      rw [List.length_eraseIdx, if_pos hn', hB.length] at this
      unfold order at h2
      simp at this; omega
    exact Props.C19_gram B (.int n) true R hB.allMat hB.cols hke (by
      rw [kept_int, List.length_eraseIdx, if_pos hn', hB.length]; unfold order at h25; omega)
  obtain ⟨K2, G, grams, hK2, hG, hgr, hhad⟩ := hgram hA
  rw [hK] at hK2
  cases hK2
  obtain ⟨K3, G', grams', hK3, hG', hgr', hhad'⟩ := hgram (hA.components π)
  rw [hK'] at hK3
  cases hK3
  rw [matmul_tn_cols hπ hKs hKs, hG] at hG'
  cases hG'
  obtain ⟨hGs, -⟩ := toMat_matmul_tn hKs hKs hG
  unfold NCP.modeUpdate
  rw [show (colState (fun _ => π) s).A = renumComponents π s.A from renumModes_const π s.A, hM, ok_bind, ok_bind, hgr, hgr',
    ok_bind, ok_bind, hK, hK', ok_bind, ok_bind, matmul_nn_cols hπ hMs hKs, hXA, ok_bind]
  change (do let XA ← (Except.ok (renumCols π XA) : Res (Tensor ℝ)); _) = _
  rw [ok_bind, hhad, hhad', ok_bind, ok_bind]
  refine factorStep_modes ht (τ := fun _ => π) hR hπ (fun m hm => ?_) hGs hXAs
  have := congrArg (fun l => l[n]?) hs.Am
  have hn2 : n < X.shape.length := hn
  simp only [List.getElem?_map, hm, List.getElem?_eq_getElem hn2, Option.map_some, Option.some.injEq] at this
  rw [this, List.getD_eq_getElem _ _ hn2]

theorem NCP.sweep_modes {topSv : Tensor ℝ → Res ℝ} (ht : TopSvOk topSv) {X : Tensor ℝ} {π : Nat → Nat} {R : Nat}
    (hR : 0 < R) (hπ : Set.BijOn π (Set.Iio R) (Set.Iio R)) (h2 : 2 ≤ X.order) (h25 : X.order ≤ 25)
    (hpos : ∀ d ∈ X.shape, 0 < d) :
    ∀ (l : List Nat) {s : State}, (∀ n ∈ l, n < X.order) → FactorsOk (X.shape.map fun d => [d, R]) s →
    l.foldlM (NCP.modeUpdate topSv X) (colState (fun _ => π) s) = colState (fun _ => π) <$> l.foldlM (NCP.modeUpdate topSv X) s
  | [], _, _, _ => rfl
  | n :: l, s, hl, hs => by
      have hn := hl n (by simp)
      rw [List.foldlM_cons, List.foldlM_cons, NCP.modeUpdate_modes ht hR hπ hs h2 h25 hn (cp.getD_pos hpos hn)]
      cases he : NCP.modeUpdate topSv X s n with
      | error e => rfl
      | ok s' =>
          obtain ⟨V, XA, hf⟩ := NCP.modeUpdate_inv he
          exact NCP.sweep_modes ht hR hπ h2 h25 hpos l (fun m hm => hl m (by simp [hm])) (hs.factorStep hf)

theorem NCP.fullOf_components {A : List (Tensor ℝ)} {shape : List Nat} {R : Nat} {π : Nat → Nat}
    (hπ : Set.BijOn π (Set.Iio R) (Set.Iio R)) (hA : FactorsFor shape R A) (hne : shape ≠ []) (h25 : shape.length ≤ 25) :
    NCP.fullOf (renumComponents π A) = NCP.fullOf A := by
  obtain ⟨Y, h1, h2, h3⟩ := NCP.fullOf_spec hA hne h25
  obtain ⟨Y', h1', h2', h3'⟩ := NCP.fullOf_spec (hA.components π) hne h25
  rw [h1, h1']
  congr 1
  refine ext_at (h2'.trans h2.symm) fun i hi => ?_
  rw [h2'] at hi
  rw [h3' i hi, h3 i hi]
  have e := sum_renum hπ fun r => khatriEntry r A i
  rw [← e]
  refine Finset.sum_congr rfl fun r hr => ?_
  rw [khatriEntry_components (Finset.mem_range.1 hr) hA hi]

theorem NCP.main_modes {topSv : Tensor ℝ → Res ℝ} (ht : TopSvOk topSv) {X : Tensor ℝ} {π : Nat → Nat} {R : Nat}
    (hR : 0 < R) (hπ : Set.BijOn π (Set.Iio R) (Set.Iio R)) (h2 : 2 ≤ X.order) (h25 : X.order ≤ 25)
    (hpos : ∀ d ∈ X.shape, 0 < d) {s : State} (hs : FactorsOk (X.shape.map fun d => [d, R]) s) :
    NCP.main topSv X (colState (fun _ => π) s) =
      (fun r => (colState (fun _ => π) r.1, r.2.mapOut (renumComponents π) id)) <$> NCP.main topSv X s := by
  have hne : X.shape ≠ [] := by intro e; unfold order at h2; rw [e] at h2; simp at h2
  unfold NCP.main
  rw [NCP.sweep_modes ht hR hπ h2 h25 hpos _ (fun n hn => by simpa using hn) hs]
  cases he : (List.range X.order).foldlM (NCP.modeUpdate topSv X) s with
  | error e => rfl
  | ok s' =>
  obtain ⟨f1, -⟩ := NCP.sweep_inv hs he
  rw [ok_bind]
  change (do let st ← (Except.ok (colState (fun _ => π) s') : Res _); _) = _
  rw [ok_bind, show (colState (fun _ => π) s').A = renumComponents π s'.A from renumModes_const π s'.A,
    NCP.fullOf_components hπ f1.factorsFor.1 hne h25]
  cases NCP.fullOf s'.A with
  | error e => rfl
  | ok Y => cases h : cp.scalars X Y <;> simp only [ok_bind, h] <;> rfl

end TD.bcu
