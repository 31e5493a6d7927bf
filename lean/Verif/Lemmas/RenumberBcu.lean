import Verif.Lemmas.RenumberTrain

/-! # Renumbering in `NCP_BCU` -/
namespace TD.bcu
open TD Spec Tensor tf ops Matrix fact

/-- The variables with renumbered factors. -/
noncomputable def renState (σ : Nat → Nat → Nat) (s : State) : State :=
  { s with A := renumFactors σ s.A, A0 := renumFactors σ s.A0, Am := renumFactors σ s.Am }

theorem getVar_renum (σ : Nat → Nat → Nat) (vs : List (Tensor ℝ)) (k : Nat) :
    getVar (renumFactors σ vs) k = renumRows (σ k) <$> getVar vs k := by
  unfold getVar
  rw [getElem?_renumFactors]
  cases vs[k]? <;> rfl

theorem getVar_inv {vs : List (Tensor ℝ)} {k : Nat} {v : Tensor ℝ} (h : getVar vs k = .ok v) : vs[k]? = some v := by
  unfold getVar at h
  split at h
  · rename_i e; cases h; exact e
  · cases h

section rows
variable {π : Nat → Nat} {I R : Nat}

theorem map_renumRows (h : Set.BijOn π (Set.Iio I) (Set.Iio I)) {A : Tensor ℝ} (hA : A.shape = [I, R]) (f : ℝ → ℝ) :
    tf.map f (renumRows π A) = renumRows π (tf.map f A) :=
  map_renum (by rw [hA]; exact renumbering_rows h) f

theorem ewise_renumRows (h : Set.BijOn π (Set.Iio I) (Set.Iio I)) {A B : Tensor ℝ} (hA : A.shape = [I, R])
    (hB : B.shape = [I, R]) (f : ℝ → ℝ → ℝ) :
    tf.ewise f (renumRows π A) (renumRows π B) = renumRows π <$> tf.ewise f A B :=
  ewise_renum (by rw [hA]; exact renumbering_rows h) (hA.trans hB.symm) f

theorem norm_renumRows (h : Set.BijOn π (Set.Iio I) (Set.Iio I)) {A : Tensor ℝ} (hA : A.shape = [I, R]) :
    tf.norm (renumRows π A) = tf.norm A := norm_renum (by rw [hA]; exact renumbering_rows h)

theorem proxStep_renum (h : Set.BijOn π (Set.Iio I) (Set.Iio I)) {m G : Tensor ℝ} (hm : m.shape = [I, R])
    (hG : G.shape = [I, R]) (L : ℝ) : proxStep (renumRows π m) (renumRows π G) L = renumRows π <$> proxStep m G L := by
  unfold proxStep
  by_cases h0 : L = 0
  · rw [if_pos h0, if_pos h0]; rfl
  · rw [if_neg h0, if_neg h0, map_renumRows h hG, ewise_renumRows h hm (by exact hG)]
    rw [ewise_same (A := m) _ (show m.shape = (tf.map (· / L) G).shape from hm.trans hG.symm)]
    show Except.ok _ = Except.ok _
    congr 1
    exact map_renumRows h (A := ofFn m.shape _) hm _

theorem extrapolate_renum (h : Set.BijOn π (Set.Iio I) (Set.Iio I)) {v v0 : Tensor ℝ} (hv : v.shape = [I, R])
    (hv0 : v0.shape = [I, R]) (w : ℝ) :
    extrapolate w (renumRows π v) (renumRows π v0) = renumRows π <$> extrapolate w v v0 := by
  unfold extrapolate
  rw [ewise_renumRows h hv hv0, ewise_same (A := v) (B := v0) _ (hv.trans hv0.symm)]
  change (do let d ← (Except.ok (renumRows π _) : Res (Tensor ℝ)); _) = _
  rw [ok_bind, ok_bind, map_renumRows h (A := ofFn v.shape _) hv, ewise_renumRows h hv (by exact hv)]

theorem normInit_renum (h : Set.BijOn π (Set.Iio I) (Set.Iio I)) {X : Tensor ℝ} {σ : Nat → Nat → Nat}
    (hσ : Renumbering X.shape σ) (p : Nat) {d : Tensor ℝ} (hd : d.shape = [I, R]) :
    normInit (renum σ X) p (relu (renumRows π d)) = renumRows π <$> normInit X p (relu d) := by
  unfold normInit relu
  rw [map_renumRows h hd, norm_renumRows h (by exact hd), norm_renum hσ]
  split
  · rfl
  · rw [map_renumRows h (by exact hd)]; rfl

end rows

theorem stepVal_renum {topSv : Tensor ℝ → Res ℝ} {σ : Nat → Nat → Nat} {I R n : Nat}
    (h : Set.BijOn (σ n) (Set.Iio I) (Set.Iio I)) (A : List (Tensor ℝ)) {Am : List (Tensor ℝ)}
    (hm : ∀ m, Am[n]? = some m → m.shape = [I, R]) {V XA : Tensor ℝ} (hV : V.shape = [R, R]) (hXA : XA.shape = [I, R]) :
    stepVal topSv (renumFactors σ A) (renumFactors σ Am) n V (renumRows (σ n) XA) =
      (fun r => (renumFactors σ r.1, r.2)) <$> stepVal topSv A Am n V XA := by
  unfold stepVal
  cases topSv V with
  | error e => rfl
  | ok l =>
  rw [ok_bind, ok_bind, getVar_renum]
  cases hg : getVar Am n with
  | error e => rfl
  | ok m =>
  have hms := hm m (getVar_inv hg)
  rw [ok_bind]
  change (do let m ← (Except.ok (renumRows (σ n) m) : Res (Tensor ℝ)); _) = _
  rw [ok_bind, matmul_nn_renum hms hV h]
  obtain ⟨mV, hmV⟩ : ∃ mV, tf.matmul m V = .ok mV := ⟨_, matmul_nn hms hV⟩
  obtain ⟨hmVs, -⟩ := toMat_matmul_nn hms hV hmV
  rw [hmV, ok_bind]
  change (do let m ← (Except.ok (renumRows (σ n) mV) : Res (Tensor ℝ)); _) = _
  rw [ok_bind, ewise_renumRows h hmVs hXA, ewise_same (A := mV) (B := XA) _ (hmVs.trans hXA.symm), ok_bind]
  change (do let m ← (Except.ok (renumRows (σ n) _) : Res (Tensor ℝ)); _) = _
  rw [ok_bind, proxStep_renum h hms (by exact hmVs)]
  cases proxStep m _ l with
  | error e => rfl
  | ok v =>
  rw [ok_bind]
  change (do let m ← (Except.ok (renumRows (σ n) v) : Res (Tensor ℝ)); _) = _
  rw [ok_bind, assign_renum]
  cases tf.assign A n v <;> rfl

theorem factorStep_renum {topSv : Tensor ℝ → Res ℝ} {σ : Nat → Nat → Nat} {I R n : Nat}
    (h : Set.BijOn (σ n) (Set.Iio I) (Set.Iio I)) {s : State}
    (hm : ∀ m, s.Am[n]? = some m → m.shape = [I, R]) {V XA : Tensor ℝ} (hV : V.shape = [R, R]) (hXA : XA.shape = [I, R]) :
    factorStep topSv (renState σ s) n V (renumRows (σ n) XA) = renState σ <$> factorStep topSv s n V XA := by
  rw [factorStep_val, factorStep_val]
  change _ <$> stepVal topSv (renumFactors σ s.A) (renumFactors σ s.Am) n V (renumRows (σ n) XA) = _
  rw [stepVal_renum h s.A hm hV hXA]
  cases stepVal topSv s.A s.Am n V XA <;> rfl

theorem passVal_renum {σ : Nat → Nat → Nat} {I R k : Nat} (h : Set.BijOn (σ k) (Set.Iio I) (Set.Iio I))
    {A A0 : List (Tensor ℝ)} (hA : ∀ m, A[k]? = some m → m.shape = [I, R]) (hA0 : ∀ m, A0[k]? = some m → m.shape = [I, R])
    (Am : List (Tensor ℝ)) (cap : Res ℝ) :
    passVal cap (renumFactors σ A) (renumFactors σ A0) (renumFactors σ Am) k =
      (fun r => (r.1, renumFactors σ r.2.1, renumFactors σ r.2.2)) <$> passVal cap A A0 Am k := by
  unfold passVal
  cases cap with
  | error e => rfl
  | ok w =>
  rw [ok_bind, ok_bind, getVar_renum]
  cases hg : getVar A k with
  | error e => rfl
  | ok a =>
  rw [ok_bind]
  change (do let m ← (Except.ok (renumRows (σ k) a) : Res (Tensor ℝ)); _) = _
  rw [ok_bind, getVar_renum]
  cases hg0 : getVar A0 k with
  | error e => rfl
  | ok a0 =>
  rw [ok_bind]
  change (do let m ← (Except.ok (renumRows (σ k) a0) : Res (Tensor ℝ)); _) = _
  rw [ok_bind, extrapolate_renum h (hA a (getVar_inv hg)) (hA0 a0 (getVar_inv hg0))]
  cases extrapolate w a a0 with
  | error e => rfl
  | ok m =>
  rw [ok_bind]
  change (do let m ← (Except.ok (renumRows (σ k) m) : Res (Tensor ℝ)); _) = _
  rw [ok_bind, assign_renum, assign_renum]
  cases tf.assign Am k m with
  | error e => rfl
  | ok B =>
  rw [ok_bind]
  change (do let m ← (Except.ok (renumFactors σ B) : Res (List (Tensor ℝ))); _) = _
  rw [ok_bind]
  cases tf.assign A0 k a <;> rfl

/-- The factors of mode `k` have as many rows as the data has indices along mode `k`. -/
def RowsOk (shape : List Nat) (sh : List (List Nat)) : Prop :=
  ∀ k s, sh[k]? = some s → k < shape.length ∧ ∃ c, s = [shape.getD k 0, c]

theorem RowsOk.get {shape : List Nat} {sh : List (List Nat)} (h : RowsOk shape sh) {U : List (Tensor ℝ)}
    (hU : U.map Tensor.shape = sh) {k : Nat} (hk : k < U.length) : k < shape.length ∧ ∃ c, sh[k]? = some [shape.getD k 0, c] ∧
      ∀ m, U[k]? = some m → m.shape = [shape.getD k 0, c] := by
  have e : sh[k]? = some U[k].shape := by rw [← hU, List.getElem?_map, List.getElem?_eq_getElem hk]; rfl
  obtain ⟨h1, c, h2⟩ := h k _ e
  refine ⟨h1, c, by rw [e, h2], fun m hm => ?_⟩
  rw [List.getElem?_eq_getElem hk] at hm
  cases hm; exact h2

theorem extrapolateMode_renum {shape : List Nat} {sh : List (List Nat)} (hsh : RowsOk shape sh) {σ : Nat → Nat → Nat}
    (hσ : Renumbering shape σ) {s : State} (hs : FactorsOk sh s) (w : ℝ) (k : Nat) :
    extrapolateMode w (renState σ s) k = renState σ <$> extrapolateMode w s k := by
  have e1 : cappedWeight (renState σ s) w k = cappedWeight s w k := rfl
  rw [extrapolateMode_val, extrapolateMode_val, e1]
  change _ <$> passVal _ (renumFactors σ s.A) (renumFactors σ s.A0) (renumFactors σ s.Am) k = _
  by_cases hk : k < s.A.length
  · obtain ⟨h1, c, h2, h3⟩ := hsh.get hs.A hk
    have hA0 : ∀ m, s.A0[k]? = some m → m.shape = [shape.getD k 0, c] := fun m hm => by
      have := congrArg (fun l => l[k]?) hs.A0
      simp only [List.getElem?_map, hm, h2, Option.map_some, Option.some.injEq] at this
      exact this
    rw [passVal_renum (hσ k h1) h3 hA0]
    cases passVal (cappedWeight s w k) s.A s.A0 s.Am k <;> rfl
  · have e : ∀ A, s.A.length = A.length → getVar A k = .error .indexError := fun A hA => by
      unfold getVar; rw [List.getElem?_eq_none (by omega)]
    unfold passVal
    rw [e _ rfl, e _ (by rw [length_renumFactors])]
    cases cappedWeight s w k <;> rfl

theorem extrapolates_renum {shape : List Nat} {sh : List (List Nat)} (hsh : RowsOk shape sh) {σ : Nat → Nat → Nat}
    (hσ : Renumbering shape σ) (w : ℝ) : ∀ (l : List Nat) {s : State}, (∀ k ∈ l, 0 ≤ k) → FactorsOk sh s →
    l.foldlM (extrapolateMode w) (renState σ s) = renState σ <$> l.foldlM (extrapolateMode w) s
  | [], _, _, _ => rfl
  | k :: l, s, hl, hs => by
      rw [List.foldlM_cons, List.foldlM_cons, extrapolateMode_renum hsh hσ hs]
      cases he : extrapolateMode w s k with
      | error e => rfl
      | ok s' =>
          refine extrapolates_renum hsh hσ w l (fun k hk => by omega) ?_
          obtain ⟨wk, a, a0, m, -, h2, h3, -, h5, h6, -, rfl⟩ := extrapolateMode_inv he
          refine ⟨hs.A, h6.trans hs.A0, h5.trans hs.Am, hs.nonneg, fun M hM => ?_⟩
          rcases List.mem_or_eq_of_mem_set hM with hM | rfl
          · exact hs.nonneg0 M hM
          · exact hs.nonneg _ (List.mem_of_getElem? h2)

theorem NCP.op1_renum {shape : List Nat} {sh : List (List Nat)} (hsh : RowsOk shape sh) {σ : Nat → Nat → Nat}
    (hσ : Renumbering shape σ) {s : State} (hs : FactorsOk sh s) (N : Nat) :
    NCP.op1 N (renState σ s) = renState σ <$> NCP.op1 N s := by
  unfold NCP.op1
  rw [show weight (renState σ s) = weight s from rfl]
  cases weight s with
  | error e => rfl
  | ok w =>
  rw [ok_bind, ok_bind, extrapolates_renum hsh hσ w _ (fun _ _ => Nat.zero_le _) hs]
  cases (List.range N).foldlM (extrapolateMode w) s <;> rfl

theorem init_renum {X : Tensor ℝ} {σ : Nat → Nat → Nat} (hσ : Renumbering X.shape σ) (p : Nat) {draws : List (Tensor ℝ)}
    {sh : List (List Nat)} (hsh : RowsOk X.shape sh) (hd : draws.map Tensor.shape = sh) :
    bcu.init (renum σ X) p (renumFactors σ draws) = renState σ <$> bcu.init X p draws := by
  have key : ∀ (k : Nat) (l : List (Tensor ℝ)), (∀ j m, l[j]? = some m → k + j < X.shape.length ∧ ∃ c, m.shape = [X.shape.getD (k + j) 0, c]) →
      (renumFactors (fun j => σ (k + j)) l).mapM (fun d => normInit (renum σ X) p (relu d)) =
        renumFactors (fun j => σ (k + j)) <$> l.mapM fun d => normInit X p (relu d) := by
    intro k l
    induction l generalizing k with
    | nil => intro _; rfl
    | cons d l ih =>
        intro h
        obtain ⟨h1, c, h2⟩ := h 0 d rfl
        rw [renumFactors_cons, List.mapM_cons, List.mapM_cons]
        simp only [Nat.add_zero] at h1 h2 ⊢
        rw [normInit_renum (hσ k h1) hσ p h2]
        have := ih (k + 1) fun j m hm => by
          have := h (j + 1) m (by simpa using hm)
          rwa [show k + (j + 1) = k + 1 + j by omega] at this
        simp only [show ∀ j, k + 1 + j = k + (j + 1) from fun j => by omega] at this
        rw [this]
        cases normInit X p (relu d) with
        | error e => rfl
        | ok v =>
        rw [ok_bind]
        change (do let m ← (Except.ok (renumRows (σ k) v) : Res (Tensor ℝ)); _) = _
        rw [ok_bind]
        cases l.mapM fun d => normInit X p (relu d) with
        | error e => rfl
        | ok vs =>
            change Except.ok _ = Except.ok _
            rw [renumFactors_cons]
            rfl
  have := key 0 draws fun j m hm => by
    have hj : j < draws.length := (List.getElem?_eq_some_iff.1 hm).1
    obtain ⟨a, c, -, b⟩ := hsh.get hd hj
    rw [Nat.zero_add]
    exact ⟨a, c, b m hm⟩
  simp only [Nat.zero_add] at this
  unfold bcu.init
  rw [this]
  cases draws.mapM fun d => normInit X p (relu d) <;> rfl

/-! ### `NCP_BCU` -/

theorem rowsOk_cp (shape : List Nat) (R : Nat) : RowsOk shape (shape.map fun d => [d, R]) := by
  intro k s h
  rw [List.getElem?_map, Option.map_eq_some_iff] at h
  obtain ⟨d, h1, rfl⟩ := h
  obtain ⟨hk, rfl⟩ := List.getElem?_eq_some_iff.1 h1
  exact ⟨hk, R, by rw [List.getD_eq_getElem _ _ hk]⟩

theorem NCP.modeUpdate_renum {topSv : Tensor ℝ → Res ℝ} {X : Tensor ℝ} {σ : Nat → Nat → Nat}
    (hσ : Renumbering X.shape σ) {R n : Nat} {s : State} (hs : FactorsOk (X.shape.map fun d => [d, R]) s) (h2 : 2 ≤ X.order)
    (h25 : X.order ≤ 25) (hn : n < X.order) (hpos : 0 < X.shape.getD n 0) :
    NCP.modeUpdate topSv (renum σ X) (renState σ s) n = renState σ <$> NCP.modeUpdate topSv X s n := by
  have hA := hs.factorsFor.1
  have hπ := hσ n hn
  obtain ⟨M, M', hM, hM', hMs, hMs', eM⟩ := unfold_renum hσ hn hpos
  obtain ⟨K, K', hK, hK', hKs, hKs', eK⟩ := khatri_renum hσ hA h2 h25 hn hpos
  have hX := matmul_cancel hMs hKs hMs' hKs' hπ (colPerm_bij hσ hn hpos) eM eK
  obtain ⟨XA, hXA⟩ : ∃ XA, matmul M K = .ok XA := ⟨_, matmul_nn hMs hKs⟩
  obtain ⟨hXAs, -⟩ := toMat_matmul_nn hMs hKs hXA
  have hn' : n < s.A.length := by rw [hA.length]; exact hn
  have hke : kept s.A (.int n) ≠ [] := by
    rw [kept_int]; intro e
    have := congrArg List.length e
    rw [List.length_eraseIdx, if_pos hn', hA.length] at this
    unfold order at h2
    simp at this; omega
  obtain ⟨K2, G, grams, hK2, hG, hgr, hhad⟩ := Props.C19_gram s.A (.int n) true R hA.allMat hA.cols hke (by
    rw [kept_int, List.length_eraseIdx, if_pos hn', hA.length]; unfold order at h25; omega)
  rw [hK] at hK2
  cases hK2
  obtain ⟨hGs, -⟩ := toMat_matmul_tn hKs hKs hG
  unfold NCP.modeUpdate
  rw [show (renState σ s).A = renumFactors σ s.A from rfl, hM', hM, ok_bind, ok_bind, grams_renum hA hσ, hgr, ok_bind, ok_bind, hK, hK', ok_bind, ok_bind, hX, hXA, ok_bind]
  change (do let XA ← (Except.ok (renumRows (σ n) XA) : Res (Tensor ℝ)); _) = _
  rw [ok_bind, hhad, ok_bind, ok_bind, factorStep_renum hπ (fun m hm => ?_) hGs hXAs]
  have := congrArg (fun l => l[n]?) hs.Am
  have hn2 : n < X.shape.length := hn
  simp only [List.getElem?_map, hm, List.getElem?_eq_getElem hn2, Option.map_some, Option.some.injEq] at this
  rw [this, List.getD_eq_getElem _ _ hn2]

theorem NCP.sweep_renum {topSv : Tensor ℝ → Res ℝ} {X : Tensor ℝ} {σ : Nat → Nat → Nat}
    (hσ : Renumbering X.shape σ) {R : Nat} (h2 : 2 ≤ X.order) (h25 : X.order ≤ 25) (hpos : ∀ d ∈ X.shape, 0 < d) :
    ∀ (l : List Nat) {s : State}, (∀ n ∈ l, n < X.order) → FactorsOk (X.shape.map fun d => [d, R]) s →
    l.foldlM (NCP.modeUpdate topSv (renum σ X)) (renState σ s) = renState σ <$> l.foldlM (NCP.modeUpdate topSv X) s
  | [], _, _, _ => rfl
  | n :: l, s, hl, hs => by
      have hn := hl n (by simp)
      have hpn : 0 < X.shape.getD n 0 := by
        rw [List.getD_eq_getElem _ _ hn]; exact hpos _ (List.getElem_mem hn)
      rw [List.foldlM_cons, List.foldlM_cons, NCP.modeUpdate_renum hσ hs h2 h25 hn hpn]
      cases he : NCP.modeUpdate topSv X s n with
      | error e => rfl
      | ok s' =>
          obtain ⟨V, XA, hf⟩ := NCP.modeUpdate_inv he
          exact NCP.sweep_renum hσ h2 h25 hpos l (fun m hm => hl m (by simp [hm])) (hs.factorStep hf)

theorem NCP.fullOf_renum {A : List (Tensor ℝ)} {shape : List Nat} {R : Nat} {σ : Nat → Nat → Nat}
    (hσ : Renumbering shape σ) (hA : FactorsFor shape R A) (hne : shape ≠ []) (h25 : shape.length ≤ 25) :
    NCP.fullOf (renumFactors σ A) = renum σ <$> NCP.fullOf A := by
  obtain ⟨Y, h1, h2, h3⟩ := NCP.fullOf_spec hA hne h25
  obtain ⟨Y', h1', h2', h3'⟩ := NCP.fullOf_spec (hA.renum σ) hne h25
  rw [h1, h1']
  show Except.ok _ = Except.ok _
  congr 1
  refine ext_at (h2'.trans h2.symm) fun i hi => ?_
  rw [h2'] at hi
  rw [h3' i hi, at_renum σ (by rw [h2]; exact hi), h3 _ (hσ.inB hi)]
  refine Finset.sum_congr rfl fun r hr => ?_
  rw [khatriEntry_renum (Finset.mem_range.1 hr) hA hi]

theorem NCP.main_renum {topSv : Tensor ℝ → Res ℝ} {X : Tensor ℝ} {σ : Nat → Nat → Nat}
    (hσ : Renumbering X.shape σ) {R : Nat} (h2 : 2 ≤ X.order) (h25 : X.order ≤ 25) (hpos : ∀ d ∈ X.shape, 0 < d)
    {s : State} (hs : FactorsOk (X.shape.map fun d => [d, R]) s) :
    NCP.main topSv (renum σ X) (renState σ s) =
      (fun r => (renState σ r.1, r.2.mapOut (renumFactors σ) (renum σ))) <$> NCP.main topSv X s := by
  have hne : X.shape ≠ [] := by intro e; unfold order at h2; rw [e] at h2; simp at h2
  unfold NCP.main
  rw [show (renum σ X).order = X.order from rfl, NCP.sweep_renum hσ h2 h25 hpos _ (fun n hn => by simpa using hn) hs]
  cases he : (List.range X.order).foldlM (NCP.modeUpdate topSv X) s with
  | error e => rfl
  | ok s' =>
  obtain ⟨f1, -⟩ := NCP.sweep_inv hs he
  rw [ok_bind]
  change (do let st ← (Except.ok (renState σ s') : Res _); _) = _
  rw [ok_bind]
  change (do let full ← NCP.fullOf (renumFactors σ s'.A); _) = _
  rw [NCP.fullOf_renum hσ f1.factorsFor.1 hne h25]
  obtain ⟨Y, y1, y2, -⟩ := NCP.fullOf_spec f1.factorsFor.1 hne h25
  rw [y1, ok_bind]
  change (do let r ← (Except.ok (renum σ Y) : Res _); _) = _
  rw [ok_bind, scalars_renum hσ y2]
  cases cp.scalars X Y <;> rfl

end TD.bcu
