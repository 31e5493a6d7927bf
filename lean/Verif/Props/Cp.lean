import Verif.Lemmas.Cp
import Verif.Props.Train

/-!
# C50 - C52, C72 : `CP_ALS`
-/
namespace TD.Props
open TD Spec Tensor fact

/-- The Moore-Penrose oracle exists, so the hypothesis on `numpy.linalg.pinv` can be met. -/
theorem exists_pinvOk : ∃ pinv, PinvOk pinv := by
  classical
  refine ⟨fun V => if h : ∃ P : Tensor ℝ, ∃ n, V.shape = [n, n] ∧ P.shape = [n, n] ∧
    IsPinv (toMat V n n) (toMat P n n) then .ok h.choose else .error .invalidArgument, fun V n hV => ?_⟩
  have h : ∃ P : Tensor ℝ, ∃ n, V.shape = [n, n] ∧ P.shape = [n, n] ∧ IsPinv (toMat V n n) (toMat P n n) := by
    obtain ⟨P, hP⟩ := exists_pinv (toMat V n n)
    let f : Nat → Nat → ℝ := fun i j => if hi : i < n then if hj : j < n then P ⟨i, hi⟩ ⟨j, hj⟩ else 0 else 0
    refine ⟨mat n n f, n, hV, rfl, ?_⟩
    have : toMat (mat n n f) n n = P := by
      rw [toMat_mat]; ext i j
      simp [f]
    rw [this]; exact hP
  obtain ⟨m, h1, h2, h3⟩ := h.choose_spec
  rw [hV] at h1
  simp only [List.cons.injEq, and_true] at h1
  obtain ⟨rfl, -⟩ := h1
  exact ⟨h.choose, dif_pos h, h2, h3⟩

/-! ### C50 -/

/-- **C50**: whatever the current factors `A`, the unnormalised factor computed for a mode fits the tensor at
least as well as every other matrix `B` in that place. -/
theorem C50_least_squares (pinv : Tensor ℝ → Res (Tensor ℝ)) (hp : PinvOk pinv) (X : Tensor ℝ) (R mode : Nat)
    (A : List (Tensor ℝ)) (hA : FactorsFor X.shape R A) (h2 : 2 ≤ X.order) (h25 : X.order ≤ 25)
    (hm : mode < X.order) (hpos : ∀ d ∈ X.shape, 0 < d) (u : cp.Upd ℝ)
    (h : cp.modeUpdate pinv X R A mode = .ok u) (B : Tensor ℝ) (hB : B.shape = [X.shape.getD mode 0, R]) :
    cpErr X R (A.set mode u.nonNorm) (fun _ => 1) ≤ cpErr X R (A.set mode B) fun _ => 1 := by
  obtain ⟨K, N, lam, P, hK, hKs, hNs, hls, hP, hN, -, he⟩ :=
    cp.modeUpdate_eq hp hA h2 h25 hm (cp.getD_pos hpos hm)
  rw [he] at h
  by_cases h0 : (0 : ℝ) ∈ lam.data
  · rw [if_pos h0] at h; cases h
  rw [if_neg h0] at h
  cases h
  rw [(cpErr_frob _ hA h2 h25 hm hNs hK).2, (cpErr_frob _ hA h2 h25 hm hB hK).2]
  have e : (Matrix.of fun (i : Fin (X.shape.getD mode 0)) (r : Fin R) => N.at_ [(i : Nat), (r : Nat)] * 1) =
      toMat N (X.shape.getD mode 0) R := by
    ext i r; rw [Matrix.of_apply, mul_one]; rfl
  rw [e, hN]
  exact least_squares_le _ _ _ hP _

/-- **C50** (normalised form): the assigned factor together with the weights is as good as the best `B` with the
best weights. -/
theorem C50_normalised (pinv : Tensor ℝ → Res (Tensor ℝ)) (hp : PinvOk pinv) (X : Tensor ℝ) (R mode : Nat)
    (A : List (Tensor ℝ)) (hA : FactorsFor X.shape R A) (h2 : 2 ≤ X.order) (h25 : X.order ≤ 25)
    (hm : mode < X.order) (hpos : ∀ d ∈ X.shape, 0 < d) (u : cp.Upd ℝ)
    (h : cp.modeUpdate pinv X R A mode = .ok u) (B : Tensor ℝ) (hB : B.shape = [X.shape.getD mode 0, R])
    (w : Nat → ℝ) :
    cpErr X R u.A (fun r => u.lam.at_ [r]) ≤ cpErr X R (A.set mode B) w :=
  (cp.modeUpdate_descends hp hA h2 h25 hm (cp.getD_pos hpos hm) h).2.2.1 B w hB

/-- **C50** (domain): an update of a well-shaped state never raises; it leaves the finite numbers exactly when
some column of the unnormalised factor has maximum 0. -/
theorem C50_total (pinv : Tensor ℝ → Res (Tensor ℝ)) (hp : PinvOk pinv) (X : Tensor ℝ) (R mode : Nat)
    (A : List (Tensor ℝ)) (hA : FactorsFor X.shape R A) (h2 : 2 ≤ X.order) (h25 : X.order ≤ 25)
    (hm : mode < X.order) (hpos : ∀ d ∈ X.shape, 0 < d) :
    (∃ u, cp.modeUpdate pinv X R A mode = .ok u) ∨ cp.modeUpdate pinv X R A mode = .error .nonFinite := by
  obtain ⟨K, N, lam, P, -, -, -, -, -, -, -, he⟩ := cp.modeUpdate_eq hp hA h2 h25 hm (cp.getD_pos hpos hm)
  by_cases h0 : (0 : ℝ) ∈ lam.data
  · right; rw [he, if_pos h0]
  · left; exact ⟨_, by rw [he, if_neg h0]⟩

/-! ### C51, C72 -/

/-- The steps of a CP run, one after the other. -/
theorem cp_run {pinv : Tensor ℝ → Res (Tensor ℝ)} (hp : PinvOk pinv) {X : Tensor ℝ} {R : Nat}
    {A0 : List (Tensor ℝ)} (hA : FactorsFor X.shape R A0) (h2 : 2 ≤ X.order) (h25 : X.order ≤ 25)
    (hpos : ∀ d ∈ X.shape, 0 < d) {Ar : Arith ℝ} {tol : ℝ} {n : Nat}
    {o : Nat → Out (List (Tensor ℝ)) (Tensor ℝ) (Tensor ℝ) ℝ} {k : Nat → Option (Tensor ℝ)}
    (h : Run Ar (CP_ALS.cls (cp.main pinv X R)) tol A0 n o k) :
    ∃ σ : Nat → List (Tensor ℝ), σ 0 = A0 ∧ ∀ j < n, FactorsFor X.shape R (σ j) ∧ ∃ s,
      cp.main pinv X R (σ j) = .ok (s, o j) ∧ (j + 1 < n → σ (j + 1) = s) := by
  obtain ⟨⟨σ, h0, hs⟩, -⟩ := h
  refine ⟨σ, h0, fun j => ?_⟩
  induction j with
  | zero =>
      intro hj
      obtain ⟨s, hr, hu⟩ := hs 0 hj
      exact ⟨h0 ▸ hA, s, hr.2, fun h => hu h⟩
  | succ j ih =>
      intro hj
      obtain ⟨hf, s, hm, hn⟩ := ih (by omega)
      obtain ⟨lam, -, hf', -⟩ := cp.main_ok hp hf h2 h25 hpos hm
      obtain ⟨s', hr, hu⟩ := hs (j + 1) hj
      refine ⟨?_, s', hr.2, fun h => hu h⟩
      rw [hn hj]; exact hf'

theorem pairwise_of_steps {hist : List (ℝ × ℝ)} {v : Nat → ℝ} (hv : ∀ j < hist.length, (hist[j]?).map Prod.snd = some (v j))
    (hmono : ∀ j, j + 1 < hist.length → v (j + 1) ≤ v j) : (hist.map Prod.snd).Pairwise (· ≥ ·) := by
  have hm : ∀ d i, i + d < hist.length → v (i + d) ≤ v i := by
    intro d
    induction d with
    | zero => intro i _; exact le_refl _
    | succ d ih => intro i h; exact le_trans (hmono (i + d) h) (ih i (by omega))
  rw [List.pairwise_iff_getElem]
  intro i j hi hj hij
  simp only [List.length_map] at hi hj
  have a := hv i hi
  have b := hv j hj
  rw [List.getElem?_eq_getElem hi, Option.map_some, Option.some.injEq] at a
  rw [List.getElem?_eq_getElem hj, Option.map_some, Option.some.injEq] at b
  rw [List.getElem_map, List.getElem_map, a, b]
  obtain ⟨d, rfl⟩ : ∃ d, j = i + d := ⟨j - i, by omega⟩
  exact hm d i hj

/-- **C51**: the residuals in the history returned by `train` never increase, and the objectives of the steps
do not either.  `Ar` is the arithmetic used by the stopping test; the model stops at a zero normalising weight. -/
theorem C51_objective_nonincreasing (pinv : Tensor ℝ → Res (Tensor ℝ)) (hp : PinvOk pinv) (X : Tensor ℝ) (R : Nat)
    (A0 : List (Tensor ℝ)) (hA : FactorsFor X.shape R A0) (h2 : 2 ≤ X.order) (h25 : X.order ≤ 25)
    (hpos : ∀ d ∈ X.shape, 0 < d) (Ar : Arith ℝ) (args : Args ℝ) (steps : Int)
    (self self' : Self (List (Tensor ℝ)) (Tensor ℝ) (Tensor ℝ)) (ev : List Int) (hist : List (ℝ × ℝ))
    (h : train Ar (CP_ALS.cls (cp.main pinv X R)) args steps (.ok A0) self = (self', ev, .ok hist)) :
    (hist.map Prod.snd).Pairwise (· ≥ ·) ∧
    ∃ o k, Run Ar (CP_ALS.cls (cp.main pinv X R)) args.tol A0 hist.length o k ∧
      ∀ j, j + 1 < hist.length → (o (j + 1)).obj ≤ (o j).obj := by
  obtain ⟨s0, o, k, hs0, -, -, hrun, hh⟩ := C43_history Ar _ args steps _ self self' ev hist h
  cases hs0
  obtain ⟨σ, h0, hσ⟩ := cp_run hp hA h2 h25 hpos hrun
  have hstep : ∀ j, j + 1 < hist.length → (o (j + 1)).rel ≤ (o j).rel ∧ (o (j + 1)).obj ≤ (o j).obj := by
    intro j hj
    obtain ⟨hf, s, hm, hn⟩ := hσ j (by omega)
    obtain ⟨hf', s', hm', -⟩ := hσ (j + 1) hj
    obtain ⟨lam, -, -, -, -, -, -, -, -, e1, e2, hX, -, -⟩ := cp.main_ok hp hf h2 h25 hpos hm
    obtain ⟨lam', -, -, -, -, -, -, -, -, e1', e2', -, hle, -⟩ := cp.main_ok hp hf' h2 h25 hpos hm'
    rw [hn hj] at hle
    have := hle (cp.wt lam)
    rw [e1, e1', e2, e2']
    exact ⟨by gcongr, by linarith⟩
  refine ⟨pairwise_of_steps (v := fun j => (o j).rel) (fun j hj => by rw [hh j hj]; rfl)
    fun j hj => (hstep j hj).1, o, k, hrun, fun j hj => (hstep j hj).2⟩

/-- **C72**: every residual in the history lies in `[0, 1]`: no step fits worse than the zero tensor. -/
theorem C72_residual_at_most_one (pinv : Tensor ℝ → Res (Tensor ℝ)) (hp : PinvOk pinv) (X : Tensor ℝ) (R : Nat)
    (A0 : List (Tensor ℝ)) (hA : FactorsFor X.shape R A0) (h2 : 2 ≤ X.order) (h25 : X.order ≤ 25)
    (hpos : ∀ d ∈ X.shape, 0 < d) (Ar : Arith ℝ) (args : Args ℝ) (steps : Int)
    (self self' : Self (List (Tensor ℝ)) (Tensor ℝ) (Tensor ℝ)) (ev : List Int) (hist : List (ℝ × ℝ))
    (h : train Ar (CP_ALS.cls (cp.main pinv X R)) args steps (.ok A0) self = (self', ev, .ok hist)) :
    ∀ p ∈ hist, 0 ≤ p.2 ∧ p.2 ≤ 1 := by
  obtain ⟨s0, o, k, hs0, -, -, hrun, hh⟩ := C43_history Ar _ args steps _ self self' ev hist h
  cases hs0
  obtain ⟨σ, h0, hσ⟩ := cp_run hp hA h2 h25 hpos hrun
  intro p hpm
  obtain ⟨j, hj, rfl⟩ := List.mem_iff_getElem.1 hpm
  have := hh j hj
  rw [List.getElem?_eq_getElem hj, Option.some.injEq] at this
  rw [this]
  obtain ⟨hf, s, hm, -⟩ := hσ j hj
  obtain ⟨lam, -, -, -, -, -, -, -, -, -, e2, hX, -, hle⟩ := cp.main_ok hp hf h2 h25 hpos hm
  rw [e2]
  refine ⟨by positivity, ?_⟩
  rw [div_le_one (Real.sqrt_pos.2 hX)]
  exact Real.sqrt_le_sqrt hle

/-! ### C52 -/

/-- **C52**: an update divides every column by its largest entry; where that is positive, the largest entry
becomes 1.  (Missing: columns without a positive entry, for which the claim fails, see below.) -/
theorem C52_max_one_partial (pinv : Tensor ℝ → Res (Tensor ℝ)) (hp : PinvOk pinv) (X : Tensor ℝ) (R mode : Nat)
    (A : List (Tensor ℝ)) (hA : FactorsFor X.shape R A) (h2 : 2 ≤ X.order) (h25 : X.order ≤ 25)
    (hm : mode < X.order) (hpos : ∀ d ∈ X.shape, 0 < d) (u : cp.Upd ℝ)
    (h : cp.modeUpdate pinv X R A mode = .ok u) (r : Nat) (hr : r < R)
    (hcol : ∃ i < X.shape.getD mode 0, 0 < u.nonNorm.at_ [i, r]) :
    ∃ B, u.A[mode]? = some B ∧ (∀ i < X.shape.getD mode 0, B.at_ [i, r] ≤ 1) ∧
      ∃ i < X.shape.getD mode 0, B.at_ [i, r] = 1 := by
  obtain ⟨K, N, lam, P, hK, hKs, hNs, hls, hP, hN, hmax, he⟩ :=
    cp.modeUpdate_eq hp hA h2 h25 hm (cp.getD_pos hpos hm)
  rw [he] at h
  by_cases h0 : (0 : ℝ) ∈ lam.data
  · rw [if_pos h0] at h; cases h
  rw [if_neg h0] at h
  cases h
  obtain ⟨hle, i, hi, hie⟩ := hmax r hr
  obtain ⟨i', hi', hpos'⟩ := hcol
  have hl : 0 < lam.at_ [r] := lt_of_lt_of_le hpos' (hle i' hi')
  refine ⟨_, by rw [List.getElem?_set_self (by rw [hA.length]; exact hm)], fun k hk => ?_, i, hi, ?_⟩
  · rw [at_mat _ hk hr, div_le_one hl]; exact hle k hk
  · rw [at_mat _ hi hr, hie, div_self (ne_of_gt hl)]

/-- Column `r` of the `m`-row matrix `B` contains a 1 and lies on one side of it. -/
def OneExtreme (B : Tensor ℝ) (m r : Nat) : Prop :=
  (∃ i < m, B.at_ [i, r] = 1) ∧ ((∀ i < m, B.at_ [i, r] ≤ 1) ∨ ∀ i < m, 1 ≤ B.at_ [i, r])

/-- **C52** for whole sweeps: after a sweep every column of every factor contains a 1, and it is the largest or
the smallest entry of its column. -/
theorem C52_extreme_one_partial (pinv : Tensor ℝ → Res (Tensor ℝ)) (hp : PinvOk pinv) (X : Tensor ℝ) (R : Nat)
    (A A' : List (Tensor ℝ)) (lam : Tensor ℝ) (hA : FactorsFor X.shape R A) (h2 : 2 ≤ X.order)
    (h25 : X.order ≤ 25) (hpos : ∀ d ∈ X.shape, 0 < d) (h : cp.sweep pinv X R A = .ok (A', lam))
    (k : Nat) (hk : k < X.order) :
    ∃ B, A'[k]? = some B ∧ B.shape = [X.shape.getD k 0, R] ∧ ∀ r < R, OneExtreme B (X.shape.getD k 0) r := by
  have key : ∀ (l : List Nat) (st st' : List (Tensor ℝ) × Option (Tensor ℝ)), (∀ n ∈ l, n < X.order) → l.Nodup →
      FactorsFor X.shape R st.1 →
      l.foldlM (fun (st : List (Tensor ℝ) × Option (Tensor ℝ)) mode => (do
        let u ← cp.modeUpdate pinv X R st.1 mode
        return (u.A, some u.lam) : Res _)) st = .ok st' →
      (∀ k ∈ l, ∃ B, st'.1[k]? = some B ∧ B.shape = [X.shape.getD k 0, R] ∧
        ∀ r < R, OneExtreme B (X.shape.getD k 0) r) ∧ ∀ k ∉ l, st'.1[k]? = st.1[k]? := by
    intro l
    induction l with
    | nil =>
        intro st st' _ _ _ hf
        cases hf
        exact ⟨fun k hk => absurd hk (by simp), fun _ _ => rfl⟩
    | cons n l ih =>
        intro st st' hl hnd hst hf
        have hn := hl n (by simp)
        rw [List.nodup_cons] at hnd
        rw [List.foldlM_cons] at hf
        obtain ⟨K, N, lam, P, hK, hKs, hNs, hls, hP, hN, hmax, he⟩ :=
          cp.modeUpdate_eq hp hst h2 h25 hn (cp.getD_pos hpos hn)
        by_cases h0 : (0 : ℝ) ∈ lam.data
        · rw [he, if_pos h0] at hf; cases hf
        rw [he, if_neg h0] at hf
        obtain ⟨b1, b2⟩ := ih (st.1.set n _, some lam) st' (fun m hm => hl m (by simp [hm])) hnd.2 (hst.set rfl) hf
        refine ⟨fun k hk => ?_, fun k hk => ?_⟩
        · rcases List.mem_cons.1 hk with rfl | hk
          · refine ⟨_, by rw [b2 k hnd.1]; exact List.getElem?_set_self (by rw [hst.length]; exact hn), rfl,
              fun r hr => ?_⟩
            obtain ⟨hle, i, hi, hie⟩ := hmax r hr
            have hne : lam.at_ [r] ≠ 0 := cp.at_ne_zero h0 (by rw [hls]; simpa using hr)
            refine ⟨⟨i, hi, by rw [at_mat _ hi hr, hie, div_self hne]⟩, ?_⟩
            rcases lt_or_gt_of_ne hne with hneg | hpos'
            · right; intro i hi
              rw [at_mat _ hi hr, one_le_div_of_neg hneg]; exact hle i hi
            · left; intro i hi
              rw [at_mat _ hi hr, div_le_one hpos']; exact hle i hi
          · exact b1 k hk
        · rw [List.mem_cons, not_or] at hk
          rw [b2 k hk.2]
          exact List.getElem?_set_ne (Ne.symm hk.1)
  unfold cp.sweep at h
  cases hf : (List.range X.order).foldlM (fun (st : List (Tensor ℝ) × Option (Tensor ℝ)) mode => (do
        let u ← cp.modeUpdate pinv X R st.1 mode
        return (u.A, some u.lam) : Res _)) (A, none) with
  | error e => rw [hf] at h; cases h
  | ok st' =>
      rw [hf, ok_bind] at h
      have hst : st'.1 = A' := by
        cases h2' : st'.2 with
        | none => rw [h2'] at h; cases h
        | some l => rw [h2'] at h; cases h; rfl
      rw [← hst]
      exact (key _ (A, none) st' (by simp) List.nodup_range hA hf).1 k (by simpa using hk)

/-- The pseudo-inverse of a 1 × 1 matrix. -/
def pinv1 (V : Tensor ℚ) : Res (Tensor ℚ) := .ok (mat 1 1 fun _ _ => (V.at_ [0, 0])⁻¹)

/-- **C52** is false: a negative tensor gives a column `(1, 2)`, whose largest entry is 2. -/
theorem C52_negative_false :
    (cp.sweep pinv1 (mat 2 1 fun i _ => -(i + 1 : ℚ)) 1 [mat 2 1 fun _ _ => 1, mat 1 1 fun _ _ => 1]).toOption.map
      (fun p => p.1.map Tensor.data) = some [[1, 2], [1]] := by decide +kernel

/-- A 2 × 2 × 2 sweep over the rationals that goes through. -/
example : ((cp.sweep pinv1 (ofFn [2, 2, 2] fun i => (i.sum + 1 : ℚ)) 1
    [mat 2 1 fun i _ => (i + 1 : ℚ), mat 2 1 fun _ _ => 1, mat 2 1 fun _ _ => 1]).toOption.map
      (fun p => p.1.map Tensor.shape)) = some [[2, 1], [2, 1], [2, 1]] := by decide +kernel

/-! ### C73 -/

/-- **C73**: with rank 1, a positive tensor and positive initial factors (`tf.random_uniform` draws from `[0,1)`),
no step ever breaks down: `train` returns for every number of steps. -/
theorem C73_rank_one_positive (pinv : Tensor ℝ → Res (Tensor ℝ)) (hp : PinvOk pinv) (X : Tensor ℝ)
    (A0 : List (Tensor ℝ)) (hA : FactorsFor X.shape 1 A0)
    (hA0 : ∀ M ∈ A0, ∀ i < M.shape.getD 0 0, 0 < M.at_ [i, 0]) (h2 : 2 ≤ X.order)
    (h25 : X.order ≤ 25) (hpos : ∀ d ∈ X.shape, 0 < d) (hX : ∀ i, InB X.shape i → 0 < X.at_ i) (Ar : Arith ℝ)
    (args : Args ℝ) (hv : args.validationInternal ≠ 0) (steps : Int) (hs : 1 ≤ steps)
    (self : Self (List (Tensor ℝ)) (Tensor ℝ) (Tensor ℝ)) :
    ∃ hist, (train Ar (CP_ALS.cls (cp.main pinv X 1)) args steps (.ok A0) self).2.2 = .ok hist := by
  refine train_safe (I := cp.PosFactors X.shape 1) ⟨fun s hI => ?_, by rintro f ⟨⟩, by rintro f ⟨⟩⟩
    ⟨hA, fun M hM i hi r hr => by obtain rfl : r = 0 := by omega
                                  exact hA0 M hM i hi⟩ (Or.inl hv) hs self
  obtain ⟨A', lam, h1, h3⟩ := cp.sweep_pos hp hI h2 h25 hpos hX
  obtain ⟨-, hl, -⟩ := cp.sweep_descends hp hI.1 h2 h25 hpos h1
  have hne : X.shape ≠ [] := by
    intro e; unfold order at h2; rw [e] at h2; simp at h2
  obtain ⟨Y, y1, y2, -⟩ := cp.fullOf_spec h3.1 hne h25 hl
  have h0 : InB X.shape (unravel X.shape 0) :=
    unravel_inB (List.prod_pos hpos)
  obtain ⟨⟨l, obj, rel⟩, hq⟩ := cp.scalars_total y2 ⟨_, h0, ne_of_gt (hX _ h0)⟩
  refine ⟨A', ⟨A', some lam, Y, l, obj, rel⟩, ?_, h3⟩
  change cp.main pinv X 1 s = _
  unfold cp.main
  rw [h1, ok_bind]
  simp only [y1, ok_bind, hq]
  rfl

/-- The hypotheses of C50, C51, C72 and C73 are met by a 2 × 3 tensor with entries `1 + i + j` and factors full
of ones; by C73 the runs C51 and C72 speak about exist. -/
example : let X : Tensor ℝ := mat 2 3 fun i j => (i : ℝ) + j + 1
    let A0 : List (Tensor ℝ) := [mat 2 1 fun _ _ => 1, mat 3 1 fun _ _ => 1]
    FactorsFor X.shape 1 A0 ∧ (∀ M ∈ A0, ∀ i < M.shape.getD 0 0, 0 < M.at_ [i, 0]) ∧ 2 ≤ X.order ∧
      X.order ≤ 25 ∧ (∀ d ∈ X.shape, 0 < d) ∧ ∀ i, InB X.shape i → 0 < X.at_ i := by
  refine ⟨rfl, ?_, by decide, by decide, by decide, ?_⟩
  · intro M hM i hi
    simp only [List.mem_cons, List.not_mem_nil, or_false] at hM
    rcases hM with rfl | rfl
    · have hi : i < 2 := hi
      rw [at_mat _ hi (by omega)]; norm_num
    · have hi : i < 3 := hi
      rw [at_mat _ hi (by omega)]; norm_num
  · intro i hi
    obtain ⟨a, b, rfl, ha, hb⟩ := InB_pair.1 hi
    rw [at_mat _ ha hb]
    positivity

/-! ### C47 for CP -/

/-- **C47** for CP: when the last step was a reported one, `full` is the Kruskal tensor of the exposed factors and
weights. -/
theorem C47_cp_full_partial (pinv : Tensor ℝ → Res (Tensor ℝ)) (X : Tensor ℝ) (R : Nat) (A0 : List (Tensor ℝ))
    (Ar : Arith ℝ) (args : Args ℝ) (steps : Int)
    (self self' : Self (List (Tensor ℝ)) (Tensor ℝ) (Tensor ℝ)) (ev : List Int) (hist : List (ℝ × ℝ))
    (h : train Ar (CP_ALS.cls (cp.main pinv X R)) args steps (.ok A0) self = (self', ev, .ok hist)) :
    ∃ F lam, self'.factors = some F ∧ self'.aux = some lam ∧
      (Reported args steps (hist.length - 1) → ∃ k Y, self'.full = some Y ∧
        KTensor.init .tf .float32 F (some ⟨.tf, .float32, lam⟩) = .ok k ∧ k.extract = .ok Y) := by
  have hmain : ∀ s s' o, cp.main pinv X R s = .ok (s', o) → ∃ lam, o.aux = some lam ∧
      cp.fullOf o.factors lam = .ok o.full := by
    intro s s' o hm
    unfold cp.main at hm
    cases hsw : cp.sweep pinv X R s with
    | error e => rw [hsw] at hm; cases hm
    | ok p =>
        rw [hsw, ok_bind] at hm
        obtain ⟨A', lam⟩ := p
        simp only at hm
        cases hf : cp.fullOf A' lam with
        | error e => rw [hf] at hm; cases hm
        | ok Y =>
            rw [hf, ok_bind] at hm
            cases hq : cp.scalars X Y with
            | error e => rw [hq] at hm; cases hm
            | ok q =>
                rw [hq, ok_bind] at hm
                cases hm
                exact ⟨lam, rfl, hf⟩
  obtain ⟨F, lam, h1, h2, h3⟩ := C47_full_partial Ar _ args steps _ self self' ev hist
    (fun F lam Y => cp.fullOf F lam = .ok Y) (fun s k o s' hr => by
      obtain ⟨lam, e1, e2⟩ := hmain s s' o hr.2
      exact ⟨lam, by rw [e1]; rfl, e2⟩) h
  refine ⟨F, lam, h1, h2, fun hrep => ?_⟩
  obtain ⟨Y, hY, hF⟩ := h3 hrep
  unfold cp.fullOf at hF
  cases hk : KTensor.init .tf .float32 F (some ⟨.tf, .float32, lam⟩) with
  | error e => rw [hk] at hF; cases hF
  | ok k => rw [hk] at hF; exact ⟨k, Y, hY, rfl, hF⟩

end TD.Props
