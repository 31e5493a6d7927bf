import Verif.Lemmas.Scale
import Verif.Lemmas.TrainSim
import Verif.Lemmas.NTuckerRun
import Verif.Lemmas.Ncp

/-!
# The unit of the data in `NCP_BCU` and `NTUCKER_BCU`

`a` is the factor of the variables, `κ` the one of the Lipschitz constants.
-/
namespace TD.fact

theorem SameOp.of_map {S T γ : Type} {Rel : S → T → Prop} {x : Res γ} {g : γ → S} {g' : γ → T}
    (h : ∀ v, x = .ok v → Rel (g v) (g' v)) : SameOp Rel (g <$> x) (g' <$> x) := by
  cases x with
  | error e => trivial
  | ok v => exact h v rfl

theorem SameOp.bind {S T S' T' : Type} {P : S → T → Prop} {Q : S' → T' → Prop} {x : Res S} {y : Res T} {f : S → Res S'}
    {g : T → Res T'} (h : SameOp P x y) (hf : ∀ s t, x = .ok s → P s t → SameOp Q (f s) (g t)) :
    SameOp Q (x >>= f) (y >>= g) := by
  cases x with
  | error e =>
      cases y with
      | error e' => trivial
      | ok t => exact h.elim
  | ok s =>
      cases y with
      | error e' => exact h.elim
      | ok t => exact hf s t rfl h

theorem SameOp.range {S T : Type} {P : Nat → S → T → Prop} {f : S → Nat → Res S} {g : T → Nat → Res T} :
    ∀ (N : Nat), (∀ n < N, ∀ s t, P n s t → SameOp (P (n + 1)) (f s n) (g t n)) → ∀ s t, P 0 s t →
      SameOp (P N) ((List.range N).foldlM f s) ((List.range N).foldlM g t)
  | 0, _, _, _, h0 => h0
  | N + 1, h, s, t, h0 => by
      rw [List.range_succ, List.foldlM_append, List.foldlM_append]
      refine (SameOp.range N (fun n hn => h n (by omega)) s t h0).bind fun s' t' _ h' => ?_
      have := h N (by omega) s' t' h'
      simp only [List.foldlM_cons, List.foldlM_nil, bind_pure]
      exact this

end TD.fact

namespace TD.bcu
open TD Spec Tensor tf ops Matrix fact

theorem getVar_scl (a : ℝ) (vs : List (Tensor ℝ)) (k : Nat) : getVar (vs.map (scl a)) k = scl a <$> getVar vs k := by
  unfold getVar
  rw [List.getElem?_map]
  cases vs[k]? <;> rfl

theorem assign_scl (a : ℝ) (vs : List (Tensor ℝ)) (k : Nat) (v : Tensor ℝ) :
    tf.assign (vs.map (scl a)) k (scl a v) = List.map (scl a) <$> tf.assign vs k v := by
  unfold tf.assign
  rw [List.getElem?_map]
  cases vs[k]? with
  | none => rfl
  | some old =>
      change (if v.shape = old.shape then Except.ok ((vs.map (scl a)).set k (scl a v)) else .error PyErr.invalidArgument) =
        List.map (scl a) <$> (if v.shape = old.shape then Except.ok (vs.set k v) else .error PyErr.invalidArgument)
      by_cases h : v.shape = old.shape
      · rw [if_pos h, if_pos h, ← List.map_set]; rfl
      · rw [if_neg h, if_neg h]; rfl

theorem assignCore_scl (a : ℝ) {b : ℝ} (old v : Tensor ℝ) :
    assignCore (scl a old) (scl b v) = scl b <$> assignCore old v := by
  unfold assignCore
  change (if v.shape = old.shape then Except.ok (scl b v) else .error PyErr.invalidArgument) =
    scl b <$> (if v.shape = old.shape then Except.ok v else .error PyErr.invalidArgument)
  by_cases h : v.shape = old.shape
  · rw [if_pos h, if_pos h]; rfl
  · rw [if_neg h, if_neg h]; rfl

theorem relu_scl {a : ℝ} (ha : 0 ≤ a) (t : Tensor ℝ) : relu (scl a t) = scl a (relu t) := by
  unfold relu scl tf.map
  simp only [List.map_map, Function.comp_def]
  congr 1
  refine List.map_congr_left fun x _ => ?_
  rw [mul_max_of_nonneg _ _ ha, mul_zero]

theorem proxStep_scl {a κ : ℝ} (ha : 0 < a) (hκ : 0 < κ) (m G : Tensor ℝ) (L : ℝ) :
    proxStep (scl a m) (scl (a * κ) G) (κ * L) = scl a <$> proxStep m G L := by
  unfold proxStep
  by_cases h : L = 0
  · rw [if_pos h, if_pos (by rw [h, mul_zero])]; rfl
  · rw [if_neg h, if_neg (mul_ne_zero hκ.ne' h)]
    have : tf.map (· / (κ * L)) (scl (a * κ) G) = scl a (tf.map (· / L) G) := by
      unfold scl tf.map
      simp only [List.map_map, Function.comp_def]
      congr 1
      refine List.map_congr_left fun x _ => ?_
      field_simp
    rw [this, ewise_scl (a := a) (b := a) (c := a) (fun x y => by ring)]
    simp only [bind_map_left, map_bind, map_pure, relu_scl ha.le]

/-- The new factors and the Lipschitz constant of a factor step. -/
noncomputable def stepVal (topSv : Tensor ℝ → Res ℝ) (A Am : List (Tensor ℝ)) (mode : Nat) (V XA : Tensor ℝ) :
    Res (List (Tensor ℝ) × ℝ) := do
  let l ← topSv V
  let m ← getVar Am mode
  let mV ← tf.matmul m V
  let G ← tf.ewise (· - ·) mV XA
  let v ← proxStep m G l
  let A ← tf.assign A mode v
  return (A, l)

theorem factorStep_val (topSv : Tensor ℝ → Res ℝ) (st : State) (n : Nat) (V XA : Tensor ℝ) :
    factorStep topSv st n V XA = (fun r : List (Tensor ℝ) × ℝ => { st with
      A := r.1
      L0 := Function.update st.L0 n (st.L n)
      L := Function.update st.L n r.2 }) <$> stepVal topSv st.A st.Am n V XA := by
  unfold factorStep stepVal
  simp only [map_bind, map_pure]

theorem stepVal_scl {topSv : Tensor ℝ → Res ℝ} {a κ : ℝ} (ha : 0 < a) (hκ : 0 < κ) (A Am : List (Tensor ℝ)) (n : Nat)
    {V : Tensor ℝ} (XA : Tensor ℝ) (hl : topSv (scl κ V) = (κ * ·) <$> topSv V) :
    stepVal topSv (A.map (scl a)) (Am.map (scl a)) n (scl κ V) (scl (a * κ) XA) =
      (fun r => (r.1.map (scl a), κ * r.2)) <$> stepVal topSv A Am n V XA := by
  unfold stepVal
  simp only [hl, getVar_scl, bind_map_left, matmul_scl, map_bind, map_pure,
    ewise_scl (f := (· - ·)) (a := a * κ) (b := a * κ) (c := a * κ) (fun x y => by ring), proxStep_scl ha hκ, assign_scl]

/-! ### The largest singular value -/

theorem IsTopSv.unique {m n : Nat} {M : Mat m n} {L L' : ℝ} (h : IsTopSv M L) (h' : IsTopSv M L') : L = L' := by
  have key : ∀ {x y : ℝ}, IsTopSv M x → IsTopSv M y → x ≤ y := fun {x y} hx hy => by
    obtain ⟨v, v1, v2⟩ := hx.attained
    have := hy.mul_le v
    rw [v1, v2, mul_one] at this
    exact (sq_le_sq₀ hx.nonneg hy.nonneg).1 this
  exact le_antisymm (key h h') (key h' h)

theorem IsTopSv.smul {m n : Nat} {M : Mat m n} {L κ : ℝ} (hκ : 0 ≤ κ) (h : IsTopSv M L) : IsTopSv (κ • M) (κ * L) := by
  obtain ⟨s, ⟨U, V, hs⟩, h1, i, h2⟩ := h
  refine ⟨fun j => κ * s j, ⟨U, V, ⟨hs.orthU, hs.orthV, fun j => mul_nonneg hκ (hs.nonneg j),
    fun j k hjk => mul_le_mul_of_nonneg_left (hs.anti j k hjk) hκ, ?_⟩⟩, fun j => mul_le_mul_of_nonneg_left (h1 j) hκ, i,
    by rw [← h2]⟩
  have : diagonal (fun j => κ * s j) = κ • diagonal s := by
    ext j k
    rw [Matrix.smul_apply, diagonal_apply, diagonal_apply]
    split <;> simp
  rw [this, Matrix.mul_smul, Matrix.smul_mul, ← hs.eq]

theorem toMat_scl (a : ℝ) (M : Tensor ℝ) (m n : Nat) : toMat (scl a M) m n = a • toMat M m n := by
  ext i j
  exact at_scl a M _

theorem topSv_scl {topSv : Tensor ℝ → Res ℝ} (ht : TopSvOk topSv) {κ : ℝ} (hκ : 0 ≤ κ) {M : Tensor ℝ} {m n : Nat}
    (hM : M.shape = [m, n]) (hm : 0 < m) (hn : 0 < n) : topSv (scl κ M) = (κ * ·) <$> topSv M := by
  obtain ⟨L, h1, h2⟩ := ht M m n hM hm hn
  obtain ⟨L', h1', h2'⟩ := ht (scl κ M) m n hM hm hn
  rw [toMat_scl] at h2'
  rw [h1, h1', IsTopSv.unique h2' (IsTopSv.smul hκ h2)]
  rfl

/-! ### Related variables -/

/-- Variables of two sessions: factors multiplied by `a`, the Lipschitz constants of the blocks in `D` by `κ`; the
remembered constants too, unless no weight was computed yet. `M` is the number of blocks. -/
structure SRel (a κ : ℝ) (M : Nat) (D : Nat → Prop) (s s' : State) : Prop where
  A : s'.A = s.A.map (scl a)
  A0 : s'.A0 = s.A0.map (scl a)
  Am : s'.Am = s.Am.map (scl a)
  t : s'.t = s.t
  t0 : s'.t0 = s.t0
  L : ∀ k, D k → s'.L k = κ * s.L k
  L0 : ((∀ k < M, s'.L k = κ * s.L k) ∧ ∀ k, D k → s'.L0 k = κ * s.L0 k) ∨ s.t0 = 1

theorem SRel.step {a κ : ℝ} {M : Nat} {D : Nat → Prop} {s s' : State} (h : SRel a κ M D s s') {n : Nat} (hn : n < M)
    (A : List (Tensor ℝ)) (l : ℝ) :
    SRel a κ M (fun k => k = n ∨ D k)
      { s with A := A, L0 := Function.update s.L0 n (s.L n), L := Function.update s.L n l }
      { s' with A := A.map (scl a), L0 := Function.update s'.L0 n (s'.L n), L := Function.update s'.L n (κ * l) } := by
  refine ⟨rfl, h.A0, h.Am, h.t, h.t0, fun k hk => ?_, ?_⟩
  · by_cases e : k = n
    · subst e; simp
    · simp only [Function.update_of_ne e]
      exact h.L k (hk.resolve_left e)
  · refine h.L0.imp_left fun ⟨h1, h2⟩ => ⟨fun k hk => ?_, fun k hk => ?_⟩
    · by_cases e : k = n
      · subst e; simp
      · simp only [Function.update_of_ne e]
        exact h1 k hk
    · by_cases e : k = n
      · subst e; simp [h1 k hn]
      · simp only [Function.update_of_ne e]
        exact h2 k (hk.resolve_left e)

theorem SRel.mono {a κ : ℝ} {M : Nat} {D E : Nat → Prop} {s s' : State} (h : SRel a κ M D s s') (hE : ∀ k, E k → D k) :
    SRel a κ M E s s' :=
  ⟨h.A, h.A0, h.Am, h.t, h.t0, fun k hk => h.L k (hE k hk), h.L0.imp_left fun ⟨h1, h2⟩ => ⟨h1, fun k hk => h2 k (hE k hk)⟩⟩

theorem SRel.factorStep {topSv : Tensor ℝ → Res ℝ} {a κ : ℝ} (ha : 0 < a) (hκ : 0 < κ) {M : Nat} {D : Nat → Prop}
    {s s' : State} (h : SRel a κ M D s s') {n : Nat} (hn : n < M) {V : Tensor ℝ} (XA : Tensor ℝ)
    (hl : topSv (scl κ V) = (κ * ·) <$> topSv V) :
    SameOp (SRel a κ M fun k => k = n ∨ D k) (bcu.factorStep topSv s n V XA)
      (bcu.factorStep topSv s' n (scl κ V) (scl (a * κ) XA)) := by
  have e := stepVal_scl ha hκ s.A s.Am n XA hl
  rw [← h.A, ← h.Am] at e
  rw [factorStep_val, factorStep_val, e, ← comp_map]
  exact SameOp.of_map fun r _ => h.step hn r.1 r.2

theorem SRel.weight {a κ : ℝ} {M : Nat} {D : Nat → Prop} {s s' : State} (h : SRel a κ M D s s') :
    bcu.weight s' = bcu.weight s := by
  unfold bcu.weight
  rw [h.t, h.t0]

theorem SRel.capped {a κ w : ℝ} (hκ : 0 < κ) {M : Nat} {s s' : State} (h : SRel a κ M (· < M) s s') {k : Nat}
    (hk : k < M) (hw : s.t0 = 1 → w = 0) : cappedWeight s' w k = cappedWeight s w k := by
  unfold cappedWeight
  rw [h.L k hk]
  unfold loss.fdiv
  by_cases e : s.L k = 0
  · rw [if_pos e, if_pos (by rw [e, mul_zero])]
  · rw [if_neg e, if_neg (mul_ne_zero hκ.ne' e)]
    simp only [loss.fsqrt]
    rcases h.L0 with ⟨-, h0⟩ | h0
    · rw [h0 k hk, mul_div_mul_left _ _ hκ.ne']
    · simp only [hw h0, Option.map_some]
      rw [min_eq_left (Real.sqrt_nonneg _), min_eq_left (Real.sqrt_nonneg _)]

theorem extrapolate_scl (a w : ℝ) (v v0 : Tensor ℝ) :
    extrapolate w (scl a v) (scl a v0) = scl a <$> extrapolate w v v0 := by
  unfold extrapolate
  have : ∀ d, tf.map (w * ·) (scl a d) = scl a (tf.map (w * ·) d) := fun d => by
    change scl w (scl a d) = scl a (scl w d)
    rw [scl_scl, scl_scl, mul_comm]
  simp only [ewise_scl (f := (· - ·)) (a := a) (b := a) (c := a) (fun x y => by ring), bind_map_left, map_bind, this,
    ewise_scl (f := (· + ·)) (a := a) (b := a) (c := a) (fun x y => by ring)]

/-- New values of one pass of the momentum loop. -/
noncomputable def passVal (cap : Res ℝ) (A A0 Am : List (Tensor ℝ)) (k : Nat) :
    Res (ℝ × List (Tensor ℝ) × List (Tensor ℝ)) := do
  let wk ← cap
  let a ← getVar A k
  let a0 ← getVar A0 k
  let m ← extrapolate wk a a0
  let Am ← tf.assign Am k m
  let A0 ← tf.assign A0 k a
  return (wk, Am, A0)

theorem extrapolateMode_val (w : ℝ) (st : State) (k : Nat) : extrapolateMode w st k =
    (fun r : ℝ × List (Tensor ℝ) × List (Tensor ℝ) => { st with wA := Function.update st.wA k r.1, Am := r.2.1, A0 := r.2.2 }) <$>
      passVal (cappedWeight st w k) st.A st.A0 st.Am k := by
  unfold extrapolateMode passVal
  simp only [map_bind, map_pure]

theorem passVal_scl (a : ℝ) (cap : Res ℝ) (A A0 Am : List (Tensor ℝ)) (k : Nat) :
    passVal cap (A.map (scl a)) (A0.map (scl a)) (Am.map (scl a)) k =
      (fun r => (r.1, r.2.1.map (scl a), r.2.2.map (scl a))) <$> passVal cap A A0 Am k := by
  unfold passVal
  simp only [getVar_scl, bind_map_left, extrapolate_scl, assign_scl, map_bind, map_pure]

theorem SRel.extrapolateMode {a κ w : ℝ} (hκ : 0 < κ) {M : Nat} {s s' : State} (h : SRel a κ M (· < M) s s') {k : Nat}
    (hk : k < M) (hw : s.t0 = 1 → w = 0) :
    SameOp (fun r r' => SRel a κ M (· < M) r r' ∧ r.t0 = s.t0) (bcu.extrapolateMode w s k) (bcu.extrapolateMode w s' k) := by
  have e := passVal_scl a (cappedWeight s w k) s.A s.A0 s.Am k
  rw [← h.A, ← h.A0, ← h.Am] at e
  rw [extrapolateMode_val, extrapolateMode_val, h.capped hκ hk hw, e, ← comp_map]
  exact SameOp.of_map fun r _ => ⟨⟨h.A, rfl, rfl, h.t, h.t0, h.L, h.L0⟩, rfl⟩

theorem weight_zero {s : State} {w : ℝ} (h : bcu.weight s = .ok w) (h0 : s.t0 = 1) : w = 0 := by
  unfold bcu.weight loss.fdiv at h
  split at h
  · rename_i e
    split at e
    · cases e
    · cases e; cases h; rw [h0]; simp
  · cases h

theorem SRel.extrapolates {a κ w : ℝ} (hκ : 0 < κ) {M N : Nat} (hN : N ≤ M) {s s' : State} (h : SRel a κ M (· < M) s s')
    (hw : s.t0 = 1 → w = 0) :
    SameOp (fun r r' => SRel a κ M (· < M) r r' ∧ r.t0 = s.t0) ((List.range N).foldlM (bcu.extrapolateMode w) s)
      ((List.range N).foldlM (bcu.extrapolateMode w) s') := by
  refine SameOp.range (P := fun _ r r' => SRel a κ M (· < M) r r' ∧ r.t0 = s.t0) N (fun n hn r r' hr => ?_) s s' ⟨h, rfl⟩
  have := hr.1.extrapolateMode (w := w) hκ (show n < M by omega) (fun e => hw (hr.2.symm.trans e))
  rwa [hr.2] at this

theorem SRel.op1 {a κ : ℝ} (hκ : 0 < κ) {N : Nat} {s s' : State} (h : SRel a κ N (· < N) s s') :
    SameOp (SRel a κ N fun _ => False) (NCP.op1 N s) (NCP.op1 N s') := by
  unfold NCP.op1
  rw [h.weight]
  cases hw : bcu.weight s with
  | error e => trivial
  | ok w =>
  rw [ok_bind, ok_bind]
  refine (h.extrapolates (w := w) hκ le_rfl (weight_zero hw)).bind fun r r' _ hr => ?_
  obtain ⟨hr, -⟩ := hr
  exact ⟨hr.A, hr.A0, hr.Am, hr.t, hr.t, fun _ hk => hk.elim, Or.inl ⟨hr.L, fun _ hk => hk.elim⟩⟩

theorem SRel.op2 {a κ : ℝ} {N : Nat} {s s' : State} (h : SRel a κ N (· < N) s s') :
    SameOp (SRel a κ N fun _ => False) (NCP.op2 s) (NCP.op2 s') :=
  ⟨h.A, h.A0, h.A0, h.t, h.t0, fun _ hk => hk.elim, Or.inl ⟨h.L, fun _ hk => hk.elim⟩⟩

/-! ### `NCP_BCU` -/

theorem length_skip_int {β : Type} (l : List β) {n : Nat} (hn : n < l.length) : (skip l (.int n)).length = l.length - 1 := by
  rw [skip_eq_kept, kept_int, List.length_eraseIdx, if_pos hn]

theorem NCP.modeUpdate_scl {topSv : Tensor ℝ → Res ℝ} (ht : TopSvOk topSv) {X : Tensor ℝ} {R n : Nat} {a : ℝ} (ha : 0 < a)
    (h2 : 2 ≤ X.order) (h25 : X.order ≤ 25) (hR : 0 < R) (hpos : ∀ d ∈ X.shape, 0 < d) (hn : n < X.order)
    {D : Nat → Prop} {s s' : State} (hA : FactorsFor X.shape R s.A)
    (h : SRel a (a ^ (2 * (X.order - 1))) X.order D s s') :
    SameOp (SRel a (a ^ (2 * (X.order - 1))) X.order fun k => k = n ∨ D k) (NCP.modeUpdate topSv X s n)
      (NCP.modeUpdate topSv (scl (a ^ X.order) X) s' n) := by
  have hp : 0 < X.shape.getD n 0 := by
    rw [List.getD_eq_getElem?_getD, List.getElem?_eq_getElem hn]
    exact hpos _ (List.getElem_mem _)
  have hA' : FactorsFor X.shape R s'.A := by
    unfold FactorsFor
    rw [h.A, List.map_map]
    exact hA
  obtain ⟨K, V, XA, hK, hV, hXA, hVm, hXAm, he⟩ := NCP.reduce topSv hA h2 h25 hn hp
  obtain ⟨K', V', XA', hK', hV', hXA', hVm', hXAm', he'⟩ :=
    NCP.reduce topSv (X := scl (a ^ X.order) X) hA' h2 h25 hn hp
  rw [h.A, khatri_scl, hK] at hK'
  have hlen : (skip s.A (.int n)).length = X.order - 1 := by
    rw [length_skip_int _ (by rw [hA.length]; exact hn), hA.length]; rfl
  rw [hlen] at hK'
  have hK' : scl (a ^ (X.order - 1)) K = K' := Except.ok.inj hK'
  rw [scl_shape] at hVm' hXAm' hXA'
  rw [← hK', toMat_scl] at hVm' hXAm'
  have eV : V' = scl (a ^ (2 * (X.order - 1))) V := by
    refine toMat_inj hV' (by rw [scl_shape]; exact hV) ?_
    rw [hVm', toMat_scl, hVm, transpose_smul, Matrix.smul_mul, Matrix.mul_smul, smul_smul]
    congr 1
    rw [two_mul, pow_add]
  have eX : XA' = scl (a * a ^ (2 * (X.order - 1))) XA := by
    refine toMat_inj hXA' (by rw [scl_shape]; exact hXA) ?_
    rw [hXAm', toMat_scl, hXAm, Matrix.mul_smul]
    have : (Matrix.of fun (i : Fin (X.shape.getD n 0)) (j : Fin (otherSize X.shape n)) =>
        (scl (a ^ X.order) X).at_ (unkolda X.shape n i j)) = a ^ X.order • Matrix.of fun (i : Fin (X.shape.getD n 0))
        (j : Fin (otherSize X.shape n)) => X.at_ (unkolda X.shape n i j) := by
      ext i j; exact at_scl _ _ _
    rw [this, Matrix.smul_mul, smul_smul]
    congr 1
    rw [← pow_add, ← pow_succ']
    congr 1
    omega
  rw [he, he', eV, eX]
  exact h.factorStep ha (by positivity) hn _ (topSv_scl ht (by positivity) hV hR hR)

theorem kfull_scl (a : ℝ) (A : List (Tensor ℝ)) : NCP.fullOf (A.map (scl a)) = scl (a ^ A.length) <$> NCP.fullOf A := by
  unfold NCP.fullOf KTensor.init
  cases A with
  | nil => rfl
  | cons f0 A =>
      simp only [List.map_cons]
      have : dimOf (scl a f0) 1 = dimOf f0 1 := rfl
      simp only [this, bind_assoc, map_bind, ok_bind]
      congr 1; funext r
      unfold KTensor.extract
      have hk := khatri_scl a (f0 :: A) .none false
      have hd := dimOfEach_scl a (f0 :: A) 0
      rw [List.map_cons] at hk hd
      simp only [hk, hd, bind_map_left, map_bind, if_true, matmul_scl_left, reshape_scl]
      rfl

/-- What a step returns when the factors are multiplied by `a` and the full tensor and the loss by `c`. -/
noncomputable def outMul (a c : ℝ) (o : Out (List (Tensor ℝ)) (Tensor ℝ) (Tensor ℝ) ℝ) :
    Out (List (Tensor ℝ)) (Tensor ℝ) (Tensor ℝ) ℝ :=
  ⟨o.factors.map (scl a), o.aux, scl c o.full, c * o.loss, c ^ 2 * o.obj, o.rel⟩

theorem NCP.main_scl {topSv : Tensor ℝ → Res ℝ} (ht : TopSvOk topSv) {X : Tensor ℝ} {R : Nat} {a : ℝ} (ha : 0 < a)
    (h2 : 2 ≤ X.order) (h25 : X.order ≤ 25) (hR : 0 < R) (hpos : ∀ d ∈ X.shape, 0 < d)
    {s s' : State} (hA : FactorsOk (X.shape.map fun d => [d, R]) s)
    (h : SRel a (a ^ (2 * (X.order - 1))) X.order (fun _ => False) s s') :
    SameOp (fun r r' => SRel a (a ^ (2 * (X.order - 1))) X.order (· < X.order) r.1 r'.1 ∧
        r'.2 = outMul a (a ^ X.order) r.2)
      (NCP.main topSv X s) (NCP.main topSv (scl (a ^ X.order) X) s') := by
  unfold NCP.main
  rw [scl_order]
  refine (SameOp.range (P := fun n r r' => SRel a (a ^ (2 * (X.order - 1))) X.order (· < n) r r' ∧
    FactorsOk (X.shape.map fun d => [d, R]) r) X.order (fun n hn r r' hr => ?_) s s'
    ⟨h.mono fun k hk => absurd hk (by simp), hA⟩).bind fun r r' _ hr => ?_
  · have := NCP.modeUpdate_scl ht ha h2 h25 hR hpos hn hr.2.A hr.1
    cases e : NCP.modeUpdate topSv X r n with
    | error e' => rw [e] at this; revert this; cases NCP.modeUpdate topSv (scl (a ^ X.order) X) r' n <;> exact id
    | ok v =>
        rw [e] at this; revert this
        cases NCP.modeUpdate topSv (scl (a ^ X.order) X) r' n with
        | error e' => exact id
        | ok v' =>
            intro hv
            obtain ⟨V, XA, hf⟩ := NCP.modeUpdate_inv e
            exact ⟨SRel.mono hv fun k hk => by have : k < n + 1 := hk; change k = n ∨ k < n; omega, hr.2.factorStep hf⟩
  · have hlen : r.A.length = X.order := hr.2.factorsFor.1.length
    rw [hr.1.A, kfull_scl, hlen]
    simp only [bind_map_left, scalars_scl (show 0 < a ^ X.order by positivity)]
    cases NCP.fullOf r.A with
    | error e => trivial
    | ok Y =>
        simp only [ok_bind]
        cases cp.scalars X Y with
        | error e => trivial
        | ok v =>
            simp only [ok_bind]
            exact ⟨⟨hr.1.A, hr.1.A0, hr.1.Am, by unfold tUpdate; rw [hr.1.t0], hr.1.t0, hr.1.L, hr.1.L0⟩, rfl⟩

theorem normInit_scl {a : ℝ} (ha : 0 < a) (X : Tensor ℝ) {p : Nat} (hp : p ≠ 0) (v : Tensor ℝ) :
    normInit (scl (a ^ p) X) p v = scl a <$> normInit X p v := by
  unfold normInit
  by_cases h : tf.norm v = 0
  · rw [if_pos h, if_pos h]; rfl
  · rw [if_neg h, if_neg h]
    refine congrArg Except.ok ?_
    unfold scl tf.map
    simp only [List.map_map, Function.comp_def]
    congr 1
    refine List.map_congr_left fun x _ => ?_
    have : tf.norm (scl (a ^ p) X) = a ^ p * tf.norm X := norm_scl (by positivity) X
    unfold scl tf.map at this
    rw [this]
    have e : Real.rpow (a ^ p * tf.norm X) (1 / (p : ℝ)) = a * Real.rpow (tf.norm X) (1 / (p : ℝ)) := by
      change (a ^ p * tf.norm X) ^ (1 / (p : ℝ)) = a * (tf.norm X) ^ (1 / (p : ℝ))
      rw [Real.mul_rpow (by positivity) (show 0 ≤ tf.norm X from Real.sqrt_nonneg _), one_div, Real.pow_rpow_inv_natCast ha.le hp]
    rw [e]
    ring

theorem init_scl {a κ : ℝ} (ha : 0 < a) (X : Tensor ℝ) {p : Nat} (hp : p ≠ 0) (M : Nat) (draws : List (Tensor ℝ)) :
    SameOp (SRel a κ M fun _ => False) (bcu.init X p draws) (bcu.init (scl (a ^ p) X) p draws) := by
  unfold bcu.init
  have : draws.mapM (fun d => normInit (scl (a ^ p) X) p (relu d)) =
      List.map (scl a) <$> draws.mapM (fun d => normInit X p (relu d)) := by
    simp only [normInit_scl ha X hp]
    induction draws with
    | nil => rfl
    | cons d draws ih =>
        rw [List.mapM_cons, List.mapM_cons, ih]
        simp only [bind_map_left, map_bind, map_pure, List.map_cons]
  rw [this]
  simp only [bind_map_left]
  cases draws.mapM (fun d => normInit X p (relu d)) with
  | error e => trivial
  | ok A => exact ⟨rfl, rfl, rfl, rfl, rfl, fun _ h => h.elim, Or.inr rfl⟩

/-! ### `NTUCKER_BCU` -/

/-- The same relation with the core. -/
structure TRel (a κ : ℝ) (M : Nat) (D : Nat → Prop) (s s' : TState) : Prop where
  st : SRel a κ M D s.toState s'.toState
  g : s'.g = scl a s.g
  g0 : s'.g0 = scl a s.g0
  gm : s'.gm = scl a s.gm

theorem prod_forall₂ {β : Type} {P Q : β → ℝ → Prop} {k : ℝ} (hPQ : ∀ M x y, P M x → Q M y → y = k * x) {A : List β} :
    ∀ {s s' : List ℝ}, List.Forall₂ P A s → List.Forall₂ Q A s' → s'.prod = k ^ A.length * s.prod := by
  induction A with
  | nil => intro s s' h h'; cases h; cases h'; simp
  | cons M A ih =>
      intro s s' h h'
      cases h with
      | cons h1 h2 =>
      cases h' with
      | cons h1' h2' =>
      rw [List.prod_cons, List.prod_cons, ih h2 h2', hPQ _ _ _ h1 h1', List.length_cons, pow_succ]
      ring

theorem gramOf_scl (a : ℝ) {M : Tensor ℝ} (hM : M.shape.length = 2) : gramOf (scl a M) = scl (a * a) (gramOf M) := by
  have h := gramOf_ok (M := scl a M) hM
  rw [matmul_scl, gramOf_ok hM] at h
  exact (Except.ok.inj h).symm

theorem maxSv_scl {topSv : Tensor ℝ → Res ℝ} (ht : TopSvOk topSv) {a : ℝ} {A : List (Tensor ℝ)} (hm : AllMat A)
    (hne : A ≠ []) (hpos : ∀ M ∈ A, 0 < M.shape.getD 1 0) :
    maxSingleValueMul topSv ((A.map (scl a)).map gramOf) =
      (a ^ (2 * A.length) * ·) <$> maxSingleValueMul topSv (A.map gramOf) := by
  have hg : ∀ B : List (Tensor ℝ), B ≠ [] → (∀ M ∈ B, 0 < M.shape.getD 1 0) →
      ∃ s : List ℝ, maxSingleValueMul topSv (B.map gramOf) = .ok s.prod ∧
        List.Forall₂ (fun M x => IsTopSv (toMat M (M.shape.getD 0 0) (M.shape.getD 1 0)) x) (B.map gramOf) s := by
    intro B hB hp
    exact maxSingleValueMul_ok ht (fun M hM => by obtain ⟨N, -, rfl⟩ := List.mem_map.1 hM; rfl) (by simpa using hB)
      (fun M hM => by obtain ⟨N, hN, rfl⟩ := List.mem_map.1 hM; exact ⟨hp N hN, hp N hN⟩)
  obtain ⟨s, h1, h2⟩ := hg A hne hpos
  obtain ⟨s', h1', h2'⟩ := hg (A.map (scl a)) (by simpa using hne) (fun M hM => by
    obtain ⟨N, hN, rfl⟩ := List.mem_map.1 hM; exact hpos N hN)
  rw [h1, h1']
  have e : (A.map (scl a)).map gramOf = (A.map gramOf).map (scl (a * a)) := by
    rw [List.map_map, List.map_map]
    exact List.map_congr_left fun M hM => gramOf_scl a (hm M hM)
  rw [e] at h2'
  have h3 := prod_forall₂ (k := a * a) (fun M x y (hx : IsTopSv (toMat M (M.shape.getD 0 0) (M.shape.getD 1 0)) x)
    (hy : IsTopSv (toMat (scl (a * a) M) (M.shape.getD 0 0) (M.shape.getD 1 0)) y) =>
      IsTopSv.unique hy (by rw [toMat_scl]; exact IsTopSv.smul (mul_self_nonneg a) hx)) h2 (Forall₂_map_left h2')
  rw [h3, List.length_map, ← sq, ← pow_mul]
  rfl

/-- The new core and its Lipschitz constant. -/
noncomputable def coreVal (topSv : Tensor ℝ → Res ℝ) (X g gm : Tensor ℝ) (A : List (Tensor ℝ)) : Res (Tensor ℝ × ℝ) := do
  let AtA ← A.mapM fun a => tf.matmul a a true false
  let l ← ops.maxSingleValueMul topSv AtA
  let B ← ops.ttm gm AtA
  let B ← assignCore g B
  let XA ← ops.ttm X A none true
  let G ← tf.ewise (· - ·) B XA
  let G ← assignCore g G
  let v ← proxStep gm G l
  let g ← assignCore g v
  return (g, l)

theorem core_val (topSv : Tensor ℝ → Res ℝ) (X : Tensor ℝ) (st : TState) : NTUCKER.core topSv X st =
    (fun r : Tensor ℝ × ℝ => ({ st with
      g := r.1
      L0 := Function.update st.L0 X.order (st.L X.order)
      L := Function.update st.L X.order r.2 }, r.1)) <$> coreVal topSv X st.g st.gm st.A := by
  unfold NTUCKER.core coreVal
  simp only [map_bind, map_pure]

theorem coreVal_scl {topSv : Tensor ℝ → Res ℝ} (ht : TopSvOk topSv) {a : ℝ} (ha : 0 < a) (X g gm : Tensor ℝ)
    {A : List (Tensor ℝ)} (hm : AllMat A) (hne : A ≠ []) (hpos : ∀ M ∈ A, 0 < M.shape.getD 1 0) :
    coreVal topSv (scl (a ^ (A.length + 1)) X) (scl a g) (scl a gm) (A.map (scl a)) =
      (fun r => (scl a r.1, a ^ (2 * A.length) * r.2)) <$> coreVal topSv X g gm A := by
  unfold coreVal
  have hm' : AllMat (A.map (scl a)) := fun M hM => by
    obtain ⟨N, hN, rfl⟩ := List.mem_map.1 hM; exact hm N hN
  have e : (A.map (scl a)).map gramOf = (A.map gramOf).map (scl (a * a)) := by
    rw [List.map_map, List.map_map]
    exact List.map_congr_left fun M hM => gramOf_scl a (hm M hM)
  have hB := ttm_scl a (a * a) gm (A.map gramOf) none false .none
  have hX := ttm_scl (a ^ (A.length + 1)) a X A none true .none
  have l1 : (skip (A.map gramOf) .none).length = A.length := by simp [skip]
  have l2 : (skip A .none).length = A.length := rfl
  have s1 : a * (a * a) ^ A.length = a * a ^ (2 * A.length) := by rw [← sq, ← pow_mul]
  have s2 : a ^ (A.length + 1) * a ^ A.length = a * a ^ (2 * A.length) := by ring
  rw [l1, s1] at hB
  rw [l2, s2] at hX
  rw [grams_ok hm, grams_ok hm', ok_bind, ok_bind, maxSv_scl ht hm hne hpos, e]
  simp only [hB, hX, bind_map_left, map_bind, map_pure, assignCore_scl,
    ewise_scl (f := (· - ·)) (a := a * a ^ (2 * A.length)) (b := a * a ^ (2 * A.length)) (c := a * a ^ (2 * A.length))
      (fun x y => by ring), proxStep_scl ha (show 0 < a ^ (2 * A.length) by positivity)]

theorem TRel.core {topSv : Tensor ℝ → Res ℝ} (ht : TopSvOk topSv) {a : ℝ} (ha : 0 < a) {X : Tensor ℝ} {ranks : List Nat}
    {s s' : TState} (hst : TkOk X.shape ranks s) (hr : ranks.length = X.shape.length) (h1 : 1 ≤ X.order)
    (hrp : ∀ d ∈ ranks, 0 < d) (h : TRel a (a ^ (2 * X.order)) (X.order + 1) (fun _ => False) s s') :
    SameOp (fun r r' => TRel a (a ^ (2 * X.order)) (X.order + 1) (· = X.order) r.1 r'.1 ∧ r'.2 = scl a r.2)
      (NTUCKER.core topSv X s) (NTUCKER.core topSv (scl (a ^ (X.order + 1)) X) s') := by
  have hA := hst.shapes
  have hl : s.A.length = X.order := hA.1
  have hc := hA.colDims hr
  have e := coreVal_scl ht ha X s.g s.gm hA.allMat (by intro e; rw [e] at hl; simp at hl; omega) (fun M hM => by
    refine hrp _ ?_
    rw [← hc]
    exact List.mem_map.2 ⟨M, hM, rfl⟩)
  rw [hl, ← h.g, ← h.gm, ← h.st.A] at e
  rw [core_val, core_val, e, ← comp_map]
  refine SameOp.of_map fun r _ => ⟨⟨?_, rfl, h.g0, h.gm⟩, rfl⟩
  have := (h.st.step (show X.order < X.order + 1 by omega) s.A r.2).mono (E := (· = X.order)) fun k hk => Or.inl hk
  rw [← h.st.A] at this
  exact this

theorem NTUCKER.modeUpdate_scl {topSv : Tensor ℝ → Res ℝ} (ht : TopSvOk topSv) {X g : Tensor ℝ} {ranks : List Nat} {n : Nat}
    {a : ℝ} (ha : 0 < a) (h2 : 2 ≤ X.order) (h13 : X.order ≤ 13) (hpos : ∀ d ∈ X.shape, 0 < d)
    (hr : ranks.length = X.shape.length) (hg : g.shape = ranks)
    (hrp : ∀ d ∈ ranks, 0 < d) (hn : n < X.order) {D : Nat → Prop} {s s' : State} (hA : TuckerShapes X.shape ranks s.A)
    (h : SRel a (a ^ (2 * X.order)) (X.order + 1) D s s') :
    SameOp (SRel a (a ^ (2 * X.order)) (X.order + 1) fun k => k = n ∨ D k) (NTUCKER.modeUpdate topSv X g s n)
      (NTUCKER.modeUpdate topSv (scl (a ^ (X.order + 1)) X) (scl a g) s' n) := by
  have hp : 0 < X.shape.getD n 0 := by
    rw [List.getD_eq_getElem?_getD, List.getElem?_eq_getElem hn]
    exact hpos _ (List.getElem_mem _)
  have hn' : n < ranks.length := by rw [hr]; exact hn
  have hp' : 0 < ranks.getD n 0 := by
    rw [List.getD_eq_getElem?_getD, List.getElem?_eq_getElem hn']
    exact hrp _ (List.getElem_mem _)
  have hY := tk_Y h2 h13 hA hr hg hn
  obtain ⟨y1, y2, y3⟩ := tk_Y_shape hA hr hg (n := n)
  set Y := modeProds g (((List.range X.shape.length).zip s.A).eraseIdx n) with hYd
  have hnY : n < Y.order := by rw [y1]; exact hn
  obtain ⟨B, hB⟩ : ∃ B, unfold Y n = .ok B := ⟨_, unfold_closed Y hnY (by rw [y2]; exact hp')⟩
  obtain ⟨hBs, -⟩ := toMat_unfold hnY (by rw [y2]; exact hp') hB
  rw [y2, y3] at hBs
  obtain ⟨M, hM⟩ : ∃ M, unfold X n = .ok M := ⟨_, unfold_closed X hn hp⟩
  obtain ⟨hMs, -⟩ := toMat_unfold hn hp hM
  obtain ⟨XB, hXB⟩ : ∃ XB, matmul M B false true = .ok XB := ⟨_, matmul_nt hMs hBs⟩
  obtain ⟨V, hV⟩ : ∃ V, matmul B B false true = .ok V := ⟨_, matmul_nt hBs hBs⟩
  obtain ⟨hVs, -⟩ := toMat_matmul_nt hBs hBs hV
  have hlen : (skip s.A (.int n)).length = X.order - 1 := by
    rw [length_skip_int _ (by rw [hA.1]; exact hn), hA.1]; rfl
  have s0 : a * a ^ (X.order - 1) = a ^ X.order := by rw [← pow_succ']; congr 1; omega
  have s1 : a ^ (X.order + 1) * a ^ X.order = a * a ^ (2 * X.order) := by ring
  have s2 : a ^ X.order * a ^ X.order = a ^ (2 * X.order) := by ring
  unfold NTUCKER.modeUpdate
  rw [h.A]
  simp only [unfold_scl, ttm_scl, hlen, bind_map_left, matmul_scl, hY, hB, hM, hXB, hV, ok_bind, s0, s1, s2]
  exact h.factorStep ha (by positivity) (by omega) XB (topSv_scl ht (by positivity) hVs hp' hp')

theorem tfull_scl (a b : ℝ) (g : Tensor ℝ) (A : List (Tensor ℝ)) :
    NTUCKER.fullOf (scl b g) (A.map (scl a)) = scl (b * a ^ A.length) <$> NTUCKER.fullOf g A := by
  unfold NTUCKER.fullOf TTensor.init
  cases A with
  | nil => rfl
  | cons f0 A =>
      simp only [List.map_cons, ok_bind]
      unfold TTensor.extract
      simp only [if_true]
      exact ttm_scl b a g (f0 :: A) none false .none

theorem NTUCKER.main_scl {topSv : Tensor ℝ → Res ℝ} (ht : TopSvOk topSv) {X : Tensor ℝ} {ranks : List Nat} {a : ℝ}
    (ha : 0 < a) (h2 : 2 ≤ X.order) (h13 : X.order ≤ 13) (hpos : ∀ d ∈ X.shape, 0 < d)
    (hr : ranks.length = X.shape.length) (hrp : ∀ d ∈ ranks, 0 < d) {s s' : TState} (hst : TkOk X.shape ranks s)
    (h : TRel a (a ^ (2 * X.order)) (X.order + 1) (· = X.order) s s') :
    SameOp (fun r r' => TRel a (a ^ (2 * X.order)) (X.order + 1) (· < X.order + 1) r.1 r'.1 ∧
        r'.2 = outMul a (a ^ (X.order + 1)) r.2)
      (NTUCKER.main topSv X s) (NTUCKER.main topSv (scl (a ^ (X.order + 1)) X) s') := by
  unfold NTUCKER.main
  rw [scl_order]
  refine (SameOp.range (P := fun n r r' => SRel a (a ^ (2 * X.order)) (X.order + 1) (fun k => k < n ∨ k = X.order) r r' ∧
    FactorsOk (tuckerShapes X.shape ranks) r) X.order (fun n hn r r' hr' => ?_) s.toState s'.toState
    ⟨h.st.mono fun k hk => hk.resolve_left (by omega), hst.factors⟩).bind fun r r' _ hr' => ?_
  · have := NTUCKER.modeUpdate_scl ht ha h2 h13 hpos hr hst.g hrp hn (tuckerShapes_iff.1 hr'.2.A) hr'.1
    rw [← h.g] at this
    cases e : NTUCKER.modeUpdate topSv X s.g r n with
    | error e' => rw [e] at this; revert this; cases NTUCKER.modeUpdate topSv (scl (a ^ (X.order + 1)) X) s'.g r' n <;> exact id
    | ok v =>
        rw [e] at this; revert this
        cases NTUCKER.modeUpdate topSv (scl (a ^ (X.order + 1)) X) s'.g r' n with
        | error e' => exact id
        | ok v' =>
            intro hv
            obtain ⟨V, XA, hf⟩ := NTUCKER.modeUpdate_inv e
            exact ⟨SRel.mono hv fun k hk => by
              have : k < n + 1 ∨ k = X.order := hk
              change k = n ∨ k < n ∨ k = X.order
              omega, hr'.2.factorStep hf⟩
  · have hlen : r.A.length = X.order := (tuckerShapes_iff.1 hr'.2.A).1
    rw [hr'.1.A, h.g, tfull_scl, hlen, ← pow_succ']
    simp only [bind_map_left, scalars_scl (show 0 < a ^ (X.order + 1) by positivity)]
    cases NTUCKER.fullOf s.g r.A with
    | error e => trivial
    | ok Y =>
        simp only [ok_bind]
        cases cp.scalars X Y with
        | error e => trivial
        | ok v =>
            simp only [ok_bind]
            have h' := hr'.1.mono (E := (· < X.order + 1)) fun k hk => by omega
            exact ⟨⟨⟨h'.A, h'.A0, h'.Am, by unfold tUpdate; rw [h'.t0], h'.t0, h'.L, h'.L0⟩, rfl, h.g0, h.gm⟩, rfl⟩

theorem TRel.op1 {a κ : ℝ} (hκ : 0 < κ) {N : Nat} {s s' : TState} (h : TRel a κ (N + 1) (· < N + 1) s s') :
    SameOp (TRel a κ (N + 1) fun _ => False) (NTUCKER.op1 N s) (NTUCKER.op1 N s') := by
  unfold NTUCKER.op1
  rw [h.st.weight]
  cases hw : bcu.weight s.toState with
  | error e => trivial
  | ok w =>
  rw [ok_bind, ok_bind]
  refine (h.st.extrapolates (w := w) hκ (show N ≤ N + 1 by omega) (weight_zero hw)).bind fun r r' _ hr => ?_
  obtain ⟨hr, ht⟩ := hr
  rw [hr.capped (w := w) hκ (show N < N + 1 by omega) (fun e => weight_zero hw (ht.symm.trans e)), h.g, h.g0, h.gm]
  simp only [extrapolate_scl, bind_map_left, assignCore_scl]
  cases cappedWeight r w N with
  | error e => trivial
  | ok wk =>
  rw [ok_bind, ok_bind]
  cases extrapolate wk s.g s.g0 with
  | error e => trivial
  | ok m =>
  rw [ok_bind, ok_bind]
  cases assignCore s.gm m with
  | error e => trivial
  | ok gm => exact ⟨⟨hr.A, hr.A0, hr.Am, hr.t, hr.t, fun _ hk => hk.elim, Or.inl ⟨hr.L, fun _ hk => hk.elim⟩⟩, rfl, rfl, rfl⟩

theorem TRel.op2 {a κ : ℝ} {M : Nat} {s s' : TState} (h : TRel a κ M (· < M) s s') :
    SameOp (TRel a κ M fun _ => False) (NTUCKER.op2 s) (NTUCKER.op2 s') :=
  ⟨⟨h.st.A, h.st.A0, h.st.A0, h.st.t, h.st.t0, fun _ hk => hk.elim, Or.inl ⟨h.st.L, fun _ hk => hk.elim⟩⟩, h.g, h.g0, h.g0⟩

theorem NTUCKER.init_scl {a κ : ℝ} (ha : 0 < a) (X : Tensor ℝ) (M : Nat) (draws : List (Tensor ℝ)) (gdraw : Tensor ℝ) :
    SameOp (TRel a κ M fun _ => False) (NTUCKER.init X draws gdraw)
      (NTUCKER.init (scl (a ^ (X.order + 1)) X) draws gdraw) := by
  unfold NTUCKER.init
  rw [scl_order]
  refine (bcu.init_scl (κ := κ) ha X (Nat.succ_ne_zero _) M draws).bind fun s s' _ hs => ?_
  rw [normInit_scl ha X (Nat.succ_ne_zero _)]
  simp only [bind_map_left]
  cases normInit X (X.order + 1) (relu gdraw) with
  | error e => trivial
  | ok g => exact ⟨hs, rfl, rfl, rfl⟩

end TD.bcu
