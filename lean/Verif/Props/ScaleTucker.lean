import Verif.Props.Scale
import Verif.Props.Hooi
import Verif.Lemmas.ThinSvd

/-!
# The unit of the data, Tucker decompositions (C100)
-/
namespace TD.Props
open TD Spec Tensor tf ops fact

/-- The singular vectors `tf.svd` returns do not depend on the unit of the matrix (the singular values are multiplied). -/
def SvdScales (svd : Tensor ℝ → Res (Tensor ℝ × Tensor ℝ × Tensor ℝ)) (c : ℝ) : Prop :=
  ∀ M, svd (scl c M) = (fun r => (scl c r.1, r.2)) <$> svd M

theorem leading_scl {svd : Tensor ℝ → Res (Tensor ℝ × Tensor ℝ × Tensor ℝ)} {c : ℝ} (hs : SvdScales svd c) (X : Tensor ℝ)
    (ranks : List Nat) (n : Nat) : tucker.leading svd (scl c X) ranks n = tucker.leading svd X ranks n := by
  unfold tucker.leading
  simp only [unfold_scl, bind_map_left, hs _]

theorem tucker_full_scl (g : Tensor ℝ) (A : List (Tensor ℝ)) (c : ℝ) :
    tucker.fullOf (scl c g) A = scl c <$> tucker.fullOf g A := by
  unfold tucker.fullOf TTensor.init
  cases A with
  | nil => rfl
  | cons f0 A =>
      simp only [ok_bind]
      unfold TTensor.extract
      simp only [if_true]
      exact ttm_scl_left _ _ _ _ _ _

/-- **C100** for `HOSVD`: on data multiplied by `c` it raises exactly when it does on the data itself, and otherwise
returns the same factors and `c` times the core and the full tensor. -/
theorem C100_hosvd (svd : Tensor ℝ → Res (Tensor ℝ × Tensor ℝ × Tensor ℝ)) (c : ℝ) (hs : SvdScales svd c) (X : Tensor ℝ)
    (ranks : List Nat) : tucker.HOSVD.run svd (scl c X) ranks =
      (fun r => (r.1, scl c r.2.1, scl c r.2.2)) <$> tucker.HOSVD.run svd X ranks := by
  unfold tucker.HOSVD.run
  simp only [leading_scl hs, scl_order, ttm_scl_left, bind_map_left, map_bind, tucker_full_scl, map_pure]

theorem hooi_mode_scl {svd : Tensor ℝ → Res (Tensor ℝ × Tensor ℝ × Tensor ℝ)} {c : ℝ} (hs : SvdScales svd c) (X : Tensor ℝ)
    (ranks : List Nat) : tucker.HOOI.modeUpdate svd (scl c X) ranks = tucker.HOOI.modeUpdate svd X ranks := by
  funext A n
  unfold tucker.HOOI.modeUpdate
  simp only [ttm_scl_left, bind_map_left, leading_scl hs]

/-- **C100** for one step of `HOOI`, from any factors. -/
theorem C100_hooi_step (svd : Tensor ℝ → Res (Tensor ℝ × Tensor ℝ × Tensor ℝ)) (c : ℝ) (hc : 0 < c) (hs : SvdScales svd c)
    (X : Tensor ℝ) (ranks : List Nat) (A : List (Tensor ℝ)) : tucker.HOOI.main svd (scl c X) ranks A =
      (fun r => (r.1, outScl c r.2)) <$> tucker.HOOI.main svd X ranks A := by
  unfold tucker.HOOI.main outScl tucker.HOOI.sweep
  simp only [hooi_mode_scl hs, scl_order, ttm_scl_left, bind_map_left, map_bind, tucker_full_scl, scalars_scl hc, map_pure,
    Option.map_some]

/-- The initial factors of `HOOI` do not depend on the unit. -/
theorem C100_hooi_init (svd : Tensor ℝ → Res (Tensor ℝ × Tensor ℝ × Tensor ℝ)) (c : ℝ) (hs : SvdScales svd c)
    (X : Tensor ℝ) (ranks : List Nat) : tucker.HOOI.init svd (scl c X) ranks = tucker.HOOI.init svd X ranks := by
  unfold tucker.HOOI.init
  simp only [scl_order, scl_shape, leading_scl hs]
  rfl

theorem hooi_aux {svd : Tensor ℝ → Res (Tensor ℝ × Tensor ℝ × Tensor ℝ)} {X : Tensor ℝ} {ranks : List Nat}
    {A A' : List (Tensor ℝ)} {o : Out (List (Tensor ℝ)) (Tensor ℝ) (Tensor ℝ) ℝ}
    (h : tucker.HOOI.main svd X ranks A = .ok (A', o)) : ∃ g, o.aux = some g := by
  unfold tucker.HOOI.main at h
  cases h1 : tucker.HOOI.sweep svd X ranks A with
  | error e => rw [h1] at h; cases h
  | ok B =>
  rw [h1, ok_bind] at h
  cases h2 : ttm X B none true with
  | error e => rw [h2] at h; cases h
  | ok g =>
  rw [h2, ok_bind] at h
  cases h3 : tucker.fullOf g B with
  | error e => rw [h3] at h; cases h
  | ok Y =>
  rw [h3, ok_bind] at h
  cases h4 : cp.scalars X Y with
  | error e => rw [h4] at h; cases h
  | ok q =>
  rw [h4, ok_bind] at h
  have := (Prod.mk.inj (Except.ok.inj h)).2
  exact ⟨g, by rw [← this]⟩

/-- **C100** for trainings of `HOOI`: as far as both histories go, the relative residuals are the same and the losses are
multiplied by `c`.  If they are equally long, the factors are the same and the core is multiplied by `c`. -/
theorem C100_hooi_train (svd : Tensor ℝ → Res (Tensor ℝ × Tensor ℝ × Tensor ℝ)) (c : ℝ) (hc : 0 < c) (hs : SvdScales svd c)
    (X : Tensor ℝ) (ranks : List Nat) (Ar : Arith ℝ) (args args' : Args ℝ) (steps steps' : Int)
    (self self' ta ta' : Self (List (Tensor ℝ)) (Tensor ℝ) (Tensor ℝ)) (ev ev' : List Int) (hist hist' : List (ℝ × ℝ))
    (h : train Ar (HOOI.cls (tucker.HOOI.main svd X ranks)) args steps (tucker.HOOI.init svd X ranks) self =
      (self', ev, .ok hist))
    (h' : train Ar (HOOI.cls (tucker.HOOI.main svd (scl c X) ranks)) args' steps' (tucker.HOOI.init svd (scl c X) ranks) ta =
      (ta', ev', .ok hist')) :
    (∀ j l r, j < hist'.length → hist[j]? = some (l, r) → hist'[j]? = some (c * l, r)) ∧
    (hist'.length = hist.length → ∃ F g, self'.factors = some F ∧ self'.aux = some g ∧
      ta'.factors = some F ∧ ta'.aux = some (scl c g) ∧
      (args' = args → steps' = steps → ∃ Y, self'.full = some Y ∧ ta'.full = some (scl c Y))) := by
  rw [C100_hooi_init svd c hs] at h'
  cases hi : tucker.HOOI.init svd X ranks with
  | error e => rw [hi] at h; simp [train] at h
  | ok A0 =>
  rw [hi] at h h'
  obtain ⟨o, h1, h2, h3, h4, h5, h6⟩ := plain_mapped (outScl c) rfl rfl rfl rfl rfl rfl
    (fun s => C100_hooi_step svd c hc hs X ranks s) h h'
  constructor
  · intro j l r hj hlr
    have hj' : j < hist.length := (List.getElem?_eq_some_iff.1 hlr).1
    rw [h1 j hj', Option.some.injEq, Prod.mk.injEq] at hlr
    rw [h2 j hj' hj, ← hlr.1, ← hlr.2]
    rfl
  · intro he
    obtain ⟨a, b, d⟩ := h5 he
    have hn : 1 ≤ hist.length := (C43_history _ _ args steps _ self self' ev hist h).choose_spec.choose_spec.choose_spec.2.1
    obtain ⟨s, s', hm⟩ := h6 (hist.length - 1) (by omega)
    obtain ⟨g, hg⟩ := hooi_aux hm
    refine ⟨_, g, h3, h4 _ hg, a, b _ (by unfold outScl; simp only [hg, Option.map_some]), fun e1 e2 => ?_⟩
    obtain ⟨p, -, q1, q2⟩ := d e1 e2
    exact ⟨_, q1, q2⟩

/-- **C100** for whole trainings of `HOOI` with a tolerance up to `1 / (‖X‖²/2 + 2)` for both units. -/
theorem C100_hooi_same (svd : Tensor ℝ → Res (Tensor ℝ × Tensor ℝ × Tensor ℝ)) (hsv : SvdOk svd) (c : ℝ) (hc : 0 < c)
    (hs : SvdScales svd c) (X : Tensor ℝ) (ranks : List Nat) (h2 : 2 ≤ X.order) (h13 : X.order ≤ 13)
    (hpos : ∀ d ∈ X.shape, 0 < d) (hlen : X.order ≤ ranks.length) (args : Args ℝ) (ht0 : 0 ≤ args.tol)
    (htol : args.tol * (normSqT X / 2 + 2) ≤ 1) (htol' : args.tol * (c ^ 2 * normSqT X / 2 + 2) ≤ 1) (steps : Int)
    (self self' ta ta' : Self (List (Tensor ℝ)) (Tensor ℝ) (Tensor ℝ)) (ev ev' : List Int) (hist hist' : List (ℝ × ℝ))
    (h : train (exactArith ℝ) (HOOI.cls (tucker.HOOI.main svd X ranks)) args steps (tucker.HOOI.init svd X ranks) self =
      (self', ev, .ok hist))
    (h' : train (exactArith ℝ) (HOOI.cls (tucker.HOOI.main svd (scl c X) ranks)) args steps
      (tucker.HOOI.init svd (scl c X) ranks) ta = (ta', ev', .ok hist')) :
    hist' = hist.map (fun p => (c * p.1, p.2)) ∧ ∃ F g Y, self'.factors = some F ∧ self'.aux = some g ∧
      self'.full = some Y ∧ ta'.factors = some F ∧ ta'.aux = some (scl c g) ∧ ta'.full = some (scl c Y) := by
  obtain ⟨h1, h3⟩ := C100_hooi_train svd c hc hs X ranks _ args args steps steps self self' ta ta' ev ev' hist hist' h h'
  have hl : hist'.length = hist.length := by
    refine same_length (C88_hooi_stop svd X ranks _ _ args steps self self' ev hist h)
      (C88_hooi_stop svd (scl c X) ranks _ _ args steps ta ta' ev' hist' h')
      (C89_hooi_never_stalls svd hsv X ranks h2 h13 hpos hlen args ht0 htol steps self self' ev hist h)
      (C89_hooi_never_stalls svd hsv (scl c X) ranks h2 h13 hpos hlen args ht0 (by rwa [normSqT_scl]) steps ta ta' ev' hist' h')
      fun j a b => ?_
    unfold histRel
    rw [h1 j _ _ b (List.getElem?_eq_getElem a), List.getElem?_eq_getElem a]
    rfl
  refine ⟨?_, ?_⟩
  · apply List.ext_getElem?
    intro j
    by_cases hj : j < hist.length
    · rw [h1 j _ _ (by omega) (List.getElem?_eq_getElem hj), List.getElem?_map, List.getElem?_eq_getElem hj]
      rfl
    · rw [List.getElem?_eq_none (by omega), List.getElem?_eq_none (by simp; omega)]
  · obtain ⟨F, g, a1, a2, a3, a4, a5⟩ := h3 hl
    obtain ⟨Y, b1, b2⟩ := a5 rfl rfl
    exact ⟨F, g, Y, a1, a2, b1, a3, a4, b2⟩

/-- A solver that meets the contract of `tf.svd` and does not depend on the unit exists: divide by the norm first. -/
theorem exists_scaling_svd : ∃ svd, SvdOk svd ∧ ∀ c : ℝ, 0 < c → SvdScales svd c := by
  obtain ⟨svd0, h0⟩ := exists_svdOk
  refine ⟨fun M => if tf.norm M = 0 then (fun r => (scl 0 r.1, r.2)) <$> svd0 (scl 0 M) else
    (fun r => (scl (tf.norm M) r.1, r.2)) <$> svd0 (scl (tf.norm M)⁻¹ M), ?_, ?_⟩
  · intro M m n hM
    have key : ∀ (k : ℝ) (M' : Tensor ℝ), 0 ≤ k → M'.shape = [m, n] → M = scl k M' → ∃ s U V,
        (fun r : Tensor ℝ × Tensor ℝ × Tensor ℝ => (scl k r.1, r.2)) <$> svd0 M' = .ok (s, U, V) ∧ s.shape = [min m n] ∧
        U.shape = [m, min m n] ∧ V.shape = [n, min m n] ∧
        IsThinSVD (toMat M m n) (toMat U m (min m n)) (fun i => s.at_ [(i : Nat)]) (toMat V n (min m n)) := by
      intro k M' hk hM' hMM
      obtain ⟨s, U, V, h1, h2, h3, h4, h5⟩ := h0 M' m n hM'
      refine ⟨scl k s, U, V, by rw [h1]; rfl, h2, h3, h4, h5.orthU, h5.orthV, fun i => ?_, fun i j hij => ?_, ?_⟩
      · rw [at_scl]; exact mul_nonneg hk (h5.nonneg i)
      · rw [at_scl, at_scl]; exact mul_le_mul_of_nonneg_left (h5.anti i j hij) hk
      · have e1 : toMat M m n = k • toMat M' m n := by
          ext i j
          rw [hMM, Matrix.smul_apply]
          exact at_scl _ _ _
        have e2 : Matrix.diagonal (fun i : Fin (min m n) => (scl k s).at_ [(i : Nat)]) =
            k • Matrix.diagonal fun i : Fin (min m n) => s.at_ [(i : Nat)] := by
          rw [← Matrix.diagonal_smul]
          congr 1
          funext i
          exact at_scl _ _ _
        rw [e1, e2, h5.eq, Matrix.mul_smul, Matrix.smul_mul]
    dsimp only
    split
    · rename_i hz
      refine key 0 (scl 0 M) le_rfl hM ?_
      have hn : normSqT M = 0 := by rw [← cp.norm_sq, hz]; norm_num
      refine ext_at rfl fun i hi => ?_
      rw [at_scl, zero_mul]
      have := (loss.boxSum_eq_zero M.shape (fun i _ => sq_nonneg (M.at_ i))).1 hn i hi
      simpa using this
    · rename_i hz
      refine key _ _ (Real.sqrt_nonneg _) hM ?_
      rw [scl_scl, mul_inv_cancel₀ hz, scl_one]
  · intro c hc M
    dsimp only
    rw [norm_scl hc.le]
    by_cases hz : tf.norm M = 0
    · rw [if_pos hz, if_pos (by rw [hz, mul_zero]), scl_scl, zero_mul]
      cases svd0 (scl 0 M) with
      | error e => rfl
      | ok r =>
          refine congrArg Except.ok ?_
          simp only
          rw [scl_scl, mul_zero]
    · rw [if_neg hz, if_neg (mul_ne_zero hc.ne' hz), scl_scl, mul_inv, mul_comm c⁻¹, mul_assoc, inv_mul_cancel₀ hc.ne', mul_one]
      cases svd0 (scl (tf.norm M)⁻¹ M) with
      | error e => rfl
      | ok r =>
          refine congrArg Except.ok ?_
          simp only
          rw [scl_scl]

/-- The trainings C100 speaks about exist: ranks (2, 2) on a 2 × 3 tensor, in two units. -/
example : ∃ svd, SvdOk svd ∧ ∀ c : ℝ, 0 < c → SvdScales svd c ∧
    let X : Tensor ℝ := mat 2 3 fun i j => (i : ℝ) + j + 1
    (∃ hist, (train (exactArith ℝ) (HOOI.cls (tucker.HOOI.main svd X [2, 2])) { tol := 0 } 5
      (tucker.HOOI.init svd X [2, 2]) {}).2.2 = .ok hist) ∧
    ∃ hist, (train (exactArith ℝ) (HOOI.cls (tucker.HOOI.main svd (scl c X) [2, 2])) { tol := 0 } 5
      (tucker.HOOI.init svd (scl c X) [2, 2]) {}).2.2 = .ok hist := by
  obtain ⟨svd, h1, h2⟩ := exists_scaling_svd
  refine ⟨svd, h1, fun c hc => ⟨h2 c hc, ?_⟩⟩
  intro X
  have ha : Admissible X.shape [2, 2] := by
    change ∀ n < 2, [2, 2].getD n 0 ≤ [2, 3].getD n 0 ∧
      [2, 2].getD n 0 ≤ ∏ m ∈ (Finset.range 2).erase n, [2, 2].getD m 0
    decide
  have h0 : X.at_ [0, 0] ≠ 0 := by rw [at_mat _ (by decide) (by decide)]; norm_num
  have hi : InB X.shape [0, 0] := InB_pair.2 ⟨0, 0, rfl, by decide, by decide⟩
  exact ⟨(C74_hooi_admissible svd h1 X [2, 2] (by decide) (by decide) (by decide) ⟨_, hi, h0⟩ (by decide) _ _
      (by decide) 5 (by decide) {}).2 ha,
    (C74_hooi_admissible svd h1 (scl c X) [2, 2] (show 2 ≤ X.order by decide) (show X.order ≤ 13 by decide)
      (show ∀ d ∈ X.shape, 0 < d by decide) ⟨_, hi, by rw [at_scl]; exact mul_ne_zero hc.ne' h0⟩
      (show X.order ≤ [2, 2].length by decide) _ _ (by decide) 5 (by decide) {}).2 ha⟩

end TD.Props
