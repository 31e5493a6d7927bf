import Verif.Lemmas.FloatLoss
import Verif.Lemmas.Nearest
import Verif.Props.Loss
import Verif.Props.Rounding
import Verif.Lemmas.Cp

/-!
# C120: the reported errors, in rounded arithmetic

`A` and `B` are the tensors as stored.  `sqDist`, `sqDistOn` and `nnz` are exact.  No underflow, except in `C120_zero_underflow`.
-/
namespace TD.Props
open TD Tensor fl Spec
variable {S : Arith} [S.NoUnderflow]

/-- What `Roundings` means for the relative error: at most `2 k u` as long as `k u ≤ 1/2`. -/
theorem C120_relative (hu : S.u < 1) (k : Nat) (x y : ℝ) (h : Roundings S k x y) (hk : k * S.u ≤ 1 / 2) :
    |x - y| ≤ 2 * k * S.u * |y| := Roundings.relative hu h hk

theorem sumSq_sub (hu : S.u < 1) (A B : Tensor (Fl S)) :
    Roundings S (A.shape.prod + 3) (sumSq (ofFn A.shape fun i => A.at_ i - B.at_ i)).val (sqDist (vals A) (vals B)) := by
  have := Roundings.sumSq hu (s := A.shape) _ _ fun i _ => Roundings.sub hu A B i
  exact this.mono hu (by omega)

theorem fsqrt_close (hu : S.u < 1) {k : Nat} {x : Fl S} {y : ℝ} (h : Roundings S (2 * k) x.val y) :
    Roundings S (k + 1) (fsqrt x).val (Real.sqrt y) := (h.sqrt hu).rnd hu

theorem fdiv_close (hu : S.u < 1) {k l : Nat} {x x' : Fl S} {y y' : ℝ} (h : Roundings S k x.val y) (h' : Roundings S l x'.val y')
    (hy : y' ≠ 0) : ∃ r, fl.fdiv x x' = some r ∧ Roundings S (k + l + 1) r.val (y / y') := by
  have hx : x'.val ≠ 0 := fun e => hy ((h'.eq_zero_iff hu).1 e)
  exact ⟨_, by rw [fl.fdiv, if_neg hx], (h.div hu h').rnd hu⟩

/-- **C120** `rmse` is exact up to `(N + 8) / 2` roundings, for `N` entries. -/
theorem C120_rmse (hu : S.u < 1) (A B : Tensor (Fl S)) (h : A.shape = B.shape) (hne : A.shape.prod ≠ 0) :
    ∃ r, fl.rmse A B = .ok (some r) ∧
      Roundings S ((A.shape.prod + 8) / 2) r.val (Real.sqrt (sqDist (vals A) (vals B) / A.shape.prod)) := by
  obtain ⟨q, hq, hq'⟩ := fdiv_close hu (sumSq_sub hu A B) (Roundings.rnd1 hu (A.shape.prod : ℝ))
    (x' := const S (A.shape.prod : ℝ)) (by exact_mod_cast hne)
  refine ⟨fsqrt q, ?_, ?_⟩
  · unfold fl.rmse
    rw [if_neg (by simpa using h), tf.ewise_same _ h, ok_bind]
    change Except.ok (Option.map _ (fl.fdiv _ (const S (A.shape.prod : ℝ)))) = _
    rw [hq]; rfl
  · exact (fsqrt_close hu (k := (A.shape.prod + 6) / 2) (hq'.mono hu (by omega))).mono hu (by omega)

/-- **C120** `l2` is exact up to `N + 5` roundings. -/
theorem C120_l2 (hu : S.u < 1) (A B : Tensor (Fl S)) (h : A.shape = B.shape) :
    ∃ r, fl.l2 A B = .ok r ∧ Roundings S (A.shape.prod + 5) r.val (1 / 2 * sqDist (vals A) (vals B)) := by
  refine ⟨_, by unfold fl.l2; rw [tf.ewise_same _ h, ok_bind]; rfl, ?_⟩
  have := ((Roundings.rnd1 hu (1 / 2 : ℝ)).mul hu (sumSq_sub hu A B)).rnd hu
  exact this.mono hu (by omega)

omit [S.NoUnderflow] in
theorem nonzero_vals (A : Tensor (Fl S)) (i : List Nat) (hi : InB A.shape i) :
    ((fl.nonzero A).at_ i).val = if (vals A).at_ i ≠ 0 then 1 else 0 := by
  rw [fl.nonzero, at_map _ _ hi, at_vals]
  split <;> rfl

/-- **C120** `rmse_ignore_zero`, the loss the trainings report, is exact up to `N + 3` roundings. -/
theorem C120_rmse_ignore_zero (hu : S.u < 1) (A B : Tensor (Fl S)) (h : A.shape = B.shape)
    (hne : ∃ i, InB A.shape i ∧ (A.at_ i).val ≠ 0) :
    ∃ r, fl.rmseIgnoreZero A B = .ok (some r) ∧
      Roundings S (A.shape.prod + 3) r.val (Real.sqrt (sqDistOn (vals A) (vals B) / nnz (vals A))) := by
  have hmask : ∀ i, InB A.shape i → (B.at_ i * (fl.nonzero A).at_ i).val = if (vals A).at_ i ≠ 0 then (vals B).at_ i else 0 := by
    intro i hi
    rw [Roundings.val_mul, nonzero_vals A i hi]
    split
    · rw [mul_one, at_vals]; exact (B.at_ i).rep
    · rw [mul_zero, S.rnd_zero]
  have hB : tf.ewise (· * ·) B (fl.nonzero A) = .ok (ofFn A.shape fun i => B.at_ i * (fl.nonzero A).at_ i) := by
    rw [tf.ewise_same _ (show B.shape = (fl.nonzero A).shape from h.symm), h]
  have hd : tf.ewise (· - ·) A (ofFn A.shape fun i => B.at_ i * (fl.nonzero A).at_ i) =
      .ok (ofFn A.shape fun i => A.at_ i - (ofFn A.shape fun i => B.at_ i * (fl.nonzero A).at_ i).at_ i) :=
    tf.ewise_same _ rfl
  have hsum := Roundings.sumSq hu (k := 1) (s := A.shape)
    (fun i => A.at_ i - (ofFn A.shape fun i => B.at_ i * (fl.nonzero A).at_ i).at_ i)
    (fun i => if (vals A).at_ i ≠ 0 then (vals A).at_ i - (vals B).at_ i else 0) (fun i hi => by
      rw [at_ofFn _ hi, Roundings.val_sub, hmask i hi, ← at_vals]
      have := Roundings.rnd1 hu ((vals A).at_ i - if (vals A).at_ i ≠ 0 then (vals B).at_ i else 0)
      by_cases h0 : (vals A).at_ i = 0
      · simp only [h0, ne_eq, not_true_eq_false, if_false, sub_zero] at this ⊢
        exact this
      · simp only [h0, ne_eq, not_false_eq_true, if_true] at this ⊢
        exact this)
  have hsq : (boxSum A.shape fun i => (if (vals A).at_ i ≠ 0 then (vals A).at_ i - (vals B).at_ i else 0) ^ 2) =
      sqDistOn (vals A) (vals B) := by
    unfold sqDistOn
    refine boxSum_congr fun i _ => ?_
    split <;> simp
  rw [hsq] at hsum
  have hden : Roundings S A.shape.prod (tf.reduceSum (fl.nonzero A)).val (nnz (vals A)) := by
    have := Roundings.total hu (k := 0) (indices A.shape) (fl.nonzero A).at_ (fun i => if (vals A).at_ i ≠ 0 then 1 else 0)
      (fun i hi => by
        rw [nonzero_vals A i (mem_indices.1 hi)]
        refine ⟨by split <;> norm_num, Roundings.refl hu _ _⟩)
    rw [length_indices] at this
    have e1 : (indices A.shape).map (fl.nonzero A).at_ = (fl.nonzero A).data := by
      have := congrArg Tensor.data (ofFn_at (fl.nonzero A))
      exact this
    have e2 : ((indices A.shape).map (fun i => if (vals A).at_ i ≠ 0 then (1 : ℝ) else 0)).sum = nnz (vals A) := by
      rw [← sum_nonzero, loss.nonzero, loss.reduceSum_map, boxSum_eq_list_sum]
      rfl
    rw [e1, e2] at this
    exact this.mono hu (by omega)
  have hnz : (nnz (vals A) : ℝ) ≠ 0 := by
    obtain ⟨i, hi, h0⟩ := hne
    exact_mod_cast (nnz_ne_zero (vals A)).2 ⟨i, hi, by rwa [at_vals]⟩
  obtain ⟨q, hq, hq'⟩ := fdiv_close hu hsum hden hnz
  refine ⟨fsqrt q, ?_, ?_⟩
  · unfold fl.rmseIgnoreZero
    rw [if_neg (by simpa using h), hB, ok_bind, hd, ok_bind, hq]
    rfl
  · exact (fsqrt_close hu (k := A.shape.prod + 2) (hq'.mono hu (by omega))).mono hu (by omega)

/-- **C120** The objective the trainings report is exact up to `N + 9` roundings. -/
theorem C120_objective (hu : S.u < 1) (X full : Tensor (Fl S)) (h : full.shape = X.shape) :
    ∃ r, fl.objective X full = .ok r ∧ Roundings S (X.shape.prod + 9) r.val (1 / 2 * sqDist (vals full) (vals X)) := by
  refine ⟨_, by unfold fl.objective; rw [tf.ewise_same _ h, ok_bind]; rfl, ?_⟩
  have hn := Roundings.norm hu (s := full.shape) (m := (full.shape.prod + 4) / 2) _ _ (fun i _ => Roundings.sub hu full X i) (by omega)
  have := ((Roundings.rnd1 hu (1 / 2 : ℝ)).mul hu ((hn.mul hu hn).rnd hu)).rnd hu
  rw [Real.mul_self_sqrt (loss.boxSum_nonneg _ fun _ _ => sq_nonneg _)] at this
  rw [← h]
  exact this.mono hu (by omega)

/-- **C120** The relative residual the trainings report is exact up to `N + 6` roundings. -/
theorem C120_residual (hu : S.u < 1) (X full : Tensor (Fl S)) (h : full.shape = X.shape)
    (hne : ∃ i, InB X.shape i ∧ (X.at_ i).val ≠ 0) :
    ∃ r, fl.relResidual X full = .ok (some r) ∧
      Roundings S (X.shape.prod + 6) r.val (Real.sqrt (sqDist (vals full) (vals X)) / Real.sqrt (normSqT (vals X))) := by
  have hn := Roundings.norm hu (s := full.shape) (m := (full.shape.prod + 4) / 2) _ _ (fun i _ => Roundings.sub hu full X i) (by omega)
  have hX := Roundings.norm hu (k := 0) (s := X.shape) (m := (X.shape.prod + 2) / 2) X.at_ (vals X).at_
    (fun i _ => by rw [at_vals]; exact Roundings.refl hu _ _) (by omega)
  obtain ⟨i, hi, hi0⟩ := hne
  have hpos : 0 < normSqT (vals X) := by
    rcases (loss.boxSum_nonneg X.shape (f := fun i => (vals X).at_ i ^ 2) fun _ _ => sq_nonneg _).eq_or_lt with h0 | h0
    · have := (loss.boxSum_eq_zero X.shape fun _ _ => sq_nonneg _).1 h0.symm i hi
      rw [at_vals] at this
      exact absurd (pow_eq_zero_iff (by norm_num) |>.1 this) hi0
    · exact h0
  obtain ⟨r, hr, hr'⟩ := fdiv_close hu hn hX (Real.sqrt_pos.2 hpos).ne'
  refine ⟨r, ?_, ?_⟩
  · unfold fl.relResidual
    rw [tf.ewise_same _ h, ok_bind, ← hr, ofFn_at]; rfl
  · rw [h] at hr'
    unfold sqDist
    rw [show (vals full).shape = X.shape from h]
    exact hr'.mono (l := X.shape.prod + 6) hu (by omega)

/-- **C120** A reported residual of zero means that the data is reproduced exactly, and conversely. -/
theorem C120_zero (hu : S.u < 1) (X full : Tensor (Fl S)) (h : full.shape = X.shape)
    (hne : ∃ i, InB X.shape i ∧ (X.at_ i).val ≠ 0) :
    (∃ r, fl.relResidual X full = .ok (some r) ∧ r.val = 0) ↔ vals full = vals X := by
  obtain ⟨r, hr, hr'⟩ := C120_residual hu X full h hne
  have hz : (∃ r, fl.relResidual X full = .ok (some r) ∧ r.val = 0) ↔ r.val = 0 := by
    constructor
    · rintro ⟨r', e, h0⟩
      rw [hr] at e
      simp only [Except.ok.injEq, Option.some.injEq] at e
      rwa [e]
    · exact fun h0 => ⟨r, hr, h0⟩
  rw [hz, hr'.eq_zero_iff hu, div_eq_zero_iff]
  obtain ⟨i, hi, hi0⟩ := hne
  have hpos : Real.sqrt (normSqT (vals X)) ≠ 0 := by
    intro h0
    rw [Real.sqrt_eq_zero (normSqT_nonneg _)] at h0
    have := (loss.boxSum_eq_zero X.shape fun _ _ => sq_nonneg _).1 h0 i hi
    rw [at_vals] at this
    exact absurd (pow_eq_zero_iff (by norm_num) |>.1 this) hi0
  rw [or_iff_left hpos, Real.sqrt_eq_zero (sqDist_nonneg _ _), sqDist, loss.boxSum_eq_zero _ fun _ _ => sq_nonneg _]
  constructor
  · intro hall
    refine ext_at h fun i hb => ?_
    have := hall i hb
    rwa [pow_eq_zero_iff (by norm_num), sub_eq_zero] at this
  · intro e i _
    rw [e, sub_self]; norm_num

/-- **C120** (no underflow is needed): in float32, with gradual underflow, the reported residual of the reconstruction `[1, 0]` of
`[1, 2⁻¹⁰⁰]` is zero. -/
theorem C120_zero_underflow : ¬ ∀ X full : Tensor (Fl float32), full.shape = X.shape → (∃ i, InB X.shape i ∧ (X.at_ i).val ≠ 0) →
    ((∃ r, fl.relResidual X full = .ok (some r) ∧ r.val = 0) ↔ vals full = vals X) := by
  intro h
  have hr : float32.rnd ((2 : ℝ) ^ (-100 : ℤ)) = 2 ^ (-100 : ℤ) := by
    have := nearestSub_fix (p := 24) (by omega) (emin := -149) (m := 1) (e := -100) (by norm_num) (by omega)
    rw [Int.cast_one, one_mul] at this
    exact this
  set t : Fl float32 := ⟨2 ^ (-100 : ℤ), hr⟩ with ht
  set X : Tensor (Fl float32) := ⟨[2], [1, t], rfl⟩ with hX
  set full : Tensor (Fl float32) := ⟨[2], [1, 0], rfl⟩ with hfull
  have hsub : ∀ x : Fl float32, x - x = 0 := fun x => by
    show (⟨float32.rnd (x.val - x.val), _⟩ : Fl float32) = ⟨0, _⟩
    simp only [sub_self, float32.rnd_zero]
  have hmul : (0 : Fl float32) * 0 = 0 := by
    show (⟨float32.rnd (0 * 0), _⟩ : Fl float32) = ⟨0, _⟩
    simp only [mul_zero, float32.rnd_zero]
  have htt : (0 - t) * (0 - t) = 0 := by
    have h1 : (0 - t : Fl float32).val = -2 ^ (-100 : ℤ) := by
      show float32.rnd (0 - 2 ^ (-100 : ℤ)) = _
      have := nearestSub_fix (p := 24) (by omega) (emin := -149) (m := -1) (e := -100) (by norm_num) (by omega)
      rw [Int.cast_neg, Int.cast_one, neg_one_mul] at this
      rw [zero_sub]; exact this
    show (⟨float32.rnd ((0 - t : Fl float32).val * (0 - t : Fl float32).val), _⟩ : Fl float32) = ⟨0, _⟩
    simp only [h1, neg_mul_neg, float32_tiny]
  have h2tt : (t * t : Fl float32) = 0 := by
    show (⟨float32.rnd (2 ^ (-100 : ℤ) * 2 ^ (-100 : ℤ)), _⟩ : Fl float32) = ⟨0, _⟩
    simp only [float32_tiny]
  have h11 : (1 : Fl float32) * 1 = 1 := by
    show (⟨float32.rnd (1 * 1), _⟩ : Fl float32) = ⟨1, _⟩
    simp only [mul_one, float32.rnd_one]
  have hd : fl.relResidual X full = .ok (fdiv (fsqrt (run (float32.sumTree 2) fun i => [(1 - 1) * (1 - 1), (0 - t) * (0 - t)].getD i 0))
      (fsqrt (run (float32.sumTree 2) fun i => [1 * 1, t * t].getD i 0))) := rfl
  rw [hsub, hmul, htt, h2tt, h11] at hd
  have n1 : (fsqrt (run (float32.sumTree 2) fun i => [(0 : Fl float32), 0].getD i 0)).val = 0 := by
    show float32.rnd (Real.sqrt (float32.rnd (0 + 0))) = 0
    rw [add_zero, float32.rnd_zero, Real.sqrt_zero, float32.rnd_zero]
  have n2 : (fsqrt (run (float32.sumTree 2) fun i => [(1 : Fl float32), 0].getD i 0)).val = 1 := by
    show float32.rnd (Real.sqrt (float32.rnd (1 + 0))) = 1
    rw [add_zero, float32.rnd_one, Real.sqrt_one, float32.rnd_one]
  have hl := (h X full rfl ⟨[0], by simp [InB, hX], one_ne_zero⟩).1 ⟨_, by rw [hd, fdiv, if_neg (by rw [n2]; exact one_ne_zero)], by
    show float32.rnd _ = 0
    rw [n1, zero_div, float32.rnd_zero]⟩
  have := congrArg (fun T => T.at_ [1]) hl
  exact (show (0 : ℝ) < 2 ^ (-100 : ℤ) by positivity).ne this

/-- **C120** A training that stops because the reported residual is below `tol` has an exact residual below `tol / (1 - u)^(N + 6)`. -/
theorem C120_tolerance (hu : S.u < 1) (X full : Tensor (Fl S)) (h : full.shape = X.shape)
    (hne : ∃ i, InB X.shape i ∧ (X.at_ i).val ≠ 0) (r : Fl S) (hr : fl.relResidual X full = .ok (some r)) (tol : ℝ) (ht : r.val < tol) :
    Real.sqrt (sqDist (vals full) (vals X)) / Real.sqrt (normSqT (vals X)) < tol / (1 - S.u) ^ (X.shape.prod + 6) := by
  obtain ⟨r', hr', θ, h1, -, h3⟩ := C120_residual hu X full h hne
  rw [hr] at hr'
  simp only [Except.ok.injEq, Option.some.injEq] at hr'
  subst hr'
  rw [lt_div_iff₀ (Roundings.qpow_pos hu _)]
  refine lt_of_le_of_lt ?_ ht
  rw [h3, mul_comm]
  exact mul_le_mul_of_nonneg_right h1 (by positivity)

/-- **C120** The three numbers of a training step against the exact ones that the model of the training uses: each is exact up to
`N + 9` roundings. -/
theorem C120_training (hu : S.u < 1) (X full : Tensor (Fl S)) (h : full.shape = X.shape) (l o r : ℝ)
    (hs : cp.scalars (vals X) (vals full) = .ok (l, o, r)) :
    ∃ l' o' r', fl.rmseIgnoreZero X full = .ok (some l') ∧ fl.objective X full = .ok o' ∧ fl.relResidual X full = .ok (some r') ∧
      Roundings S (X.shape.prod + 9) l'.val l ∧ Roundings S (X.shape.prod + 9) o'.val o ∧ Roundings S (X.shape.prod + 9) r'.val r := by
  obtain ⟨ho, hr, hpos⟩ := cp.scalars_ok (X := vals X) (full := vals full) h hs
  have hne : ∃ i, InB X.shape i ∧ (X.at_ i).val ≠ 0 := by
    by_contra hno
    push Not at hno
    have : normSqT (vals X) = 0 := (loss.boxSum_eq_zero _ fun _ _ => sq_nonneg _).2 fun i hi => by
      rw [at_vals, hno i hi]; norm_num
    rw [this] at hpos
    exact lt_irrefl _ hpos
  have hl : loss.rmseIgnoreZero (vals X) (vals full) = .ok (some l) := by
    unfold cp.scalars at hs
    cases h1 : loss.rmseIgnoreZero (vals X) (vals full) with
    | error e => rw [h1] at hs; cases hs
    | ok ls =>
        rw [h1, ok_bind, tf.ewise_same _ (show (vals full).shape = (vals X).shape from h), ok_bind] at hs
        cases ls with
        | none => cases hs
        | some l' =>
            simp only at hs
            split at hs
            · rename_i h2 h3
              cases hs
              cases h2
              rfl
            · cases hs
  have hl' := C32_formula (vals X) (vals full) h.symm (by
    obtain ⟨i, hi, h0⟩ := hne
    exact ⟨i, hi, by rwa [at_vals]⟩)
  rw [hl] at hl'
  simp only [Except.ok.injEq, Option.some.injEq] at hl'
  have hd : sqDist (vals full) (vals X) = distSqT (vals X) (vals full) := by
    unfold sqDist distSqT
    rw [show (vals full).shape = (vals X).shape from h]
    exact boxSum_congr fun i _ => by ring
  obtain ⟨l', a1, a2⟩ := C120_rmse_ignore_zero hu X full h.symm hne
  obtain ⟨o', b1, b2⟩ := C120_objective hu X full h
  obtain ⟨r', c1, c2⟩ := C120_residual hu X full h hne
  rw [hd] at b2 c2
  refine ⟨l', o', r', a1, b1, c1, ?_, ?_, ?_⟩
  · rw [hl']; exact a2.mono hu (by omega)
  · rw [ho, div_eq_mul_inv, mul_comm, ← one_div]; exact b2
  · rw [hr]; exact c2.mono hu (by omega)

/-- The hypotheses are met by float32 (24 bits) on two tensors of four entries. -/
example : (ieee 24 (by omega)).u < 1 ∧ ex32.shape = (ofFn ex32.shape fun _ => (1 : Fl (ieee 24 (by omega)))).shape ∧
    ex32.shape.prod ≠ 0 ∧ (∃ i, InB ex32.shape i ∧ (ex32.at_ i).val ≠ 0) := by
  refine ⟨?_, rfl, by decide, [0, 0], by decide, ?_⟩
  · show (2⁻¹ : ℝ) ^ 24 < 1
    norm_num
  · show ((1 : ℤ) : ℝ) ≠ 0
    norm_num

end TD.Props
