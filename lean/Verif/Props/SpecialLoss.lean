import Verif.Lemmas.SpecialLoss
import Verif.Lemmas.Float32
import Verif.Props.FloatLoss
import Verif.Props.Settings
import Verif.Props.Special

/-!
# C125: overflow, infinities and NaN in the errors reported by the trainings
-/
namespace TD.Props
open TD Tensor fl Spec sp Num fact
variable {F : Fmt}

theorem diff_num (A B : Tensor (Num F)) (h : A.shape = B.shape) {i : List Nat} (hi : InB A.shape i)
    (hf : (A.at_ i - B.at_ i).Finite) : IsNum (A.at_ i - B.at_ i) ((wides A).at_ i - (wides B).at_ i) :=
  isNum_sub (isNum_at A hi) (isNum_at B (h ▸ hi)) hf

theorem diff_sumSq (A B : Tensor (Num F)) (h : A.shape = B.shape) :
    ((sp.sumSq (ofFn A.shape fun i => A.at_ i - B.at_ i)).Finite →
      IsNum (sp.sumSq (ofFn A.shape fun i => A.at_ i - B.at_ i))
        (fl.sumSq (ofFn A.shape fun i => (wides A).at_ i - (wides B).at_ i))) ∧
      ∀ i, InB A.shape i → Reveals (A.at_ i) (sp.sumSq (ofFn A.shape fun i => A.at_ i - B.at_ i)) ∧
        Reveals (B.at_ i) (sp.sumSq (ofFn A.shape fun i => A.at_ i - B.at_ i)) :=
  ⟨isNum_sumSq _ _ _ fun _ hi => diff_num A B h hi, fun _ hi =>
    ⟨(shows_sub_left _ _).trans (shows_sumSq A.shape (fun i => A.at_ i - B.at_ i) hi),
      (shows_sub_right _ _).trans (shows_sumSq A.shape (fun i => A.at_ i - B.at_ i) hi)⟩⟩

/-- **C125** (`l2`): the loss of two tensors of one shape is a number only if all entries are; it is then the number computed with
unbounded exponents, so that `C120_l2` bounds its error; a NaN in one of the tensors gives NaN. -/
theorem C125_l2 (A B : Tensor (Num F)) (h : A.shape = B.shape) :
    ∃ r w, sp.l2 A B = .ok r ∧ fl.l2 (wides A) (wides B) = .ok w ∧ (r.Finite → IsNum r w) ∧
      ∀ i, InB A.shape i → Reveals (A.at_ i) r ∧ Reveals (B.at_ i) r := by
  obtain ⟨h1, h2⟩ := diff_sumSq A B h
  refine ⟨_, _, by unfold sp.l2; rw [tf.ewise_same _ h, ok_bind]; rfl,
    by unfold fl.l2; rw [tf.ewise_same _ (show (wides A).shape = (wides B).shape from h), ok_bind]; rfl, ?_, fun i hi => ?_⟩
  · exact isNum_mul (fun _ => half_fin F) h1
  · exact ⟨(h2 i hi).1.trans (shows_mul_right _ _), (h2 i hi).2.trans (shows_mul_right _ _)⟩

/-- **C125** (`rmse`): the same, for tensors whose number of entries is at most half the largest number. -/
theorem C125_rmse (A B : Tensor (Num F)) (h : A.shape = B.shape) (hN : 2 * (A.shape.prod : ℝ) ≤ F.big) :
    ∃ r, sp.rmse A B = .ok r ∧ (r.Finite → ∃ w, fl.rmse (wides A) (wides B) = .ok (some w) ∧ IsNum r w) ∧
      ∀ i, InB A.shape i → Reveals (A.at_ i) r ∧ Reveals (B.at_ i) r := by
  obtain ⟨h1, h2⟩ := diff_sumSq A B h
  have hw : (wides A).shape = (wides B).shape := h
  refine ⟨_, by unfold sp.rmse; rw [if_neg (not_not.2 h), tf.ewise_same _ h, ok_bind]; rfl, fun hf => ?_, fun i hi => ?_⟩
  · have hd := by_contra fun hn => (shows_sqrt _).1 hn hf
    obtain ⟨w, e, hw'⟩ := isNum_div h1 (const_fin F (nat_half _) hN) hd
    refine ⟨_, ?_, isNum_sqrt (fun _ => hw') hf⟩
    unfold fl.rmse
    rw [if_neg (not_not.2 hw), tf.ewise_same _ hw, ok_bind]
    show Except.ok (Option.map fsqrt (fdiv (fl.sumSq (ofFn A.shape fun i => (wides A).at_ i - (wides B).at_ i)) (fl.const F.arith (A.shape.prod : ℝ)))) = _
    rw [e]; rfl
  · exact ⟨((h2 i hi).1.trans (shows_div _ _)).trans (shows_sqrt _), ((h2 i hi).2.trans (shows_div _ _)).trans (shows_sqrt _)⟩

theorem isNum_nonzero (A : Tensor (Num F)) {i : List Nat} (hi : InB A.shape i) (h : (A.at_ i).Finite) :
    IsNum ((sp.nonzero A).at_ i) ((fl.nonzero (wides A)).at_ i) := by
  obtain ⟨p, e⟩ := isNum_at A hi h
  rw [sp.nonzero, at_map _ _ hi, fl.nonzero, at_map _ (wides A) hi, e]
  by_cases h0 : ((wides A).at_ i).val = 0
  · rw [if_neg (by rw [zero_def]; simp [h0]), if_neg (by simp [h0])]; exact isNum_zero
  · rw [if_pos (by rw [zero_def]; simp [h0]), if_pos h0]; exact isNum_one

theorem map_eq_ofFn_num {α β : Type} [Zero α] (f : α → β) (A : Tensor α) : tf.map f A = ofFn A.shape fun i => f (A.at_ i) := by
  conv_lhs => rw [← ofFn_at A]
  unfold tf.map ofFn
  simp [List.map_map]

/-- **C125** (`rmse_ignore_zero`): the loss reported by the trainings.  A prediction that is infinite or NaN shows in it even at
the positions the loss ignores: the prediction is multiplied by the mask. -/
theorem C125_rmse_ignore_zero (A B : Tensor (Num F)) (h : A.shape = B.shape) :
    ∃ r, sp.rmseIgnoreZero A B = .ok r ∧
      (r.Finite → (tf.reduceSum (sp.nonzero A)).Finite →
        ∃ w, fl.rmseIgnoreZero (wides A) (wides B) = .ok (some w) ∧ IsNum r w) ∧
      ∀ i, InB A.shape i → Reveals (A.at_ i) r ∧ Reveals (B.at_ i) r := by
  have hw : (wides A).shape = (wides B).shape := h
  have hz : B.shape = (sp.nonzero A).shape := h.symm
  have hz' : (wides B).shape = (fl.nonzero (wides A)).shape := h.symm
  set d : List Nat → Num F := fun i => A.at_ i - (ofFn B.shape fun i => B.at_ i * (sp.nonzero A).at_ i).at_ i with hd
  have hS : ∀ i, InB A.shape i → Reveals (A.at_ i) (sp.sumSq (ofFn A.shape d)) ∧ Reveals (B.at_ i) (sp.sumSq (ofFn A.shape d)) := by
    intro i hi
    have := shows_sumSq A.shape d hi
    refine ⟨(shows_sub_left _ _).trans this, Spec.Reveals.trans ?_ this⟩
    simp only [hd]
    rw [at_ofFn _ (h ▸ hi)]
    exact (shows_mul_left _ _).trans (shows_sub_right _ _)
  refine ⟨_, by
    unfold sp.rmseIgnoreZero
    rw [if_neg (not_not.2 h), tf.ewise_same _ hz, ok_bind, tf.ewise_same _ (show A.shape = (ofFn B.shape _).shape from h), ok_bind]
    rfl, fun hf hc => ?_, fun i hi =>
      ⟨((hS i hi).1.trans (shows_div _ _)).trans (shows_sqrt _), ((hS i hi).2.trans (shows_div _ _)).trans (shows_sqrt _)⟩⟩
  have hfd := by_contra fun hn => (shows_sqrt _).1 hn hf
  have hfs : (sp.sumSq (ofFn A.shape d)).Finite := by_contra fun hn => (shows_div _ _).1 hn hfd
  have hA : ∀ i, InB A.shape i → (A.at_ i).Finite := fun i hi => by_contra fun hn => (hS i hi).1.1 hn hfs
  have hsum := isNum_sumSq A.shape d
    (fun i => (wides A).at_ i - (ofFn B.shape fun i => (wides B).at_ i * (fl.nonzero (wides A)).at_ i).at_ i) (fun i hi => by
      have hB : InB B.shape i := h ▸ hi
      simp only [hd]
      rw [at_ofFn _ hB, at_ofFn _ hB]
      exact isNum_sub (isNum_at A hi) (isNum_mul (isNum_at B hB) fun _ => isNum_nonzero A hi (hA i hi)))
  have hcount : IsNum (tf.reduceSum (sp.nonzero A)) (tf.reduceSum (fl.nonzero (wides A))) := by
    rw [← ofFn_at (sp.nonzero A)] at hc ⊢
    rw [← ofFn_at (fl.nonzero (wides A))]
    exact isNum_total (indices A.shape) _ _ (fun i hi _ => isNum_nonzero A (mem_indices.1 hi) (hA i (mem_indices.1 hi))) hc
  obtain ⟨w, e, hw'⟩ := isNum_div hsum hcount hfd
  refine ⟨_, ?_, isNum_sqrt (fun _ => hw') hf⟩
  unfold fl.rmseIgnoreZero
  rw [if_neg (not_not.2 hw), tf.ewise_same _ hz', ok_bind, tf.ewise_same _ (show (wides A).shape = (ofFn (wides B).shape _).shape from h), ok_bind]
  show Except.ok (Option.map fsqrt (fdiv (fl.sumSq (ofFn A.shape fun i => (wides A).at_ i -
    (ofFn B.shape fun i => (wides B).at_ i * (fl.nonzero (wides A)).at_ i).at_ i)) (tf.reduceSum (fl.nonzero (wides A))))) = _
  rw [e]; rfl

/-- **C125** (objective): a number only if all entries are; it is then the number computed with unbounded exponents. -/
theorem C125_objective (X full : Tensor (Num F)) (h : full.shape = X.shape) :
    ∃ r w, sp.objective X full = .ok r ∧ fl.objective (wides X) (wides full) = .ok w ∧ (r.Finite → IsNum r w) ∧
      ∀ i, InB X.shape i → Reveals (X.at_ i) r ∧ Reveals (full.at_ i) r := by
  obtain ⟨h1, h2⟩ := diff_sumSq full X h
  refine ⟨_, _, by unfold sp.objective; rw [tf.ewise_same _ h, ok_bind]; rfl,
    by unfold fl.objective; rw [tf.ewise_same _ (show (wides full).shape = (wides X).shape from h), ok_bind]; rfl, ?_, fun i hi => ?_⟩
  · exact isNum_mul (fun _ => half_fin F) (isNum_mul (isNum_sqrt h1) (isNum_sqrt h1))
  · have := h2 i (h ▸ hi)
    exact ⟨((this.2.trans (shows_sqrt _)).trans (shows_mul_left _ _)).trans (shows_mul_right _ _),
      ((this.1.trans (shows_sqrt _)).trans (shows_mul_left _ _)).trans (shows_mul_right _ _)⟩

theorem norm_shows (X : Tensor (Num F)) {i : List Nat} (hi : InB X.shape i) : Reveals (X.at_ i) (sp.norm X) := by
  have := (shows_sumSq X.shape X.at_ hi).trans (shows_sqrt _)
  rw [ofFn_at] at this; exact this

theorem norm_num_of (X : Tensor (Num F)) (hf : (sp.norm X).Finite) : IsNum (sp.norm X) (fl.norm (wides X)) := by
  have := isNum_sumSq X.shape X.at_ (wides X).at_ fun i hi => isNum_at X hi
  rw [ofFn_at, show ofFn X.shape (wides X).at_ = wides X from ofFn_at (wides X)] at this
  exact isNum_sqrt this hf

/-- **C125** (relative residual), the part that holds: it is a number only if all entries of the reconstruction and of the input
are; it is NaN whenever the input has an infinite entry or NaN; and it is the number computed with unbounded exponents, if the norm
of the input is a number.  Missing: inputs whose squares overflow, see `C125_residual_false`. -/
theorem C125_residual_partial (X full : Tensor (Num F)) (h : full.shape = X.shape) :
    ∃ r, sp.relResidual X full = .ok r ∧
      (r.Finite → (sp.norm X).Finite → ∃ w, fl.relResidual (wides X) (wides full) = .ok (some w) ∧ IsNum r w) ∧
      (∀ i, InB X.shape i → Reveals (X.at_ i) r ∧ Reveals (full.at_ i) r) ∧
      (∀ i, InB X.shape i → ¬ (X.at_ i).Finite → r = .nan) := by
  obtain ⟨h1, h2⟩ := diff_sumSq full X h
  have hw : (wides full).shape = (wides X).shape := h
  refine ⟨_, by unfold sp.relResidual; rw [tf.ewise_same _ h, ok_bind]; rfl, fun hf hn => ?_, fun i hi => ?_, fun i hi hx => ?_⟩
  · obtain ⟨w, e, hw'⟩ := isNum_div (isNum_sqrt h1) (norm_num_of X hn) hf
    refine ⟨w, ?_, hw'⟩
    unfold fl.relResidual
    rw [tf.ewise_same _ hw, ok_bind]
    exact congrArg Except.ok e
  · have := h2 i (h ▸ hi)
    exact ⟨(this.2.trans (shows_sqrt _)).trans (shows_div _ _), (this.1.trans (shows_sqrt _)).trans (shows_div _ _)⟩
  · exact infinite_div ((((h2 i (h ▸ hi)).2.trans (shows_sqrt _))).1 hx) ((norm_shows X hi).1 hx)

/-! ### The residual of a large input -/

/-- The input `[2⁶⁵]`. -/
noncomputable def bigX : Tensor (Num f32) := ⟨[1], [num32 1 65 (by norm_num) (by norm_num)], rfl⟩
/-- The reconstruction `[3 · 2⁶³]`. -/
noncomputable def bigFull : Tensor (Num f32) := ⟨[1], [num32 3 63 (by norm_num) (by norm_num)], rfl⟩

/-- **C125** (relative residual), false in general: in float32, for the input `[2⁶⁵]` and the reconstruction `[3·2⁶³]`, all entries
are numbers and so is the distance, but the norm of the input overflows: the residual is reported as 0, the exact one is 1/4.  With
any positive tolerance the training stops as converged. -/
theorem C125_residual_false : AllFinite bigX ∧ AllFinite bigFull ∧ sp.relResidual bigX bigFull = .ok 0 ∧
    ∃ w, fl.relResidual (wides bigX) (wides bigFull) = .ok (some w) ∧ w.val = 1 / 4 := by
  have fin1 : ∀ A : Tensor (Num f32), A.shape = [1] → (A.at_ [0]).Finite → AllFinite A := by
    intro A hA h0 i hi
    rw [hA] at hi
    cases hi with
    | cons a b => cases b; simp only [Nat.lt_one_iff] at a; subst a; exact h0
  refine ⟨fin1 _ rfl trivial, fin1 _ rfl trivial, ?_, ?_⟩
  · unfold sp.relResidual
    rw [tf.ewise_same _ (show bigFull.shape = bigX.shape from rfl), ok_bind]
    have hd : ofFn bigFull.shape (fun i => bigFull.at_ i - bigX.at_ i) =
        ⟨[1], [Num.round f32 (((3 : ℤ) : ℝ) * 2 ^ 63 - ((1 : ℤ) : ℝ) * 2 ^ 65)], rfl⟩ := rfl
    rw [hd]
    obtain ⟨p1, e1⟩ := round32 (x := ((3 : ℤ) : ℝ) * 2 ^ 63 - ((1 : ℤ) : ℝ) * 2 ^ 65) (-1) 63 (by norm_num) (by norm_num) (by norm_num [abs_le])
    rw [e1]
    have hn : sp.norm (⟨[1], [.fin (((3 : ℤ) : ℝ) * 2 ^ 63 - ((1 : ℤ) : ℝ) * 2 ^ 65) p1], rfl⟩ : Tensor (Num f32)) =
        Num.sqrt (Num.round f32 ((((3 : ℤ) : ℝ) * 2 ^ 63 - ((1 : ℤ) : ℝ) * 2 ^ 65) * (((3 : ℤ) : ℝ) * 2 ^ 63 - ((1 : ℤ) : ℝ) * 2 ^ 65))) := rfl
    have hX : sp.norm bigX = Num.sqrt (Num.round f32 ((((1 : ℤ) : ℝ) * 2 ^ 65) * (((1 : ℤ) : ℝ) * 2 ^ 65))) := rfl
    rw [hn, hX]
    obtain ⟨p2, e2⟩ := round32 (x := (((3 : ℤ) : ℝ) * 2 ^ 63 - ((1 : ℤ) : ℝ) * 2 ^ 65) * (((3 : ℤ) : ℝ) * 2 ^ 63 - ((1 : ℤ) : ℝ) * 2 ^ 65))
      1 126 (by norm_num) (by norm_num) (by norm_num)
    rw [e2, round32_over 1 130 (by norm_num) (by norm_num) (by norm_num)]
    have hneg : decide ((((1 : ℤ) : ℝ) * 2 ^ 65) * (((1 : ℤ) : ℝ) * 2 ^ 65) < 0) = false := by
      rw [decide_eq_false_iff_not, not_lt]; positivity
    rw [hneg]
    have hs : Real.sqrt ((((3 : ℤ) : ℝ) * 2 ^ 63 - ((1 : ℤ) : ℝ) * 2 ^ 65) * (((3 : ℤ) : ℝ) * 2 ^ 63 - ((1 : ℤ) : ℝ) * 2 ^ 65)) = 2 ^ 63 := by
      rw [show (((3 : ℤ) : ℝ) * 2 ^ 63 - ((1 : ℤ) : ℝ) * 2 ^ 65) * (((3 : ℤ) : ℝ) * 2 ^ 63 - ((1 : ℤ) : ℝ) * 2 ^ 65) = (2 ^ 63) ^ 2 by norm_num]
      exact Real.sqrt_sq (by positivity)
    have h0 : ¬ (((3 : ℤ) : ℝ) * 2 ^ 63 - ((1 : ℤ) : ℝ) * 2 ^ 65) * (((3 : ℤ) : ℝ) * 2 ^ 63 - ((1 : ℤ) : ℝ) * 2 ^ 65) < 0 := by
      rw [not_lt]; exact mul_self_nonneg _
    have hq : Num.sqrt (.fin ((((3 : ℤ) : ℝ) * 2 ^ 63 - ((1 : ℤ) : ℝ) * 2 ^ 65) * (((3 : ℤ) : ℝ) * 2 ^ 63 - ((1 : ℤ) : ℝ) * 2 ^ 65)) p2) =
        Num.round f32 (2 ^ 63) := by
      show (if _ < _ then _ else _) = _
      rw [if_neg h0, hs]
    rw [hq]
    obtain ⟨p3, e3⟩ := round32 (x := (2 : ℝ) ^ 63) 1 63 (by norm_num) (by norm_num) (by norm_num)
    rw [e3]
    rfl
  · have hd : fl.relResidual (wides bigX) (wides bigFull) = .ok (fdiv
        (fsqrt (⟨f32.arith.rnd (f32.arith.rnd (((3 : ℤ) : ℝ) * 2 ^ 63 - ((1 : ℤ) : ℝ) * 2 ^ 65) * f32.arith.rnd (((3 : ℤ) : ℝ) * 2 ^ 63 - ((1 : ℤ) : ℝ) * 2 ^ 65)), f32.arith.rnd_rnd _⟩))
        (fsqrt (⟨f32.arith.rnd ((((1 : ℤ) : ℝ) * 2 ^ 65) * (((1 : ℤ) : ℝ) * 2 ^ 65)), f32.arith.rnd_rnd _⟩))) := rfl
    have r1 : f32.arith.rnd (((3 : ℤ) : ℝ) * 2 ^ 63 - ((1 : ℤ) : ℝ) * 2 ^ 65) = - 2 ^ 63 := by
      rw [rnd32 (-1) 63 (by norm_num) (by norm_num)]; norm_num
    have r2 : f32.arith.rnd (-2 ^ 63 * -2 ^ 63) = (2 ^ 63) ^ 2 := by
      rw [rnd32 1 126 (by norm_num) (by norm_num)]; norm_num
    have r3 : f32.arith.rnd ((((1 : ℤ) : ℝ) * 2 ^ 65) * (((1 : ℤ) : ℝ) * 2 ^ 65)) = (2 ^ 65) ^ 2 := by
      rw [rnd32 1 130 (by norm_num) (by norm_num)]; norm_num
    have n1 : (fsqrt (⟨f32.arith.rnd (f32.arith.rnd (((3 : ℤ) : ℝ) * 2 ^ 63 - ((1 : ℤ) : ℝ) * 2 ^ 65) * f32.arith.rnd (((3 : ℤ) : ℝ) * 2 ^ 63 - ((1 : ℤ) : ℝ) * 2 ^ 65)), f32.arith.rnd_rnd _⟩ : Fl f32.arith)).val = 2 ^ 63 := by
      show f32.arith.rnd (Real.sqrt (f32.arith.rnd (f32.arith.rnd (((3 : ℤ) : ℝ) * 2 ^ 63 - ((1 : ℤ) : ℝ) * 2 ^ 65) * f32.arith.rnd (((3 : ℤ) : ℝ) * 2 ^ 63 - ((1 : ℤ) : ℝ) * 2 ^ 65)))) = _
      rw [r1, r2, Real.sqrt_sq (by positivity)]
      exact rnd32 1 63 (by norm_num) (by norm_num)
    have n2 : (fsqrt (⟨f32.arith.rnd ((((1 : ℤ) : ℝ) * 2 ^ 65) * (((1 : ℤ) : ℝ) * 2 ^ 65)), f32.arith.rnd_rnd _⟩ : Fl f32.arith)).val = 2 ^ 65 := by
      show f32.arith.rnd (Real.sqrt (f32.arith.rnd ((((1 : ℤ) : ℝ) * 2 ^ 65) * (((1 : ℤ) : ℝ) * 2 ^ 65)))) = _
      rw [r3, Real.sqrt_sq (by positivity)]
      exact rnd32 1 65 (by norm_num) (by norm_num)
    rw [hd]
    refine ⟨_, by rw [fdiv, if_neg (by rw [n2]; positivity)], ?_⟩
    show f32.arith.rnd _ = _
    rw [n1, n2]
    have := nearestSub_fix (p := 24) (by omega) (emin := -149) (m := 1) (e := -2) (by norm_num) (by omega)
    have e : (2 : ℝ) ^ 63 / 2 ^ 65 = ((1 : ℤ) : ℝ) * 2 ^ (-2 : ℤ) := by norm_num
    rw [e]
    exact this.trans (by norm_num)

/-! ### Trainings -/

/-- The main run of each step reports the loss, the objective and the relative residual of the reconstruction it returns, against
the input `X`. -/
def ReportsOf {S G K : Type} (c : Cls S G K (Tensor (Num F)) (Num F)) (X : Tensor (Num F)) : Prop :=
  ∀ s s' o, c.main s = .ok (s', o) → o.full.shape = X.shape ∧ sp.rmseIgnoreZero X o.full = .ok o.loss ∧
    sp.objective X o.full = .ok o.obj ∧ sp.relResidual X o.full = .ok o.rel

theorem reports_run {S G K : Type} {c : Cls S G K (Tensor (Num F)) (Num F)} {X : Tensor (Num F)} (hc : ReportsOf c X)
    {A : fact.Arith (Num F)} {tol : Num F} {s0 : S} {n : Nat} {o : Nat → Out G K (Tensor (Num F)) (Num F)} {k : Nat → Option K}
    (h : Run A c tol s0 n o k) (j : Nat) (hj : j < n) :
    (o j).full.shape = X.shape ∧ sp.rmseIgnoreZero X (o j).full = .ok (o j).loss ∧
    sp.objective X (o j).full = .ok (o j).obj ∧ sp.relResidual X (o j).full = .ok (o j).rel := by
  obtain ⟨σ, -, hσ⟩ := h.ran
  obtain ⟨s, hs, -⟩ := hσ j hj
  unfold Runs at hs
  cases hcc : c.core with
  | none => rw [hcc] at hs; exact hc _ _ _ hs.2
  | some f => rw [hcc] at hs; obtain ⟨s1, w, -, -, h⟩ := hs; exact hc _ _ _ h

theorem notNeg_objective {X full : Tensor (Num F)} (h : full.shape = X.shape) {r : Num F} (hr : sp.objective X full = .ok r) :
    NotNeg r := by
  unfold sp.objective at hr
  rw [tf.ewise_same _ h, ok_bind] at hr
  rw [← Except.ok.inj hr]
  exact notNeg_mul notNeg_half (notNeg_mul (notNeg_sqrt _) (notNeg_sqrt _))

theorem notNeg_residual {X full : Tensor (Num F)} (h : full.shape = X.shape) {r : Num F} (hr : sp.relResidual X full = .ok r) :
    NotNeg r := by
  unfold sp.relResidual at hr
  rw [tf.ewise_same _ h, ok_bind] at hr
  rw [← Except.ok.inj hr]
  exact notNeg_div (notNeg_sqrt _) (notNeg_sqrt _)

theorem notNeg_refObj (track : Bool) (obj : Nat → Num F) (n : Nat) (h : ∀ j < n, NotNeg (obj j)) (hn : 0 < n) :
    ∀ j ≤ n, NotNeg (refObj (loopArith F) track obj j)
  | 0, _ => notNeg_add (h 0 hn) notNeg_one
  | j + 1, hj => by
      rw [refObj]
      split
      · exact h j (by omega)
      · exact notNeg_refObj track obj n h hn j (by omega)

/-- An objective that is infinite or NaN does not stall. -/
theorem not_stalled {track : Bool} {tol : Num F} {obj : Nat → Num F} {n j : Nat} (h : ∀ j < n, NotNeg (obj j)) (hj : j < n)
    (hx : ¬ (obj j).Finite) : ¬ Stalled (loopArith F) track tol obj j := by
  have hr := notNeg_refObj track obj n h (by omega) j (by omega)
  unfold Stalled
  show ¬ Num.lt (Num.abs (obj j - refObj (loopArith F) track obj j) / (refObj (loopArith F) track obj j + 1)) tol = true
  rw [lt_of_infinite (notNeg_div (notNeg_abs _) (notNeg_add hr notNeg_one))]
  · simp
  · exact (shows_div _ _).1 (abs_infinite ((shows_sub_left _ _).1 hx))

/-- **C125** (trainings): a training that ends before all steps ends with a reconstruction and an input whose entries are all
numbers. -/
theorem C125_ends_finite {S G K : Type} (c : Cls S G K (Tensor (Num F)) (Num F)) (X : Tensor (Num F)) (hc : ReportsOf c X)
    (args : Args (Num F)) (steps : Int) (fresh : Res S) (self self' : Self G K (Tensor (Num F))) (ev : List Int)
    (hist : List (Num F × Num F)) (h : train (loopArith F) c args steps fresh self = (self', ev, .ok hist)) :
    ∃ s0 o k, fresh = .ok s0 ∧ Run (loopArith F) c args.tol s0 hist.length o k ∧
      ((hist.length : Int) < steps → AllFinite X ∧ AllFinite (o (hist.length - 1)).full) := by
  obtain ⟨s0, o, k, h1, h2, -, -, h5⟩ := C45_stop_rule _ c args steps fresh self self' ev hist h
  have hlen : 1 ≤ hist.length := (C43_history _ c args steps fresh self self' ev hist h).choose_spec.choose_spec.choose_spec.2.1
  refine ⟨s0, o, k, h1, h2, fun hlt => ?_⟩
  have hrep := reports_run hc h2
  obtain ⟨e1, -, e3, e4⟩ := hrep (hist.length - 1) (by omega)
  obtain ⟨r1, w1, a1, -, -, b1⟩ := C125_objective X _ e1
  rw [a1] at e3
  obtain ⟨r2, a2, -, b2, -⟩ := C125_residual_partial X _ e1
  have e4' := e4
  rw [a2] at e4
  have hshow : (∀ i, InB X.shape i → Reveals (X.at_ i) (o (hist.length - 1)).obj ∧ Reveals ((o (hist.length - 1)).full.at_ i) (o (hist.length - 1)).obj) ∧
      (∀ i, InB X.shape i → Reveals (X.at_ i) (o (hist.length - 1)).rel ∧ Reveals ((o (hist.length - 1)).full.at_ i) (o (hist.length - 1)).rel) := by
    rw [← Except.ok.inj e3, ← Except.ok.inj e4]; exact ⟨b1, b2⟩
  have key : (o (hist.length - 1)).obj.Finite ∨ (o (hist.length - 1)).rel.Finite := by
    rcases h5 with h5 | h5 | ⟨-, -, -, h5⟩
    · omega
    · right
      by_contra hn
      have hneg := notNeg_residual e1 e4'
      have := lt_of_infinite hneg hn args.tol
      change Num.lt _ _ = true at h5
      rw [this] at h5; cases h5
    · left
      by_contra hn
      exact not_stalled (n := hist.length) (fun j hj => notNeg_objective (hrep j hj).1 (hrep j hj).2.2.1) (by omega) hn h5
  constructor
  · intro i hi
    by_contra hn
    rcases key with hk | hk
    · exact (hshow.1 i hi).1.1 hn hk
    · exact (hshow.2 i hi).1.1 hn hk
  · intro i hi
    rw [e1] at hi
    by_contra hn
    rcases key with hk | hk
    · exact (hshow.1 i hi).2.1 hn hk
    · exact (hshow.2 i hi).2.1 hn hk

/-- **C125** (trainings): if the input has an infinite entry or NaN, the training executes all steps, and every step reports a loss
that is no number and a relative residual that is NaN. -/
theorem C125_bad_input {S G K : Type} (c : Cls S G K (Tensor (Num F)) (Num F)) (X : Tensor (Num F)) (hc : ReportsOf c X)
    (i : List Nat) (hi : InB X.shape i) (hx : ¬ (X.at_ i).Finite)
    (args : Args (Num F)) (steps : Int) (fresh : Res S) (self self' : Self G K (Tensor (Num F))) (ev : List Int)
    (hist : List (Num F × Num F)) (h : train (loopArith F) c args steps fresh self = (self', ev, .ok hist)) :
    (hist.length : Int) = steps ∧ ∀ p ∈ hist, ¬ p.1.Finite ∧ p.2 = .nan := by
  obtain ⟨s0, o, k, h1, h2, h3⟩ := C125_ends_finite c X hc args steps fresh self self' ev hist h
  obtain ⟨s0', o', k', -, -, hle, hrun, hh⟩ := C43_history _ c args steps fresh self self' ev hist h
  constructor
  · by_contra hne
    exact hx ((h3 (lt_of_le_of_ne hle hne)).1 i hi)
  · intro p hp
    obtain ⟨j, hj, e⟩ := List.getElem_of_mem hp
    have := hh j hj
    rw [List.getElem?_eq_getElem hj, e] at this
    rw [Option.some.inj this]
    obtain ⟨e1, e2, -, e4⟩ := reports_run hc hrun j hj
    obtain ⟨r1, a1, -, b1⟩ := C125_rmse_ignore_zero X _ e1.symm
    obtain ⟨r2, a2, -, -, b2⟩ := C125_residual_partial X _ e1
    rw [a1] at e2
    rw [a2] at e4
    rw [← Except.ok.inj e2, ← Except.ok.inj e4]
    exact ⟨(b1 i hi).1.1 hx, b2 i hi hx⟩

/-- The hypotheses are met: a training on an input with a NaN, whose reconstructions are that of `bigFull`. -/
example : ∃ (c : Cls Unit Unit Unit (Tensor (Num f32)) (Num f32)) (X : Tensor (Num f32)), ReportsOf c X ∧ InB X.shape [0] ∧
    ¬ (X.at_ [0]).Finite ∧ ∃ hist, (train (loopArith f32) c { tol := 0 } 5 (.ok ()) {}).2.2 = .ok hist := by
  obtain ⟨l, hl, -⟩ := C125_rmse_ignore_zero (⟨[1], [.nan], rfl⟩ : Tensor (Num f32)) bigFull rfl
  obtain ⟨ob, w, hob, -⟩ := C125_objective (⟨[1], [.nan], rfl⟩ : Tensor (Num f32)) bigFull rfl
  obtain ⟨r, hr, -⟩ := C125_residual_partial (⟨[1], [.nan], rfl⟩ : Tensor (Num f32)) bigFull rfl
  refine ⟨CP_ALS.cls fun s => .ok (s, ⟨(), none, bigFull, l, ob, r⟩), ⟨[1], [.nan], rfl⟩, ?_, by decide, fun h => h, ?_⟩
  · intro s s' o h
    cases h
    exact ⟨rfl, hl, hob, hr⟩
  · refine C45_returns _ _ _ _ _ _ ⟨fun _ => rfl, fun f hf => ?_, fun p hp => ?_⟩ (by decide) (by decide)
    · cases hf
    · cases hp

end TD.Props
