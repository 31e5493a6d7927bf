import Verif.Lemmas.Scale
import Verif.Props.Fixed
import Verif.Props.StopRule
import Mathlib.Tactic.NormNum

/-!
# The unit of the data (C99)

`scl c X` is the data tensor with every entry multiplied by `c`.
-/
namespace TD.Props
open TD Spec Tensor tf ops fact

theorem cp_mode_scl (pinv : Tensor ℝ → Res (Tensor ℝ)) (X : Tensor ℝ) (R : Nat) (A : List (Tensor ℝ)) (n : Nat) {c : ℝ}
    (hc : 0 < c) : cp.modeUpdate pinv (scl c X) R A n =
      (fun u : cp.Upd ℝ => ⟨u.A, scl c u.lam, scl c u.nonNorm⟩) <$> cp.modeUpdate pinv X R A n := by
  unfold cp.modeUpdate
  simp only [unfold_scl, matmul_scl_left, reshape_scl, reduceMax0_scl hc.le, div_scl hc, bind_map_left, map_bind, scl_shape,
    map_pure]

theorem cp_sweep_scl (pinv : Tensor ℝ → Res (Tensor ℝ)) (X : Tensor ℝ) (R : Nat) (A : List (Tensor ℝ)) {c : ℝ}
    (hc : 0 < c) : cp.sweep pinv (scl c X) R A = (fun r => (r.1, scl c r.2)) <$> cp.sweep pinv X R A := by
  unfold cp.sweep
  have : ∀ (L : List Nat) (st : List (Tensor ℝ) × Option (Tensor ℝ)),
      L.foldlM (fun (st : List (Tensor ℝ) × Option (Tensor ℝ)) mode => do
        let u ← cp.modeUpdate pinv (scl c X) R st.1 mode
        return (u.A, some u.lam)) (st.1, st.2.map (scl c)) =
      (fun r : List (Tensor ℝ) × Option (Tensor ℝ) => (r.1, r.2.map (scl c))) <$> L.foldlM (fun st mode => do
        let u ← cp.modeUpdate pinv X R st.1 mode
        return (u.A, some u.lam)) st := by
    intro L
    induction L with
    | nil => intro st; rfl
    | cons n L ih =>
        intro st
        simp only [List.foldlM_cons, cp_mode_scl pinv X R _ n hc, bind_map_left, map_bind, bind_assoc, pure_bind]
        congr 1; funext u
        exact ih (u.A, some u.lam)
  have h := this (List.range X.order) (A, none)
  simp only [Option.map_none] at h
  rw [scl_order, h]
  simp only [bind_map_left, map_bind]
  congr 1; funext r
  cases r.2 <;> rfl

theorem cp_full_scl (A : List (Tensor ℝ)) (lam : Tensor ℝ) (c : ℝ) :
    cp.fullOf A (scl c lam) = scl c <$> cp.fullOf A lam := by
  unfold cp.fullOf KTensor.init
  cases A with
  | nil => rfl
  | cons f0 A =>
      simp only [ok_bind]
      unfold KTensor.extract
      have : (if (scl c lam).order = 1 then KTensor.expandLast (scl c lam) else scl c lam) =
          scl c (if lam.order = 1 then KTensor.expandLast lam else lam) := by
        rw [scl_order]; split <;> rfl
      simp only [this, map_bind]
      congr 1; funext tmp
      congr 1; funext back
      simp only [if_true]
      have := matmul_scl 1 c tmp (if lam.order = 1 then KTensor.expandLast lam else lam) false false
      rw [scl_one, one_mul] at this
      simp only [this, bind_map_left, reshape_scl]

/-- What a step returns when everything but the factors and the relative residual is multiplied: weights (or core),
full tensor and loss by `c`, the objective by `c²`. -/
noncomputable def outScl (c : ℝ) (o : Out (List (Tensor ℝ)) (Tensor ℝ) (Tensor ℝ) ℝ) :
    Out (List (Tensor ℝ)) (Tensor ℝ) (Tensor ℝ) ℝ :=
  ⟨o.factors, o.aux.map (scl c), scl c o.full, c * o.loss, c ^ 2 * o.obj, o.rel⟩

/-- **C99** for one step of `CP_ALS`, from any factors: on data multiplied by `c > 0` it fails exactly when it fails on
the data itself, and otherwise returns the same factors and relative residual, and `c` times the weights, the full tensor
and the loss. -/
theorem C99_cp_step (pinv : Tensor ℝ → Res (Tensor ℝ)) (X : Tensor ℝ) (R : Nat) (A : List (Tensor ℝ)) (c : ℝ)
    (hc : 0 < c) : cp.main pinv (scl c X) R A = (fun r => (r.1, outScl c r.2)) <$> cp.main pinv X R A := by
  unfold cp.main outScl
  simp only [cp_sweep_scl pinv X R A hc, bind_map_left, map_bind, cp_full_scl, scalars_scl hc, map_pure, Option.map_some]

/-- Two plain trainings whose steps go through the same states. -/
theorem plain_mapped {S F K X R : Type} {Ar : Arith R} {c d : Cls S F K X R} (G : Out F K X R → Out F K X R)
    (hu : c.update = none) (hk : c.core = none) (hu' : d.update = none) (hk' : d.core = none)
    (hl : c.lambdasAfter = none) (hl' : d.lambdasAfter = none)
    (hm : ∀ s, d.main s = (fun r => (r.1, G r.2)) <$> c.main s)
    {args args' : Args R} {steps steps' : Int} {s0 : S} {self self' ta ta' : Self F K X} {ev ev' : List Int}
    {hist hist' : List (R × R)}
    (h : train Ar c args steps (.ok s0) self = (self', ev, .ok hist))
    (h' : train Ar d args' steps' (.ok s0) ta = (ta', ev', .ok hist')) :
    ∃ o : Nat → Out F K X R, (∀ j < hist.length, hist[j]? = some ((o j).loss, (o j).rel)) ∧
      (∀ j < hist.length, j < hist'.length → hist'[j]? = some ((G (o j)).loss, (G (o j)).rel)) ∧
      self'.factors = some (o (hist.length - 1)).factors ∧
      (∀ v, (o (hist.length - 1)).aux = some v → self'.aux = some v) ∧
      (hist'.length = hist.length → ta'.factors = some (G (o (hist.length - 1))).factors ∧
        (∀ v, (G (o (hist.length - 1))).aux = some v → ta'.aux = some v) ∧
        (args' = args → steps' = steps → ∃ p < hist.length, self'.full = some (o p).full ∧ ta'.full = some (G (o p)).full)) ∧
      ∀ j < hist.length, ∃ s s', c.main s = .ok (s', o j) := by
  obtain ⟨t0, σ, o, e0, σ0, n1, f1, f2, f3, f4, p, p1, p2, p3, p4⟩ := plain_run_full hu hk h
  obtain ⟨t0', σ', o', e0', σ0', n1', f1', f2', f3', f4', q, q1, q2, q3, q4⟩ := plain_run_full hu' hk' h'
  cases e0; cases e0'
  rw [hl] at f3
  rw [hl'] at f3'
  have key : ∀ j, j < hist.length → j < hist'.length → σ' j = σ j ∧ o' j = G (o j) ∧ σ' (j + 1) = σ (j + 1) := by
    intro j
    induction j with
    | zero =>
        intro h1 h2
        have a := f4 0 h1
        have b := f4' 0 h2
        have hs : σ' 0 = σ 0 := σ0'.trans σ0.symm
        rw [hs, hm, a] at b
        have := Except.ok.inj b
        simp only [Prod.mk.injEq] at this
        exact ⟨hs, this.2.symm, this.1.symm⟩
    | succ j ih =>
        intro h1 h2
        obtain ⟨-, -, hs⟩ := ih (by omega) (by omega)
        have a := f4 _ h1
        have b := f4' _ h2
        rw [hs, hm, a] at b
        have := Except.ok.inj b
        simp only [Prod.mk.injEq] at this
        exact ⟨hs, this.2.symm, this.1.symm⟩
  refine ⟨o, f1, fun j h1 h2 => ?_, f2, fun v hv => f3 v hv, fun he => ?_, fun j hj => ⟨_, _, f4 j hj⟩⟩
  · rw [f1' j h2, (key j h1 h2).2.1]
  · have := (key (hist.length - 1) (by omega) (by omega)).2.1
    rw [he, this] at f2' f3'
    refine ⟨f2', f3', ?_⟩
    rintro rfl rfl
    have hpq : q = p := by
      rcases lt_trichotomy p q with hl | hl | hl
      · exact absurd q2 (p3 q hl (by omega))
      · exact hl.symm
      · exact absurd p2 (q3 p hl (by omega))
    subst hpq
    exact ⟨q, p1, p4, by rw [q4, (key q p1 q1).2.1]⟩

/-- **C99** for trainings of `CP_ALS` from the same initial factors: as far as both histories go, the relative residuals
are the same and the losses are multiplied by `c`.  If they are equally long, the factors are the same and the weights
are multiplied by `c`.  (The tolerances and numbers of steps may differ.) -/
theorem C99_cp_train (pinv : Tensor ℝ → Res (Tensor ℝ)) (X : Tensor ℝ) (R : Nat) (A0 : List (Tensor ℝ)) (c : ℝ)
    (hc : 0 < c) (Ar : Arith ℝ) (args args' : Args ℝ) (steps steps' : Int)
    (self self' ta ta' : Self (List (Tensor ℝ)) (Tensor ℝ) (Tensor ℝ)) (ev ev' : List Int) (hist hist' : List (ℝ × ℝ))
    (h : train Ar (CP_ALS.cls (cp.main pinv X R)) args steps (.ok A0) self = (self', ev, .ok hist))
    (h' : train Ar (CP_ALS.cls (cp.main pinv (scl c X) R)) args' steps' (.ok A0) ta = (ta', ev', .ok hist')) :
    (∀ j l r, j < hist'.length → hist[j]? = some (l, r) → hist'[j]? = some (c * l, r)) ∧
    (hist'.length = hist.length → ∃ F lam, self'.factors = some F ∧ self'.aux = some lam ∧
      ta'.factors = some F ∧ ta'.aux = some (scl c lam) ∧
      (args' = args → steps' = steps → ∃ Y, self'.full = some Y ∧ ta'.full = some (scl c Y))) := by
  obtain ⟨o, h1, h2, h3, h4, h5, h6⟩ := plain_mapped (outScl c) rfl rfl rfl rfl rfl rfl
    (fun s => C99_cp_step pinv X R s c hc) h h'
  constructor
  · intro j l r hj hlr
    have hj' : j < hist.length := (List.getElem?_eq_some_iff.1 hlr).1
    rw [h1 j hj', Option.some.injEq, Prod.mk.injEq] at hlr
    rw [h2 j hj' hj, ← hlr.1, ← hlr.2]
    rfl
  · intro he
    obtain ⟨a, b, d⟩ := h5 he
    have hn : 1 ≤ hist.length := (C43_history _ _ args steps _ self self' ev hist h).choose_spec.choose_spec.choose_spec.2.1
    obtain ⟨s, s', hm⟩ := h6 (hist.length - 1) (by omega)
    obtain ⟨lam, hlam⟩ : ∃ lam, (o (hist.length - 1)).aux = some lam := by
      have hm : cp.main pinv X R s = .ok (s', o (hist.length - 1)) := hm
      unfold cp.main at hm
      cases h1 : cp.sweep pinv X R s with
      | error e => rw [h1] at hm; cases hm
      | ok r =>
      rw [h1, ok_bind] at hm
      obtain ⟨A, lam⟩ := r
      cases h2 : cp.fullOf A lam with
      | error e => simp only [h2] at hm; cases hm
      | ok Y =>
      simp only [h2, ok_bind] at hm
      cases h3 : cp.scalars X Y with
      | error e => rw [h3] at hm; cases hm
      | ok q =>
      rw [h3, ok_bind] at hm
      have := (Prod.mk.inj (Except.ok.inj hm)).2
      exact ⟨lam, by rw [← this]⟩
    refine ⟨_, lam, h3, h4 _ hlam, a, b _ (by unfold outScl; simp only [hlam, Option.map_some]), fun e1 e2 => ?_⟩
    obtain ⟨p, -, q1, q2⟩ := d e1 e2
    exact ⟨_, q1, q2⟩

/-- Two histories with the same residuals that may only end early by a small residual are equally long. -/
theorem same_length {hist hist' : List (ℝ × ℝ)} {X X' : Tensor ℝ} {tr : Bool} {tol : ℝ} {steps : Int}
    (h : EndsWhereItShould (exactArith ℝ) tr X tol steps hist) (h' : EndsWhereItShould (exactArith ℝ) tr X' tol steps hist')
    (n : (hist.length : Int) = steps ∨ ∃ p, hist.getLast? = some p ∧ p.2 < tol)
    (n' : (hist'.length : Int) = steps ∨ ∃ p, hist'.getLast? = some p ∧ p.2 < tol)
    (hr : ∀ j < hist.length, j < hist'.length → histRel hist j = histRel hist' j) : hist'.length = hist.length := by
  have key : ∀ {a b : List (ℝ × ℝ)} {Y : Tensor ℝ}, 1 ≤ a.length → EndsWhereItShould (exactArith ℝ) tr Y tol steps b →
      ((a.length : Int) = steps ∨ ∃ p, a.getLast? = some p ∧ p.2 < tol) →
      (∀ j < a.length, j < b.length → histRel a j = histRel b j) → ¬ a.length < b.length := by
    intro a b Y ha hb hn hab hlt
    obtain ⟨-, b2, b3, -⟩ := hb
    rcases hn with hn | ⟨p, hp, hpt⟩
    · omega
    · refine b3 (a.length - 1) (by omega) (Or.inl ?_)
      rw [← hab _ (by omega) (by omega)]
      have : histRel a (a.length - 1) = p.2 := by
        unfold histRel
        rw [List.getLast?_eq_getElem?] at hp
        rw [hp]; rfl
      rw [this]
      exact decide_eq_true hpt
  have h1 := key h.1 h' n hr
  have h2 := key h'.1 h n' fun j a b => (hr j b a).symm
  omega

theorem normSqT_scl (c : ℝ) (X : Tensor ℝ) : normSqT (scl c X) = c ^ 2 * normSqT X := by
  unfold normSqT
  simp only [scl_shape, at_scl, mul_pow]
  exact boxSum_mul_left _ _ _

/-- **C99** for whole trainings of `CP_ALS`: for tolerances up to `1 / (‖X‖²/2 + 2)`, and likewise for the multiplied
data, both trainings take the same number of steps; the history is the same up to the factor `c` on the losses, the
factors are the same, and weights and full tensor are multiplied by `c`. -/
theorem C99_cp_same (pinv : Tensor ℝ → Res (Tensor ℝ)) (hp : PinvOk pinv) (X : Tensor ℝ) (R : Nat)
    (A0 : List (Tensor ℝ)) (hA : FactorsFor X.shape R A0) (h2 : 2 ≤ X.order) (h25 : X.order ≤ 25)
    (hpos : ∀ d ∈ X.shape, 0 < d) (c : ℝ) (hc : 0 < c) (args : Args ℝ) (ht0 : 0 ≤ args.tol)
    (htol : args.tol * (normSqT X / 2 + 2) ≤ 1) (htol' : args.tol * (c ^ 2 * normSqT X / 2 + 2) ≤ 1) (steps : Int)
    (self self' ta ta' : Self (List (Tensor ℝ)) (Tensor ℝ) (Tensor ℝ)) (ev ev' : List Int) (hist hist' : List (ℝ × ℝ))
    (h : train (exactArith ℝ) (CP_ALS.cls (cp.main pinv X R)) args steps (.ok A0) self = (self', ev, .ok hist))
    (h' : train (exactArith ℝ) (CP_ALS.cls (cp.main pinv (scl c X) R)) args steps (.ok A0) ta = (ta', ev', .ok hist')) :
    hist' = hist.map (fun p => (c * p.1, p.2)) ∧ ∃ F lam Y, self'.factors = some F ∧ self'.aux = some lam ∧
      self'.full = some Y ∧ ta'.factors = some F ∧ ta'.aux = some (scl c lam) ∧ ta'.full = some (scl c Y) := by
  obtain ⟨h1, h3⟩ := C99_cp_train pinv X R A0 c hc _ args args steps steps self self' ta ta' ev ev' hist hist' h h'
  have hl : hist'.length = hist.length := by
    refine same_length (C88_cp_stop pinv X R _ _ args steps self self' ev hist h)
      (C88_cp_stop pinv (scl c X) R _ _ args steps ta ta' ev' hist' h')
      (C89_cp_never_stalls pinv hp X R A0 hA h2 h25 hpos args ht0 htol steps self self' ev hist h)
      (C89_cp_never_stalls pinv hp (scl c X) R A0 hA h2 h25 hpos args ht0 (by rwa [normSqT_scl]) steps ta ta' ev' hist' h')
      fun j a b => ?_
    unfold histRel
    rw [h1 j _ _ b (List.getElem?_eq_getElem a), List.getElem?_eq_getElem a]
    rfl
  refine ⟨?_, ?_⟩
  · apply List.ext_getElem?
    intro j
    by_cases hj : j < hist.length
    · rw [h1 j _ _ (by omega) (List.getElem?_eq_getElem hj), List.getElem?_map, List.getElem?_eq_getElem hj]
      rfl
    · rw [List.getElem?_eq_none (by omega), List.getElem?_eq_none (by simp; omega)]
  · obtain ⟨F, lam, a1, a2, a3, a4, a5⟩ := h3 hl
    obtain ⟨Y, b1, b2⟩ := a5 rfl rfl
    exact ⟨F, lam, Y, a1, a2, b1, a3, a4, b2⟩

/-- The 2 × 2 unit matrix and the column `(1, 1)`. -/
noncomputable def eyeX : Tensor ℝ := ⟨[2, 2], [1, 0, 0, 1], rfl⟩
noncomputable def onesV : Tensor ℝ := ⟨[2, 1], [1, 1], rfl⟩

theorem eye_pinv {pinv : Tensor ℝ → Res (Tensor ℝ)} (hp : PinvOk pinv) :
    pinv ⟨[1, 1], [2], rfl⟩ = .ok ⟨[1, 1], [1 / 2], rfl⟩ := by
  obtain ⟨P, h1, h2, h3⟩ := hp ⟨[1, 1], [2], rfl⟩ 1 rfl
  rw [h1]
  refine congrArg Except.ok ?_
  refine ext_mat (m := 1) (n := 1) h2 rfl fun i hi j hj => ?_
  obtain rfl : i = 0 := by omega
  obtain rfl : j = 0 := by omega
  have := congrFun (congrFun h3.vpv 0) 0
  rw [Matrix.mul_apply, Fin.sum_univ_one, Matrix.mul_apply, Fin.sum_univ_one] at this
  have e : (2 : ℝ) * P.at_ [0, 0] * 2 = 2 := this
  change P.at_ [0, 0] = 1 / 2
  linarith

theorem eye_mode {pinv : Tensor ℝ → Res (Tensor ℝ)} (hp : PinvOk pinv) (n : Nat) (hn : n < 2) :
    cp.modeUpdate pinv eyeX 1 [onesV, onesV] n =
      .ok ⟨[onesV, onesV], ⟨[1], [1 / 2], rfl⟩, ⟨[2, 1], [1 / 2, 1 / 2], rfl⟩⟩ := by
  unfold cp.modeUpdate
  have hu : unfold eyeX (n : Nat) = .ok eyeX := by
    obtain rfl | rfl : n = 0 ∨ n = 1 := by omega
    · rfl
    · rfl
  have hk : khatri [onesV, onesV] (.int n) true = .ok onesV := by
    have : khatri [onesV, onesV] (.int n) true = .ok ⟨[2, 1], [1 * 1 + 0, 1 * 1 + 0], rfl⟩ := by
      obtain rfl | rfl : n = 0 ∨ n = 1 := by omega
      · rfl
      · rfl
    rw [this]; norm_num [onesV]
  have hg : matmul onesV onesV true false = .ok ⟨[1, 1], [2], rfl⟩ := by
    have : matmul onesV onesV true false = .ok ⟨[1, 1], [1 * 1 + (1 * 1 + 0)], rfl⟩ := rfl
    rw [this]; norm_num
  have hx : matmul eyeX onesV = .ok onesV := by
    have : matmul eyeX onesV = .ok ⟨[2, 1], [1 * 1 + (0 * 1 + 0), 0 * 1 + (1 * 1 + 0)], rfl⟩ := rfl
    rw [this]; norm_num [onesV]
  have hh : hadamard [⟨[1, 1], [2], rfl⟩, (⟨[1, 1], [2], rfl⟩ : Tensor ℝ)] (.int n) = .ok ⟨[1, 1], [2], rfl⟩ := by
    obtain rfl | rfl : n = 0 ∨ n = 1 := by omega
    · rfl
    · rfl
  have hN : matmul onesV ⟨[1, 1], [1 / 2], rfl⟩ = .ok ⟨[2, 1], [1 / 2, 1 / 2], rfl⟩ := by
    have : matmul onesV ⟨[1, 1], [1 / 2], rfl⟩ = .ok ⟨[2, 1], [1 * (1 / 2) + 0, 1 * (1 / 2) + 0], rfl⟩ := rfl
    rw [this]; norm_num
  have hr : reshape (⟨[2, 1], [1 / 2, 1 / 2], rfl⟩ : Tensor ℝ) [(eyeX.shape.getD n 0 : Nat), ((1 : Nat) : Int)] =
      .ok ⟨[2, 1], [1 / 2, 1 / 2], rfl⟩ := by
    obtain rfl | rfl : n = 0 ∨ n = 1 := by omega
    · rfl
    · rfl
  have hm : reduceMax0 (⟨[2, 1], [1 / 2, 1 / 2], rfl⟩ : Tensor ℝ) = .ok ⟨[1], [1 / 2], rfl⟩ := by
    have : reduceMax0 (⟨[2, 1], [1 / 2, 1 / 2], rfl⟩ : Tensor ℝ) = .ok ⟨[1], [max (1 / 2) (1 / 2)], rfl⟩ := rfl
    rw [this]; norm_num
  have hd : tf.div (⟨[2, 1], [1 / 2, 1 / 2], rfl⟩ : Tensor ℝ) ⟨[1], [1 / 2], rfl⟩ = .ok onesV := by
    unfold tf.div
    rw [if_neg (by norm_num)]
    have : ewise (· / ·) (⟨[2, 1], [1 / 2, 1 / 2], rfl⟩ : Tensor ℝ) ⟨[1], [1 / 2], rfl⟩ =
      .ok ⟨[2, 1], [(1 / 2) / (1 / 2), (1 / 2) / (1 / 2)], rfl⟩ := rfl
    rw [this]; norm_num [onesV]
  have ha : tf.assign [onesV, onesV] n onesV = .ok [onesV, onesV] := by
    obtain rfl | rfl : n = 0 ∨ n = 1 := by omega
    · rfl
    · rfl
  rw [hu, ok_bind]
  simp only [List.mapM_cons, List.mapM_nil, hg, ok_bind, pure_bind]
  rw [hk, ok_bind, hx, ok_bind]
  simp only [hh, ok_bind, eye_pinv hp, hN, hr, hm, hd, ha]
  rfl

theorem eye_main {pinv : Tensor ℝ → Res (Tensor ℝ)} (hp : PinvOk pinv) :
    ∃ o, cp.main pinv eyeX 1 [onesV, onesV] = .ok ([onesV, onesV], o) ∧ o.obj = 1 / 2 ∧ 1 / 4 ≤ o.rel := by
  have hs : cp.sweep pinv eyeX 1 [onesV, onesV] = .ok ([onesV, onesV], ⟨[1], [1 / 2], rfl⟩) := by
    unfold cp.sweep
    have : List.range eyeX.order = [0, 1] := rfl
    simp only [this, List.foldlM_cons, List.foldlM_nil, eye_mode hp 0 (by omega), eye_mode hp 1 (by omega), ok_bind, pure_bind]
  have hf : cp.fullOf [onesV, onesV] ⟨[1], [1 / 2], rfl⟩ = .ok ⟨[2, 2], [1 / 2, 1 / 2, 1 / 2, 1 / 2], rfl⟩ := by
    have : cp.fullOf [onesV, onesV] ⟨[1], [1 / 2], rfl⟩ = .ok ⟨[2, 2], [(1 * (1 * 1) + 0) * (1 / 2) + 0, (1 * (1 * 1) + 0) * (1 / 2) + 0,
      (1 * (1 * 1) + 0) * (1 / 2) + 0, (1 * (1 * 1) + 0) * (1 / 2) + 0], rfl⟩ := rfl
    rw [this]; norm_num
  obtain ⟨⟨l, obj, rel⟩, hq⟩ := cp.scalars_total (X := eyeX) (Y := ⟨[2, 2], [1 / 2, 1 / 2, 1 / 2, 1 / 2], rfl⟩) rfl
    ⟨[0, 0], by decide, one_ne_zero⟩
  obtain ⟨q1, q2, -⟩ := cp.scalars_ok (by rfl) hq
  have hd : distSqT eyeX ⟨[2, 2], [1 / 2, 1 / 2, 1 / 2, 1 / 2], rfl⟩ = 1 := by
    have : distSqT eyeX ⟨[2, 2], [1 / 2, 1 / 2, 1 / 2, 1 / 2], rfl⟩ =
      ((1 - 1 / 2) ^ 2 + ((0 - 1 / 2) ^ 2 + 0)) + (((0 - 1 / 2) ^ 2 + ((1 - 1 / 2) ^ 2 + 0)) + 0) := rfl
    rw [this]; norm_num
  have hn : normSqT eyeX = 2 := by
    have : normSqT eyeX = (1 ^ 2 + (0 ^ 2 + 0)) + ((0 ^ 2 + (1 ^ 2 + 0)) + 0) := rfl
    rw [this]; norm_num
  rw [hd] at q1 q2
  rw [hn, Real.sqrt_one] at q2
  refine ⟨⟨[onesV, onesV], some ⟨[1], [1 / 2], rfl⟩, ⟨[2, 2], [1 / 2, 1 / 2, 1 / 2, 1 / 2], rfl⟩, l, obj, rel⟩, ?_, q1, ?_⟩
  · unfold cp.main
    rw [hs, ok_bind]
    simp only [hf, ok_bind, hq]
    rfl
  · rw [q2]
    have h1 : Real.sqrt 2 ≤ 2 := by rw [Real.sqrt_le_left (by norm_num)]; norm_num
    have h2 : 0 < Real.sqrt 2 := Real.sqrt_pos.2 (by norm_num)
    rw [div_le_div_iff₀ (by norm_num) h2]
    linarith

/-- A training that stays where it starts. -/
theorem constant_run {S F K X : Type} (c : Cls S F K X ℝ) (hu : c.update = none) (hk : c.core = none) (s : S)
    (o : Out F K X ℝ) (hm : c.main s = .ok (s, o)) (args : Args ℝ) (hv : args.validationInternal ≠ 0) (steps : Int)
    (hs : 3 ≤ steps) (self : Self F K X) (hr : ¬ o.rel < args.tol) :
    ∃ hist, (train (exactArith ℝ) c args steps (.ok s) self).2.2 = .ok hist ∧
      (|o.obj - (o.obj + 1)| / (o.obj + 1 + 1) < args.tol → hist.length = 3) ∧
      (¬ |o.obj - (o.obj + 1)| / (o.obj + 1 + 1) < args.tol → (hist.length : Int) = steps) := by
  obtain ⟨hist, h⟩ := train_safe (A := exactArith ℝ) (c := c) (I := fun t => t = s) (args := args) (steps := steps)
    ⟨by rintro t rfl; exact ⟨t, o, hm, rfl⟩, by rw [hk]; rintro f ⟨⟩, by rw [hu]; rintro f ⟨⟩⟩ rfl (Or.inl hv) (by omega) self
  refine ⟨hist, h, ?_⟩
  obtain ⟨s0, n, o', k, h1, h2, h3, h4, h5, h6, -⟩ := train_ok (Prod.ext rfl (Prod.ext rfl h))
  cases h1
  have hl : hist.length = n := by rw [h6]; simp
  obtain ⟨σ, hσ0, hσ⟩ := h4.ran
  have key : ∀ j < n, σ j = s ∧ o' j = o := by
    intro j
    induction j with
    | zero =>
        intro hj
        obtain ⟨t, a, -⟩ := hσ 0 hj
        unfold Runs at a
        rw [hk] at a
        have a := a.2
        rw [hσ0, hm] at a
        exact ⟨hσ0, (Prod.mk.inj (Except.ok.inj a)).2.symm⟩
    | succ j ih =>
        intro hj
        obtain ⟨t, a, b⟩ := hσ j (by omega)
        obtain ⟨i1, -⟩ := ih (by omega)
        have b := b hj
        unfold Runs at a
        unfold Updates at b
        rw [hk] at a
        rw [hu] at b
        have a := a.2
        have b : σ (j + 1) = t := b
        rw [i1, hm] at a
        have e : σ (j + 1) = s := by rw [b]; exact (Prod.mk.inj (Except.ok.inj a)).1.symm
        refine ⟨e, ?_⟩
        obtain ⟨t', a', -⟩ := hσ (j + 1) hj
        unfold Runs at a'
        rw [hk] at a'
        have a' := a'.2
        rw [e, hm] at a'
        exact (Prod.mk.inj (Except.ok.inj a')).2.symm
  have href : ∀ j, refObj (exactArith ℝ) false (fun i => (o' i).obj) j = o.obj + 1 := by
    intro j
    induction j with
    | zero =>
        unfold refObj
        rw [(key 0 (by omega)).2]; rfl
    | succ j ih =>
        unfold refObj
        simp only [Bool.false_and, Bool.false_eq_true, if_false]
        exact ih
  have hst : ∀ j < n, Stalled (exactArith ℝ) false args.tol (fun i => (o' i).obj) j ↔
      |o.obj - (o.obj + 1)| / (o.obj + 1 + 1) < args.tol := by
    intro j hj
    unfold Stalled
    rw [href]
    simp only [(key j hj).2]
    exact decide_eq_true_iff
  have hstop : ∀ j < n, Stop (exactArith ℝ) false args.tol (fun i => (o' i).obj) (fun i => (o' i).rel) j ↔
      2 ≤ j ∧ |o.obj - (o.obj + 1)| / (o.obj + 1 + 1) < args.tol := by
    intro j hj
    unfold Stop
    have hrel : ¬ (exactArith ℝ).lt (o' j).rel args.tol = true := by
      rw [(key j hj).2]
      exact fun h => hr (of_decide_eq_true h)
    constructor
    · rintro (h | ⟨a, -, -, b⟩)
      · exact absurd h hrel
      · exact ⟨a, (hst j hj).1 b⟩
    · rintro ⟨a, b⟩
      exact Or.inr ⟨a, (hst _ (by omega)).2 b, (hst _ (by omega)).2 b, (hst _ hj).2 b⟩
  have hus : c.update.isSome = false := by rw [hu]; rfl
  have hg := h4.goes
  rw [hus] at h5 hg
  rw [hl]
  constructor
  · intro hc
    rcases Nat.lt_or_ge 3 n with hn | hn
    · exact absurd ((hstop 2 (by omega)).2 ⟨le_refl _, hc⟩) (hg 2 (by omega))
    · rcases h5 with h5 | h5
      · omega
      · have := ((hstop (n - 1) (by omega)).1 h5).1
        omega
  · intro hc
    rcases h5 with h5 | h5
    · exact h5
    · exact absurd ((hstop (n - 1) (by omega)).1 h5).2 hc

/-- **C99** is false of the stopping test: `CP_ALS` with rank 1 on the 2 × 2 unit matrix, starting from ones, with
`tol = 1/4`, takes all of 7 steps; on three times this matrix it stops after 3. -/
theorem C99_stopping_false (pinv : Tensor ℝ → Res (Tensor ℝ)) (hp : PinvOk pinv) :
    ∃ hist hist', (train (exactArith ℝ) (CP_ALS.cls (cp.main pinv eyeX 1)) { tol := 1 / 4 } 7 (.ok [onesV, onesV]) {}).2.2 = .ok hist ∧
      (train (exactArith ℝ) (CP_ALS.cls (cp.main pinv (scl 3 eyeX) 1)) { tol := 1 / 4 } 7 (.ok [onesV, onesV]) {}).2.2 = .ok hist' ∧
      hist.length = 7 ∧ hist'.length = 3 := by
  obtain ⟨o, h1, h2, h3⟩ := eye_main hp
  have h1' : cp.main pinv (scl 3 eyeX) 1 [onesV, onesV] = .ok ([onesV, onesV], outScl 3 o) := by
    rw [C99_cp_step pinv eyeX 1 _ 3 (by norm_num), h1]; rfl
  obtain ⟨hist, a1, -, a3⟩ := constant_run (CP_ALS.cls (cp.main pinv eyeX 1)) rfl rfl _ o h1 { tol := 1 / 4 } (by decide) 7
    (by decide) {} (not_lt.2 h3)
  obtain ⟨hist', b1, b2, -⟩ := constant_run (CP_ALS.cls (cp.main pinv (scl 3 eyeX) 1)) rfl rfl _ _ h1' { tol := 1 / 4 }
    (by decide) 7 (by decide) {} (not_lt.2 h3)
  refine ⟨hist, hist', a1, b1, ?_, b2 ?_⟩
  · have := a3 (by rw [h2, show (1 / 2 : ℝ) - (1 / 2 + 1) = -1 by norm_num, abs_neg, abs_one]; norm_num)
    omega
  · change |3 ^ 2 * o.obj - (3 ^ 2 * o.obj + 1)| / (3 ^ 2 * o.obj + 1 + 1) < 1 / 4
    rw [h2, show (3 : ℝ) ^ 2 * (1 / 2) - (3 ^ 2 * (1 / 2) + 1) = -1 by norm_num, abs_neg, abs_one]; norm_num

/-- The trainings C99 speaks about exist, with a tolerance that meets its bounds. -/
example (pinv : Tensor ℝ → Res (Tensor ℝ)) (hp : PinvOk pinv) : ∃ hist hist',
    (train (exactArith ℝ) (CP_ALS.cls (cp.main pinv eyeX 1)) { tol := 1 / 20 } 7 (.ok [onesV, onesV]) {}).2.2 = .ok hist ∧
    (train (exactArith ℝ) (CP_ALS.cls (cp.main pinv (scl 3 eyeX) 1)) { tol := 1 / 20 } 7 (.ok [onesV, onesV]) {}).2.2 = .ok hist' ∧
    FactorsFor eyeX.shape 1 [onesV, onesV] ∧ (1 / 20 : ℝ) * (normSqT eyeX / 2 + 2) ≤ 1 ∧
    (1 / 20 : ℝ) * (3 ^ 2 * normSqT eyeX / 2 + 2) ≤ 1 := by
  obtain ⟨o, h1, h2, h3⟩ := eye_main hp
  have h1' : cp.main pinv (scl 3 eyeX) 1 [onesV, onesV] = .ok ([onesV, onesV], outScl 3 o) := by
    rw [C99_cp_step pinv eyeX 1 _ 3 (by norm_num), h1]; rfl
  have h4 : (1 / 20 : ℝ) ≤ o.rel := by linarith
  obtain ⟨hist, a1, -⟩ := constant_run (CP_ALS.cls (cp.main pinv eyeX 1)) rfl rfl _ o h1 { tol := 1 / 20 } (by decide) 7
    (by decide) {} (not_lt.2 h4)
  obtain ⟨hist', b1, -⟩ := constant_run (CP_ALS.cls (cp.main pinv (scl 3 eyeX) 1)) rfl rfl _ _ h1' { tol := 1 / 20 }
    (by decide) 7 (by decide) {} (not_lt.2 h4)
  have hn : normSqT eyeX = 2 := by
    have : normSqT eyeX = (1 ^ 2 + (0 ^ 2 + 0)) + ((0 ^ 2 + (1 ^ 2 + 0)) + 0) := rfl
    rw [this]; norm_num
  exact ⟨hist, hist', a1, b1, rfl, by rw [hn]; norm_num, by rw [hn]; norm_num⟩

end TD.Props

