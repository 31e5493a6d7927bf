import Verif.Props.Report
import Verif.Spec.StopRule

/-!
# C88, C89 : where training stops, in terms of the returned history only
-/
namespace TD.Props
open TD Spec Tensor fact bcu

theorem refObj_congr {R : Type} (A : Arith R) (t : Bool) {f g : Nat → R} :
    ∀ {j : Nat}, (∀ i ≤ j, f i = g i) → refObj A t f j = refObj A t g j
  | 0, h => by simp only [refObj, h 0 (le_refl _)]
  | j + 1, h => by
      have ih := refObj_congr A t (f := f) (g := g) (j := j) (fun i hi => h i (by omega))
      simp only [refObj, h j (by omega), ih]

theorem stalled_congr {R : Type} (A : Arith R) (t : Bool) (tol : R) {f g : Nat → R} {j : Nat} (h : ∀ i ≤ j, f i = g i) :
    Stalled A t tol f j ↔ Stalled A t tol g j := by
  unfold Stalled
  rw [refObj_congr A t h, h j (le_refl _)]

theorem stop_congr {R : Type} (A : Arith R) (t : Bool) (tol : R) {f g p q : Nat → R} {j : Nat} (h : ∀ i ≤ j, f i = g i)
    (hr : p j = q j) : Stop A t tol f p j ↔ Stop A t tol g q j := by
  unfold Stop
  rw [hr, stalled_congr A t tol h, stalled_congr A t tol (fun i hi => h i (by omega : i ≤ j)),
    stalled_congr A t tol (fun i hi => h i (by omega : i ≤ j))]

/-- Objective and relative residual of one step are tied together. -/
theorem scalars_obj {X Y : Tensor ℝ} {l obj rel : ℝ} (h : cp.scalars X Y = .ok (l, obj, rel)) :
    obj = 1 / 2 * (rel * Real.sqrt (normSqT X)) ^ 2 := by
  unfold cp.scalars at h
  cases h1 : loss.rmseIgnoreZero X Y with
  | error e => rw [h1] at h; cases h
  | ok ls =>
  rw [h1, ok_bind] at h
  cases h2 : tf.ewise (· - ·) Y X with
  | error e => rw [h2] at h; cases h
  | ok d =>
  rw [h2, ok_bind] at h
  cases ls with
  | none => cases h
  | some l' =>
  simp only at h
  unfold loss.fdiv at h
  by_cases h0 : tf.norm X = 0
  · rw [if_pos h0] at h; cases h
  rw [if_neg h0] at h
  simp only [Except.ok.injEq, Prod.mk.injEq] at h
  obtain ⟨-, h3, h4⟩ := h
  have hn : tf.norm X = Real.sqrt (normSqT X) := by rw [tf.norm, reduceSum_sq]
  rw [← h3, ← h4, ← hn, div_mul_cancel₀ _ h0]

/-- The general form: a class whose main run returns the numbers of `cp.scalars`. -/
theorem ends_of_scalars {S : Type} {A : Arith ℝ} {c : Cls S (List (Tensor ℝ)) (Tensor ℝ) (Tensor ℝ) ℝ} {X : Tensor ℝ}
    (hc : ∀ s s' o, c.main s = .ok (s', o) → cp.scalars X o.full = .ok (o.loss, o.obj, o.rel))
    {args : Args ℝ} {steps : Int} {fresh : Res S} {self self' : Self (List (Tensor ℝ)) (Tensor ℝ) (Tensor ℝ)}
    {ev : List Int} {hist : List (ℝ × ℝ)} (h : train A c args steps fresh self = (self', ev, .ok hist)) :
    EndsWhereItShould A c.update.isSome X args.tol steps hist := by
  obtain ⟨s0, o, k, -, hrun, hh, h4, h5⟩ := C45_stop_rule A c args steps fresh self self' ev hist h
  obtain ⟨-, -, -, -, hl1, hl2, -, -⟩ := C43_history A c args steps fresh self self' ev hist h
  obtain ⟨σ, -, hσ⟩ := hrun.ran
  have hrel : ∀ j < hist.length, (o j).rel = histRel hist j := by
    intro j hj
    unfold histRel
    rw [hh, List.getElem?_map, List.getElem?_range (by simpa using hj)]
    rfl
  have hobj : ∀ j < hist.length, (o j).obj = histObj X hist j := by
    intro j hj
    obtain ⟨s, hs, -⟩ := hσ j hj
    have hm : ∃ s1, c.main s1 = .ok (s, o j) := by
      unfold Runs at hs
      split at hs
      · exact ⟨_, hs.2⟩
      · obtain ⟨s1, v, -, -, hm⟩ := hs; exact ⟨s1, hm⟩
    obtain ⟨s1, hm⟩ := hm
    rw [scalars_obj (hc _ _ _ hm), hrel j hj]; rfl
  refine ⟨hl1, hl2, fun j hj => ?_, ?_⟩
  · rw [← stop_congr A _ _ (f := fun i => (o i).obj) (p := fun i => (o i).rel) (fun i hi => hobj i (by omega))
      (hrel j (by omega))]
    exact h4 j hj
  · rcases h5 with h5 | h5
    · exact Or.inl h5
    · right
      rw [← stop_congr A _ _ (f := fun i => (o i).obj) (p := fun i => (o i).rel)
        (fun i hi => hobj i (by omega : i < hist.length)) (hrel _ (by omega))]
      exact h5

/-! ### C88 -/

/-- **C88** for `CP_ALS`: the returned history alone, with the norm of the data and `tol`, decides where training
stopped.  The reference objective is the first one plus 1, for ever. -/
theorem C88_cp_stop (pinv : Tensor ℝ → Res (Tensor ℝ)) (X : Tensor ℝ) (R : Nat) (fresh : Res (List (Tensor ℝ)))
    (Ar : Arith ℝ) (args : Args ℝ) (steps : Int)
    (self self' : Self (List (Tensor ℝ)) (Tensor ℝ) (Tensor ℝ)) (ev : List Int) (hist : List (ℝ × ℝ))
    (h : train Ar (CP_ALS.cls (cp.main pinv X R)) args steps fresh self = (self', ev, .ok hist)) :
    EndsWhereItShould Ar false X args.tol steps hist :=
  ends_of_scalars (fun _ _ _ hm => cp_main_scalars hm) h

/-- **C88** for `HOOI`. -/
theorem C88_hooi_stop (svd : Tensor ℝ → Res (Tensor ℝ × Tensor ℝ × Tensor ℝ)) (X : Tensor ℝ) (ranks : List Nat)
    (fresh : Res (List (Tensor ℝ))) (Ar : Arith ℝ) (args : Args ℝ) (steps : Int)
    (self self' : Self (List (Tensor ℝ)) (Tensor ℝ) (Tensor ℝ)) (ev : List Int) (hist : List (ℝ × ℝ))
    (h : train Ar (HOOI.cls (tucker.HOOI.main svd X ranks)) args steps fresh self = (self', ev, .ok hist)) :
    EndsWhereItShould Ar false X args.tol steps hist :=
  ends_of_scalars (fun _ _ _ hm => hooi_main_scalars hm) h

/-- **C88** for `NCP_BCU`: here the reference objective is replaced by every smaller one. -/
theorem C88_ncp_stop (topSv : Tensor ℝ → Res ℝ) (X : Tensor ℝ) (R : Nat) (fresh : Res State)
    (Ar : Arith ℝ) (args : Args ℝ) (steps : Int)
    (self self' : Self (List (Tensor ℝ)) (Tensor ℝ) (Tensor ℝ)) (ev : List Int) (hist : List (ℝ × ℝ))
    (h : train Ar (NCP.cls topSv X R) args steps fresh self = (self', ev, .ok hist)) :
    EndsWhereItShould Ar true X args.tol steps hist :=
  ends_of_scalars (fun _ _ _ hm => (NCP.main_inv hm).choose_spec.2.2.2.2.2) h

/-- **C88** for `NTUCKER_BCU`. -/
theorem C88_ntucker_stop (topSv : Tensor ℝ → Res ℝ) (X : Tensor ℝ) (fresh : Res TState)
    (Ar : Arith ℝ) (args : Args ℝ) (steps : Int)
    (self self' : Self (List (Tensor ℝ)) (Tensor ℝ) (Tensor ℝ)) (ev : List Int) (hist : List (ℝ × ℝ))
    (h : train Ar (NTUCKER.cls topSv X) args steps fresh self = (self', ev, .ok hist)) :
    EndsWhereItShould Ar true X args.tol steps hist :=
  ends_of_scalars (fun _ _ _ hm => (NTUCKER.main_inv hm).choose_spec.2.2.2.2.2) h

/-! ### C89 -/

theorem refObj_first (obj : Nat → ℝ) : ∀ j, refObj (exactArith ℝ) false obj j = obj 0 + 1
  | 0 => rfl
  | j + 1 => by simp only [refObj, Bool.false_and]; exact refObj_first obj j

/-- Without tracking, with objectives that never exceed the first one, the stall test asks whether the objective has
come down by less than `tol * (first + 2) - 1` in total. -/
theorem stalled_untracked {obj : Nat → ℝ} {tol : ℝ} {j : Nat} (h0 : 0 ≤ obj 0) (hj : obj j ≤ obj 0) :
    Stalled (exactArith ℝ) false tol obj j ↔ obj 0 + 1 - obj j < tol * (obj 0 + 2) := by
  unfold Stalled
  rw [refObj_first]
  change decide (|obj j - (obj 0 + 1)| / (obj 0 + 1 + 1) < tol) = true ↔ _
  rw [decide_eq_true_iff, abs_of_nonpos (by linarith), div_lt_iff₀ (by linarith)]
  constructor <;> intro h <;> linarith

theorem hist_of_unit {X : Tensor ℝ} {hist : List (ℝ × ℝ)} (hu : ∀ p ∈ hist, 0 ≤ p.2 ∧ p.2 ≤ 1)
    (hm : (hist.map Prod.snd).Pairwise (· ≥ ·)) (hl : 1 ≤ hist.length) :
    0 ≤ histObj X hist 0 ∧ histObj X hist 0 ≤ normSqT X / 2 ∧
      ∀ j < hist.length, histObj X hist j ≤ histObj X hist 0 := by
  have hn : 0 ≤ normSqT X := normSqT_nonneg X
  have hr : ∀ j < hist.length, histRel hist j ∈ Set.Icc (0 : ℝ) 1 := by
    intro j hj
    unfold histRel
    rw [List.getElem?_eq_getElem hj, Option.getD_some]
    exact hu _ (List.getElem_mem hj)
  have he : ∀ j, histObj X hist j = histRel hist j ^ 2 * (normSqT X / 2) := by
    intro j
    unfold histObj
    rw [mul_pow, Real.sq_sqrt hn]; ring
  refine ⟨?_, ?_, fun j hj => ?_⟩
  · rw [he]; positivity
  · rw [he]
    have h := hr 0 (by omega)
    have : histRel hist 0 ^ 2 ≤ 1 := by nlinarith [h.1, h.2]
    nlinarith
  · rw [he, he]
    have h := hr 0 (by omega)
    have h' := hr j hj
    have hle : histRel hist j ≤ histRel hist 0 := by
      rcases Nat.eq_zero_or_pos j with rfl | hp
      · exact le_refl _
      · have := List.pairwise_iff_getElem.1 hm 0 j (by simpa using (by omega : 0 < hist.length)) (by simpa using hj) hp
        unfold histRel
        rw [List.getElem?_eq_getElem hj, List.getElem?_eq_getElem (show 0 < hist.length by omega)]
        simpa using this
    have : histRel hist j ^ 2 ≤ histRel hist 0 ^ 2 := by nlinarith [h.1, h'.1]
    nlinarith

/-- The stopping test of the classes without extrapolation, for residuals that come down from at most 1: training ends
at step `j` because of a stall exactly when three steps in a row are within `tol * (first + 2) - 1` of the *first*
objective. -/
theorem stall_unit {X : Tensor ℝ} {hist : List (ℝ × ℝ)} {tol : ℝ} {steps : Int}
    (he : EndsWhereItShould (exactArith ℝ) false X tol steps hist)
    (hu : ∀ p ∈ hist, 0 ≤ p.2 ∧ p.2 ≤ 1) (hm : (hist.map Prod.snd).Pairwise (· ≥ ·))
    (htol : tol * (normSqT X / 2 + 2) ≤ 1) (ht0 : 0 ≤ tol) :
    (hist.length : Int) = steps ∨ ∃ p, hist.getLast? = some p ∧ p.2 < tol := by
  obtain ⟨h1, h2, h3, h4⟩ := he
  rcases h4 with h4 | h4
  · exact Or.inl h4
  right
  obtain ⟨a, b, c⟩ := hist_of_unit (X := X) hu hm h1
  rcases h4 with h4 | ⟨-, -, -, h4⟩
  · have hlt : histRel hist (hist.length - 1) < tol := of_decide_eq_true h4
    refine ⟨hist[hist.length - 1], by rw [List.getLast?_eq_getElem?, List.getElem?_eq_getElem], ?_⟩
    unfold histRel at hlt
    rw [List.getElem?_eq_getElem (by omega)] at hlt
    exact hlt
  · rw [stalled_untracked a (c _ (by omega))] at h4
    have := c (hist.length - 1) (by omega)
    have : tol * (histObj X hist 0 + 2) ≤ tol * (normSqT X / 2 + 2) := by gcongr
    linarith

/-- **C89** for `CP_ALS`: with `tol ≤ 1 / (‖X‖²/2 + 2)` the stall test never fires: training runs all its steps unless
the relative residual falls below `tol`, however long the objective stays put. -/
theorem C89_cp_never_stalls (pinv : Tensor ℝ → Res (Tensor ℝ)) (hp : PinvOk pinv) (X : Tensor ℝ) (R : Nat)
    (A0 : List (Tensor ℝ)) (hA : FactorsFor X.shape R A0) (h2 : 2 ≤ X.order) (h25 : X.order ≤ 25)
    (hpos : ∀ d ∈ X.shape, 0 < d) (args : Args ℝ) (ht0 : 0 ≤ args.tol)
    (htol : args.tol * (normSqT X / 2 + 2) ≤ 1) (steps : Int)
    (self self' : Self (List (Tensor ℝ)) (Tensor ℝ) (Tensor ℝ)) (ev : List Int) (hist : List (ℝ × ℝ))
    (h : train (exactArith ℝ) (CP_ALS.cls (cp.main pinv X R)) args steps (.ok A0) self = (self', ev, .ok hist)) :
    (hist.length : Int) = steps ∨ ∃ p, hist.getLast? = some p ∧ p.2 < args.tol :=
  stall_unit (C88_cp_stop pinv X R _ _ args steps self self' ev hist h)
    (C72_residual_at_most_one pinv hp X R A0 hA h2 h25 hpos _ args steps self self' ev hist h)
    (C51_objective_nonincreasing pinv hp X R A0 hA h2 h25 hpos _ args steps self self' ev hist h).1 htol ht0

/-- **C89** for `HOOI`. -/
theorem C89_hooi_never_stalls (svd : Tensor ℝ → Res (Tensor ℝ × Tensor ℝ × Tensor ℝ)) (hs : SvdOk svd) (X : Tensor ℝ)
    (ranks : List Nat) (h2 : 2 ≤ X.order) (h13 : X.order ≤ 13) (hpos : ∀ d ∈ X.shape, 0 < d)
    (hlen : X.order ≤ ranks.length) (args : Args ℝ) (ht0 : 0 ≤ args.tol)
    (htol : args.tol * (normSqT X / 2 + 2) ≤ 1) (steps : Int)
    (self self' : Self (List (Tensor ℝ)) (Tensor ℝ) (Tensor ℝ)) (ev : List Int) (hist : List (ℝ × ℝ))
    (h : train (exactArith ℝ) (HOOI.cls (tucker.HOOI.main svd X ranks)) args steps (tucker.HOOI.init svd X ranks) self =
      (self', ev, .ok hist)) :
    (hist.length : Int) = steps ∨ ∃ p, hist.getLast? = some p ∧ p.2 < args.tol :=
  stall_unit (C88_hooi_stop svd X ranks _ _ args steps self self' ev hist h)
    (C75_hooi_residual_at_most_one svd hs X ranks h2 h13 hpos hlen _ args steps self self' ev hist h)
    (C58_hooi_nonincreasing svd hs X ranks h2 h13 hpos hlen _ args steps self self' ev hist h).1 htol ht0

/-- Runs as in C88 and C89 exist: 7 steps on a 2 × 3 tensor with entries `1 + i + j`, with a positive tolerance that
meets the bound of C89. -/
example (pinv : Tensor ℝ → Res (Tensor ℝ)) (hp : PinvOk pinv) :
    let X : Tensor ℝ := mat 2 3 fun i j => (i : ℝ) + j + 1
    let args : Args ℝ := { tol := 1 / (normSqT X / 2 + 2) }
    0 < args.tol ∧ args.tol * (normSqT X / 2 + 2) ≤ 1 ∧
    ∃ self' ev hist, train (exactArith ℝ) (CP_ALS.cls (cp.main pinv X 1)) args 7
      (.ok [mat 2 1 fun _ _ => 1, mat 3 1 fun _ _ => 1]) {} = (self', ev, .ok hist) := by
  intro X args
  have hn := normSqT_nonneg X
  refine ⟨by positivity, by rw [show args.tol = 1 / (normSqT X / 2 + 2) from rfl, one_div_mul_cancel (by positivity)], ?_⟩
  obtain ⟨hist, h⟩ := C73_rank_one_positive pinv hp X [mat 2 1 fun _ _ => 1, mat 3 1 fun _ _ => 1] rfl
    (by
      intro M hM i hi
      simp only [List.mem_cons, List.not_mem_nil, or_false] at hM
      rcases hM with rfl | rfl
      · have hi : i < 2 := hi
        rw [at_mat _ hi (by omega)]; norm_num
      · have hi : i < 3 := hi
        rw [at_mat _ hi (by omega)]; norm_num) (by decide) (by decide) (by decide)
    (by
      intro i hi
      obtain ⟨a, b, rfl, ha, hb⟩ := InB_pair.1 hi
      rw [at_mat _ ha hb]
      positivity) (exactArith ℝ) args (by decide) 7 (by decide) {}
  exact ⟨_, _, hist, Prod.ext rfl (Prod.ext rfl h)⟩

end TD.Props
