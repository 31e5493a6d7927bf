import Mathlib.Algebra.Order.Field.Basic
import Mathlib.Algebra.Order.Field.Rat
import Mathlib.Tactic.Linarith
import Mathlib.Tactic.Ring
import Mathlib.Tactic.NormNum
import Mathlib.Tactic.FieldSimp
import Mathlib.Tactic.Positivity
import Verif.Lemmas.Train

/-!
# C42 - C49, C71 : the training loops

`Cls` describes a class by its session runs; `CP_ALS.cls`, `HOOI.cls`, `NCP_BCU.cls` and `NTUCKER_BCU.cls` are
the four iterative classes.  Theorems about every `c : Cls` hold for all four and for every behaviour of the
session.
-/
namespace TD.Props
open TD fact Spec
variable {S F K X R : Type}

/-- Exact arithmetic in an ordered field. -/
def exactArith (R : Type) [Field R] [LinearOrder R] : Arith R :=
  ⟨1, (· + ·), (· - ·), (· / ·), fun x => |x|, fun a b => decide (a < b)⟩

/-- A session whose main run returns prescribed values one after the other. -/
def scripted : List (Out F K X R) → Res (List (Out F K X R) × Out F K X R)
  | [] => .error .invalidArgument
  | o :: os => .ok (os, o)

/-- Scripted results with these objectives and residuals; `factors` and `full` are the step number. -/
def scriptFrom : Nat → List (ℚ × ℚ) → List (Out Nat Unit Nat ℚ)
  | _, [] => []
  | k, (obj, rel) :: r => ⟨k, some (), k, rel, obj, rel⟩ :: scriptFrom (k + 1) r

/-! ### C42 -/

/-- One call of `train`. -/
structure Call (S R : Type) where
  args : Args R
  steps : Int
  fresh : Res S

/-- A history of calls on one object; the second component is the outcome of the latest call. -/
def history (A : Arith R) (c : Cls S F K X R) : List (Call S R) → Self F K X × Option (Res (List (R × R)))
  | [] => ({}, none)
  | cs :: rest => 
    let before := history A c rest
    let r := train A c cs.args cs.steps cs.fresh before.1
    (r.1, some r.2.2)

/-- **C42** for the classes that reset the flag (CP, NCP, NTUCKER): after any history of calls (latest first),
`train_finish` is true iff there was a call and the latest one returned. -/
theorem C42_flag_partial (A : Arith R) (c : Cls S F K X R) (hc : c.resets = true) (calls : List (Call S R)) :
    (history A c calls).1.finish = true ↔ ∃ hist, (history A c calls).2 = some (.ok hist) := by
  cases calls with
  | nil => simp [history]
  | cons cs rest =>
      simp only [history, Option.some.injEq]
      rw [train_finish, hc]
      simp only [Bool.not_true, Bool.false_and, Bool.or_false]
      cases (train A c cs.args cs.steps cs.fresh (history A c rest).1).2.2 <;> simp [Except.toBool]

/-- The same for HOSVD. -/
theorem C42_hosvd_flag_partial (run : S → Res (F × K × X)) (fresh : Res S) (self : Self F K X) :
    (HOSVD.train run fresh self).1.finish = true ↔ (HOSVD.train run fresh self).2 = .ok () := by
  unfold HOSVD.train
  cases fresh with
  | error e => simp
  | ok s => simp only; cases run s <;> simp

/-- What HOOI's flag says: some call so far returned. -/
theorem C42_hooi_flag_partial (A : Arith R) (main : S → Res (S × Out F K X R)) (calls : List (Call S R)) :
    (history A (HOOI.cls main) calls).1.finish = true ↔
      ∃ cs, cs ≠ [] ∧ cs <:+ calls ∧ ∃ hist, (history A (HOOI.cls main) cs).2 = some (.ok hist) := by
  induction calls with
  | nil => simp [history]
  | cons c rest ih =>
      have hr : (HOOI.cls main : Cls S F K X R).resets = false := rfl
      simp only [history]
      rw [train_finish, hr]
      simp only [Bool.not_false, Bool.true_and, Bool.or_eq_true, ih]
      constructor
      · rintro (h | ⟨cs, h1, h2, h3⟩)
        · refine ⟨c :: rest, by simp, List.suffix_refl _, ?_⟩
          simp only [history]
          cases hh : (train A (HOOI.cls main) c.args c.steps c.fresh (history A (HOOI.cls main) rest).1).2.2 with
          | error e => rw [hh] at h; cases h
          | ok v => exact ⟨v, rfl⟩
        · exact ⟨cs, h1, h2.trans (List.suffix_cons _ _), h3⟩
      · rintro ⟨cs, h1, h2, hist, h3⟩
        rcases List.suffix_cons_iff.1 h2 with h | h
        · left
          subst h
          simp only [history, Option.some.injEq] at h3
          rw [h3]; rfl
        · exact Or.inr ⟨cs, h1, h, hist, h3⟩

/-- **C42** is false for HOOI: a second call that raises leaves `train_finish` true. -/
theorem C42_hooi_false : ∃ calls : List (Call (List (Out Nat Unit Nat ℚ)) ℚ),
    (history (exactArith ℚ) (HOOI.cls scripted) calls).1.finish = true ∧
      (history (exactArith ℚ) (HOOI.cls scripted) calls).2 = some (.error .invalidArgument) :=
  ⟨[⟨{ tol := 1 / 10 }, 1, .ok []⟩, ⟨{ tol := 1 / 10 }, 1, .ok (scriptFrom 1 [(1, 1)])⟩], by decide +kernel⟩

/-! ### C43, C45 -/

/-- **C43**: a call that returns executed between 1 and `steps` steps and returns their losses and residuals in
order: `o j` is what the session returned at step `j`, starting from fresh variables. -/
theorem C43_history (A : Arith R) (c : Cls S F K X R) (args : Args R) (steps : Int) (fresh : Res S)
    (self self' : Self F K X) (ev : List Int) (hist : List (R × R))
    (h : train A c args steps fresh self = (self', ev, .ok hist)) :
    ∃ s0 o k, fresh = .ok s0 ∧ 1 ≤ hist.length ∧ (hist.length : Int) ≤ steps ∧
      Run A c args.tol s0 hist.length o k ∧ ∀ j < hist.length, hist[j]? = some ((o j).loss, (o j).rel) := by
  obtain ⟨s0, n, o, k, h1, h2, h3, h4, -, h6, -⟩ := train_ok h
  subst h6
  refine ⟨s0, o, k, h1, by simpa using h2, by simpa using h3, by simpa using h4, fun j hj => ?_⟩
  simp only [List.length_map, List.length_range] at hj
  simp [List.getElem?_range hj]

/-- **C45**: a call that returns stopped at the first step at which the stopping test held, or executed all
steps. -/
theorem C45_stop_rule (A : Arith R) (c : Cls S F K X R) (args : Args R) (steps : Int) (fresh : Res S)
    (self self' : Self F K X) (ev : List Int) (hist : List (R × R))
    (h : train A c args steps fresh self = (self', ev, .ok hist)) :
    ∃ s0 o k, fresh = .ok s0 ∧ Run A c args.tol s0 hist.length o k ∧
      hist = (List.range hist.length).map (fun j => ((o j).loss, (o j).rel)) ∧
      (∀ j, j + 1 < hist.length →
        ¬ Stop A c.update.isSome args.tol (fun i => (o i).obj) (fun i => (o i).rel) j) ∧
      ((hist.length : Int) = steps ∨
        Stop A c.update.isSome args.tol (fun i => (o i).obj) (fun i => (o i).rel) (hist.length - 1)) := by
  obtain ⟨s0, n, o, k, h1, h2, h3, h4, h5, h6, -⟩ := train_ok h
  have hl : hist.length = n := by rw [h6]; simp
  rw [hl]
  exact ⟨s0, o, k, h1, h4, h6, h4.goes, h5⟩

/-- **C45** (termination): if no session run raises, `train` returns, for every number of steps and every
non-zero validation interval. -/
theorem C45_returns (A : Arith R) (c : Cls S F K X R) (args : Args R) (steps : Int) (s : S) (self : Self F K X)
    (hc : NeverRaises c) (hv : args.validationInternal ≠ 0) (hs : 1 ≤ steps) :
    ∃ hist, (train A c args steps (.ok s) self).2.2 = .ok hist :=
  train_total hc (Or.inl hv) hs self

example : NeverRaises (NTUCKER_BCU.cls (S := Nat) (F := Nat) (X := Nat) (R := ℚ) (fun s => .ok (s + 1, s))
    (fun s => .ok (s + 1, ⟨s, none, s, (1 : ℚ), 1 / s, 1⟩)) (fun s => .ok s) (fun _ => .ok 0)) := by
  refine ⟨fun _ => rfl, fun f hf s => ?_, fun p hp s => ?_⟩
  · simp only [NTUCKER_BCU.cls, Option.some.injEq] at hf; rw [← hf]; rfl
  · simp only [NTUCKER_BCU.cls, Option.some.injEq] at hp; rw [← hp]; exact ⟨rfl, rfl⟩

/-- A run that stops early, at the third step (residual below `tol`). -/
example : (train (exactArith ℚ) (CP_ALS.cls scripted) { tol := 1 / 10 } 10
    (.ok (scriptFrom 1 [(3, 1), (2, 1 / 2), (1, 1 / 20), (1, 0)])) {}).2 =
      ([1], .ok [(1, 1), (1 / 2, 1 / 2), (1 / 20, 1 / 20)]) := by decide +kernel

/-! ### C44 -/

/-- **C44** is false: for every class, session, interval and object, `train(steps)` with `steps < 1` raises
`UnboundLocalError` after the initialisation. -/
theorem C44_zero_steps_raise_false (A : Arith R) (c : Cls S F K X R) (args : Args R) (steps : Int) (s : S)
    (self : Self F K X) (hs : steps < 1) :
    (train A c args steps (.ok s) self).2.2 = .error .unboundLocal := by
  rw [train_zero hs]

/-! ### C46 -/

section C46
variable [Field R] [LinearOrder R] [IsStrictOrderedRing R]

omit [Field R] [LinearOrder R] [IsStrictOrderedRing R] in
theorem refObj_untracked (A : Arith R) (obj : Nat → R) (j : Nat) :
    refObj A false obj j = A.add (obj 0) A.one := by
  induction j with
  | zero => rfl
  | succ j ih => simp [refObj, ih]

/-- With tracking the reference objective is the smallest objective so far. -/
theorem refObj_tracked (obj : Nat → R) (j : Nat) :
    (∃ i ≤ j, refObj (exactArith R) true obj (j + 1) = obj i) ∧
      ∀ i ≤ j, refObj (exactArith R) true obj (j + 1) ≤ obj i := by
  induction j with
  | zero =>
      have : obj 0 < obj 0 + 1 := by linarith
      simp [refObj, exactArith, this]
  | succ j ih =>
      obtain ⟨⟨i, hi, he⟩, hle⟩ := ih
      rw [refObj]
      simp only [Bool.true_and]
      by_cases h : (exactArith R).lt (obj (j + 1)) (refObj (exactArith R) true obj (j + 1)) = true
      · rw [if_pos h]
        refine ⟨⟨j + 1, le_rfl, rfl⟩, fun i hi => ?_⟩
        have h' : obj (j + 1) < refObj (exactArith R) true obj (j + 1) := by simpa [exactArith] using h
        rcases Nat.lt_or_ge i (j + 1) with h1 | h1
        · exact le_of_lt (lt_of_lt_of_le h' (hle i (by omega)))
        · have : i = j + 1 := by omega
          rw [this]
      · rw [if_neg h]
        have h' : refObj (exactArith R) true obj (j + 1) ≤ obj (j + 1) := by simpa [exactArith] using h
        refine ⟨⟨i, by omega, he⟩, fun i hi => ?_⟩
        rcases Nat.lt_or_ge i (j + 1) with h1 | h1
        · exact hle i (by omega)
        · have : i = j + 1 := by omega
          rw [this]; exact h'

/-- **C46** for NCP and NTUCKER: if the objectives of four consecutive steps are equal and no earlier one is
smaller, the last of the four is a stopping step, hence training does not go beyond it.  (In exact
arithmetic.) -/
theorem C46_tracking_stops_partial (c : Cls S F K X R) (hc : c.update.isSome = true) (args : Args R)
    (htol : 0 < args.tol) (steps : Int) (fresh : Res S) (self self' : Self F K X) (ev : List Int)
    (hist : List (R × R)) (h : train (exactArith R) c args steps fresh self = (self', ev, .ok hist)) :
    ∃ s0 o k, Run (exactArith R) c args.tol s0 hist.length o k ∧
      ∀ j, j + 3 < hist.length → (o (j + 1)).obj = (o j).obj → (o (j + 2)).obj = (o j).obj →
        (o (j + 3)).obj = (o j).obj → (∀ i < j, (o j).obj ≤ (o i).obj) → hist.length = j + 4 := by
  obtain ⟨s0, o, k, -, h2, -, h4, -⟩ := C45_stop_rule _ c args steps fresh self self' ev hist h
  refine ⟨s0, o, k, h2, fun j hj e1 e2 e3 hmin => ?_⟩
  rw [hc] at h4
  by_contra hne
  refine h4 (j + 3) (by omega) (Or.inr ⟨by omega, ?_⟩)
  have hst : ∀ m, j ≤ m → m ≤ j + 2 → Stalled (exactArith R) true args.tol (fun i => (o i).obj) (m + 1) := by
    intro m h1 h2
    have hall : ∀ i, j ≤ i → i ≤ m + 1 → (o i).obj = (o j).obj := by
      intro i a b
      have : i = j ∨ i = j + 1 ∨ i = j + 2 ∨ i = j + 3 := by omega
      rcases this with rfl | rfl | rfl | rfl
      exacts [rfl, e1, e2, e3]
    have href : refObj (exactArith R) true (fun i => (o i).obj) (m + 1) = (o j).obj := by
      obtain ⟨⟨i, hi, he⟩, hle⟩ := refObj_tracked (fun i => (o i).obj) m
      refine le_antisymm (hle j h1) ?_
      rw [he]
      rcases Nat.lt_or_ge i j with a | a
      · exact hmin i a
      · exact (hall i a (by omega)).ge
    unfold Stalled
    simp only [href, hall (m + 1) (by omega) le_rfl]
    simpa [exactArith] using htol
  exact ⟨hst j le_rfl (by omega), hst (j + 1) (by omega) (by omega), hst (j + 2) (by omega) le_rfl⟩

/-- **C46** is false for CP and HOOI (no tracking): if the session always reports the same objective `v`
and residuals not below the tolerance, a tolerance of at most `1/(v+2)` makes the training execute all steps,
however many. -/
theorem C46_constant_objective_never_stops_false (c : Cls S F K X R) (hc : c.update = none) (args : Args R)
    (v : R) (htol : args.tol ≤ 1 / (v + 2))
    (hmain : ∀ s s' o, c.main s = .ok (s', o) → o.obj = v ∧ args.tol ≤ o.rel)
    (steps : Int) (fresh : Res S) (self self' : Self F K X) (ev : List Int)
    (hist : List (R × R)) (h : train (exactArith R) c args steps fresh self = (self', ev, .ok hist)) :
    (hist.length : Int) = steps := by
  obtain ⟨s0, o, k, -, h2, h3, -, h5⟩ := C45_stop_rule _ c args steps fresh self self' ev hist h
  rcases h5 with h5 | h5
  · exact h5
  exfalso
  have hlen : 1 ≤ hist.length := (C43_history _ c args steps fresh self self' ev hist h).choose_spec.choose_spec.choose_spec.2.1
  obtain ⟨σ, -, hσ⟩ := h2.ran
  have hall : ∀ j < hist.length, (o j).obj = v ∧ args.tol ≤ (o j).rel := by
    intro j hj
    obtain ⟨s, hs, -⟩ := hσ j hj
    unfold Runs at hs
    cases hcc : c.core with
    | none => rw [hcc] at hs; exact hmain _ _ _ hs.2
    | some f => rw [hcc] at hs; obtain ⟨s1, w, -, -, h⟩ := hs; exact hmain _ _ _ h
  have hobj := hall (hist.length - 1) (by omega)
  have hobj0 := hall 0 (by omega)
  rcases h5 with h | h
  · simp only [exactArith, decide_eq_true_eq] at h
    exact absurd h (not_lt.2 hobj.2)
  · have h := h.2.2.2
    rw [hc] at h
    unfold Stalled at h
    simp only [Option.isSome_none, refObj_untracked, hobj.1, hobj0.1] at h
    simp only [exactArith, decide_eq_true_eq] at h
    rw [show v - (v + 1) = -1 by ring, abs_neg, abs_one, show v + 1 + 1 = v + 2 by ring] at h
    exact absurd h (not_lt.2 htol)

end C46

/-- A CP run with constant objective 10 that executes all 6 steps at the default tolerance. -/
theorem C46_cp_witness_false : (train (exactArith ℚ) (CP_ALS.cls scripted) { tol := 1 / 10000 } 6
    (.ok (scriptFrom 1 (List.replicate 10 (10, 1 / 2)))) {}).2.2 = .ok (List.replicate 6 (1 / 2, 1 / 2)) := by
  decide +kernel

/-- For NCP the objective must stall at its minimum: stuck at 2 after a minimum of 1, all 8 steps run. -/
theorem C46_ncp_witness_false : (train (exactArith ℚ) (NCP_BCU.cls scripted (fun s => .ok s) (fun s => .ok s) ())
    { tol := 1 / 10000 } 8 (.ok (scriptFrom 1 ((1, 1 / 2) :: List.replicate 10 (2, 1 / 2)))) {}).2.2 =
      .ok (List.replicate 8 (1 / 2, 1 / 2)) := by
  decide +kernel

/-- The hypotheses of `C46_tracking_stops_partial` are met: constant objective 10 from step 1 stops NCP after
4 steps. -/
example : (train (exactArith ℚ) (NCP_BCU.cls scripted (fun s => .ok s) (fun s => .ok s) ())
    { tol := 1 / 10000 } 8 (.ok (scriptFrom 1 (List.replicate 10 (10, 1 / 2)))) {}).2.2 =
      .ok (List.replicate 4 (1 / 2, 1 / 2)) := by
  decide +kernel

/-! ### C47 -/

/-- **C47**: after `train` returns, `factors` are those of the last executed step and `full` is the full tensor
of the last *reported* step `p`.  If the last executed step was reported then `full` is the reconstruction from
the exposed factors and lambdas / core, for every reconstruction relation `Rec` between the values of one step.
Missing: the last executed step need not be reported, see `C47_stale_full_false`. -/
theorem C47_full_partial (A : Arith R) (c : Cls S F K X R) (args : Args R) (steps : Int) (fresh : Res S)
    (self self' : Self F K X) (ev : List Int) (hist : List (R × R)) (Rec : F → K → X → Prop)
    (hrec : ∀ s k o s', Runs c s k o s' → ∃ v, (c.lambdasAfter <|> (o.aux <|> k)) = some v ∧
      Rec o.factors v o.full)
    (h : train A c args steps fresh self = (self', ev, .ok hist)) :
    ∃ f v, self'.factors = some f ∧ self'.aux = some v ∧
      (Reported args steps (hist.length - 1) → ∃ x, self'.full = some x ∧ Rec f v x) := by
  obtain ⟨s0, n, o, k, -, h2, -, h4, -, h6, -, ⟨p, hp, hp1, hp2, hp3⟩, h8, h9, -⟩ := train_ok h
  have hl : hist.length = n := by rw [h6]; simp
  obtain ⟨σ, -, hσ⟩ := h4.ran
  obtain ⟨s', hs, -⟩ := hσ (n - 1) (by omega)
  obtain ⟨v, hv1, hv2⟩ := hrec _ _ _ _ hs
  refine ⟨_, v, h8, h9 v hv1, fun hr => ?_⟩
  rw [hl] at hr
  have : p = n - 1 := by
    by_contra hne
    exact hp2 (n - 1) (by omega) (by omega) hr
  exact ⟨_, by rw [hp3, this], hv2⟩

/-- In particular when all `steps` steps were executed, or `verbose`, or the interval is 1. -/
theorem C47_reported_last_partial (args : Args R) (steps : Int) (n : Nat) (hn : 1 ≤ n)
    (h : (n : Int) = steps ∨ args.verbose = true ∨ args.validationInternal = 1) :
    Reported args steps (n - 1) := by
  unfold Reported
  rcases h with h | h | h
  · left; omega
  · right; left; exact h
  · right; right; right; rw [h]; exact ⟨one_dvd _, by decide⟩

/-- **C47** is false: with the default interval a run that stops at step 3 keeps the full tensor of step 1
beside the factors of step 3 (`factors` and `full` are the step number here). -/
theorem C47_stale_full_false :
    (train (exactArith ℚ) (CP_ALS.cls scripted) { tol := 1 / 10 } 10
      (.ok (scriptFrom 1 [(3, 1), (2, 1 / 2), (1, 1 / 20), (1, 0)])) {}).1 =
    { full := some 1, factors := some 3, aux := some (), finish := true } := by decide +kernel

/-- The hypothesis of `C47_full_partial` is met by a session whose full tensor is twice its factors. -/
example : ∀ s k o s', Runs (CP_ALS.cls (S := Nat) (fun s : Nat => .ok (s + 1, ⟨s, some (), 2 * s, (1 : ℚ), 1, 1⟩)))
    s k o s' → ∃ v, (none <|> (o.aux <|> k)) = some v ∧ (fun (f : Nat) (_ : Unit) (x : Nat) => x = 2 * f) o.factors v o.full := by
  intro s k o s' h
  simp only [Runs, CP_ALS.cls, Except.ok.injEq, Prod.mk.injEq] at h
  obtain ⟨rfl, -, rfl⟩ := h
  exact ⟨(), rfl, rfl⟩

/-! ### C48 -/

/-- **C48**: the steps reported by a call that returns are exactly the executed steps `k` with `k = 1`,
`k = steps`, `verbose`, or `validation_internal` dividing `k` and not -1, in order. -/
theorem C48_reported_partial (A : Arith R) (c : Cls S F K X R) (args : Args R) (steps : Int) (fresh : Res S)
    (self self' : Self F K X) (ev : List Int) (hist : List (R × R))
    (h : train A c args steps fresh self = (self', ev, .ok hist)) :
    ev.Pairwise (· < ·) ∧
    ∀ k, k ∈ ev ↔ 1 ≤ k ∧ k ≤ hist.length ∧ (k = steps ∨ args.verbose = true ∨ k = 1 ∨
      (args.validationInternal ∣ k ∧ args.validationInternal ≠ -1)) := by
  obtain ⟨s0, n, o, k, -, h2, -, h4, -, h6, h7, -⟩ := train_ok h
  have hl : hist.length = n := by rw [h6]; simp
  rw [h7, hl]
  constructor
  · rw [List.pairwise_map]
    exact (List.pairwise_lt_range.filter _).imp fun h => by omega
  · intro k
    simp only [List.mem_map, List.mem_filter, List.mem_range, decide_eq_true_eq]
    constructor
    · rintro ⟨j, ⟨h1, h2⟩, rfl⟩
      refine ⟨by omega, by omega, ?_⟩
      rcases h2 with h2 | h2 | h2 | h2
      exacts [Or.inl h2, Or.inr (Or.inl h2), Or.inr (Or.inr (Or.inl (by omega))), Or.inr (Or.inr (Or.inr h2))]
    · rintro ⟨h1, h2, h3⟩
      have hk : ((k - 1).toNat : Int) + 1 = k := by omega
      refine ⟨(k - 1).toNat, ⟨by omega, ?_⟩, hk⟩
      unfold Reported
      rw [hk]
      rcases h3 with h3 | h3 | h3 | h3
      exacts [Or.inl h3, Or.inr (Or.inl h3), Or.inr (Or.inr (Or.inl (by omega))), Or.inr (Or.inr (Or.inr h3))]

/-- **C48** is false for interval 0: a run of more than two steps that does not stop at the first one raises
`ZeroDivisionError` at the second, for every class whose runs do not raise. -/
theorem C48_interval_zero_false (A : Arith R) (main : S → Res (S × Out F K X R)) (args : Args R) (steps : Int)
    (s s1 : S) (o1 : Out F K X R) (self : Self F K X) (hv : args.validationInternal = 0)
    (hverb : args.verbose = false) (hsteps : 3 ≤ steps) (h1 : main s = .ok (s1, o1))
    (hrel : A.lt o1.rel args.tol = false) :
    (train A (CP_ALS.cls main) args steps (.ok s) self).2.2 = .error .zeroDivision := by
  obtain ⟨n, hn⟩ : ∃ n, steps.toNat = n + 2 := ⟨steps.toNat - 2, by omega⟩
  have e1 : reported args steps 1 = .ok true := by unfold reported; simp [hverb]
  have e2 : reported args steps 2 = .error .zeroDivision := by
    unfold reported
    rw [if_neg (by omega), hverb, if_neg (by simp), if_neg (by omega), if_pos hv]
  unfold train
  simp only [hn, loop, body, coreRun, CP_ALS.cls, e1, mainRun, h1, judge, after]
  have : decide ((if crit A args.tol o1.obj (A.add o1.obj A.one) = true then 0 + 1 else 0) ≥ 3) = false := by
    rw [decide_eq_false_iff_not]; split <;> omega
  simp [this, hrel, e2]

/-! ### C49 -/

/-- The updates of a call that returns, and what the object exposes then. -/
theorem extrapolate_run_full [Field R] [LinearOrder R] [IsStrictOrderedRing R] (c : Cls S F K X R)
    (op1 op2 : S → Res S) (hc : c.update = some (op1, op2)) (args : Args R) (steps : Int) (fresh : Res S)
    (self self' : Self F K X) (ev : List Int) (hist : List (R × R))
    (h : train (exactArith R) c args steps fresh self = (self', ev, .ok hist)) :
    ∃ (s0 : S) (o : Nat → Out F K X R) (k : Nat → Option K) (σ : Nat → S), fresh = .ok s0 ∧ σ 0 = s0 ∧
      hist = (List.range hist.length).map (fun j => ((o j).loss, (o j).rel)) ∧
      self'.factors = some (o (hist.length - 1)).factors ∧
      (∀ v, (c.lambdasAfter <|> ((o (hist.length - 1)).aux <|> k (hist.length - 1))) = some v → self'.aux = some v) ∧
      (∃ p < hist.length, Reported args steps p ∧ (∀ q, p < q → q < hist.length → ¬ Reported args steps q) ∧
        self'.full = some (o p).full) ∧
      ∀ j < hist.length, ∃ s, Runs c (σ j) (k j) (o j) s ∧ (j + 1 < hist.length →
        ((∀ i < j, (o j).obj < (o i).obj) → op1 s = .ok (σ (j + 1))) ∧
        ((∃ i < j, (o i).obj ≤ (o j).obj) → op2 s = .ok (σ (j + 1)))) := by
  obtain ⟨s0, n, o, k, h1, h2, h3, h4, h5, h6, -, h7, h8, h9, -⟩ := train_ok h
  have hl : hist.length = n := by rw [h6]; simp
  rw [hl]
  obtain ⟨σ, hσ0, hσ⟩ := h4.ran
  refine ⟨s0, o, k, σ, h1, hσ0, h6, h8, h9, h7, fun j hj => ?_⟩
  obtain ⟨s, hs1, hs2⟩ := hσ j hj
  refine ⟨s, hs1, fun hj1 => ?_⟩
  have hu := hs2 hj1
  unfold Updates at hu
  rw [hc] at hu
  simp only [Option.isSome_some] at hu
  have hlt : (exactArith R).lt (o j).obj (refObj (exactArith R) true (fun i => (o i).obj) j) = true ↔
      ∀ i < j, (o j).obj < (o i).obj := by
    cases j with
    | zero =>
        have : (o 0).obj < (o 0).obj + 1 := by linarith
        simp [refObj, exactArith, this]
    | succ j =>
        obtain ⟨⟨i, hi, he⟩, hle⟩ := refObj_tracked (fun i => (o i).obj) j
        constructor
        · intro hh i hi
          have hh' : (o (j + 1)).obj < refObj (exactArith R) true (fun i => (o i).obj) (j + 1) := by
            simpa [exactArith] using hh
          exact lt_of_lt_of_le hh' (hle i (by omega))
        · intro hh
          have := hh i (by omega)
          rw [he]
          simpa [exactArith] using this
  constructor
  · intro hh
    rwa [if_pos (hlt.2 hh)] at hu
  · rintro ⟨i, hi, hle⟩
    rwa [if_neg fun hh => absurd (hlt.1 hh i hi) (not_lt.2 hle)] at hu

theorem extrapolate_run [Field R] [LinearOrder R] [IsStrictOrderedRing R] (c : Cls S F K X R)
    (op1 op2 : S → Res S) (hc : c.update = some (op1, op2)) (args : Args R) (steps : Int) (fresh : Res S)
    (self self' : Self F K X) (ev : List Int) (hist : List (R × R))
    (h : train (exactArith R) c args steps fresh self = (self', ev, .ok hist)) :
    ∃ (s0 : S) (o : Nat → Out F K X R) (k : Nat → Option K) (σ : Nat → S), fresh = .ok s0 ∧ σ 0 = s0 ∧
      hist = (List.range hist.length).map (fun j => ((o j).loss, (o j).rel)) ∧
      self'.factors = some (o (hist.length - 1)).factors ∧
      (∀ v, (c.lambdasAfter <|> ((o (hist.length - 1)).aux <|> k (hist.length - 1))) = some v → self'.aux = some v) ∧
      ∀ j < hist.length, ∃ s, Runs c (σ j) (k j) (o j) s ∧ (j + 1 < hist.length →
        ((∀ i < j, (o j).obj < (o i).obj) → op1 s = .ok (σ (j + 1))) ∧
        ((∃ i < j, (o i).obj ≤ (o j).obj) → op2 s = .ok (σ (j + 1)))) := by
  obtain ⟨s0, o, k, σ, h1, h2, h3, h4, h5, -, h6⟩ := extrapolate_run_full c op1 op2 hc args steps fresh self self' ev hist h
  exact ⟨s0, o, k, σ, h1, h2, h3, h4, h5, h6⟩

/-- **C49**: in every NCP / NTUCKER call that returns, the update between step `j` and the next one is the
extrapolation `op1` if the objective of step `j` is smaller than all earlier ones (always at the first step)
and the restart `op2` otherwise.  (In exact arithmetic.) -/
theorem C49_extrapolate [Field R] [LinearOrder R] [IsStrictOrderedRing R] (c : Cls S F K X R)
    (op1 op2 : S → Res S) (hc : c.update = some (op1, op2)) (args : Args R) (steps : Int) (fresh : Res S)
    (self self' : Self F K X) (ev : List Int) (hist : List (R × R))
    (h : train (exactArith R) c args steps fresh self = (self', ev, .ok hist)) :
    ∃ (s0 : S) (o : Nat → Out F K X R) (k : Nat → Option K) (σ : Nat → S), fresh = .ok s0 ∧ σ 0 = s0 ∧
      hist = (List.range hist.length).map (fun j => ((o j).loss, (o j).rel)) ∧
      ∀ j < hist.length, ∃ s, Runs c (σ j) (k j) (o j) s ∧ (j + 1 < hist.length →
        ((∀ i < j, (o j).obj < (o i).obj) → op1 s = .ok (σ (j + 1))) ∧
        ((∃ i < j, (o i).obj ≤ (o j).obj) → op2 s = .ok (σ (j + 1)))) := by
  obtain ⟨s0, o, k, σ, h1, h2, h3, -, -, h4⟩ := extrapolate_run c op1 op2 hc args steps fresh self self' ev hist h
  exact ⟨s0, o, k, σ, h1, h2, h3, h4⟩

example : (NCP_BCU.cls (scripted (F := Nat) (X := Nat) (R := ℚ)) (fun s => .ok s) (fun s => .ok s.tail) ()).update =
    some ((fun s => .ok s), (fun s => .ok s.tail)) := rfl

/-! ### C71 -/

/-- **C71**: the history and the reported steps depend only on the fresh session, and if the call returns so do
all attributes of the object, whatever happened to it before. -/
theorem C71_fresh (A : Arith R) (c : Cls S F K X R) (hc : SetsAux c ∨ c.lambdasAfter.isSome = true)
    (args : Args R) (steps : Int) (fresh : Res S) (self1 self2 : Self F K X) :
    (train A c args steps fresh self1).2 = (train A c args steps fresh self2).2 ∧
    ∀ hist, (train A c args steps fresh self1).2.2 = .ok hist →
      (train A c args steps fresh self1).1 = (train A c args steps fresh self2).1 := by
  obtain ⟨h1, h2⟩ := train_indep A c args steps fresh self1 self2
  exact ⟨h1, fun hist hh => h2 (by rw [hh]; rfl) hc⟩

/-- The four classes meet the hypothesis: CP and HOOI fetch `lambdas` / `core` in every run, NCP sets `lambdas`
at the end, NTUCKER fetches the core in its extra run. -/
theorem C71_classes (main : S → Res (S × Out F K X R)) (hmain : ∀ s s' o, main s = .ok (s', o) → o.aux.isSome)
    (core : S → Res (S × K)) (op1 op2 : S → Res S) (ones : K) :
    SetsAux (CP_ALS.cls main) ∧ SetsAux (HOOI.cls main) ∧
      (NCP_BCU.cls main op1 op2 ones).lambdasAfter.isSome = true ∧ SetsAux (NTUCKER_BCU.cls core main op1 op2) :=
  ⟨Or.inr hmain, Or.inr hmain, rfl, Or.inl rfl⟩

/-- The same for HOSVD. -/
theorem C71_hosvd (run : S → Res (F × K × X)) (fresh : Res S) (self1 self2 : Self F K X) :
    (HOSVD.train run fresh self1).2 = (HOSVD.train run fresh self2).2 ∧
    ((HOSVD.train run fresh self1).2 = .ok () →
      (HOSVD.train run fresh self1).1 = (HOSVD.train run fresh self2).1) := by
  unfold HOSVD.train
  cases fresh with
  | error e => simp
  | ok s => simp only; cases run s <;> simp

end TD.Props
