import Verif.Lemmas.Settings
import Verif.Props.Report

/-!
# C117: reporting settings, C118: tolerance, C119: NaN
-/
namespace TD.Props
open TD Spec fact
variable {S F K X R : Type}

/-- The reporting settings do not make `train` divide by zero. -/
def Harmless (args : Args R) : Prop := args.verbose = true ∨ args.validationInternal ≠ 0

/-! ### C117 -/

/-- **C117.** `verbose` and `validation_internal` have no influence on the training: with the same tolerance and the same start
it returns the same history or raises the same exception, and leaves the same factors, weights or core and the same flag. -/
theorem C117_reporting (A : Arith R) (c : Cls S F K X R) (args args' : Args R) (ha : Harmless args) (ha' : Harmless args')
    (ht : args'.tol = args.tol) (steps : Int) (fresh : Res S) (self : Self F K X) :
    (train A c args' steps fresh self).2.2 = (train A c args steps fresh self).2.2 ∧
      (train A c args' steps fresh self).1.factors = (train A c args steps fresh self).1.factors ∧
      (train A c args' steps fresh self).1.aux = (train A c args steps fresh self).1.aux ∧
      (train A c args' steps fresh self).1.finish = (train A c args steps fresh self).1.finish := by
  obtain ⟨h1, h2⟩ := train_strip (A := A) (c := c) ha ha' ht steps fresh self
  simp only [Self.mk.injEq] at h2
  exact ⟨h1, h2.2.1, h2.2.2.1, h2.2.2.2⟩

/-- **C117.** The full tensor is the same too if both settings report the last executed step, for example because all steps
are executed. -/
theorem C117_full (A : Arith R) (c : Cls S F K X R) (args args' : Args R) (ha : Harmless args) (ha' : Harmless args')
    (ht : args'.tol = args.tol) (steps : Int) (fresh : Res S) (self self' : Self F K X) (ev : List Int) (hist : List (R × R))
    (h : train A c args steps fresh self = (self', ev, .ok hist))
    (hr : Reported args steps (hist.length - 1)) (hr' : Reported args' steps (hist.length - 1)) :
    (train A c args' steps fresh self).1.full = self'.full := by
  have hr1 := (C117_reporting A c args args' ha ha' ht steps fresh self).1
  cases h' : train A c args' steps fresh self with
  | mk self'' q =>
  obtain ⟨ev', q⟩ := q
  rw [h, h'] at hr1
  simp only at hr1
  subst hr1
  obtain ⟨s0, n, o, k, e1, e2, -, e4, -, e6, -, ⟨p, p1, p2, p3, p4⟩, -⟩ := train_ok h
  obtain ⟨s0', n', o', k', f1, -, -, f4, -, f6, -, ⟨p', p1', p2', p3', p4'⟩, -⟩ := train_ok h'
  have hn : hist.length = n := by rw [e6]; simp
  have hn' : hist.length = n' := by rw [f6]; simp
  rw [hn] at hr hr' hn'
  subst hn'
  rw [e1] at f1
  cases f1
  have hp : p = n - 1 := by
    by_contra hne
    exact p3 (n - 1) (by omega) (by omega) hr
  have hp' : p' = n - 1 := by
    by_contra hne
    exact p3' (n - 1) (by omega) (by omega) hr'
  rw [p4, hp]
  simp only
  rw [p4', hp', (run_det e4 f4 (n - 1) (by omega)).1]

/-- A silent and a verbose training with the same history; reporting leaves the full tensor of another step. -/
example :
    let t := fun args => train (exactArith ℚ) (CP_ALS.cls scripted) args 10
      (.ok (scriptFrom 1 [(3, 1), (2, 1 / 2), (1, 1 / 20), (1, 0)])) {}
    Harmless ({ tol := 1 / 10, verbose := true } : Args ℚ) ∧ Harmless ({ tol := 1 / 10, validationInternal := 5 } : Args ℚ) ∧
      (t { tol := 1 / 10, verbose := true }).2 = ([1, 2, 3], .ok [(1, 1), (1 / 2, 1 / 2), (1 / 20, 1 / 20)]) ∧
      (t { tol := 1 / 10, validationInternal := 5 }).2 = ([1], .ok [(1, 1), (1 / 2, 1 / 2), (1 / 20, 1 / 20)]) ∧
      (t { tol := 1 / 10, verbose := true }).1.full = some 3 ∧ (t { tol := 1 / 10, validationInternal := 5 }).1.full = some 1 :=
  ⟨Or.inl rfl, Or.inr (by decide), by decide +kernel⟩

/-- The hypotheses of `C117_full` are met: all steps are executed. -/
example :
    let t := fun args => train (exactArith ℚ) (CP_ALS.cls scripted) args 2 (.ok (scriptFrom 1 [(3, 1), (2, 1 / 2)])) {}
    Reported ({ tol := 1 / 10, verbose := true } : Args ℚ) 2 1 ∧ Reported ({ tol := 1 / 10, validationInternal := 5 } : Args ℚ) 2 1 ∧
      (t { tol := 1 / 10, verbose := true }).1.full = some 2 ∧ (t { tol := 1 / 10, validationInternal := 5 }).1.full = some 2 := by
  decide +kernel

/-! ### C118 -/

/-- **C118.** A looser tolerance never trains longer: the history is a beginning of the one with the tighter tolerance, and if it
is all of it, factors and weights or core are the same. -/
theorem C118_looser (A : Arith R) (c : Cls S F K X R) (args args' : Args R) (ha' : Harmless args')
    (ht : ∀ x, A.lt x args.tol = true → A.lt x args'.tol = true) (steps : Int) (fresh : Res S)
    (self self' : Self F K X) (ev : List Int) (hist : List (R × R))
    (h : train A c args steps fresh self = (self', ev, .ok hist)) :
    ∃ n, 1 ≤ n ∧ n ≤ hist.length ∧ ∃ self'' ev', train A c args' steps fresh self = (self'', ev', .ok (hist.take n)) ∧
      (n = hist.length → self''.factors = self'.factors ∧ self''.aux = self'.aux) := by
  unfold train at h ⊢
  cases hf : fresh with
  | error e => rw [hf] at h; simp at h
  | ok s0 =>
  rw [hf] at h
  simp only at h ⊢
  have h0 : (({ sess := s0, self := if c.resets = true then { self with finish := false } else self } :
    Loc S F K X R)).hist = [] := rfl
  generalize ({ sess := s0, self := if c.resets = true then { self with finish := false } else self } :
    Loc S F K X R) = l at h h0 ⊢
  cases hl : loop A c args steps steps.toNat 1 l with
  | mk lf e =>
  rw [hl] at h
  cases e with
  | some e => simp at h
  | none =>
  simp only at h
  by_cases hs : steps < 1
  · rw [if_pos hs] at h; simp at h
  rw [if_neg hs] at h
  obtain ⟨lf', g1, -, g3, g4, g5⟩ := loop_loose (m := steps) ha' ht (by omega)
    (⟨rfl, rfl, rfl, rfl, rfl, le_refl _⟩ : Loose l l) hl
  have g3 := g3 (by omega)
  rw [h0] at g3
  have hlen : lf'.hist.length ≤ lf.hist.length := by
    have := congrArg List.length g4
    rw [List.length_take] at this
    omega
  have hfin : lf.hist = hist := by
    have := congrArg (fun x => x.2.2) h
    simpa using this
  subst hfin
  refine ⟨lf'.hist.length, g3, hlen, ?_⟩
  rw [g1]
  simp only
  rw [if_neg hs]
  refine ⟨_, _, by rw [← g4], fun e => ?_⟩
  obtain ⟨f1, f2⟩ := g5 (by omega)
  have hself := congrArg (fun x => x.1) h
  simp only at hself
  rw [← hself]
  cases c.lambdasAfter <;> simp [f1, f2]

/-- With `tol` 1/100 four steps, with 1/10 three. -/
example :
    let t := fun tol : ℚ => (train (exactArith ℚ) (CP_ALS.cls scripted) { tol := tol } 4
      (.ok (scriptFrom 1 [(3, 1), (2, 1 / 2), (1, 1 / 20), (1, 0)])) {}).2.2
    t (1 / 100) = .ok [(1, 1), (1 / 2, 1 / 2), (1 / 20, 1 / 20), (0, 0)] ∧
      t (1 / 10) = .ok [(1, 1), (1 / 2, 1 / 2), (1 / 20, 1 / 20)] := by
  decide +kernel

/-! ### C119 -/

/-- The rules of floating-point arithmetic for NaN, as far as `train` uses them: every operation with a NaN gives a NaN, every
comparison with one is false. -/
structure NanRules (A : Arith R) (nan : R → Prop) : Prop where
  add : ∀ x y, nan x ∨ nan y → nan (A.add x y)
  sub : ∀ x y, nan x ∨ nan y → nan (A.sub x y)
  div : ∀ x y, nan x ∨ nan y → nan (A.div x y)
  abs : ∀ x, nan x → nan (A.abs x)
  lt : ∀ x y, nan x ∨ nan y → A.lt x y = false

theorem NanRules.stalled {A : Arith R} {nan : R → Prop} (N : NanRules A nan) {track : Bool} {tol : R} {obj : Nat → R} {j : Nat}
    (h : nan (obj j) ∨ nan (refObj A track obj j)) : ¬ Stalled A track tol obj j := by
  unfold Stalled
  rw [N.lt _ _ (Or.inl (N.div _ _ (Or.inl (N.abs _ (N.sub _ _ h)))))]
  simp

/-- **C119.** A step whose relative residual and objective are NaN never ends the training: it executes all steps, or ends at a
step with a number. -/
theorem C119_nan (A : Arith R) (nan : R → Prop) (N : NanRules A nan) (c : Cls S F K X R) (args : Args R) (steps : Int)
    (fresh : Res S) (self self' : Self F K X) (ev : List Int) (hist : List (R × R))
    (h : train A c args steps fresh self = (self', ev, .ok hist)) :
    ∃ s0 o k, fresh = .ok s0 ∧ Run A c args.tol s0 hist.length o k ∧
      (nan (o (hist.length - 1)).rel → nan (o (hist.length - 1)).obj → (hist.length : Int) = steps) := by
  obtain ⟨s0, o, k, h1, h2, -, -, h5⟩ := C45_stop_rule A c args steps fresh self self' ev hist h
  refine ⟨s0, o, k, h1, h2, fun hr ho => ?_⟩
  rcases h5 with h5 | h5 | ⟨-, -, -, h5⟩
  · exact h5
  · rw [N.lt _ _ (Or.inl hr)] at h5; cases h5
  · exact absurd h5 (N.stalled (Or.inl ho))

/-- **C119.** If the first objective is NaN, no later objective can end the training by stalling, whatever it is: the reference
value stays NaN, also in the classes that replace it by smaller objectives. -/
theorem C119_first_nan (A : Arith R) (nan : R → Prop) (N : NanRules A nan) (c : Cls S F K X R) (args : Args R) (steps : Int)
    (fresh : Res S) (self self' : Self F K X) (ev : List Int) (hist : List (R × R))
    (h : train A c args steps fresh self = (self', ev, .ok hist)) :
    ∃ s0 o k, fresh = .ok s0 ∧ Run A c args.tol s0 hist.length o k ∧
      (nan (o 0).obj → (hist.length : Int) = steps ∨ A.lt (o (hist.length - 1)).rel args.tol = true) := by
  obtain ⟨s0, o, k, h1, h2, -, -, h5⟩ := C45_stop_rule A c args steps fresh self self' ev hist h
  refine ⟨s0, o, k, h1, h2, fun ho => ?_⟩
  have hn : ∀ j, nan (refObj A c.update.isSome (fun i => (o i).obj) j) := by
    intro j
    induction j with
    | zero => exact N.add _ _ (Or.inl ho)
    | succ j ih => rw [refObj, N.lt _ _ (Or.inr ih)]; simpa using ih
  rcases h5 with h5 | h5 | ⟨-, -, -, h5⟩
  · exact Or.inl h5
  · exact Or.inr h5
  · exact absurd h5 (N.stalled (Or.inr (hn _)))

/-- Rational numbers with a NaN follow these rules. -/
def nanArith : Arith (Option ℚ) where
  one := some 1
  add x y := (x.bind fun a => y.map (a + ·))
  sub x y := (x.bind fun a => y.map (a - ·))
  div x y := (x.bind fun a => y.bind fun b => if b = 0 then none else some (a / b))
  abs x := x.map (|·|)
  lt x y := match x, y with
    | some a, some b => decide (a < b)
    | _, _ => false

example : NanRules nanArith (· = none) := by
  refine ⟨?_, ?_, ?_, ?_, ?_⟩ <;> rintro (_ | x) <;> try rintro (_ | y)
  all_goals simp [nanArith]

/-- A training that runs into NaN at its second step executes all six steps; with a constant objective it would end after four. -/
example :
    let o : Option ℚ → Out Unit Unit Unit (Option ℚ) := fun x => ⟨(), some (), (), x, x, x⟩
    let t := fun y : Option ℚ => (train nanArith (NCP_BCU.cls scripted (fun s => .ok s) (fun s => .ok s) ()) { tol := some (1 / 10000) } 6
      (.ok (o (some 10) :: List.replicate 10 (o y))) {}).2.2
    t none = .ok ((some 10, some 10) :: List.replicate 5 (none, none)) ∧
      t (some 10) = .ok (List.replicate 4 (some 10, some 10)) := by
  decide +kernel

end TD.Props
