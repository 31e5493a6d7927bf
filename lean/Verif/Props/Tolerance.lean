import Verif.Lemmas.Tolerance
import Verif.Props.Report
import Verif.Model.Special

/-!
# C141 : a larger tolerance only stops the same training sooner
-/
namespace TD.Props
open TD Spec Tensor fact

/-- **C141**: if the training with tolerance `t'` returns, the one with a larger tolerance `t` returns; its history and its
reports are an initial part of those with `t'`, and if it stops at the same step the two objects are the same afterwards.
For every class; `t` is larger in the sense that every number below `t'` is below `t`. -/
theorem C141_tolerance {S F K X R : Type} (A : Arith R) (c : Cls S F K X R) (args : Args R) (t t' : R)
    (ht : ∀ x, A.lt x t' = true → A.lt x t = true) (steps : Int) (fresh : Res S) (self self' : Self F K X) (ev : List Int)
    (hist : List (R × R)) (h : train A c { args with tol := t' } steps fresh self = (self', ev, .ok hist)) :
    ∃ self2 ev2 hist2, train A c { args with tol := t } steps fresh self = (self2, ev2, .ok hist2) ∧ hist2 <+: hist ∧ ev2 <+: ev ∧
      (hist2.length = hist.length → self2 = self') :=
  train_stall ht h

/-- **C141** in exact arithmetic. -/
theorem C141_exact {S F K X R : Type} [Field R] [LinearOrder R] [IsStrictOrderedRing R] (c : Cls S F K X R) (args : Args R) (t t' : R)
    (ht : t' ≤ t) (steps : Int) (fresh : Res S) (self self' : Self F K X) (ev : List Int)
    (hist : List (R × R)) (h : train (exactArith R) c { args with tol := t' } steps fresh self = (self', ev, .ok hist)) :
    ∃ self2 ev2 hist2, train (exactArith R) c { args with tol := t } steps fresh self = (self2, ev2, .ok hist2) ∧
      hist2 <+: hist ∧ ev2 <+: ev ∧ (hist2.length = hist.length → self2 = self') := by
  refine train_stall (fun x hx => ?_) h
  exact decide_eq_true (lt_of_lt_of_le (of_decide_eq_true hx) ht)

/-- **C141** in rounded arithmetic, also when the history contains infinities and NaN: `t'` does not exceed `t`, or is NaN. -/
theorem C141_rounded {fmt : sp.Fmt} {S F K X : Type} (c : Cls S F K X (sp.Num fmt)) (args : Args (sp.Num fmt)) (t t' : sp.Num fmt)
    (hn : t ≠ .nan) (ht : t.lt t' = false) (steps : Int) (fresh : Res S) (self self' : Self F K X) (ev : List Int)
    (hist : List (sp.Num fmt × sp.Num fmt))
    (h : train (sp.Num.loopArith fmt) c { args with tol := t' } steps fresh self = (self', ev, .ok hist)) :
    ∃ self2 ev2 hist2, train (sp.Num.loopArith fmt) c { args with tol := t } steps fresh self = (self2, ev2, .ok hist2) ∧
      hist2 <+: hist ∧ ev2 <+: ev ∧ (hist2.length = hist.length → self2 = self') := by
  refine train_stall (fun x hx => ?_) h
  change sp.Num.lt x t' = true at hx
  change sp.Num.lt x t = true
  unfold sp.Num.lt at *
  cases hxv : x.val with
  | none => rw [hxv] at hx; simp at hx
  | some a =>
  cases htv : t'.val with
  | none => rw [hxv, htv] at hx; simp at hx
  | some b =>
  cases hv : t.val with
  | none =>
      exfalso
      cases t with
      | nan => exact hn rfl
      | fin _ _ => simp [sp.Num.val] at hv
      | inf s => cases s <;> simp [sp.Num.val] at hv
  | some d =>
      rw [hxv, htv] at hx
      rw [hv, htv] at ht
      simp only [decide_eq_true_eq, decide_eq_false_iff_not, not_lt] at *
      exact lt_of_lt_of_le hx ht

/-- The same with tolerances 1/10 and 1/100: 3 and 4 steps. -/
example : (train (exactArith ℚ) (CP_ALS.cls scripted) { tol := 1 / 10 } 9
      (.ok (scriptFrom 1 [(3, 1), (2, 1 / 2), (1, 1 / 20), (1, 1 / 200), (1, 0)])) {}).2.2 =
        .ok [(1, 1), (1 / 2, 1 / 2), (1 / 20, 1 / 20)] ∧
    (train (exactArith ℚ) (CP_ALS.cls scripted) { tol := 1 / 100 } 9
      (.ok (scriptFrom 1 [(3, 1), (2, 1 / 2), (1, 1 / 20), (1, 1 / 200), (1, 0)])) {}).2.2 =
        .ok [(1, 1), (1 / 2, 1 / 2), (1 / 20, 1 / 20), (1 / 200, 1 / 200)] := by
  constructor <;> decide +kernel

/-- The hypotheses of `C141_rounded` are met in every format by the tolerances 0 and 1. -/
example (fmt : sp.Fmt) : (1 : sp.Num fmt) ≠ .nan ∧ (1 : sp.Num fmt).lt 0 = false := by
  refine ⟨by rintro ⟨⟩, ?_⟩
  show decide (((1 : ℝ) : EReal) < ((0 : ℝ) : EReal)) = false
  exact decide_eq_false (by rw [EReal.coe_lt_coe_iff]; norm_num)

end TD.Props
