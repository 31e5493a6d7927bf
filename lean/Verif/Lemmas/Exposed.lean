import Verif.Lemmas.Train
import Verif.Spec.Reach

/-!
# What a model object exposes, over any history of `train` calls
-/
namespace TD.fact
open TD Spec
variable {S F K X R : Type} {c : Cls S F K X R} {init : S → Prop}

theorem Exposes.congr {self self' : Self F K X} (h : Exposes c init self) (h1 : self'.factors = self.factors)
    (h2 : self'.full = self.full) (h3 : self'.aux = self.aux) : Exposes c init self' :=
  ⟨by rw [h1]; exact h.factors, by rw [h2]; exact h.full, by rw [h3]; exact h.aux⟩

theorem coreRun_exposes {l l' : Loc S F K X R} {e : Option PyErr} (h : Exposes c init l.self) (hs : Reach c init l.sess)
    (hl : coreRun c l = (l', e)) : Exposes c init l'.self ∧ Reach c init l'.sess := by
  unfold coreRun at hl
  cases hc : c.core with
  | none => rw [hc] at hl; cases hl; exact ⟨h, hs⟩
  | some f =>
      rw [hc] at hl
      simp only at hl
      cases hf : f l.sess with
      | error e => rw [hf] at hl; cases hl; exact ⟨h, hs⟩
      | ok p =>
          obtain ⟨s, k⟩ := p
          rw [hf] at hl
          cases hl
          refine ⟨⟨h.factors, h.full, fun k' hk' => ?_⟩, hs.core hc hf⟩
          simp only [Option.some.injEq] at hk'
          subst hk'
          exact Or.inr (Or.inr ⟨_, _, _, hs, hc, hf⟩)

theorem mainRun_exposes {l l' : Loc S F K X R} {rep : Bool} {step : Int} {o : Out F K X R}
    (h : Exposes c init l.self) (hs : Reach c init l.sess) (hl : mainRun c rep step l = .ok (l', o)) :
    Exposes c init l'.self ∧ Reach c init l'.sess := by
  unfold mainRun at hl
  cases hm : c.main l.sess with
  | error e => rw [hm] at hl; cases hl
  | ok p =>
      obtain ⟨s, o'⟩ := p
      rw [hm] at hl
      cases hl
      refine ⟨⟨fun f hf => ?_, fun x hx => ?_, fun k hk => ?_⟩, hs.main hm⟩
      · simp only [Option.some.injEq] at hf
        exact ⟨_, _, _, hs, hm, hf.symm⟩
      · simp only at hx
        cases rep with
        | true =>
            rw [if_pos rfl] at hx
            exact ⟨_, _, _, hs, hm, (Option.some.inj hx).symm⟩
        | false => exact h.full x (by simpa using hx)
      · simp only at hk
        cases ha : o.aux with
        | none => rw [ha] at hk; exact h.aux k hk
        | some a =>
            rw [ha] at hk
            exact Or.inr (Or.inl ⟨_, _, _, hs, hm, by rw [ha]; exact hk.symm⟩)

theorem judge_same {A : Arith R} {tol : R} {step : Int} {l l' : Loc S F K X R} {o : Out F K X R} {r : R × Bool}
    (hl : judge A tol step l o = .ok (l', r)) : l'.self = l.self ∧ l'.sess = l.sess := by
  unfold judge at hl
  simp only at hl
  by_cases hst : step = 1
  · simp only [hst, if_true] at hl
    cases hl; exact ⟨rfl, rfl⟩
  · simp only [if_neg hst] at hl
    cases ho : l.obj0 with
    | none => simp only [ho] at hl; cases hl
    | some v => simp only [ho] at hl; cases hl; exact ⟨rfl, rfl⟩

theorem after_exposes {A : Arith R} {l l' : Loc S F K X R} {o : Out F K X R} {obj0 : R} {e : Option PyErr}
    (h : Exposes c init l.self) (hs : Reach c init l.sess) (hl : after A c o obj0 l = (l', e)) :
    Exposes c init l'.self ∧ Reach c init l'.sess := by
  unfold after at hl
  cases hu : c.update with
  | none => rw [hu] at hl; cases hl; exact ⟨h, hs⟩
  | some p =>
      obtain ⟨op1, op2⟩ := p
      rw [hu] at hl
      simp only at hl
      cases hb : A.lt o.obj obj0 with
      | true =>
          rw [hb, if_pos rfl] at hl
          cases hf : op1 l.sess with
          | error e => rw [hf] at hl; cases hl; exact ⟨h, hs⟩
          | ok s => rw [hf] at hl; cases hl; exact ⟨h, hs.op1 hu hf⟩
      | false =>
          rw [hb, if_neg (by simp)] at hl
          cases hf : op2 l.sess with
          | error e => rw [hf] at hl; cases hl; exact ⟨h, hs⟩
          | ok s => rw [hf] at hl; cases hl; exact ⟨h, hs.op2 hu hf⟩

theorem body_exposes {A : Arith R} {args : Args R} {steps step : Int} {l l' : Loc S F K X R} {r : Res Bool}
    (h : Exposes c init l.self) (hs : Reach c init l.sess) (hl : body A c args steps step l = (l', r)) :
    Exposes c init l'.self ∧ Reach c init l'.sess := by
  unfold body at hl
  cases h1 : coreRun c l with
  | mk l1 e1 =>
  obtain ⟨a1, b1⟩ := coreRun_exposes h hs h1
  rw [h1] at hl
  cases e1 with
  | some e => cases hl; exact ⟨a1, b1⟩
  | none =>
  simp only at hl
  cases h2 : reported args steps step with
  | error e => rw [h2] at hl; cases hl; exact ⟨a1, b1⟩
  | ok rep =>
  rw [h2] at hl
  simp only at hl
  cases h3 : mainRun c rep step l1 with
  | error e => rw [h3] at hl; cases hl; exact ⟨a1, b1⟩
  | ok p =>
  obtain ⟨l2, o⟩ := p
  obtain ⟨a2, b2⟩ := mainRun_exposes a1 b1 h3
  rw [h3] at hl
  simp only at hl
  cases h4 : judge A args.tol step l2 o with
  | error e => rw [h4] at hl; cases hl; exact ⟨a2, b2⟩
  | ok q =>
  obtain ⟨l3, obj0, stop⟩ := q
  obtain ⟨c1, c2⟩ := judge_same h4
  rw [← c1] at a2
  rw [← c2] at b2
  rw [h4] at hl
  cases stop with
  | true => cases hl; exact ⟨a2, b2⟩
  | false =>
  simp only at hl
  cases h5 : after A c o obj0 l3 with
  | mk l4 e4 =>
  obtain ⟨a4, b4⟩ := after_exposes a2 b2 h5
  rw [h5] at hl
  cases e4 with
  | some e => cases hl; exact ⟨a4, b4⟩
  | none => cases hl; exact ⟨a4, b4⟩

theorem loop_exposes {A : Arith R} {args : Args R} {steps : Int} : ∀ {n : Nat} {step : Int} {l l' : Loc S F K X R}
    {e : Option PyErr}, Exposes c init l.self → Reach c init l.sess → loop A c args steps n step l = (l', e) →
    Exposes c init l'.self
  | 0, _, l, l', e, h, _, hl => by cases hl; exact h
  | n + 1, step, l, l', e, h, hs, hl => by
      rw [loop] at hl
      cases hb : body A c args steps step l with
      | mk l1 r =>
      obtain ⟨a, b⟩ := body_exposes h hs hb
      rw [hb] at hl
      cases r with
      | error e => cases hl; exact a
      | ok stop =>
          cases stop with
          | true => cases hl; exact a
          | false => exact loop_exposes a b hl

/-- A `train` call, whether it returns or raises, leaves the object exposing results of session runs. -/
theorem train_exposes {A : Arith R} {args : Args R} {steps : Int} {fresh : Res S} {self : Self F K X}
    (h : Exposes c init self) (hf : ∀ s, fresh = .ok s → init s) :
    Exposes c init (train A c args steps fresh self).1 := by
  have h1 : Exposes c init (if c.resets then { self with finish := false } else self) := by
    split
    · exact Exposes.congr h rfl rfl rfl
    · exact h
  unfold train
  simp only
  cases hfr : fresh with
  | error e => exact h1
  | ok s =>
  simp only
  cases hl : loop A c args steps steps.toNat 1 { sess := s, self := if c.resets then { self with finish := false } else self } with
  | mk l e =>
  have h2 := loop_exposes (l := { sess := s, self := if c.resets then { self with finish := false } else self })
    h1 (Reach.fresh (hf s hfr)) hl
  cases e with
  | some e => exact h2
  | none =>
  simp only
  cases hla : c.lambdasAfter with
  | none =>
      simp only
      split
      · exact h2
      · exact Exposes.congr h2 rfl rfl rfl
  | some k =>
      simp only
      have h3 : Exposes c init { l.self with aux := some k } := ⟨h2.factors, h2.full, fun k' hk' => by
        simp only [Option.some.injEq] at hk'
        subst hk'
        exact Or.inl hla⟩
      split
      · exact h3
      · exact Exposes.congr h3 rfl rfl rfl

theorem exposes_new : Exposes c init ({} : Self F K X) :=
  ⟨fun _ h => (nomatch h), fun _ h => (nomatch h), fun _ h => (nomatch h)⟩

end TD.fact
