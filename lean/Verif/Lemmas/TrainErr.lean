import Verif.Lemmas.Train

/-! # Where the exceptions of `train` come from, for classes with one run per step -/
namespace TD
open Spec fact
variable {S F K X R : Type}

theorem loop_err {A : Arith R} {c : Cls S F K X R} {I : S → Prop} {E : PyErr → Prop} {args : Args R} {steps : Int}
    (hcore : c.core = none) (hupd : c.update = none)
    (h : ∀ s, I s → (∃ s' o, c.main s = .ok (s', o) ∧ I s') ∨ ∃ e, c.main s = .error e ∧ E e) :
    ∀ (n : Nat) (step : Int) (l : Loc S F K X R), I l.sess →
      (∀ k, step ≤ k → k < step + n → (reported args steps k).toBool) → step = 1 ∨ l.obj0.isSome →
      (loop A c args steps n step l).2 = none ∨ ∃ e, (loop A c args steps n step l).2 = some e ∧ E e
  | 0, _, _, _, _, _ => Or.inl rfl
  | n + 1, step, l, hI, hrep, h0 => by
      have h1 : coreRun c l = (l, none) := by unfold coreRun; rw [hcore]
      rw [loop]
      unfold body
      rw [h1]
      simp only
      have hr0 := hrep step (by omega) (by omega)
      cases hr : reported args steps step with
      | error e => rw [hr] at hr0; cases hr0
      | ok rep =>
      simp only
      rcases h l.sess hI with ⟨s', o, hm, hs'⟩ | ⟨e, hm, he⟩
      · obtain ⟨l2, h2, h2', i2⟩ : ∃ l2, mainRun c rep step l = .ok (l2, o) ∧ l2.obj0 = l.obj0 ∧ I l2.sess := by
          unfold mainRun
          rw [hm]
          exact ⟨_, rfl, rfl, hs'⟩
        rw [h2]
        simp only
        obtain ⟨l3, r, br, h3, h3', i3⟩ : ∃ l3 r br, judge A args.tol step l2 o = .ok (l3, r, br) ∧ l3.obj0.isSome ∧
            I l3.sess := by
          unfold judge
          simp only [h2']
          by_cases hs : step = 1
          · simp [hs, i2]
          · obtain ⟨v, hv⟩ := Option.isSome_iff_exists.1 (h0.resolve_left hs)
            simp [hs, hv, i2]
        rw [h3]
        cases br with
        | true => exact Or.inl rfl
        | false =>
            have h4 : after A c o r l3 = (l3, none) := by unfold after; rw [hupd]
            simp only [h4]
            exact loop_err hcore hupd h n _ _ i3 (fun k h1 h2 => hrep k (by omega) (by omega)) (Or.inr h3')
      · have h2 : mainRun c rep step l = .error e := by unfold mainRun; rw [hm]
        rw [h2]
        exact Or.inr ⟨e, rfl, he⟩

/-- If every run returns or raises one of the exceptions `E`, so does `train`. -/
theorem train_err {A : Arith R} {c : Cls S F K X R} {I : S → Prop} {E : PyErr → Prop} {args : Args R} {steps : Int}
    (hcore : c.core = none) (hupd : c.update = none)
    (h : ∀ s, I s → (∃ s' o, c.main s = .ok (s', o) ∧ I s') ∨ ∃ e, c.main s = .error e ∧ E e) {s : S} (hI : I s)
    (hv : args.validationInternal ≠ 0 ∨ args.verbose = true ∨ steps ≤ 2) (hs : 1 ≤ steps) (self : Self F K X) :
    (∃ hist, (train A c args steps (.ok s) self).2.2 = .ok hist) ∨ ∃ e, (train A c args steps (.ok s) self).2.2 = .error e ∧ E e := by
  unfold train
  simp only
  have := loop_err (A := A) (args := args) (steps := steps) hcore hupd h steps.toNat 1
    { sess := s, self := if c.resets = true then { self with finish := false } else self } hI (by
      intro k h1 h2
      unfold reported
      split
      · rfl
      · split
        · rfl
        · split
          · rfl
          · split
            · rename_i h3 h4 h5 h6
              rcases hv with hv | hv | hv
              · exact absurd h6 hv
              · exact absurd hv h4
              · omega
            · rfl) (Or.inl rfl)
  generalize loop A c args steps steps.toNat 1 { sess := s, self := if c.resets = true then { self with finish := false } else self } = q at this
  obtain ⟨l, o⟩ := q
  simp only at this
  rcases this with rfl | ⟨e, rfl, he⟩
  · left
    simp only
    rw [if_neg (by omega)]
    exact ⟨_, rfl⟩
  · exact Or.inr ⟨e, rfl, he⟩

end TD
