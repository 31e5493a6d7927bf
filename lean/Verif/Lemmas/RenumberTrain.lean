import Verif.Lemmas.TrainMap
import Verif.Lemmas.ScaleBcu
import Verif.Lemmas.RenumberCp

/-! # A training that commutes with a translation of the session -/
namespace TD.fact
open TD Spec

theorem SameOp.of_eq {S T : Type} {ren : S → T} {Inv : S → Prop} {x : Res S} {y : Res T} (h : y = ren <$> x)
    (hi : ∀ s, x = .ok s → Inv s) : SameOp (fun s t => t = ren s ∧ Inv s) x y := by
  subst h
  cases x with
  | error e => trivial
  | ok s => exact ⟨rfl, hi s rfl⟩

theorem SameRun.of_eq {S T γ : Type} {ren : S → T} {Inv : S → Prop} {x : Res (S × γ)} {y : Res (T × γ)}
    (h : y = (fun r => (ren r.1, r.2)) <$> x) (hi : ∀ s v, x = .ok (s, v) → Inv s) :
    SameRun (fun s t => t = ren s ∧ Inv s) x y := by
  subst h
  cases x with
  | error e => trivial
  | ok s => exact ⟨⟨rfl, hi s.1 s.2 rfl⟩, rfl⟩

/-- If the runs of `d` on translated sessions are the translated runs of `c`, so are the trainings. -/
theorem train_translated {S T F F' K X X' R : Type} {c : Cls S F K X R} {d : Cls T F' K X' R} (f : F → F') (g : X → X')
    (ren : S → T) (Inv : S → Prop)
    (hcore : (c.core = none ∧ d.core = none) ∨ ∃ a b, c.core = some a ∧ d.core = some b ∧ ∀ s, Inv s →
      b (ren s) = (fun r => (ren r.1, r.2)) <$> a s ∧ ∀ s' v, a s = .ok (s', v) → Inv s')
    (hmain : ∀ s, Inv s → d.main (ren s) = (fun r => (ren r.1, r.2.mapOut f g)) <$> c.main s ∧
      ∀ s' v, c.main s = .ok (s', v) → Inv s')
    (hupd : (c.update = none ∧ d.update = none) ∨ ∃ a a' b b', c.update = some (a, a') ∧ d.update = some (b, b') ∧
      ∀ s, Inv s → (b (ren s) = ren <$> a s ∧ ∀ s', a s = .ok s' → Inv s') ∧
        (b' (ren s) = ren <$> a' s ∧ ∀ s', a' s = .ok s' → Inv s'))
    (h1 : c.resets = d.resets) (h2 : c.lambdasAfter = d.lambdasAfter) (A : Arith R) (args : Args R) (n : Int)
    {fresh : Res S} {fresh' : Res T} (hf : fresh' = ren <$> fresh) (hi : ∀ s, fresh = .ok s → Inv s) (self : Self F K X) :
    graph.SameCall (train A d args n fresh' (self.mapOut f g))
      ((train A c args n fresh self).1.mapOut f g, (train A c args n fresh self).2) := by
  have hs : Sim (fun s t => t = ren s ∧ Inv s) (c.mapOut f g) d := by
    refine ⟨?_, ?_, ?_, h1, h2⟩
    · refine hcore.imp id ?_
      rintro ⟨a, b, h3, h4, h5⟩
      exact ⟨a, b, h3, h4, fun s t ⟨e, hI⟩ => by subst e; exact SameRun.of_eq (h5 s hI).1 (h5 s hI).2⟩
    · rintro s _ ⟨rfl, hI⟩
      obtain ⟨e, hi⟩ := hmain s hI
      rw [e]
      change SameRun _ ((fun r => (r.1, r.2.mapOut f g)) <$> c.main s) _
      cases hm : c.main s with
      | error e => trivial
      | ok r => exact ⟨⟨rfl, hi r.1 r.2 hm⟩, rfl⟩
    · refine hupd.imp id ?_
      rintro ⟨a, a', b, b', h3, h4, h5⟩
      exact ⟨a, a', b, b', h3, h4, fun s t ⟨e, hI⟩ => by
        subst e
        exact ⟨SameOp.of_eq (h5 s hI).1.1 (h5 s hI).1.2, SameOp.of_eq (h5 s hI).2.1 (h5 s hI).2.2⟩⟩
  have := hs.train A args n (SameOp.of_eq hf hi) (self.mapOut f g)
  rw [train_mapOut] at this
  exact ⟨this.1.symm, this.2.1.symm, this.2.2.symm⟩

end TD.fact

namespace TD.cp
open TD Spec Tensor tf ops Matrix fact

theorem main_renum {pinv : Tensor ℝ → Res (Tensor ℝ)} (hp : PinvOk pinv) {X : Tensor ℝ} {σ : Nat → Nat → Nat}
    (hσ : Renumbering X.shape σ) {R : Nat} {A : List (Tensor ℝ)} (hA : FactorsFor X.shape R A) (h2 : 2 ≤ X.order)
    (h25 : X.order ≤ 25) (hpos : ∀ d ∈ X.shape, 0 < d) :
    main pinv (renum σ X) R (renumFactors σ A) =
      (fun r => (renumFactors σ r.1, r.2.mapOut (renumFactors σ) (renum σ))) <$> main pinv X R A := by
  have hne : X.shape ≠ [] := by intro e; unfold order at h2; rw [e] at h2; simp at h2
  unfold main
  rw [sweep_renum (fun V P n hV hP => ?_) hσ hA h2 h25 hpos]
  · cases hs : sweep pinv X R A with
    | error e => rfl
    | ok r =>
    obtain ⟨B, lam⟩ := r
    obtain ⟨b1, b2, -⟩ := sweep_descends hp hA h2 h25 hpos hs
    rw [ok_bind]
    change (do let r ← (Except.ok (renumFactors σ B, lam) : Res _); _) = _
    rw [ok_bind]
    simp only
    rw [fullOf_renum hσ b1 hne h25 b2]
    obtain ⟨Y, y1, y2, -⟩ := fullOf_spec b1 hne h25 b2
    rw [y1, ok_bind]
    change (do let r ← (Except.ok (renum σ Y) : Res _); _) = _
    rw [ok_bind, scalars_renum hσ y2]
    cases cp.scalars X Y <;> rfl
  · obtain ⟨P', h, h', -⟩ := hp V n hV
    rw [h] at hP; cases hP
    exact h'

end TD.cp
