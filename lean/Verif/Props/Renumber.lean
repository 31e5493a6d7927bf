import Verif.Lemmas.RenumberTucker

/-!
# C110: the numbering of the indices does not matter

The indices along a mode are names.  Training on renumbered data, from initial values whose rows are renumbered the same
way, gives the same history, the same number of steps, the same reports and the same success or failure; the factors and
the full tensor it leaves are those of the original training, renumbered; weights and core are the same.  For every
arithmetic of the stopping tests, every arguments and every earlier state of the object.
-/
namespace TD.Props
open TD Spec Tensor tf ops fact bcu graph

/-- **C110** for `CP_ALS`. -/
theorem C110_cp (pinv : Tensor ℝ → Res (Tensor ℝ)) (hp : PinvOk pinv) (X : Tensor ℝ) (R : Nat) (h2 : 2 ≤ X.order)
    (h25 : X.order ≤ 25) (hpos : ∀ d ∈ X.shape, 0 < d) (σ : Nat → Nat → Nat) (hσ : Renumbering X.shape σ)
    (A0 : List (Tensor ℝ)) (hA : FactorsFor X.shape R A0) (A : Arith ℝ) (args : Args ℝ) (steps : Int)
    (self : Self (List (Tensor ℝ)) (Tensor ℝ) (Tensor ℝ)) :
    SameCall (train A (CP_ALS.cls (cp.main pinv (renum σ X) R)) args steps (.ok (renumFactors σ A0)) (renumSelf σ self))
      (renumSelf σ (train A (CP_ALS.cls (cp.main pinv X R)) args steps (.ok A0) self).1,
        (train A (CP_ALS.cls (cp.main pinv X R)) args steps (.ok A0) self).2) :=
  train_translated (c := CP_ALS.cls (cp.main pinv X R)) (d := CP_ALS.cls (cp.main pinv (renum σ X) R)) (renumFactors σ) (renum σ) (renumFactors σ)
    (FactorsFor X.shape R) (Or.inl ⟨rfl, rfl⟩)
    (fun s hs => ⟨cp.main_renum hp hσ hs h2 h25 hpos, fun s' o h => by
      obtain ⟨_, -, h', -⟩ := cp.main_ok hp hs h2 h25 hpos h
      exact h'⟩)
    (Or.inl ⟨rfl, rfl⟩) rfl rfl A args steps (fresh := .ok A0) rfl (fun s hs => by cases hs; exact hA) self

/-- **C110** for `NCP_BCU`, with the random draws renumbered. -/
theorem C110_ncp (topSv : Tensor ℝ → Res ℝ) (X : Tensor ℝ) (R : Nat) (h2 : 2 ≤ X.order) (h25 : X.order ≤ 25)
    (hpos : ∀ d ∈ X.shape, 0 < d) (σ : Nat → Nat → Nat) (hσ : Renumbering X.shape σ) (draws : List (Tensor ℝ))
    (hd : FactorsFor X.shape R draws) (A : Arith ℝ) (args : Args ℝ) (steps : Int)
    (self : Self (List (Tensor ℝ)) (Tensor ℝ) (Tensor ℝ)) :
    SameCall (train A (NCP.cls topSv (renum σ X) R) args steps (bcu.init (renum σ X) X.order (renumFactors σ draws))
        (renumSelf σ self))
      (renumSelf σ (train A (NCP.cls topSv X R) args steps (bcu.init X X.order draws) self).1,
        (train A (NCP.cls topSv X R) args steps (bcu.init X X.order draws) self).2) := by
  have hne : X.shape ≠ [] := by intro e; unfold order at h2; rw [e] at h2; simp at h2
  have hrow := rowsOk_cp X.shape R
  exact train_translated (c := NCP.cls topSv X R) (d := NCP.cls topSv (renum σ X) R) (renumFactors σ) (renum σ) (renState σ)
    (fun s => FactorsOk (X.shape.map fun d => [d, R]) s ∧ MomentumOk s) (Or.inl ⟨rfl, rfl⟩)
    (fun s hs => ⟨NCP.main_renum hσ h2 h25 hpos hs.1, fun s' o h => by
      obtain ⟨a, b, -⟩ := NCP.main_ok hs.1 hne h25 h
      exact ⟨a, (b hs.2).1⟩⟩)
    (Or.inr ⟨_, _, _, _, rfl, rfl, fun s hs => ⟨⟨NCP.op1_renum hrow hσ hs.1 _, fun s' h => by
      obtain ⟨a, b, -⟩ := NCP.op1_ok hs.1 hs.2 h
      exact ⟨a, b⟩⟩, rfl, fun s' h => by
      obtain ⟨a, b, -⟩ := NCP.op2_ok hs.1 hs.2 h
      exact ⟨a, b⟩⟩⟩) rfl rfl A args steps (init_renum hσ _ hrow hd) (fun s hs => by
      obtain ⟨a, b, -⟩ := init_inv hs
      rw [show draws.map Tensor.shape = X.shape.map fun d => [d, R] from hd] at a
      exact ⟨a, b⟩) self

/-- **C110** for `NTUCKER_BCU`, with the random draws of the factors renumbered and the same draw of the core. -/
theorem C110_ntucker (topSv : Tensor ℝ → Res ℝ) (X : Tensor ℝ) (ranks : List Nat) (hr : ranks.length = X.shape.length)
    (h2 : 2 ≤ X.order) (h13 : X.order ≤ 13) (hpos : ∀ d ∈ X.shape, 0 < d) (hrp : ∀ d ∈ ranks, 0 < d)
    (σ : Nat → Nat → Nat) (hσ : Renumbering X.shape σ) (draws : List (Tensor ℝ)) (gdraw : Tensor ℝ)
    (hd : TuckerShapes X.shape ranks draws) (hg : gdraw.shape = ranks) (A : Arith ℝ) (args : Args ℝ) (steps : Int)
    (self : Self (List (Tensor ℝ)) (Tensor ℝ) (Tensor ℝ)) :
    SameCall (train A (NTUCKER.cls topSv (renum σ X)) args steps
        (NTUCKER.init (renum σ X) (renumFactors σ draws) gdraw) (renumSelf σ self))
      (renumSelf σ (train A (NTUCKER.cls topSv X) args steps (NTUCKER.init X draws gdraw) self).1,
        (train A (NTUCKER.cls topSv X) args steps (NTUCKER.init X draws gdraw) self).2) := by
  exact train_translated (c := NTUCKER.cls topSv X) (d := NTUCKER.cls topSv (renum σ X)) (renumFactors σ) (renum σ)
    (renTState σ) (fun s => TkOk X.shape ranks s ∧ MomentumOk s.toState)
    (Or.inr ⟨_, _, rfl, rfl, fun s hs => ⟨NTUCKER.core_renum hσ (by omega) h13 hs.1, fun s' v h => by
      obtain ⟨a, b, -⟩ := NTUCKER.core_ok hs.1 h
      exact ⟨a, b hs.2⟩⟩⟩)
    (fun s hs => ⟨NTUCKER.main_renum hσ hr h2 h13 hpos hrp hs.1, fun s' o h => by
      obtain ⟨a, b, -⟩ := NTUCKER.main_ok hs.1 hr (by omega) h13 h
      exact ⟨a, (b hs.2).1⟩⟩)
    (Or.inr ⟨_, _, _, _, rfl, rfl, fun s hs => ⟨⟨NTUCKER.op1_renum hσ hs.1 _, fun s' h => by
      obtain ⟨a, b, -⟩ := NTUCKER.op1_ok hs.1 hs.2 h
      exact ⟨a, b⟩⟩, rfl, fun s' h => by
      obtain ⟨a, b, -⟩ := NTUCKER.op2_ok hs.1 hs.2 h
      exact ⟨a, b⟩⟩⟩) rfl rfl A args steps (NTUCKER.init_renum hσ hd) (fun s hs => by
      obtain ⟨a, b, -⟩ := NTUCKER.init_inv hs (tuckerShapes_iff.2 hd) hg
      exact ⟨a, b⟩) self

/-- Exchanging the two rows of a 2 × 3 matrix and rotating its columns is a renumbering. -/
example : Renumbering [2, 3] fun k i => if k = 0 then 1 - i else (i + 1) % 3 := by
  intro k hk
  match k, hk with
  | 0, _ => exact bijOn_of_inj (fun i hi => by simp at *) fun i hi j hj h => by simp at *; omega
  | 1, _ => exact bijOn_of_inj (fun i hi => by simp at *; omega) fun i hi j hj h => by simp at *; omega

/-- What it does to a matrix. -/
example : (renum (fun k i => if k = 0 then 1 - i else (i + 1) % 3) (⟨[2, 3], [1, 2, 3, 4, 5, 6], rfl⟩ : Tensor ℚ)).data =
    [5, 6, 4, 2, 3, 1] := by decide +kernel

/-- The initial values of the theorems exist. -/
example : FactorsFor [2, 3] 1 [(⟨[2, 1], [1, 2], rfl⟩ : Tensor ℝ), ⟨[3, 1], [1, 0, 4], rfl⟩] := rfl

end TD.Props
