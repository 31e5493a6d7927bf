import Verif.Lemmas.ComponentsTucker

/-!
# C113: the numbering of the components does not matter

A Kruskal model is a sum of components and a Tucker model a core with one set of columns per mode; which component has which
number is arbitrary.  Training from initial values whose columns are renumbered (one renumbering for all factors of a Kruskal
model; one per mode, also of the core, for a Tucker model) gives the same history, the same number of steps, the same reports,
the same success or failure and the same full tensor; factors, weights and core are those of the original training,
renumbered.  For every arithmetic of the stopping tests, every arguments and every earlier state of the object.
-/
namespace TD.Props
open TD Spec Tensor tf ops fact bcu graph

theorem renumKruskal_eq (π : Nat → Nat) (s : Self (List (Tensor ℝ)) (Tensor ℝ) (Tensor ℝ)) :
    renumKruskal π s = (s.mapAux (renumWeights π)).mapOut (renumComponents π) id := by
  unfold renumKruskal Self.mapOut Self.mapAux
  rw [Option.map_id_fun]
  rfl

theorem renumTucker_eq (τ : Nat → Nat → Nat) (s : Self (List (Tensor ℝ)) (Tensor ℝ) (Tensor ℝ)) :
    renumTucker τ s = (s.mapAux (renum τ)).mapOut (renumModes τ) id := by
  unfold renumTucker Self.mapOut Self.mapAux
  rw [Option.map_id_fun]
  rfl

theorem renumColumns_eq (π : Nat → Nat) (s : Self (List (Tensor ℝ)) (Tensor ℝ) (Tensor ℝ)) :
    renumColumns π s = s.mapOut (renumComponents π) id := by
  unfold renumColumns Self.mapOut
  rw [Option.map_id_fun]
  rfl

/-- **C113** for `CP_ALS`. -/
theorem C113_cp (pinv : Tensor ℝ → Res (Tensor ℝ)) (hp : PinvOk pinv) (X : Tensor ℝ) (R : Nat) (h2 : 2 ≤ X.order)
    (h25 : X.order ≤ 25) (hpos : ∀ d ∈ X.shape, 0 < d) (π : Nat → Nat) (hπ : Set.BijOn π (Set.Iio R) (Set.Iio R))
    (A0 : List (Tensor ℝ)) (hA : FactorsFor X.shape R A0) (A : Arith ℝ) (args : Args ℝ) (steps : Int)
    (self : Self (List (Tensor ℝ)) (Tensor ℝ) (Tensor ℝ)) :
    SameCall (train A (CP_ALS.cls (cp.main pinv X R)) args steps (.ok (renumComponents π A0)) (renumKruskal π self))
      (renumKruskal π (train A (CP_ALS.cls (cp.main pinv X R)) args steps (.ok A0) self).1,
        (train A (CP_ALS.cls (cp.main pinv X R)) args steps (.ok A0) self).2) := by
  rw [renumKruskal_eq, renumKruskal_eq]
  exact train_translated_aux (c := CP_ALS.cls (cp.main pinv X R)) (d := CP_ALS.cls (cp.main pinv X R)) (renumComponents π)
    (renumWeights π) id (renumComponents π) (FactorsFor X.shape R) (Or.inl ⟨rfl, rfl⟩)
    (fun s hs => ⟨cp.main_components hp hπ hs h2 h25 hpos, fun s' o h => by
      obtain ⟨_, -, h', -⟩ := cp.main_ok hp hs h2 h25 hpos h
      exact h'⟩)
    (Or.inl ⟨rfl, rfl⟩) rfl rfl A args steps (fresh := .ok A0) rfl (fun s hs => by cases hs; exact hA) self

/-- **C113** for `NCP_BCU`, with the columns of the random draws renumbered; its weights are all one. -/
theorem C113_ncp (topSv : Tensor ℝ → Res ℝ) (ht : TopSvOk topSv) (X : Tensor ℝ) (R : Nat) (h2 : 2 ≤ X.order)
    (h25 : X.order ≤ 25) (hpos : ∀ d ∈ X.shape, 0 < d) (hR : 0 < R) (π : Nat → Nat)
    (hπ : Set.BijOn π (Set.Iio R) (Set.Iio R)) (draws : List (Tensor ℝ))
    (hd : FactorsFor X.shape R draws) (A : Arith ℝ) (args : Args ℝ) (steps : Int)
    (self : Self (List (Tensor ℝ)) (Tensor ℝ) (Tensor ℝ)) :
    SameCall (train A (NCP.cls topSv X R) args steps (bcu.init X X.order (renumComponents π draws)) (renumColumns π self))
      (renumColumns π (train A (NCP.cls topSv X R) args steps (bcu.init X X.order draws) self).1,
        (train A (NCP.cls topSv X R) args steps (bcu.init X X.order draws) self).2) := by
  have hne : X.shape ≠ [] := by intro e; unfold order at h2; rw [e] at h2; simp at h2
  have hcol := colsOk_cp hR hπ X.shape
  rw [renumColumns_eq, renumColumns_eq]
  exact train_translated (c := NCP.cls topSv X R) (d := NCP.cls topSv X R) (renumComponents π) id (colState fun _ => π)
    (fun s => FactorsOk (X.shape.map fun d => [d, R]) s ∧ MomentumOk s) (Or.inl ⟨rfl, rfl⟩)
    (fun s hs => ⟨NCP.main_modes ht hR hπ h2 h25 hpos hs.1, fun s' o h => by
      obtain ⟨a, b, -⟩ := NCP.main_ok hs.1 hne h25 h
      exact ⟨a, (b hs.2).1⟩⟩)
    (Or.inr ⟨_, _, _, _, rfl, rfl, fun s hs => ⟨⟨NCP.op1_modes hcol hs.1 _, fun s' h => by
      obtain ⟨a, b, -⟩ := NCP.op1_ok hs.1 hs.2 h
      exact ⟨a, b⟩⟩, rfl, fun s' h => by
      obtain ⟨a, b, -⟩ := NCP.op2_ok hs.1 hs.2 h
      exact ⟨a, b⟩⟩⟩) rfl rfl A args steps (by rw [← renumModes_const]; exact init_modes _ hcol hd) (fun s hs => by
      obtain ⟨a, b, -⟩ := init_inv hs
      rw [show draws.map Tensor.shape = X.shape.map fun d => [d, R] from hd] at a
      exact ⟨a, b⟩) self

/-- **C113** for `NTUCKER_BCU`, with the columns of the random draws of the factors and the indices of the draw of the core
renumbered. -/
theorem C113_ntucker (topSv : Tensor ℝ → Res ℝ) (ht : TopSvOk topSv) (X : Tensor ℝ) (ranks : List Nat)
    (hr : ranks.length = X.shape.length)
    (h2 : 2 ≤ X.order) (h13 : X.order ≤ 13) (hpos : ∀ d ∈ X.shape, 0 < d) (hrp : ∀ d ∈ ranks, 0 < d)
    (τ : Nat → Nat → Nat) (hτ : Renumbering ranks τ) (draws : List (Tensor ℝ)) (gdraw : Tensor ℝ)
    (hd : TuckerShapes X.shape ranks draws) (hg : gdraw.shape = ranks) (A : Arith ℝ) (args : Args ℝ) (steps : Int)
    (self : Self (List (Tensor ℝ)) (Tensor ℝ) (Tensor ℝ)) :
    SameCall (train A (NTUCKER.cls topSv X) args steps (NTUCKER.init X (renumModes τ draws) (renum τ gdraw))
        (renumTucker τ self))
      (renumTucker τ (train A (NTUCKER.cls topSv X) args steps (NTUCKER.init X draws gdraw) self).1,
        (train A (NTUCKER.cls topSv X) args steps (NTUCKER.init X draws gdraw) self).2) := by
  rw [renumTucker_eq, renumTucker_eq]
  exact train_translated_aux (c := NTUCKER.cls topSv X) (d := NTUCKER.cls topSv X) (renumModes τ) (renum τ) id
    (colTState τ) (fun s => TkOk X.shape ranks s ∧ MomentumOk s.toState)
    (Or.inr ⟨_, _, rfl, rfl, fun s hs => ⟨NTUCKER.core_modes ht hτ hr (by omega) h13 hrp hs.1, fun s' v h => by
      obtain ⟨a, b, -⟩ := NTUCKER.core_ok hs.1 h
      exact ⟨a, b hs.2⟩⟩⟩)
    (fun s hs => ⟨NTUCKER.main_modes ht hτ hr h2 h13 hpos hrp hs.1, fun s' o h => by
      obtain ⟨a, b, -⟩ := NTUCKER.main_ok hs.1 hr (by omega) h13 h
      exact ⟨a, (b hs.2).1⟩⟩)
    (Or.inr ⟨_, _, _, _, rfl, rfl, fun s hs => ⟨⟨NTUCKER.op1_modes hτ hr hrp hs.1 _, fun s' h => by
      obtain ⟨a, b, -⟩ := NTUCKER.op1_ok hs.1 hs.2 h
      exact ⟨a, b⟩⟩, rfl, fun s' h => by
      obtain ⟨a, b, -⟩ := NTUCKER.op2_ok hs.1 hs.2 h
      exact ⟨a, b⟩⟩⟩) rfl rfl A args steps (NTUCKER.init_modes hτ hr hrp hd hg) (fun s hs => by
      obtain ⟨a, b, -⟩ := NTUCKER.init_inv hs (tuckerShapes_iff.2 hd) hg
      exact ⟨a, b⟩) self

/-- Rotating three components is a renumbering. -/
example : Set.BijOn (fun r => (r + 1) % 3) (Set.Iio 3) (Set.Iio 3) :=
  bijOn_of_inj (fun i _ => by omega) fun i hi j hj h => by omega

/-- What it does to a factor and to the weights. -/
example : (renumCols (fun r => (r + 1) % 3) (⟨[2, 3], [1, 2, 3, 4, 5, 6], rfl⟩ : Tensor ℚ)).data = [2, 3, 1, 5, 6, 4] ∧
    (renumWeights (fun r => (r + 1) % 3) (⟨[3], [1, 2, 3], rfl⟩ : Tensor ℚ)).data = [2, 3, 1] := by decide +kernel

/-- Exchanging the two columns of the first factor of a Tucker model, with the rows of its core. -/
example : (renumModes (fun k r => if k = 0 then 1 - r else r) [(⟨[2, 2], [1, 2, 3, 4], rfl⟩ : Tensor ℚ),
      ⟨[1, 1], [5], rfl⟩]).map Tensor.data = [[2, 1, 4, 3], [5]] ∧
    (renum (fun k r => if k = 0 then 1 - r else r) (⟨[2, 1], [7, 8], rfl⟩ : Tensor ℚ)).data = [8, 7] := by decide +kernel

/-- The initial values of the theorems exist. -/
example : FactorsFor [2, 3] 2 [(⟨[2, 2], [1, 2, 3, 4], rfl⟩ : Tensor ℝ), ⟨[3, 2], [1, 0, 4, 0, 1, 1], rfl⟩] := rfl

end TD.Props
