import Verif.Lemmas.RotateExample

/-!
# C122, C123: what a Tucker decomposition determines

A routine for the singular value decomposition may return other singular vectors than another one: other signs, another
basis.  When the wanted singular values are larger than the others (`Separated`), `HOSVD` and `HOOI` compute the same full
tensor, the same subspaces, the same history and stop after the same number of steps with every routine (C122); and with the
data in other coordinates they find the same things in those coordinates (C123).
-/
namespace TD.Props
open TD Spec Tensor fact ops graph

variable {svd svd' : Tensor ℝ → Res (Tensor ℝ × Tensor ℝ × Tensor ℝ)} {X : Tensor ℝ} {ranks : List Nat}

/-- **C123** for `HOSVD`: the data multiplied by an orthogonal matrix in every mode. -/
theorem C123_hosvd (hs : SvdOk svd) (hs' : SvdOk svd') (h2 : 2 ≤ X.order) (h13 : X.order ≤ 13)
    (hpos : ∀ d ∈ X.shape, 0 < d) (hlen : X.order ≤ ranks.length) (Q : List (Tensor ℝ)) (hQ : Orthogonals X.shape Q)
    (hsep : ∀ n < X.order, ∀ M, unfold X n = .ok M → Separated (toMat M (X.shape.getD n 0) (otherSize X.shape n))
      (min (ranks.getD n 0) (min (X.shape.getD n 0) (otherSize X.shape n)))) :
    ∃ A A' g g' full, tucker.HOSVD.run svd X ranks = .ok (A, g, full) ∧
      tucker.HOSVD.run svd' (rotate Q X) ranks = .ok (A', g', rotate Q full) ∧ full.shape = X.shape ∧
      A'.map projector = (rotateFactors Q A).map projector ∧ normSqT g' = normSqT g := by
  obtain ⟨q, A, A', g, g', Y, hT, e1, e2, e3, e4⟩ := hosvd_turned hs hs' h2 h13 hpos hlen hQ hsep
  exact ⟨A, A', g, g', Y, e1, e2, e3, hT.eq.symm, e4.symm⟩

/-- **C123** for `HOSVD` and the numbering of the indices. -/
theorem C123_hosvd_renumber (hs : SvdOk svd) (hs' : SvdOk svd') (h2 : 2 ≤ X.order) (h13 : X.order ≤ 13)
    (hpos : ∀ d ∈ X.shape, 0 < d) (hlen : X.order ≤ ranks.length) (σ : Nat → Nat → Nat) (hσ : Renumbering X.shape σ)
    (hsep : ∀ n < X.order, ∀ M, unfold X n = .ok M → Separated (toMat M (X.shape.getD n 0) (otherSize X.shape n))
      (min (ranks.getD n 0) (min (X.shape.getD n 0) (otherSize X.shape n)))) :
    ∃ A A' g g' full, tucker.HOSVD.run svd X ranks = .ok (A, g, full) ∧
      tucker.HOSVD.run svd' (renum σ X) ranks = .ok (A', g', renum σ full) ∧ full.shape = X.shape ∧
      A'.map projector = (renumFactors σ A).map projector ∧ normSqT g' = normSqT g := by
  obtain ⟨q, A, A', g, g', Y, hT, e1, e2, e3, e4⟩ := hosvd_turned hs hs' h2 h13 hpos hlen (permMats_orth hσ) hsep
  rw [rotate_permMats hσ rfl, rotate_permMats hσ e3] at e2
  exact ⟨A, A', g, g', Y, e1, e2, e3, by rw [← rotateFactors_permMats hσ hT.left]; exact hT.eq.symm, e4.symm⟩

/-- **C122** for `HOSVD`. -/
theorem C122_hosvd (hs : SvdOk svd) (hs' : SvdOk svd') (h2 : 2 ≤ X.order) (h13 : X.order ≤ 13)
    (hpos : ∀ d ∈ X.shape, 0 < d) (hlen : X.order ≤ ranks.length)
    (hsep : ∀ n < X.order, ∀ M, unfold X n = .ok M → Separated (toMat M (X.shape.getD n 0) (otherSize X.shape n))
      (min (ranks.getD n 0) (min (X.shape.getD n 0) (otherSize X.shape n)))) :
    ∃ A A' g g' full, tucker.HOSVD.run svd X ranks = .ok (A, g, full) ∧
      tucker.HOSVD.run svd' X ranks = .ok (A', g', full) ∧ A'.map projector = A.map projector ∧ normSqT g' = normSqT g := by
  have hσ : Renumbering X.shape fun _ => id := fun k _ => Set.bijOn_id _
  obtain ⟨q, A, A', g, g', Y, hT, e1, e2, e3, e4⟩ := hosvd_turned hs hs' h2 h13 hpos hlen (permMats_orth hσ) hsep
  rw [rotate_permMats hσ rfl, rotate_permMats hσ e3, renum_id, renum_id] at e2
  refine ⟨A, A', g, g', Y, e1, e2, ?_, e4.symm⟩
  rw [← hT.eq, rotateFactors_permMats hσ hT.left]
  congr 1
  refine List.ext_getElem? fun k => ?_
  rw [getElem?_renumFactors]
  cases hM : A[k]? with
  | none => rfl
  | some M => rw [Option.map_some, renumRows_id (hT.left.2 k M hM)]

/-- **C123** for `HOOI`: projections, full tensor, norm of the core, the flag, the reported steps, the number of steps and the
relative residuals of the history; not its first column, which counts the entries that are zero. -/
theorem C123_hooi (hs : SvdOk svd) (hs' : SvdOk svd') (h2 : 2 ≤ X.order) (h13 : X.order ≤ 13)
    (hpos : ∀ d ∈ X.shape, 0 < d) (hlen : X.order ≤ ranks.length) (Q : List (Tensor ℝ)) (hQ : Orthogonals X.shape Q)
    (hsep : SeparatedTraining svd X ranks) (Ar : Arith ℝ) (args : Args ℝ) (steps : Int)
    (self : Self (List (Tensor ℝ)) (Tensor ℝ) (Tensor ℝ)) :
    let a := train Ar (HOOI.cls (tucker.HOOI.main svd X ranks)) args steps (tucker.HOOI.init svd X ranks) self
    let b := train Ar (HOOI.cls (tucker.HOOI.main svd' (rotate Q X) ranks)) args steps
      (tucker.HOOI.init svd' (rotate Q X) ranks) (rotateSelf Q self)
    subspaces b.1 = subspaces (rotateSelf Q a.1) ∧ b.2.1 = a.2.1 ∧
      b.2.2.toOption.map (List.map Prod.snd) = a.2.2.toOption.map (List.map Prod.snd) := by
  intro a b
  have hne : X.shape ≠ [] := by intro e; unfold order at h2; rw [e] at h2; simp at h2
  have hself : ∀ s : Self (List (Tensor ℝ)) (Tensor ℝ) (Tensor ℝ),
      (s.mapAux normSqT).mapOut (fun A => (rotateFactors Q A).map projector) (rotate Q) = subspaces (rotateSelf Q s) := by
    rintro ⟨_ | _, _ | _, c, d⟩ <;> rfl
  obtain ⟨r1, r2, r3⟩ := hooi_train_turned hs hs' h2 h13 hpos hlen hQ hsep (fun _ => 0)
    (fun Y hY => scalars_rotate hne h13 hQ hY) (fun A => (rotateFactors Q A).map projector) (rotate Q) (fun _ _ => rfl)
    (fun _ _ => rfl) Ar args steps self (rotateSelf Q self) (by rw [hself, subspaces_eq])
  rw [hself, subspaces_eq] at r1
  refine ⟨r1.symm, r2.symm, ?_⟩
  have hist : ∀ r : Res (List (ℝ × ℝ)), r.toOption.map (List.map Prod.snd) =
      (mapHist (fun _ => (0 : ℝ)) <$> r).toOption.map (List.map Prod.snd) := by
    rintro (e | l)
    · rfl
    · change some _ = some ((mapHist _ l).map Prod.snd)
      unfold mapHist
      rw [List.map_map]
      rfl
  rw [hist b.2.2, hist a.2.2]
  exact congrArg _ r3.symm

/-- **C123** for `HOOI` and the numbering of the indices: the whole history. -/
theorem C123_hooi_renumber (hs : SvdOk svd) (hs' : SvdOk svd') (h2 : 2 ≤ X.order) (h13 : X.order ≤ 13)
    (hpos : ∀ d ∈ X.shape, 0 < d) (hlen : X.order ≤ ranks.length) (σ : Nat → Nat → Nat) (hσ : Renumbering X.shape σ)
    (hsep : SeparatedTraining svd X ranks) (Ar : Arith ℝ) (args : Args ℝ) (steps : Int)
    (self : Self (List (Tensor ℝ)) (Tensor ℝ) (Tensor ℝ)) :
    let a := train Ar (HOOI.cls (tucker.HOOI.main svd X ranks)) args steps (tucker.HOOI.init svd X ranks) self
    let b := train Ar (HOOI.cls (tucker.HOOI.main svd' (renum σ X) ranks)) args steps
      (tucker.HOOI.init svd' (renum σ X) ranks) (renumSelf σ self)
    SameCall (subspaces b.1, b.2) (subspaces (renumSelf σ a.1), a.2) := by
  intro a b
  have hself : ∀ s : Self (List (Tensor ℝ)) (Tensor ℝ) (Tensor ℝ),
      (s.mapAux normSqT).mapOut (fun A => (renumFactors σ A).map projector) (renum σ) = subspaces (renumSelf σ s) := by
    rintro ⟨_ | _, _ | _, c, d⟩ <;> rfl
  have hX := rotate_permMats hσ (Y := X) rfl
  have r := hooi_train_turned hs hs' h2 h13 hpos hlen (permMats_orth hσ) hsep id
    (fun Y hY => by rw [hX, rotate_permMats hσ hY, scalars_renum hσ hY]) (fun A => (renumFactors σ A).map projector) (renum σ)
    (fun A hA => by rw [rotateFactors_permMats hσ hA]) (fun Y hY => (rotate_permMats hσ hY).symm) Ar args steps self
    (renumSelf σ self) (by rw [hself, subspaces_eq])
  rw [hX] at r
  obtain ⟨r1, r2, r3⟩ := r
  rw [hself, subspaces_eq] at r1
  have hist : ∀ r : Res (List (ℝ × ℝ)), mapHist id <$> r = r := by
    rintro (e | l)
    · rfl
    · change Except.ok (l.map _) = _
      congr 1
      exact List.map_id'' (fun _ => rfl) _
  rw [hist, hist] at r3
  exact ⟨r1.symm, r2.symm, r3.symm⟩

/-- **C122** for `HOOI`. -/
theorem C122_hooi (hs : SvdOk svd) (hs' : SvdOk svd') (h2 : 2 ≤ X.order) (h13 : X.order ≤ 13)
    (hpos : ∀ d ∈ X.shape, 0 < d) (hlen : X.order ≤ ranks.length)
    (hsep : SeparatedTraining svd X ranks) (Ar : Arith ℝ) (args : Args ℝ) (steps : Int)
    (self : Self (List (Tensor ℝ)) (Tensor ℝ) (Tensor ℝ)) :
    let a := train Ar (HOOI.cls (tucker.HOOI.main svd X ranks)) args steps (tucker.HOOI.init svd X ranks) self
    let b := train Ar (HOOI.cls (tucker.HOOI.main svd' X ranks)) args steps (tucker.HOOI.init svd' X ranks) self
    SameCall (subspaces b.1, b.2) (subspaces a.1, a.2) := by
  intro a b
  have hσ : Renumbering X.shape fun _ => id := fun k _ => Set.bijOn_id _
  have hX : rotate (permMats X.shape fun _ => id) X = X := by rw [rotate_permMats hσ rfl, renum_id]
  have r := hooi_train_turned hs hs' h2 h13 hpos hlen (permMats_orth hσ) hsep id
    (fun Y hY => by rw [hX, rotate_permMats hσ hY, renum_id]) (List.map projector) id
    (fun A hA => by
      rw [rotateFactors_permMats hσ hA]
      congr 1
      refine List.ext_getElem? fun k => ?_
      rw [getElem?_renumFactors]
      cases hM : A[k]? with
      | none => rfl
      | some M => rw [Option.map_some, renumRows_id (hA.2 k M hM)])
    (fun Y hY => by rw [rotate_permMats hσ hY, renum_id]; rfl) Ar args steps self self rfl
  rw [hX] at r
  obtain ⟨r1, r2, r3⟩ := r
  rw [subspaces_eq, subspaces_eq] at r1
  have hist : ∀ r : Res (List (ℝ × ℝ)), mapHist id <$> r = r := by
    rintro (e | l)
    · rfl
    · change Except.ok (l.map _) = _
      congr 1
      exact List.map_id'' (fun _ => rfl) _
  rw [hist, hist] at r3
  exact ⟨r1.symm, r2.symm, r3.symm⟩

/-- The hypothesis of C122 is needed: on the 2 × 2 identity, whose singular values coincide, two routines give different
full tensors. -/
theorem C122_needs_separated : ∃ svd svd' : Tensor ℝ → Res (Tensor ℝ × Tensor ℝ × Tensor ℝ), SvdOk svd ∧ SvdOk svd' ∧
    ∃ A g full A' g' full', tucker.HOSVD.run svd (eyeT 2) [1, 1] = .ok (A, g, full) ∧
      tucker.HOSVD.run svd' (eyeT 2) [1, 1] = .ok (A', g', full') ∧ full ≠ full' := by
  obtain ⟨base, hb⟩ := exists_svdOk
  have h1 := OrthoCols_eyeT 2
  have hσ : Renumbering [2] fun _ i => 1 - i := by
    intro k hk
    match k, hk with
    | 0, _ => exact bijOn_of_inj (fun i hi => by simp at *) fun i hi j hj h => by simp at *; omega
  have h2 : OrthoCols (renumRows (fun i => 1 - i) (eyeT 2)) 2 2 := (permMats_orth hσ).2 0 _ rfl
  obtain ⟨A, g, full, e, a⟩ := hosvd_ties h1 hb
  obtain ⟨A', g', full', e', a'⟩ := hosvd_ties h2 hb
  refine ⟨_, _, svdWith_ok h1 hb, svdWith_ok h2 hb, A, g, full, A', g', full', e, e', fun hne => ?_⟩
  rw [hne, a'] at a
  rw [at_renumRows (m := 2) (n := 2) _ rfl (by norm_num) (by norm_num)] at a
  unfold eyeT at a
  rw [at_mat _ (by norm_num) (by norm_num), at_mat _ (by norm_num) (by norm_num)] at a
  norm_num at a

/-- Hypotheses of C122 and C123 on `diag(2, 1)` with ranks one: the singular values 2 and 1 are separated in `HOSVD` and in all
steps of every training of `HOOI`. -/
example (hs : SvdOk svd) : (2 ≤ diag21.order ∧ diag21.order ≤ 13 ∧ (∀ d ∈ diag21.shape, 0 < d) ∧ diag21.order ≤ [1, 1].length) ∧
    SeparatedTraining svd diag21 [1, 1] ∧
    ∀ n < diag21.order, ∀ M, unfold diag21 n = .ok M → Separated (toMat M (diag21.shape.getD n 0) (otherSize diag21.shape n))
      (min ([1, 1].getD n 0) (min (diag21.shape.getD n 0) (otherSize diag21.shape n))) := by
  refine ⟨by decide, diag21_training hs, fun n hn M hM => ?_⟩
  have : min ([1, 1].getD n 0) (min (diag21.shape.getD n 0) (otherSize diag21.shape n)) = 1 := by
    match n, hn with
    | 0, _ => decide
    | 1, _ => decide
  rw [this]
  exact diag21_separated hn hM

/-- A quarter turn of the first mode and nothing in the second. -/
example : Orthogonals diag21.shape [mat 2 2 fun i j => if i = 0 then (if j = 0 then 0 else -1) else (if j = 0 then 1 else 0), eyeT 2] := by
  refine ⟨rfl, fun k M hM => ?_⟩
  match k, hM with
  | 0, hM =>
      cases hM
      refine ⟨rfl, ?_⟩
      change (toMat (mat 2 2 _) 2 2).transpose * toMat (mat 2 2 _) 2 2 = 1
      rw [toMat_mat]
      ext i j
      fin_cases i <;> fin_cases j <;> simp [Matrix.mul_apply]
  | 1, hM => cases hM; exact OrthoCols_eyeT 2
  | k + 2, hM => simp at hM

end TD.Props
