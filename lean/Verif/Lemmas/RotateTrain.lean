import Verif.Lemmas.RotateHooi
import Verif.Lemmas.RenumberTucker
import Verif.Lemmas.TrainLoss
import Verif.Spec.Renumber

/-! # `HOSVD` and trainings of `HOOI` in other coordinates -/
namespace TD
open Spec Tensor ops Matrix fact
noncomputable section

variable {svd svd' : Tensor ℝ → Res (Tensor ℝ × Tensor ℝ × Tensor ℝ)} {Q : List (Tensor ℝ)} {X : Tensor ℝ} {ranks : List Nat}

/-! ### Permutations as orthogonal matrices -/

theorem kronEntry_eyeT : ∀ {shape i j : List Nat}, InB shape i → InB shape j →
    kronEntry (shape.map eyeT) i j = if j = i then 1 else 0
  | [], [], [], _, _ => by simp [kronEntry]
  | [], _ :: _, _, h, _ => by cases h
  | [], _, _ :: _, _, h => by cases h
  | _ :: _, [], _, h, _ => by cases h
  | _ :: _, _, [], _, h => by cases h
  | d :: s, a :: i, b :: j, hi, hj => by
      rw [InB_cons] at hi hj
      change (eyeT d).at_ [a, b] * kronEntry (s.map eyeT) i j = _
      rw [kronEntry_eyeT hi.2 hj.2]
      unfold eyeT
      rw [at_mat _ hi.1 hj.1]
      by_cases e : a = b
      · subst e
        by_cases e' : j = i <;> simp [e']
      · simp [e, Ne.symm e]

/-- The permutation matrices of a renumbering. -/
def permMats (shape : List Nat) (σ : Nat → Nat → Nat) : List (Tensor ℝ) := renumFactors σ (shape.map eyeT)

theorem permMats_get {shape : List Nat} {σ : Nat → Nat → Nat} {k : Nat} (hk : k < shape.length) :
    (permMats shape σ)[k]? = some (renumRows (σ k) (eyeT (shape.getD k 0))) := by
  unfold permMats
  rw [getElem?_renumFactors, List.getElem?_map, List.getElem?_eq_getElem hk, List.getD_eq_getElem _ _ hk]
  rfl

theorem permMats_orth {shape : List Nat} {σ : Nat → Nat → Nat} (hσ : Renumbering shape σ) : Orthogonals shape (permMats shape σ) := by
  refine ⟨by unfold permMats; rw [length_renumFactors, List.length_map], fun k M hM => ?_⟩
  have hk : k < shape.length := by
    have := (List.getElem?_eq_some_iff.1 hM).1
    unfold permMats at this
    rw [length_renumFactors, List.length_map] at this
    exact this
  rw [permMats_get hk] at hM
  cases hM
  refine ⟨rfl, ?_⟩
  have hb := hσ k hk
  rw [mul_eq_one_comm]
  ext a b
  rw [Matrix.mul_apply, Matrix.one_apply]
  have he : ∀ (a : Fin (shape.getD k 0)) (j : Fin (shape.getD k 0)),
      toMat (renumRows (σ k) (eyeT (shape.getD k 0))) (shape.getD k 0) (shape.getD k 0) a j = if σ k a = j then 1 else 0 := by
    intro a j
    change (renumRows (σ k) (eyeT (shape.getD k 0))).at_ [a, j] = _
    rw [at_renumRows _ rfl a.isLt j.isLt]
    unfold eyeT
    rw [at_mat _ (hb.mapsTo a.isLt) j.isLt]
  have hlt : σ k a < shape.getD k 0 := hb.mapsTo a.isLt
  rw [Finset.sum_eq_single ⟨σ k a, hlt⟩]
  · rw [transpose_apply, he, he, if_pos rfl, one_mul]
    by_cases e : a = b
    · subst e; rw [if_pos rfl, if_pos rfl]
    · rw [if_neg e, if_neg]
      intro e'
      exact e (Fin.ext (hb.injOn a.isLt b.isLt e'.symm))
  · intro j _ hj
    rw [he, if_neg, zero_mul]
    intro e
    exact hj (Fin.ext e.symm)
  · intro h; exact absurd (Finset.mem_univ _) h

theorem rotate_permMats {σ : Nat → Nat → Nat} (hσ : Renumbering X.shape σ) {Y : Tensor ℝ} (hY : Y.shape = X.shape) :
    rotate (permMats X.shape σ) Y = renum σ Y := by
  refine ext_at rfl fun i hi => ?_
  have hi : InB X.shape i := by rw [← hY]; exact hi
  rw [rotate_at (by rw [hY]; exact hi), at_renum _ (by rw [hY]; exact hi), hY]
  have hσi := hσ.inB hi
  have hrd : Spec.rowDims (X.shape.map eyeT) = X.shape := by
    unfold Spec.rowDims; rw [List.map_map]
    exact List.map_id'' (fun _ => rfl) _
  have hcd : Spec.colDims (X.shape.map eyeT) = X.shape := by
    unfold Spec.colDims; rw [List.map_map]
    exact List.map_id'' (fun _ => rfl) _
  rw [boxSum_congr (g := fun j => if j = i.mapIdx σ then Y.at_ (i.mapIdx σ) else 0) fun j hj => ?_]
  · exact boxSum_single hσi _
  · unfold permMats
    rw [kronEntry_renum (by
        intro M hM
        obtain ⟨d, -, rfl⟩ := List.mem_map.1 hM
        rfl) (by rw [hrd]; exact hi) (by rw [hcd]; exact hj), kronEntry_eyeT hσi hj]
    by_cases e : j = i.mapIdx σ
    · rw [if_pos e, if_pos e, e, one_mul]
    · rw [if_neg e, if_neg e, zero_mul]

theorem rotateRows_perm {π : Nat → Nat} {M : Tensor ℝ} {d r : Nat} (hM : M.shape = [d, r])
    (hπ : ∀ i < d, π i < d) : rotateRows (renumRows π (eyeT d)) M = renumRows π M := by
  refine ext_mat (rotateRows_spec hM).1 hM fun i hi j hj => ?_
  rw [at_renumRows _ hM hi hj]
  unfold rotateRows
  rw [hM]
  change (mat d r _).at_ [i, j] = _
  rw [at_mat _ hi hj]
  change ∑ k ∈ Finset.range d, _ = _
  rw [Finset.sum_eq_single (π i)]
  · rw [at_renumRows _ rfl hi (hπ i hi)]
    unfold eyeT
    rw [at_mat _ (hπ i hi) (hπ i hi), if_pos rfl, one_mul]
  · intro k hk hne
    rw [at_renumRows _ rfl hi (Finset.mem_range.1 hk)]
    unfold eyeT
    rw [at_mat _ (hπ i hi) (Finset.mem_range.1 hk), if_neg (Ne.symm hne), zero_mul]
  · intro h; exact absurd (Finset.mem_range.2 (hπ i hi)) h

theorem rotateFactors_permMats {shape : List Nat} {σ : Nat → Nat → Nat} (hσ : Renumbering shape σ) {A : List (Tensor ℝ)}
    (hA : TuckerShapes shape ranks A) : rotateFactors (permMats shape σ) A = renumFactors σ A := by
  refine List.ext_getElem? fun k => ?_
  rw [rotateFactors_get, getElem?_renumFactors]
  by_cases hk : k < shape.length
  · have hkA : k < A.length := by rw [hA.1]; exact hk
    have hM : A[k]? = some A[k] := List.getElem?_eq_getElem hkA
    rw [permMats_get hk, hM]
    simp only [Option.map_some]
    rw [rotateRows_perm (hA.2 k _ hM) (hσ k hk).mapsTo]
  · have hM : A[k]? = none := List.getElem?_eq_none (by rw [hA.1]; omega)
    rw [hM]
    cases (permMats shape σ)[k]? <;> rfl

/-! ### The results of equal subspaces -/

/-- Core and full tensor for turned factors. -/
theorem Turned.result (hne : X.shape ≠ []) (h13 : X.order ≤ 13) (hQ : Orthogonals X.shape Q)
    {A A' : List (Tensor ℝ)} (h : Turned Q X.shape ranks A A') :
    ∃ g g' Y, ttm X A none true = .ok g ∧ ttm (rotate Q X) A' none true = .ok g' ∧ tucker.fullOf g A = .ok Y ∧
      tucker.fullOf g' A' = .ok (rotate Q Y) ∧ Y.shape = X.shape ∧ normSqT g = normSqT g' := by
  obtain ⟨g, Y, e1, e2, hYs, e3, e4⟩ := rotate_core hne h13 hQ h.left
  obtain ⟨g1, g', Z, f1, f2, f3, f4, -, f5⟩ := tucker_projector (X := rotate Q X) hne h13 (rotateFactors_shapes hQ h.left) h.right h.eq
  rw [e3] at f1; cases f1
  rw [e4] at f3; cases f3
  exact ⟨g, g', Y, e1, f2, e2, f4, hYs, f5⟩

/-! ### Lists of results -/

theorem mapM_same {β γ δ : Type} {f : β → Res γ} {f' : β → Res δ} {P : β → γ → δ → Prop} : ∀ {l : List β},
    (∀ a ∈ l, (∃ b c, f a = .ok b ∧ f' a = .ok c ∧ P a b c) ∨ ∃ e, f a = .error e ∧ f' a = .error e) →
    (∃ bs cs, l.mapM f = .ok bs ∧ l.mapM f' = .ok cs ∧ List.Forall₂ (fun a (p : γ × δ) => P a p.1 p.2) l (bs.zip cs) ∧
      bs.length = l.length ∧ cs.length = l.length) ∨
    ∃ e, l.mapM f = .error e ∧ l.mapM f' = .error e
  | [], _ => Or.inl ⟨[], [], rfl, rfl, .nil, rfl, rfl⟩
  | a :: l, h => by
      rcases h a (by simp) with ⟨b, c, h1, h2, h3⟩ | ⟨e, h1, h2⟩
      · rcases mapM_same (l := l) fun a ha => h a (by simp [ha]) with ⟨bs, cs, h4, h5, h6, h7, h8⟩ | ⟨e, h4, h5⟩
        · refine Or.inl ⟨b :: bs, c :: cs, ?_, ?_, .cons h3 h6, by simp [h7], by simp [h8]⟩
          · rw [List.mapM_cons, h1, ok_bind, h4]; rfl
          · rw [List.mapM_cons, h2, ok_bind, h5]; rfl
        · refine Or.inr ⟨e, ?_, ?_⟩
          · rw [List.mapM_cons, h1, ok_bind, h4]; rfl
          · rw [List.mapM_cons, h2, ok_bind, h5]; rfl
      · exact Or.inr ⟨e, by rw [List.mapM_cons, h1]; rfl, by rw [List.mapM_cons, h2]; rfl⟩

/-- Turned factors from turned factors of every mode. -/
theorem Turned.of_modes {shape ranks : List Nat} {A A' : List (Tensor ℝ)}
    (hl : A.length = shape.length) (hl' : A'.length = shape.length)
    (h : List.Forall₂ (fun n (p : Tensor ℝ × Tensor ℝ) => ∃ P, Q[n]? = some P ∧ p.1.shape = [shape.getD n 0, ranks.getD n 0] ∧
      p.2.shape = [shape.getD n 0, ranks.getD n 0] ∧ projector (rotateRows P p.1) = projector p.2)
      (List.range shape.length) (A.zip A')) : Turned Q shape ranks A A' := by
  obtain ⟨-, hk⟩ := forall₂_range h
  have hz : ∀ k (h1 : k < A.length) (h2 : k < A'.length), (A.zip A')[k]? = some (A[k], A'[k]) := by
    intro k h1 h2
    rw [List.getElem?_eq_getElem (by simp [h1, h2]), List.getElem_zip]
  refine ⟨⟨hl, fun k M hM => ?_⟩, ⟨hl', fun k M hM => ?_⟩, ?_⟩
  · obtain ⟨h1, rfl⟩ := List.getElem?_eq_some_iff.1 hM
    obtain ⟨P, -, a, -⟩ := hk k _ (hz k h1 (by omega))
    exact a
  · obtain ⟨h1, rfl⟩ := List.getElem?_eq_some_iff.1 hM
    obtain ⟨P, -, -, a, -⟩ := hk k _ (hz k (by omega) h1)
    exact a
  · refine List.ext_getElem? fun k => ?_
    rw [List.getElem?_map, List.getElem?_map, rotateFactors_get]
    by_cases hkl : k < shape.length
    · obtain ⟨P, hP, -, -, a⟩ := hk k _ (hz k (by omega) (by omega))
      have h1 : k < A.length := by omega
      have h2 : k < A'.length := by omega
      rw [hP, List.getElem?_eq_getElem h1, List.getElem?_eq_getElem h2]
      simp only [Option.map_some]
      rw [a]
    · rw [List.getElem?_eq_none (l := A') (by omega), List.getElem?_eq_none (l := A) (by omega)]
      cases Q[k]? <;> rfl

/-- `HOSVD` in other coordinates, with another routine. -/
theorem hosvd_turned (hs : SvdOk svd) (hs' : SvdOk svd') (h2 : 2 ≤ X.order) (h13 : X.order ≤ 13)
    (hpos : ∀ d ∈ X.shape, 0 < d) (hlen : X.order ≤ ranks.length) (hQ : Orthogonals X.shape Q)
    (hsep : ∀ n < X.order, ∀ M, unfold X n = .ok M → Separated (toMat M (X.shape.getD n 0) (otherSize X.shape n))
      (min (ranks.getD n 0) (min (X.shape.getD n 0) (otherSize X.shape n)))) :
    ∃ q A A' g g' Y, Turned Q X.shape q A A' ∧ tucker.HOSVD.run svd X ranks = .ok (A, g, Y) ∧
      tucker.HOSVD.run svd' (rotate Q X) ranks = .ok (A', g', rotate Q Y) ∧ Y.shape = X.shape ∧ normSqT g = normSqT g' := by
  have hne : X.shape ≠ [] := by intro e; unfold order at h2; rw [e] at h2; simp at h2
  set q := (List.range X.order).map fun n => min (ranks.getD n 0) (min (X.shape.getD n 0) (otherSize X.shape n)) with hq
  have hqn : ∀ n < X.order, q.getD n 0 = min (ranks.getD n 0) (min (X.shape.getD n 0) (otherSize X.shape n)) := by
    intro n hn
    rw [hq, List.getD_eq_getElem _ _ (by simpa using hn)]
    simp
  rcases mapM_same (f := fun n => tucker.leading svd X ranks n) (f' := fun n => tucker.leading svd' (rotate Q X) ranks n)
    (P := fun (n : Nat) B B' => ∃ P, Q[n]? = some P ∧ B.shape = [X.shape.getD n 0, q.getD n 0] ∧
      B'.shape = [X.shape.getD n 0, q.getD n 0] ∧ projector (rotateRows P B) = projector B') (l := List.range X.order)
    (fun n hn => by
      have hn : n < X.order := by simpa using hn
      have hrn : ranks[n]? = some (ranks.getD n 0) := by
        rw [List.getD_eq_getElem _ _ (by omega)]; exact List.getElem?_eq_getElem _
      obtain ⟨P, B, B', hP, b1, b2, b3, b4, b5⟩ := leading_turned hs hs' h2 h13 hpos hQ hn hrn (hsep n hn)
      exact Or.inl ⟨B, B', b1, b2, P, hP, by rw [hqn n hn]; exact b3.1, by rw [hqn n hn]; exact b4.1, b5⟩) with
    ⟨A, A', a1, a2, a3, a4, a5⟩ | ⟨e, a1, -⟩
  · rw [List.length_range] at a4 a5
    have hT : Turned Q X.shape q A A' := Turned.of_modes a4 a5 a3
    obtain ⟨g, g', Y, e1, e2, e3, e4, e5, e6⟩ := hT.result hne h13 hQ
    refine ⟨q, A, A', g, g', Y, hT, ?_, ?_, e5, e6⟩
    · unfold tucker.HOSVD.run
      rw [a1, ok_bind, e1, ok_bind, e3]; rfl
    · unfold tucker.HOSVD.run
      change (do
        let A ← (List.range X.order).mapM fun n => tucker.leading svd' (rotate Q X) ranks n
        let g ← ttm (rotate Q X) A none true
        let full ← tucker.fullOf g A
        return (A, g, full) : Res (List (Tensor ℝ) × Tensor ℝ × Tensor ℝ)) = _
      rw [a2, ok_bind, e2, ok_bind, e4]; rfl
  · exfalso
    obtain ⟨bs, hb, -⟩ := mapM_forall (f := fun n => tucker.leading svd X ranks n) (P := fun _ _ => True) (l := List.range X.order)
      (fun n hn => by
        have hn : n < X.order := by simpa using hn
        have hrn : ranks[n]? = some (ranks.getD n 0) := by
          rw [List.getD_eq_getElem _ _ (by omega)]; exact List.getElem?_eq_getElem _
        obtain ⟨B, b1, -⟩ := leading_orth hs hn (getD_pos_of hpos hn) hrn
        exact ⟨B, b1, trivial⟩)
    rw [a1] at hb; cases hb

/-! ### `HOOI` -/

theorem hooi_init_turned (hs : SvdOk svd) (hs' : SvdOk svd') (h2 : 2 ≤ X.order) (h13 : X.order ≤ 13)
    (hpos : ∀ d ∈ X.shape, 0 < d) (hlen : X.order ≤ ranks.length) (hQ : Orthogonals X.shape Q)
    (hsep : ∀ n < X.order, ∀ M, unfold X n = .ok M →
      Separated (toMat M (X.shape.getD n 0) (otherSize X.shape n)) (ranks.getD n 0)) :
    SameOp (Turned Q X.shape ranks) (tucker.HOOI.init svd X ranks) (tucker.HOOI.init svd' (rotate Q X) ranks) := by
  unfold tucker.HOOI.init
  rw [show (rotate Q X).order = X.order from rfl]
  rcases mapM_same (f := fun mode => (do
      let v ← tucker.leading svd X ranks mode
      let r ← tucker.rankAt ranks mode
      if v.shape = [X.shape.getD mode 0, r] then .ok v else .error .invalidArgument : Res (Tensor ℝ)))
    (f' := fun mode => (do
      let v ← tucker.leading svd' (rotate Q X) ranks mode
      let r ← tucker.rankAt ranks mode
      if v.shape = [(rotate Q X).shape.getD mode 0, r] then .ok v else .error .invalidArgument : Res (Tensor ℝ)))
    (P := fun (n : Nat) B B' => ∃ P, Q[n]? = some P ∧ B.shape = [X.shape.getD n 0, ranks.getD n 0] ∧
      B'.shape = [X.shape.getD n 0, ranks.getD n 0] ∧ projector (rotateRows P B) = projector B') (l := List.range X.order)
    (fun n hn => by
      have hn : n < X.order := by simpa using hn
      have hrn : ranks[n]? = some (ranks.getD n 0) := by
        rw [List.getD_eq_getElem _ _ (by omega)]; exact List.getElem?_eq_getElem _
      by_cases hle : ranks.getD n 0 ≤ min (X.shape.getD n 0) (otherSize X.shape n)
      · obtain ⟨P, B, B', hP, b1, b2, b3, b4, b5⟩ := leading_turned hs hs' h2 h13 hpos hQ hn hrn
          (by rw [Nat.min_eq_left hle]; exact hsep n hn)
        rw [Nat.min_eq_left hle] at b3 b4
        refine Or.inl ⟨B, B', ?_, ?_, P, hP, b3.1, b4.1, b5⟩
        · rw [b1, ok_bind, tucker.rankAt, hrn]; exact if_pos b3.1
        · rw [b2, ok_bind, tucker.rankAt, hrn]; exact if_pos b4.1
      · have hbad : ¬ min (ranks.getD n 0) (min (X.shape.getD n 0) (otherSize X.shape n)) = ranks.getD n 0 := by
          intro e; exact hle (min_eq_left_iff.1 e)
        obtain ⟨B, b1, b2, -⟩ := leading_orth hs hn (getD_pos_of hpos hn) hrn
        obtain ⟨B', c1, c2, -⟩ := leading_orth (X := rotate Q X) hs' hn (getD_pos_of hpos hn) hrn
        refine Or.inr ⟨.invalidArgument, ?_, ?_⟩
        · rw [b1, ok_bind, tucker.rankAt, hrn]
          refine if_neg fun e => ?_
          rw [b2] at e
          simp only [List.cons.injEq, and_true, true_and] at e
          exact hbad e
        · rw [c1, ok_bind, tucker.rankAt, hrn]
          refine if_neg fun e => ?_
          rw [c2] at e
          simp only [List.cons.injEq, and_true, true_and] at e
          exact hbad e) with
    ⟨A, A', a1, a2, a3, a4, a5⟩ | ⟨e, a1, a2⟩
  · rw [List.length_range] at a4 a5
    rw [a1, a2]
    exact Turned.of_modes a4 a5 a3
  · rw [a1, a2]; trivial

/-- The session of a training and that of the training in other coordinates. -/
def HooiRel (svd : Tensor ℝ → Res (Tensor ℝ × Tensor ℝ × Tensor ℝ)) (X : Tensor ℝ) (ranks : List Nat) (Q : List (Tensor ℝ)) (n : Nat)
    (A A' : List (Tensor ℝ)) : Prop := Visits svd X ranks A n ∧ Turned Q X.shape ranks A A'

theorem hooi_sweep_turned (hs : SvdOk svd) (hs' : SvdOk svd') (h2 : 2 ≤ X.order) (h13 : X.order ≤ 13)
    (hpos : ∀ d ∈ X.shape, 0 < d) (hlen : X.order ≤ ranks.length) (hQ : Orthogonals X.shape Q)
    (hsep : ∀ A n, Visits svd X ranks A n → n < X.order → ∀ Y M, ops.ttm X A none true (.int n) = .ok Y → ops.unfold Y n = .ok M →
      Separated (toMat M (Y.shape.getD n 0) (otherSize Y.shape n)) (ranks.getD n 0)) : ∀ (k n : Nat) (A A' : List (Tensor ℝ)),
    n + k = X.order → HooiRel svd X ranks Q n A A' →
    SameOp (HooiRel svd X ranks Q X.order) ((List.range' n k).foldlM (tucker.HOOI.modeUpdate svd X ranks) A)
      ((List.range' n k).foldlM (tucker.HOOI.modeUpdate svd' (rotate Q X) ranks) A')
  | 0, n, A, A', hk, h => by
      rw [Nat.add_zero] at hk
      subst hk
      exact h
  | k + 1, n, A, A', hk, h => by
      rw [List.range'_succ, List.foldlM_cons, List.foldlM_cons]
      have hn : n < X.order := by omega
      rcases hooi_update_turned hs hs' h2 h13 hpos hlen hQ h.2 hn (hsep A n h.1 hn) with
        ⟨P, B, B', hP, b1, b2, b3, b4, b5⟩ | ⟨b1, b2⟩
      · rw [b1, b2, ok_bind, ok_bind]
        exact hooi_sweep_turned hs hs' h2 h13 hpos hlen hQ hsep k (n + 1) _ _ (by omega)
          ⟨.next h.1 hn b1, h.2.set hP b3.1 b4.1 b5⟩
      · rw [b1, b2]; trivial

/-- A training of `HOOI` in other coordinates, with another routine, as far as projections, the norm of the core and the
full tensor go.  `f` and `g` translate factors and full tensor, `ℓ` the losses. -/
theorem hooi_train_turned (hs : SvdOk svd) (hs' : SvdOk svd') (h2 : 2 ≤ X.order) (h13 : X.order ≤ 13)
    (hpos : ∀ d ∈ X.shape, 0 < d) (hlen : X.order ≤ ranks.length) (hQ : Orthogonals X.shape Q)
    (hsep : SeparatedTraining svd X ranks)
    (ℓ : ℝ → ℝ) (hsc : ∀ Y, Y.shape = X.shape → ((fun p => (ℓ p.1, p.2)) <$> cp.scalars (rotate Q X) (rotate Q Y)).toOption =
      ((fun p => (ℓ p.1, p.2)) <$> cp.scalars X Y).toOption)
    (f : List (Tensor ℝ) → List (Tensor ℝ)) (g : Tensor ℝ → Tensor ℝ)
    (hf : ∀ A, TuckerShapes X.shape ranks A → f A = (rotateFactors Q A).map projector)
    (hg : ∀ Y, Y.shape = X.shape → g Y = rotate Q Y)
    (Ar : Arith ℝ) (args : Args ℝ) (steps : Int) (self self' : Self (List (Tensor ℝ)) (Tensor ℝ) (Tensor ℝ))
    (hself : (self.mapAux normSqT).mapOut f g = (self'.mapAux normSqT).mapOut (List.map projector) id) :
    graph.SameCall
      ((((train Ar (HOOI.cls (tucker.HOOI.main svd X ranks)) args steps (tucker.HOOI.init svd X ranks) self).1).mapAux
          normSqT).mapOut f g,
        (train Ar (HOOI.cls (tucker.HOOI.main svd X ranks)) args steps (tucker.HOOI.init svd X ranks) self).2.1, mapHist ℓ <$>
          (train Ar (HOOI.cls (tucker.HOOI.main svd X ranks)) args steps (tucker.HOOI.init svd X ranks) self).2.2)
      ((((train Ar (HOOI.cls (tucker.HOOI.main svd' (rotate Q X) ranks)) args steps
          (tucker.HOOI.init svd' (rotate Q X) ranks) self').1).mapAux normSqT).mapOut (List.map projector) id,
        (train Ar (HOOI.cls (tucker.HOOI.main svd' (rotate Q X) ranks)) args steps
          (tucker.HOOI.init svd' (rotate Q X) ranks) self').2.1, mapHist ℓ <$>
          (train Ar (HOOI.cls (tucker.HOOI.main svd' (rotate Q X) ranks)) args steps
          (tucker.HOOI.init svd' (rotate Q X) ranks) self').2.2) := by
  have hne : X.shape ≠ [] := by intro e; unfold order at h2; rw [e] at h2; simp at h2
  have hs1 : Sim (HooiRel svd X ranks Q 0) ((((HOOI.cls (tucker.HOOI.main svd X ranks)).mapLoss ℓ).mapAux normSqT).mapOut f g)
      ((((HOOI.cls (tucker.HOOI.main svd' (rotate Q X) ranks)).mapLoss ℓ).mapAux normSqT).mapOut (List.map projector) id) := by
    refine ⟨Or.inl ⟨rfl, rfl⟩, fun A A' h => ?_, Or.inl ⟨rfl, rfl⟩, rfl, rfl⟩
    change SameRun _ ((fun r => (r.1, r.2.mapOut f g)) <$> (fun r => (r.1, r.2.mapAux normSqT)) <$>
        (fun r => (r.1, r.2.mapLoss ℓ)) <$> tucker.HOOI.main svd X ranks A)
      ((fun r => (r.1, r.2.mapOut (List.map projector) id)) <$> (fun r => (r.1, r.2.mapAux normSqT)) <$>
        (fun r => (r.1, r.2.mapLoss ℓ)) <$> tucker.HOOI.main svd' (rotate Q X) ranks A')
    have hsw := hooi_sweep_turned hs hs' h2 h13 hpos hlen hQ hsep.2 X.order 0 A A' (by omega) h
    rw [← List.range_eq_range'] at hsw
    unfold tucker.HOOI.main tucker.HOOI.sweep
    rw [show (rotate Q X).order = X.order from rfl]
    revert hsw
    cases (List.range X.order).foldlM (tucker.HOOI.modeUpdate svd X ranks) A with
    | error e =>
        cases (List.range X.order).foldlM (tucker.HOOI.modeUpdate svd' (rotate Q X) ranks) A' with
        | error e' => intro _; trivial
        | ok p => intro h; exact h.elim
    | ok A1 =>
        cases (List.range X.order).foldlM (tucker.HOOI.modeUpdate svd' (rotate Q X) ranks) A' with
        | error e' => intro h; exact h.elim
        | ok A1' =>
            rintro ⟨hv, hT⟩
            obtain ⟨g1, g1', Y, e1, e2, e3, e4, e5, e6⟩ := hT.result hne h13 hQ
            simp only [ok_bind, e1, e2, e3, e4]
            have hY := hsc Y e5
            revert hY
            cases cp.scalars (rotate Q X) (rotate Q Y) with
            | error e =>
                cases cp.scalars X Y with
                | error e' => intro _; trivial
                | ok p => intro hY; cases hY
            | ok p' =>
                cases cp.scalars X Y with
                | error e' => intro hY; cases hY
                | ok p =>
                    intro hY
                    obtain ⟨p1, p2, p3⟩ := p
                    obtain ⟨p1', p2', p3'⟩ := p'
                    have hY := Option.some.inj hY
                    simp only [Prod.mk.injEq] at hY
                    obtain ⟨q1, rfl, rfl⟩ := hY
                    refine ⟨⟨.again hv, hT⟩, ?_⟩
                    change Out.mk (f A1) (some (normSqT g1)) (g Y) (ℓ p1) p2' p3' =
                      Out.mk (A1'.map projector) (some (normSqT g1')) (rotate Q Y) (ℓ p1') p2' p3'
                    rw [hf A1 hT.left, hT.eq, hg Y e5, e6, q1]
  have hinit : SameOp (HooiRel svd X ranks Q 0) (tucker.HOOI.init svd X ranks) (tucker.HOOI.init svd' (rotate Q X) ranks) := by
    have := hooi_init_turned hs hs' h2 h13 hpos hlen hQ hsep.1
    revert this
    cases hi : tucker.HOOI.init svd X ranks with
    | error e =>
        cases tucker.HOOI.init svd' (rotate Q X) ranks with
        | error e' => intro _; trivial
        | ok p => intro h; exact h.elim
    | ok A =>
        cases tucker.HOOI.init svd' (rotate Q X) ranks with
        | error e' => intro h; exact h.elim
        | ok A' => intro h; exact ⟨.start hi, h⟩
  have := hs1.train Ar args steps hinit ((self.mapAux normSqT).mapOut f g)
  rw [train_mapOut, train_mapAux, train_mapLoss] at this
  rw [hself, train_mapOut, train_mapAux, train_mapLoss] at this
  exact this

/-! ### Norms and errors in other coordinates -/

theorem normSqT_rotate (hne : X.shape ≠ []) (h13 : X.order ≤ 13) (hQ : Orthogonals X.shape Q) : normSqT (rotate Q X) = normSqT X := by
  have hI : TuckerShapes X.shape X.shape (X.shape.map eyeT) := by
    refine ⟨by simp, fun k M hM => ?_⟩
    rw [List.getElem?_map] at hM
    obtain ⟨d, hd, rfl⟩ := Option.map_eq_some_iff.1 hM
    rw [List.getD_eq_getElem?_getD, hd]
    rfl
  have hcol : Spec.colDims (X.shape.map eyeT) = X.shape := by
    unfold Spec.colDims; rw [List.map_map]
    exact List.map_id'' (fun _ => rfl) _
  obtain ⟨g, Y, e1, e2, hgs, hYs, hge, hYe⟩ := tucker_entries hne h13 hI.allMat hI.rowDims_eq
  obtain ⟨g1, Y1, f1, f2, -, f3, f4⟩ := rotate_core hne h13 hQ hI
  rw [e1] at f1; cases f1
  rw [e2] at f2; cases f2
  have hgs : g.shape = X.shape := by rw [hgs, hcol]
  have hg : g = X := by
    refine ext_at hgs fun j hj => ?_
    have hj' : InB X.shape j := by rw [← hgs]; exact hj
    rw [hge j hj, boxSum_congr (g := fun i => if i = j then X.at_ j else 0) fun i hi => ?_, boxSum_single hj']
    rw [kronEntry_eyeT hi hj']
    by_cases e : i = j
    · rw [if_pos e, if_pos e.symm, e, one_mul]
    · rw [if_neg e, if_neg (Ne.symm e), zero_mul]
  have hY : Y = X := by
    refine ext_at hYs fun i hi => ?_
    have hi' : InB X.shape i := by rw [← hYs]; exact hi
    rw [hYe i hi', hgs, boxSum_congr (g := fun j => if j = i then X.at_ i else 0) fun j hj => ?_, boxSum_single hi']
    rw [kronEntry_eyeT hi' hj, hg]
    by_cases e : j = i
    · rw [if_pos e, if_pos e, e, mul_one]
    · rw [if_neg e, if_neg e, mul_zero]
  subst hY
  have ho : OrthoFactors (rotate Q Y).shape (rotateFactors Q (Y.shape.map eyeT)) := by
    refine ⟨(rotateFactors_shapes hQ hI).1, fun k M hM => ?_⟩
    have hk : k < Y.shape.length := by
      have := (List.getElem?_eq_some_iff.1 hM).1
      rw [(rotateFactors_shapes hQ hI).1] at this
      exact this
    obtain ⟨P, hP, hPo⟩ := hQ.get hk
    have hMs := (rotateFactors_shapes hQ hI).2 k M hM
    rw [rotateFactors_get, hP, List.getElem?_map, List.getElem?_eq_getElem hk] at hM
    simp only [Option.map_some, Option.some.injEq] at hM
    rw [hMs, ← hM, ← List.getD_eq_getElem _ 0 hk]
    exact OrthoCols_rotateRows hPo (OrthoCols_eyeT _)
  have := (tucker_residual (X := rotate Q Y) hne h13 ho f3 f4).2
  have hz : distSqT (rotate Q Y) (rotate Q Y) = 0 := by
    unfold distSqT
    rw [boxSum_congr (g := fun _ => (0 : ℝ)) fun i _ => by ring]
    exact boxSum_zero _
  rw [hz, hg] at this
  linarith

theorem distSqT_rotate (hne : X.shape ≠ []) (h13 : X.order ≤ 13) (hQ : Orthogonals X.shape Q) {Y : Tensor ℝ} (hY : Y.shape = X.shape) :
    distSqT (rotate Q X) (rotate Q Y) = distSqT X Y := by
  have hD := normSqT_rotate (X := ofFn X.shape fun i => X.at_ i - Y.at_ i) hne h13 hQ
  have e1 : normSqT (ofFn X.shape fun i => X.at_ i - Y.at_ i) = distSqT X Y :=
    boxSum_congr fun i hi => by rw [at_ofFn (s := X.shape) _ hi]
  rw [e1] at hD
  rw [← hD]
  refine boxSum_congr fun i hi => ?_
  rw [rotate_at (X := X) hi, rotate_at (by rw [hY]; exact hi), rotate_at (X := ofFn X.shape fun i => X.at_ i - Y.at_ i) hi, hY, shape_ofFn,
    boxSum_congr (f := fun j => kronEntry Q i j * (ofFn X.shape fun i => X.at_ i - Y.at_ i).at_ j)
      (g := fun j => kronEntry Q i j * X.at_ j + (-1) * (kronEntry Q i j * Y.at_ j)) (fun j hj => by
      rw [at_ofFn _ hj]; ring), boxSum_add, boxSum_mul_left]
  ring

/-- Objective and relative residual in other coordinates. -/
theorem scalars_rotate (hne : X.shape ≠ []) (h13 : X.order ≤ 13) (hQ : Orthogonals X.shape Q) {Y : Tensor ℝ} (hY : Y.shape = X.shape) :
    ((fun p : ℝ × ℝ × ℝ => ((fun _ => 0 : ℝ → ℝ) p.1, p.2)) <$> cp.scalars (rotate Q X) (rotate Q Y)).toOption =
      ((fun p : ℝ × ℝ × ℝ => ((fun _ => 0 : ℝ → ℝ) p.1, p.2)) <$> cp.scalars X Y).toOption := by
  have key : ∀ {Z W : Tensor ℝ}, W.shape = Z.shape → (0 < normSqT Z → ∃ l, cp.scalars Z W =
      .ok (l, distSqT Z W / 2, Real.sqrt (distSqT Z W) / Real.sqrt (normSqT Z))) ∧
      (¬ 0 < normSqT Z → ∃ e, cp.scalars Z W = .error e) := by
    intro Z W hW
    constructor
    · intro h
      have : ∃ i, InB Z.shape i ∧ Z.at_ i ≠ 0 := by
        by_contra hno
        push Not at hno
        have : normSqT Z = 0 := by
          unfold normSqT
          rw [boxSum_congr (g := fun _ => (0 : ℝ)) fun i hi => by rw [hno i hi]; ring]
          exact boxSum_zero _
        rw [this] at h
        exact lt_irrefl _ h
      obtain ⟨⟨l, o, r⟩, hq⟩ := cp.scalars_total hW this
      obtain ⟨rfl, rfl, -⟩ := cp.scalars_ok hW hq
      exact ⟨l, hq⟩
    · intro h
      cases hq : cp.scalars Z W with
      | ok q =>
          obtain ⟨l, o, r⟩ := q
          exact absurd (cp.scalars_ok hW hq).2.2 h
      | error e => exact ⟨e, rfl⟩
  have k1 := key (Z := X) (W := Y) hY
  have k2 := key (Z := rotate Q X) (W := rotate Q Y) hY
  rw [normSqT_rotate hne h13 hQ, distSqT_rotate hne h13 hQ hY] at k2
  by_cases h : 0 < normSqT X
  · obtain ⟨l, e⟩ := k1.1 h
    obtain ⟨l', e'⟩ := k2.1 h
    rw [e, e']; rfl
  · obtain ⟨e, he⟩ := k1.2 h
    obtain ⟨e', he'⟩ := k2.2 h
    rw [he, he']; rfl

theorem subspaces_eq (s : Self (List (Tensor ℝ)) (Tensor ℝ) (Tensor ℝ)) :
    (s.mapAux normSqT).mapOut (List.map projector) id = subspaces s := by
  obtain ⟨a, b, c, d⟩ := s
  cases a <;> rfl

end
end TD
