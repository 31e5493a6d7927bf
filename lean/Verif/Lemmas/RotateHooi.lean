import Verif.Lemmas.Rotate
import Verif.Lemmas.Separated

/-! # The mode updates of `HOOI` and the initial factors in other coordinates -/
namespace TD
open Spec Tensor ops Matrix
noncomputable section

variable {svd svd' : Tensor ℝ → Res (Tensor ℝ × Tensor ℝ × Tensor ℝ)} {Q : List (Tensor ℝ)} {X : Tensor ℝ} {ranks : List Nat}

/-- A separated update is the only one that captures that much. -/
theorem hooi_update_unique (hs : SvdOk svd) {A : List (Tensor ℝ)} (h2 : 2 ≤ X.order) (h13 : X.order ≤ 13)
    (hpos : ∀ d ∈ X.shape, 0 < d) (hlen : X.order ≤ ranks.length) (hA : TuckerShapes X.shape ranks A) {n : Nat} (hn : n < X.order)
    (hle : ranks.getD n 0 ≤ min (X.shape.getD n 0) (∏ m ∈ (Finset.range X.order).erase n, ranks.getD m 0))
    (hsep : ∀ Y M, ttm X A none true (.int n) = .ok Y → unfold Y n = .ok M →
      Separated (toMat M (Y.shape.getD n 0) (otherSize Y.shape n)) (ranks.getD n 0)) {B C : Tensor ℝ}
    (hB : tucker.HOOI.modeUpdate svd X ranks A n = .ok (A.set n B)) (hC : OrthoCols C (X.shape.getD n 0) (ranks.getD n 0))
    (hE : coreSq X (A.set n B) ≤ coreSq X (A.set n C)) : projector C = projector B := by
  obtain ⟨Y, hY, hYe⟩ := hooi_Y h2 h13 hA hn
  obtain ⟨y1, y2, y3⟩ := hooi_Y_shape hA (n := n)
  rw [← hYe] at y1 y2 y3
  have hl : A.length = X.order := hA.1
  have hrn : ranks[n]? = some (ranks.getD n 0) := by
    rw [List.getD_eq_getElem _ _ (by omega)]; exact List.getElem?_eq_getElem _
  have hnA : n < A.length := by omega
  have hnY : n < Y.order := by rw [y1]; exact hn
  have hold := hA.2 n A[n] (List.getElem?_eq_getElem hnA)
  have hu := unfold_closed Y hnY (by rw [y2]; exact getD_pos_of hpos hn)
  have hS := hsep Y _ hY hu
  rw [toMat_mat] at hS
  change Separated (unfM Y n (Y.shape.getD n 0) (otherSize Y.shape n)) _ at hS
  rw [y2, y3] at hS
  obtain ⟨B', U, s, V, h, b1, b2, b3, b4⟩ := leading_ok hs hnY y2 y3 (getD_pos_of hpos hn) hrn
  have hmin := Nat.min_eq_left hle
  rw [hmin] at b2
  have hBB : B = B' := by
    unfold tucker.HOOI.modeUpdate at hB
    rw [hY, ok_bind, b1, ok_bind, tf.assign, List.getElem?_eq_getElem hnA] at hB
    simp only [hold] at hB
    rw [if_pos b2] at hB
    have := Except.ok.inj hB
    have e := congrArg (fun l : List (Tensor ℝ) => l[n]?) this
    simp only [List.getElem?_set_self hnA, Option.some.injEq] at e
    exact e.symm
  subst hBB
  rw [coreSq_eq h2 h13 (hA.set hC.1) hn (List.getElem?_set_self hnA) rfl rfl rfl,
    coreSq_eq h2 h13 (hA.set b2) hn (List.getElem?_set_self hnA) rfl rfl rfl, hooi_set hl, hooi_set hl, ← hYe] at hE
  have e : ∀ r (hr : r = min (ranks.getD n 0) (min (X.shape.getD n 0)
      (∏ m ∈ (Finset.range X.order).erase n, ranks.getD m 0))), ∀ Q' : Mat (X.shape.getD n 0) r, Q'ᵀ * Q' = 1 →
      Separated (unfM Y n (X.shape.getD n 0) (∏ m ∈ (Finset.range X.order).erase n, ranks.getD m 0)) r →
      frobSq ((toMat B (X.shape.getD n 0) r)ᵀ *
          unfM Y n (X.shape.getD n 0) (∏ m ∈ (Finset.range X.order).erase n, ranks.getD m 0)) ≤
        frobSq (Q'ᵀ * unfM Y n (X.shape.getD n 0) (∏ m ∈ (Finset.range X.order).erase n, ranks.getD m 0)) →
      Q' * Q'ᵀ = toMat B (X.shape.getD n 0) r * (toMat B (X.shape.getD n 0) r)ᵀ := by
    rintro r rfl Q' hQ' hS hE
    rw [b4] at hE ⊢
    exact hS.unique b3 h hQ' hE
  exact (projector_congr hC.1 b2).2 (e _ hmin.symm _ hC.2 hS hE)

/-- A mode update in other coordinates, with another routine for the singular value decomposition. -/
theorem hooi_update_turned (hs : SvdOk svd) (hs' : SvdOk svd') (h2 : 2 ≤ X.order) (h13 : X.order ≤ 13)
    (hpos : ∀ d ∈ X.shape, 0 < d) (hlen : X.order ≤ ranks.length) (hQ : Orthogonals X.shape Q) {A A' : List (Tensor ℝ)}
    (hT : Turned Q X.shape ranks A A') {n : Nat} (hn : n < X.order)
    (hsep : ∀ Y M, ttm X A none true (.int n) = .ok Y → unfold Y n = .ok M →
      Separated (toMat M (Y.shape.getD n 0) (otherSize Y.shape n)) (ranks.getD n 0)) :
    (∃ P B B', Q[n]? = some P ∧ tucker.HOOI.modeUpdate svd X ranks A n = .ok (A.set n B) ∧
      tucker.HOOI.modeUpdate svd' (rotate Q X) ranks A' n = .ok (A'.set n B') ∧
      OrthoCols B (X.shape.getD n 0) (ranks.getD n 0) ∧ OrthoCols B' (X.shape.getD n 0) (ranks.getD n 0) ∧
      projector (rotateRows P B) = projector B') ∨
    (tucker.HOOI.modeUpdate svd X ranks A n = .error .invalidArgument ∧
      tucker.HOOI.modeUpdate svd' (rotate Q X) ranks A' n = .error .invalidArgument) := by
  have hne : X.shape ≠ [] := by
    intro e; unfold order at h2; rw [e] at h2; simp at h2
  obtain ⟨u1, u2⟩ := hooi_update hs h2 h13 hpos hlen hT.left hn
  obtain ⟨v1, v2⟩ := hooi_update (X := rotate Q X) hs' h2 h13 hpos hlen hT.right hn
  by_cases hle : ranks.getD n 0 ≤ min (X.shape.getD n 0) (∏ m ∈ (Finset.range X.order).erase n, ranks.getD m 0)
  · obtain ⟨B, b1, b2, b3⟩ := u1 hle
    obtain ⟨B', c1, c2, c3⟩ := v1 hle
    obtain ⟨P, hP, hPo⟩ := hQ.get hn
    refine Or.inl ⟨P, B, B', hP, b1, c1, b2, c2, ?_⟩
    have hC : OrthoCols (rotateRows (matT P) B') (X.shape.getD n 0) (ranks.getD n 0) :=
      OrthoCols_rotateRows (OrthoCols_matT hPo) c2
    have hcan := (rotateRows_cancel hPo c2.1).2
    have hE : coreSq X (A.set n B) ≤ coreSq X (A.set n (rotateRows (matT P) B')) := by
      rw [← (hT.set hP b2.1 (OrthoCols_rotateRows hPo b2).1 rfl).coreSq hne h13 hQ,
        ← (hT.set hP hC.1 c2.1 (by rw [hcan])).coreSq hne h13 hQ]
      exact c3 _ (OrthoCols_rotateRows hPo b2)
    have := hooi_update_unique hs h2 h13 hpos hlen hT.left hn hle hsep b1 hC hE
    rw [projector_rotateRows b2.1 hC.1 this.symm, hcan]
  · exact Or.inr ⟨u2 hle, v2 hle⟩

/-! ### Singular vectors of an unfolding -/

def eyeT (d : Nat) : Tensor ℝ := mat d d fun i j => if i = j then 1 else 0

theorem toMat_eyeT (d : Nat) : toMat (eyeT d) d d = 1 := by
  unfold eyeT
  rw [toMat_mat]
  ext i j
  rw [Matrix.of_apply, Matrix.one_apply]
  simp only [Fin.ext_iff]

theorem OrthoCols_eyeT (d : Nat) : OrthoCols (eyeT d) d d := ⟨rfl, by rw [toMat_eyeT]; simp⟩

theorem matT_eyeT (d : Nat) : matT (eyeT d) = eyeT d := by
  obtain ⟨a, b⟩ := toMat_matT (M := eyeT d) (m := d) (r := d) rfl
  exact toMat_inj a rfl (by rw [b, toMat_eyeT, transpose_one])

theorem modeProd_eyeT {X : Tensor ℝ} {n : Nat} (hn : n < X.order) : modeProd X n (eyeT (X.shape.getD n 0)) = X := by
  have hsh : (modeProd X n (eyeT (X.shape.getD n 0))).shape = X.shape := by
    have hn : n < X.shape.length := hn
    change X.shape.set n (X.shape.getD n 0) = _
    rw [List.getD_eq_getElem _ _ hn, List.set_getElem_self]
  refine ext_at hsh fun i hi => ?_
  rw [modeProd_at hi]
  rw [hsh] at hi
  have hin : i.getD n 0 < X.shape.getD n 0 := (InB_iff_getD.1 hi).2 n hn
  rw [Finset.sum_eq_single (i.getD n 0)]
  · unfold eyeT
    rw [at_mat _ hin hin, if_pos rfl, one_mul]
    congr 1
    have hil : n < i.length := by rw [hi.length]; exact hn
    rw [List.getD_eq_getElem _ _ hil, List.set_getElem_self]
  · intro k hk hne
    unfold eyeT
    rw [at_mat _ hin (Finset.mem_range.1 hk), if_neg (Ne.symm hne), zero_mul]
  · intro h; exact absurd (Finset.mem_range.2 hin) h

theorem modeProds_eyeT {X : Tensor ℝ} : ∀ (ps : List (Nat × Tensor ℝ)),
    (∀ p ∈ ps, p.1 < X.order ∧ p.2 = eyeT (X.shape.getD p.1 0)) → modeProds X ps = X
  | [], _ => rfl
  | p :: ps, h => by
      obtain ⟨a, b⟩ := h p (by simp)
      change modeProds (modeProd X p.1 p.2) ps = X
      rw [b, modeProd_eyeT a]
      exact modeProds_eyeT ps fun q hq => h q (by simp [hq])

/-- Identities, and a matrix of zeros in one mode. -/
def eyes (shape : List Nat) (n r : Nat) : List (Tensor ℝ) :=
  (shape.map eyeT).set n (mat (shape.getD n 0) r fun _ _ => 0)

theorem eyes_get {shape : List Nat} {n r k : Nat} {M : Tensor ℝ} (h : (eyes shape n r)[k]? = some M) :
    k < shape.length ∧ (k ≠ n → M = eyeT (shape.getD k 0)) ∧ (k = n → M = mat (shape.getD n 0) r fun _ _ => 0) := by
  unfold eyes at h
  have hk : k < shape.length := by
    have := (List.getElem?_eq_some_iff.1 h).1
    simpa using this
  refine ⟨hk, fun hne => ?_, fun e => ?_⟩
  · rw [List.getElem?_set_ne (Ne.symm hne), List.getElem?_map, List.getElem?_eq_getElem hk] at h
    simp only [Option.map_some, Option.some.injEq] at h
    rw [List.getD_eq_getElem _ _ hk, h]
  · subst e
    rw [List.getElem?_set_self (by simpa using hk)] at h
    exact (Option.some.inj h).symm

theorem eyes_shapes (shape : List Nat) (n r : Nat) : TuckerShapes shape (shape.set n r) (eyes shape n r) := by
  refine ⟨by unfold eyes; simp, fun k M hM => ?_⟩
  obtain ⟨hk, h1, h2⟩ := eyes_get hM
  by_cases e : k = n
  · rw [h2 e, e, getD_set_self (by rw [← e]; exact hk)]; rfl
  · rw [h1 e]
    have : (shape.set n r).getD k 0 = shape.getD k 0 := by
      rw [List.getD_eq_getElem?_getD, List.getElem?_set_ne (Ne.symm e), ← List.getD_eq_getElem?_getD]
    rw [this]; rfl

theorem eyes_turned {shape : List Nat} (hQ : Orthogonals shape Q) (n r : Nat) :
    Turned Q shape (shape.set n r) (eyes shape n r) (eyes shape n r) := by
  refine ⟨eyes_shapes _ _ _, eyes_shapes _ _ _, ?_⟩
  have hl : (eyes shape n r).length = shape.length := (eyes_shapes shape n r).1
  refine List.ext_getElem? fun k => ?_
  rw [List.getElem?_map, List.getElem?_map]
  by_cases hk : k < shape.length
  · obtain ⟨P, hP, hPo⟩ := hQ.get hk
    have hM : (eyes shape n r)[k]? = some (eyes shape n r)[k] := List.getElem?_eq_getElem (by omega)
    have hrot : (rotateFactors Q (eyes shape n r))[k]? = some (rotateRows P (eyes shape n r)[k]) := by
      rw [rotateFactors_get, hP, hM]
    rw [hrot, hM, Option.map_some, Option.map_some]
    congr 1
    obtain ⟨-, h1, h2⟩ := eyes_get hM
    by_cases e : k = n
    · rw [h2 e, ← e]
      obtain ⟨a, b⟩ := rotateRows_spec (Q := P) (M := mat (shape.getD k 0) r fun _ _ => 0) (m := shape.getD k 0) (r := r) rfl
      have z : toMat (mat (shape.getD k 0) r fun _ _ => (0 : ℝ)) (shape.getD k 0) r = 0 := by
        rw [toMat_mat]; rfl
      rw [projector_congr a rfl, b, z]; simp
    · rw [h1 e]
      obtain ⟨a, b⟩ := rotateRows_spec (Q := P) (M := eyeT (shape.getD k 0)) (m := shape.getD k 0) (r := shape.getD k 0) rfl
      rw [projector_congr a rfl, b, toMat_eyeT, Matrix.mul_one, mul_eq_one_comm.1 hPo.2]; simp
  · rw [List.getElem?_eq_none (by unfold rotateFactors; rw [List.length_zipWith]; omega), List.getElem?_eq_none (by omega)]

theorem eyes_Y (h2 : 2 ≤ X.order) (h13 : X.order ≤ 13) {n : Nat} (hn : n < X.order) (r : Nat) :
    ttm X (eyes X.shape n r) none true (.int n) = .ok X := by
  obtain ⟨Y, hY, hYe⟩ := hooi_Y h2 h13 (eyes_shapes X.shape n r) hn
  rw [hY, hYe, modeProds_eyeT]
  intro p hp
  rw [List.mem_eraseIdx_iff_getElem] at hp
  obtain ⟨k, hk, hne, rfl⟩ := hp
  have hk' : k < (eyes X.shape n r).length := by simpa using (by simpa using hk : k < X.order ∧ _).2
  have hM : (eyes X.shape n r)[k]? = some (eyes X.shape n r)[k] := List.getElem?_eq_getElem hk'
  obtain ⟨h0, h1, -⟩ := eyes_get hM
  simp only [List.getElem_zip, List.getElem_range, List.getElem_map]
  refine ⟨h0, ?_⟩
  rw [h1 hne, matT_eyeT]

/-- Ranks beyond the number of singular vectors change nothing. -/
theorem leading_cap (hs : SvdOk svd) {n r : Nat} {ranks' : List Nat} (hn : n < X.order) (hpos : 0 < X.shape.getD n 0)
    (hr : ranks[n]? = some r) (hr' : ranks'[n]? = some (min r (min (X.shape.getD n 0) (otherSize X.shape n)))) :
    tucker.leading svd X ranks' n = tucker.leading svd X ranks n := by
  have hu := unfold_closed X hn hpos
  obtain ⟨s, U, V, h1, h2, h3, h4, h5⟩ := hs _ _ _ (rfl : (mat (X.shape.getD n 0) (otherSize X.shape n)
    fun i j => X.at_ (unkolda X.shape n i j)).shape = _)
  unfold tucker.leading
  rw [hu, ok_bind, ok_bind, h1]
  simp only [ok_bind, tucker.rankAt, hr, hr', tucker.firstCols, h3]
  rw [Nat.min_assoc, Nat.min_self]

/-- The first left singular vectors of an unfolding in other coordinates, computed by another routine. -/
theorem leading_turned (hs : SvdOk svd) (hs' : SvdOk svd') (h2 : 2 ≤ X.order) (h13 : X.order ≤ 13)
    (hpos : ∀ d ∈ X.shape, 0 < d) (hQ : Orthogonals X.shape Q) {n r : Nat} (hn : n < X.order) (hr : ranks[n]? = some r)
    (hsep : ∀ M, unfold X n = .ok M → Separated (toMat M (X.shape.getD n 0) (otherSize X.shape n))
      (min r (min (X.shape.getD n 0) (otherSize X.shape n)))) :
    ∃ P B B', Q[n]? = some P ∧ tucker.leading svd X ranks n = .ok B ∧ tucker.leading svd' (rotate Q X) ranks n = .ok B' ∧
      OrthoCols B (X.shape.getD n 0) (min r (min (X.shape.getD n 0) (otherSize X.shape n))) ∧
      OrthoCols B' (X.shape.getD n 0) (min r (min (X.shape.getD n 0) (otherSize X.shape n))) ∧
      projector (rotateRows P B) = projector B' := by
  set q := min r (min (X.shape.getD n 0) (otherSize X.shape n)) with hq
  have hnl : n < X.shape.length := hn
  have hp := getD_pos_of hpos hn
  have hgq : (X.shape.set n q).getD n 0 = q := getD_set_self hnl
  have hq' : (X.shape.set n q)[n]? = some q := List.getElem?_set_self hnl
  have hJ : ∏ m ∈ (Finset.range X.order).erase n, (X.shape.set n q).getD m 0 = otherSize X.shape n := by
    unfold otherSize
    refine Finset.prod_congr rfl fun m hm => ?_
    have hne := (Finset.mem_erase.1 hm).1
    rw [List.getD_eq_getElem?_getD, List.getElem?_set_ne (Ne.symm hne), ← List.getD_eq_getElem?_getD]
  have hle : (X.shape.set n q).getD n 0 ≤ min (X.shape.getD n 0) (∏ m ∈ (Finset.range X.order).erase n, (X.shape.set n q).getD m 0) := by
    rw [hgq, hJ]; exact Nat.min_le_right _ _
  have hc := leading_cap hs hn hp hr hq'
  have hc' := leading_cap (X := rotate Q X) hs' hn hp hr hq'
  have hY := eyes_Y h2 h13 hn q
  have hY' := eyes_Y (X := rotate Q X) h2 h13 hn q
  rw [rotate_shape] at hY'
  have hl : n < (eyes X.shape n q).length := by rw [(eyes_shapes X.shape n q).1]; exact hn
  have hupd : ∀ {Z : Tensor ℝ} {sv : Tensor ℝ → Res (Tensor ℝ × Tensor ℝ × Tensor ℝ)} {C},
      ttm Z (eyes X.shape n q) none true (.int n) = .ok Z →
      tucker.HOOI.modeUpdate sv Z (X.shape.set n q) (eyes X.shape n q) n = .ok ((eyes X.shape n q).set n C) →
      tucker.leading sv Z (X.shape.set n q) n = .ok C := by
    intro Z sv C hZ h
    unfold tucker.HOOI.modeUpdate at h
    rw [hZ, ok_bind] at h
    cases hv : tucker.leading sv Z (X.shape.set n q) n with
    | error e => rw [hv] at h; cases h
    | ok v =>
        rw [hv, ok_bind, tf.assign, List.getElem?_eq_getElem hl] at h
        simp only at h
        split at h
        · have := congrArg (fun l : List (Tensor ℝ) => l[n]?) (Except.ok.inj h)
          simp only [List.getElem?_set_self hl, Option.some.injEq] at this
          rw [this]
        · cases h
  have hsep' : ∀ Y M, ttm X (eyes X.shape n q) none true (.int n) = .ok Y → unfold Y n = .ok M →
      Separated (toMat M (Y.shape.getD n 0) (otherSize Y.shape n)) ((X.shape.set n q).getD n 0) := by
    intro Y M e hM
    rw [hY] at e
    cases e
    rw [hgq]; exact hsep M hM
  rcases hooi_update_turned hs hs' h2 h13 hpos (ranks := X.shape.set n q) (by simp [order]) hQ (eyes_turned hQ n q) hn hsep' with
    ⟨P, B, B', hP, e1, e2, o1, o2, e⟩ | ⟨e1, -⟩
  · rw [hgq] at o1 o2
    exact ⟨P, B, B', hP, by rw [← hc]; exact hupd hY e1, by rw [← hc']; exact hupd hY' e2, o1, o2, e⟩
  · obtain ⟨B, b1, -⟩ := (hooi_update hs h2 h13 hpos (ranks := X.shape.set n q) (by simp [order]) (eyes_shapes X.shape n q) hn).1 hle
    rw [b1] at e1; cases e1

end
end TD
