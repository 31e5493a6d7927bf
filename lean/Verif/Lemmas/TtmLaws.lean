import Verif.Lemmas.ModeProd
import Verif.Lemmas.Tucker
import Verif.Spec.TtmLaws

/-! # Laws of mode products -/
namespace TD
open Spec Tensor
variable {α : Type}

/-- `C` is the matrix product `B A`. -/
def IsProd [CommSemiring α] (B A C : Tensor α) : Prop :=
  ∃ p q r, B.shape = [p, q] ∧ A.shape = [q, r] ∧ C.shape = [p, r] ∧
    ∀ i < p, ∀ j < r, C.at_ [i, j] = ∑ l ∈ Finset.range q, B.at_ [i, l] * A.at_ [l, j]

theorem modeProd_twice [CommSemiring α] {X A B C : Tensor α} {n : Nat} (hn : n < X.order) (h : IsProd B A C)
    (hA : A.shape.getD 1 0 = X.shape.getD n 0) : modeProd (modeProd X n A) n B = modeProd X n C := by
  obtain ⟨p, q, r, hB, hA', hC, hent⟩ := h
  have hr : X.shape.getD n 0 = r := by rw [← hA, hA']; rfl
  have hn : n < X.shape.length := hn
  have s1 : (modeProd X n A).shape = X.shape.set n q := by
    change X.shape.set n (A.shape.getD 0 0) = _; rw [hA']; rfl
  have s2 : (modeProd (modeProd X n A) n B).shape = X.shape.set n p := by
    change (modeProd X n A).shape.set n (B.shape.getD 0 0) = _; rw [s1, hB, List.set_set]; rfl
  have s3 : (modeProd X n C).shape = X.shape.set n p := by
    change X.shape.set n (C.shape.getD 0 0) = _; rw [hC]; rfl
  refine ext_at (s2.trans s3.symm) fun idx hi => ?_
  have hi3 : InB (modeProd X n C).shape idx := by rw [s3, ← s2]; exact hi
  rw [modeProd_at hi, modeProd_at hi3]
  rw [s2] at hi
  have hin : idx.getD n 0 < p := by
    have := (InB_iff_getD.1 hi).2 n (by simpa using hn)
    simpa [List.getD_eq_getElem?_getD, List.getElem?_set_self hn] using this
  have hl : n < idx.length := by rw [hi.length]; simpa using hn
  have e : (modeProd X n A).shape.getD n 0 = q := by
    rw [s1]; simp [List.getD_eq_getElem?_getD, List.getElem?_set_self hn]
  rw [e, hr]
  have h1 : ∀ k ∈ Finset.range q, B.at_ [idx.getD n 0, k] * (modeProd X n A).at_ (idx.set n k) =
      ∑ l ∈ Finset.range r, B.at_ [idx.getD n 0, k] * A.at_ [k, l] * X.at_ (idx.set n l) := by
    intro k hk
    have : InB (modeProd X n A).shape (idx.set n k) := by
      rw [s1]
      exact InB_set (s := X.shape.set n q) (d := p) (by rw [List.set_set]; exact hi)
        (by rw [getD_set_self hn]; exact Finset.mem_range.1 hk)
    rw [modeProd_at this, hr, Finset.mul_sum]
    refine Finset.sum_congr rfl fun l _ => ?_
    rw [List.set_set]
    simp only [List.getD_eq_getElem?_getD, List.getElem?_set_self hl, Option.getD_some]
    ring
  rw [Finset.sum_congr rfl h1, Finset.sum_comm]
  refine Finset.sum_congr rfl fun l hl => ?_
  rw [hent _ hin l (Finset.mem_range.1 hl), Finset.sum_mul]

theorem modeProd_id [CommSemiring α] {X I : Tensor α} {n : Nat} (hn : n < X.order) (hI : IsEye I (X.shape.getD n 0)) :
    modeProd X n I = X := by
  have hn : n < X.shape.length := hn
  have hsh : (modeProd X n I).shape = X.shape := by
    change X.shape.set n (I.shape.getD 0 0) = _
    rw [hI.1, List.getD_cons_zero, List.getD_eq_getElem _ _ hn, List.set_getElem_self]
  refine ext_at hsh fun i hi => ?_
  rw [modeProd_at hi]
  rw [hsh] at hi
  have hin : i.getD n 0 < X.shape.getD n 0 := (InB_iff_getD.1 hi).2 n hn
  rw [Finset.sum_eq_single (i.getD n 0)]
  · rw [hI.2 _ hin _ hin, if_pos rfl, one_mul]
    congr 1
    have hil : n < i.length := by rw [hi.length]; exact hn
    rw [List.getD_eq_getElem _ _ hil, List.set_getElem_self]
  · intro k hk hne
    rw [hI.2 _ hin _ (Finset.mem_range.1 hk), if_neg (Ne.symm hne), zero_mul]
  · intro h; exact absurd (Finset.mem_range.2 hin) h

theorem modeProds_id [CommSemiring α] {X : Tensor α} : ∀ (ps : List (Nat × Tensor α)),
    (∀ p ∈ ps, p.1 < X.order ∧ IsEye p.2 (X.shape.getD p.1 0)) → modeProds X ps = X
  | [], _ => rfl
  | p :: ps, h => by
      obtain ⟨a, b⟩ := h p (by simp)
      change modeProds (modeProd X p.1 p.2) ps = X
      rw [modeProd_id a b]
      exact modeProds_id ps fun q hq => h q (by simp [hq])

/-- Two rounds of products along the same modes. -/
theorem modeProds_twice [CommSemiring α] : ∀ (qs : List (Nat × Tensor α × Tensor α × Tensor α)) (X : Tensor α),
    (qs.map Prod.fst).Nodup → (∀ q ∈ qs, q.1 < X.order ∧ IsProd q.2.1 q.2.2.1 q.2.2.2 ∧ q.2.2.1.shape.getD 1 0 = X.shape.getD q.1 0) →
    modeProds (modeProds X (qs.map fun q => (q.1, q.2.2.1))) (qs.map fun q => (q.1, q.2.1)) =
      modeProds X (qs.map fun q => (q.1, q.2.2.2))
  | [], X, _, _ => rfl
  | (n, B, A, C) :: qs, X, hnd, h => by
      obtain ⟨hn, hp, hc⟩ := h (n, B, A, C) (by simp)
      rw [List.map_cons, List.nodup_cons] at hnd
      have hmove : ∀ Y : Tensor α, modeProd (modeProds Y (qs.map fun q => (q.1, q.2.2.1))) n B =
          modeProds (modeProd Y n B) (qs.map fun q => (q.1, q.2.2.1)) := fun Y => by
        have := modeProds_perm (List.perm_append_singleton (n, B) (qs.map fun q => (q.1, q.2.2.1))) (by
          rw [List.map_append, List.map_map, List.map_singleton, List.nodup_append]
          refine ⟨hnd.2, by simp, ?_⟩
          rintro a ha b hb rfl
          rw [List.mem_singleton] at hb
          subst hb
          exact hnd.1 ha) Y
        rw [modeProds_append] at this
        exact this
      simp only [List.map_cons]
      change modeProds (modeProd (modeProds (modeProd X n A) _) n B) _ = modeProds (modeProd X n C) _
      rw [hmove, modeProd_twice hn hp hc]
      have hsh : (modeProd X n C).shape = X.shape.set n (C.shape.getD 0 0) := rfl
      refine modeProds_twice qs (modeProd X n C) hnd.2 fun q hq => ?_
      obtain ⟨a, b, c⟩ := h q (by simp [hq])
      have hne : n ≠ q.1 := fun e => hnd.1 (List.mem_map.2 ⟨q, hq, e.symm⟩)
      refine ⟨?_, b, by rw [hsh, getD_set_ne hne]; exact c⟩
      unfold order at a ⊢
      rw [hsh, List.length_set]
      exact a

theorem Spec.IsComb.modeProd [CommSemiring α] {x y : α} {X Y D : Tensor α} (h : IsComb x y X Y D) (n : Nat) (A : Tensor α) :
    IsComb x y (modeProd X n A) (modeProd Y n A) (modeProd D n A) := by
  obtain ⟨h1, h2, h3⟩ := h
  have s : ∀ Z : Tensor α, (Spec.modeProd Z n A).shape = Z.shape.set n (A.shape.getD 0 0) := fun _ => rfl
  refine ⟨by rw [s, s, h1], by rw [s, s, h2], fun i hi => ?_⟩
  have hX : InB (Spec.modeProd X n A).shape i := by rw [s, h1]; exact hi
  have hY : InB (Spec.modeProd Y n A).shape i := by rw [s, h2]; exact hi
  rw [modeProd_at hi, modeProd_at hX, modeProd_at hY, h1, h2, Finset.mul_sum, Finset.mul_sum, ← Finset.sum_add_distrib]
  refine Finset.sum_congr rfl fun k hk => ?_
  rw [h3 _ (InB_set hi (Finset.mem_range.1 hk))]
  ring

theorem Spec.IsComb.modeProds [CommSemiring α] {x y : α} : ∀ (ps : List (Nat × Tensor α)) {X Y D : Tensor α}, IsComb x y X Y D →
    IsComb x y (modeProds X ps) (modeProds Y ps) (modeProds D ps)
  | [], _, _, _, h => h
  | p :: ps, _, _, _, h => Spec.IsComb.modeProds ps (h.modeProd p.1 p.2)

/-- `⟨X ×_n A, Y⟩ = ⟨X, Y ×_n Aᵀ⟩`. -/
theorem modeProd_adjoint [CommSemiring α] {X Y A : Tensor α} {n J : Nat} (hn : n < X.order) (hA : A.shape = [J, X.shape.getD n 0])
    (hY : Y.shape = X.shape.set n J) :
    (modeProd Y n (matT A)).shape = X.shape ∧
    (boxSum Y.shape fun i => (modeProd X n A).at_ i * Y.at_ i) = boxSum X.shape fun i => X.at_ i * (modeProd Y n (matT A)).at_ i := by
  have hn : n < X.shape.length := hn
  have s1 : (modeProd X n A).shape = X.shape.set n J := by
    change X.shape.set n (A.shape.getD 0 0) = _; rw [hA]; rfl
  have s2 : (modeProd Y n (matT A)).shape = X.shape := by
    change Y.shape.set n (A.shape.getD 1 0) = _
    rw [hA, hY, List.set_set, List.getD_cons_succ, List.getD_cons_zero, List.getD_eq_getElem _ _ hn, List.set_getElem_self]
  refine ⟨s2, ?_⟩
  have hnY : n < Y.shape.length := by rw [hY]; simpa using hn
  have hYn : Y.shape.getD n 0 = J := by rw [hY, getD_set_self hn]
  rw [boxSum_unkolda hnY, boxSum_unkolda hn, hYn]
  have hos : otherSize Y.shape n = otherSize X.shape n := by rw [hY, otherSize_set]
  have hu : ∀ i j, unkolda Y.shape n i j = unkolda X.shape n i j := fun i j => by rw [hY, unkolda_set]
  simp only [hos, hu]
  have e1 : ∀ i ∈ Finset.range J, ∀ j ∈ Finset.range (otherSize X.shape n),
      (modeProd X n A).at_ (unkolda X.shape n i j) * Y.at_ (unkolda X.shape n i j) =
        ∑ k ∈ Finset.range (X.shape.getD n 0), A.at_ [i, k] * X.at_ (unkolda X.shape n k j) * Y.at_ (unkolda X.shape n i j) := by
    intro i hi j hj
    have hin : InB (modeProd X n A).shape (unkolda X.shape n i j) := by
      rw [s1, ← hY, ← hu]
      exact (unkolda_spec hnY (by rw [hYn]; exact Finset.mem_range.1 hi) (by rw [hos]; exact Finset.mem_range.1 hj)).1
    rw [modeProd_at hin, Finset.sum_mul]
    refine Finset.sum_congr rfl fun k _ => ?_
    rw [(unkolda_facts hn i j).2.1, unkolda_set_self hn]
  have e2 : ∀ k ∈ Finset.range (X.shape.getD n 0), ∀ j ∈ Finset.range (otherSize X.shape n),
      X.at_ (unkolda X.shape n k j) * (modeProd Y n (matT A)).at_ (unkolda X.shape n k j) =
        ∑ i ∈ Finset.range J, A.at_ [i, k] * X.at_ (unkolda X.shape n k j) * Y.at_ (unkolda X.shape n i j) := by
    intro k hk j hj
    have hin : InB (modeProd Y n (matT A)).shape (unkolda X.shape n k j) := by
      rw [s2]
      exact (unkolda_spec hn (Finset.mem_range.1 hk) (Finset.mem_range.1 hj)).1
    rw [modeProd_at hin, Finset.mul_sum, hYn]
    refine Finset.sum_congr rfl fun i hi => ?_
    rw [(unkolda_facts hn k j).2.1, unkolda_set_self hn, matT, hA, List.getD_cons_succ, List.getD_cons_zero, List.getD_cons_zero, at_mat _ (Finset.mem_range.1 hk) (Finset.mem_range.1 hi)]
    ring
  rw [Finset.sum_congr rfl fun i hi => Finset.sum_congr rfl (e1 i hi), Finset.sum_congr rfl fun k hk => Finset.sum_congr rfl (e2 k hk)]
  rw [Finset.sum_congr rfl fun i _ => Finset.sum_comm, Finset.sum_comm, Finset.sum_congr rfl fun i _ => Finset.sum_comm]

theorem modeProds_adjoint [CommSemiring α] : ∀ (ps : List (Nat × Tensor α)) {X Y : Tensor α}, (ps.map Prod.fst).Nodup →
    (∀ p ∈ ps, p.1 < X.order ∧ ∃ J, p.2.shape = [J, X.shape.getD p.1 0]) → Y.shape = (modeProds X ps).shape →
    (modeProds Y (ps.map fun p => (p.1, matT p.2))).shape = X.shape ∧
    (boxSum Y.shape fun i => (modeProds X ps).at_ i * Y.at_ i) =
      boxSum X.shape fun i => X.at_ i * (modeProds Y (ps.map fun p => (p.1, matT p.2))).at_ i
  | [], X, Y, _, _, hY => by
      refine ⟨hY, ?_⟩
      rw [show Y.shape = X.shape from hY]
      rfl
  | (n, A) :: ps, X, Y, hnd, h, hY => by
      obtain ⟨hn, J, hA⟩ := h (n, A) (by simp)
      rw [List.map_cons, List.nodup_cons] at hnd
      have s1 : (modeProd X n A).shape = X.shape.set n J := by
        change X.shape.set n (A.shape.getD 0 0) = _; rw [hA]; rfl
      obtain ⟨a1, a2⟩ := modeProds_adjoint ps (X := modeProd X n A) (Y := Y) hnd.2 (fun q hq => by
        obtain ⟨b1, b2⟩ := h q (by simp [hq])
        have hne : n ≠ q.1 := fun e => hnd.1 (List.mem_map.2 ⟨q, hq, e.symm⟩)
        refine ⟨?_, by rw [s1, getD_set_ne hne]; exact b2⟩
        unfold order at b1 ⊢
        rw [s1, List.length_set]; exact b1) hY
      obtain ⟨c1, c2⟩ := modeProd_adjoint (Y := modeProds Y (ps.map fun p => (p.1, matT p.2))) hn hA (a1.trans s1)
      have hmove : modeProds Y (((n, A) :: ps).map fun p => (p.1, matT p.2)) =
          modeProd (modeProds Y (ps.map fun p => (p.1, matT p.2))) n (matT A) := by
        have := modeProds_perm (List.perm_append_singleton (n, matT A) (ps.map fun p => (p.1, matT p.2))) (by
          rw [List.map_append, List.map_map, List.map_singleton, List.nodup_append]
          refine ⟨hnd.2, by simp, ?_⟩
          rintro a ha b hb rfl
          rw [List.mem_singleton] at hb
          subst hb
          exact hnd.1 ha) Y
        rw [modeProds_append] at this
        exact this.symm
      rw [hmove]
      refine ⟨c1, ?_⟩
      rw [← c2, a1]
      exact a2

end TD
