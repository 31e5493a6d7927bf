import Verif.Lemmas.Ttm

namespace TD
open Spec Tensor
variable {α : Type}

/-- Mode products along different modes commute. -/
theorem modeProd_comm [CommSemiring α] (X A B : Tensor α) {m n : Nat} (h : m ≠ n) :
    modeProd (modeProd X m A) n B = modeProd (modeProd X n B) m A := by
  have hsn : (X.shape.set m (A.shape.getD 0 0)).getD n 0 = X.shape.getD n 0 := getD_set_ne h
  have hsm : (X.shape.set n (B.shape.getD 0 0)).getD m 0 = X.shape.getD m 0 := getD_set_ne (Ne.symm h)
  have hsh : (X.shape.set m (A.shape.getD 0 0)).set n (B.shape.getD 0 0) =
      (X.shape.set n (B.shape.getD 0 0)).set m (A.shape.getD 0 0) := List.set_comm _ _ h
  apply ext_at (by exact hsh)
  intro idx hi
  have hi1 : InB ((X.shape.set m (A.shape.getD 0 0)).set n (B.shape.getD 0 0)) idx := hi
  have hi2 : InB ((X.shape.set n (B.shape.getD 0 0)).set m (A.shape.getD 0 0)) idx := hsh ▸ hi1
  have e1 : ∀ k < X.shape.getD n 0, (modeProd X m A).at_ (idx.set n k) =
      ∑ l ∈ Finset.range (X.shape.getD m 0), A.at_ [idx.getD m 0, l] * X.at_ ((idx.set n k).set m l) := by
    intro k hk
    have : InB (X.shape.set m (A.shape.getD 0 0)) (idx.set n k) := InB_set hi1 (by rw [hsn]; exact hk)
    rw [modeProd, at_ofFn _ this, getD_set_ne (Ne.symm h)]
  have e2 : ∀ l < X.shape.getD m 0, (modeProd X n B).at_ (idx.set m l) =
      ∑ k ∈ Finset.range (X.shape.getD n 0), B.at_ [idx.getD n 0, k] * X.at_ ((idx.set m l).set n k) := by
    intro l hl
    have : InB (X.shape.set n (B.shape.getD 0 0)) (idx.set m l) := InB_set hi2 (by rw [hsm]; exact hl)
    rw [modeProd, at_ofFn _ this, getD_set_ne h]
  have l1 : (modeProd (modeProd X m A) n B).at_ idx = ∑ k ∈ Finset.range (X.shape.getD n 0),
      B.at_ [idx.getD n 0, k] * (modeProd X m A).at_ (idx.set n k) := by
    refine (at_ofFn _ hi1).trans ?_
    exact Finset.sum_congr (by rw [← hsn]; rfl) (fun _ _ => rfl)
  have l2 : (modeProd (modeProd X n B) m A).at_ idx = ∑ l ∈ Finset.range (X.shape.getD m 0),
      A.at_ [idx.getD m 0, l] * (modeProd X n B).at_ (idx.set m l) := by
    refine (at_ofFn _ hi2).trans ?_
    exact Finset.sum_congr (by rw [← hsm]; rfl) (fun _ _ => rfl)
  rw [l1, l2, Finset.sum_congr rfl (fun k hk => by rw [e1 k (Finset.mem_range.1 hk), Finset.mul_sum]),
    Finset.sum_comm, Finset.sum_congr rfl]
  intro l hl
  rw [e2 l (Finset.mem_range.1 hl), Finset.mul_sum]
  apply Finset.sum_congr rfl
  intro k _
  rw [List.set_comm _ _ h]
  ring

theorem modeProds_perm [CommSemiring α] {ps qs : List (Nat × Tensor α)} (h : ps.Perm qs)
    (hnd : (ps.map Prod.fst).Nodup) (X : Tensor α) : modeProds X ps = modeProds X qs := by
  induction h generalizing X with
  | nil => rfl
  | cons p _ ih => exact ih (List.nodup_cons.1 hnd).2 _
  | swap p q l =>
      simp only [modeProds, List.foldl_cons]
      rw [modeProd_comm]
      simp only [List.map_cons, List.nodup_cons, List.mem_cons, not_or] at hnd
      exact hnd.1.1
  | trans h1 _ ih1 ih2 => rw [ih1 hnd, ih2 ((h1.map _).nodup_iff.1 hnd)]

end TD
