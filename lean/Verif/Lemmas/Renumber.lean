import Verif.Spec.Renumber
import Verif.Lemmas.Scale
import Verif.Lemmas.Cp
import Mathlib.Data.Set.Finite.Lattice

/-! # Renumbered tensors -/
namespace TD
open Spec Tensor tf ops Matrix

section basic
variable {α : Type} [Zero α] {σ : Nat → Nat → Nat} {s i : List Nat}

theorem mapIdx_length (σ : Nat → Nat → Nat) (i : List Nat) : (i.mapIdx σ).length = i.length := by simp

theorem mapIdx_getD (σ : Nat → Nat → Nat) {i : List Nat} {k : Nat} (hk : k < i.length) :
    (i.mapIdx σ).getD k 0 = σ k (i.getD k 0) := by
  rw [List.getD_eq_getElem _ _ (by simpa using hk), List.getElem_mapIdx, List.getD_eq_getElem _ _ hk]

theorem Spec.Renumbering.lt (h : Renumbering s σ) {k v : Nat} (hk : k < s.length) (hv : v < s.getD k 0) :
    σ k v < s.getD k 0 := (h k hk).mapsTo hv

theorem Spec.Renumbering.inj (h : Renumbering s σ) {k v w : Nat} (hk : k < s.length) (hv : v < s.getD k 0)
    (hw : w < s.getD k 0) (e : σ k v = σ k w) : v = w := (h k hk).injOn hv hw e

theorem Spec.Renumbering.inB (h : Renumbering s σ) (hi : InB s i) : InB s (i.mapIdx σ) := by
  rw [InB_iff_getD] at hi ⊢
  refine ⟨by simpa using hi.1, fun k hk => ?_⟩
  rw [mapIdx_getD σ (by rw [hi.1]; exact hk)]
  exact h.lt hk (hi.2 k hk)

theorem Spec.Renumbering.tail {d : Nat} (h : Renumbering (d :: s) σ) : Renumbering s fun k => σ (k + 1) := fun k hk => by
  simpa using h (k + 1) (by simpa using hk)

theorem Spec.Renumbering.eq_of {j : List Nat} (h : Renumbering s σ) (hi : InB s i) (hj : InB s j)
    (e : i.mapIdx σ = j.mapIdx σ) : i = j := by
  rw [InB_iff_getD] at hi hj
  refine List.ext_getElem (hi.1.trans hj.1.symm) fun k hk hk' => ?_
  have : (i.mapIdx σ).getD k 0 = (j.mapIdx σ).getD k 0 := by rw [e]
  rw [mapIdx_getD σ hk, mapIdx_getD σ hk'] at this
  have hks : k < s.length := by rw [← hi.1]; exact hk
  have := h.inj hks (hi.2 k hks) (hj.2 k hks) this
  rwa [List.getD_eq_getElem _ _ hk, List.getD_eq_getElem _ _ hk'] at this

theorem shape_renum (σ : Nat → Nat → Nat) (X : Tensor α) : (renum σ X).shape = X.shape := rfl

theorem at_renum (σ : Nat → Nat → Nat) {X : Tensor α} (hi : InB X.shape i) : (renum σ X).at_ i = X.at_ (i.mapIdx σ) :=
  at_ofFn _ hi

theorem shape_renumRows (π : Nat → Nat) (A : Tensor α) : (renumRows π A).shape = A.shape := rfl

theorem at_renumRows (π : Nat → Nat) {A : Tensor α} {m n a b : Nat} (hA : A.shape = [m, n]) (ha : a < m) (hb : b < n) :
    (renumRows π A).at_ [a, b] = A.at_ [π a, b] := by
  rw [renumRows, at_renum _ (by rw [hA]; exact InB_pair.2 ⟨a, b, rfl, ha, hb⟩)]
  rfl

theorem renumbering_rows {π : Nat → Nat} {m n : Nat} (h : Set.BijOn π (Set.Iio m) (Set.Iio m)) :
    Renumbering [m, n] fun k => if k = 0 then π else id := by
  intro k hk
  match k, hk with
  | 0, _ => simpa using h
  | 1, _ => simpa using Set.bijOn_id _

theorem length_renumFactors (σ : Nat → Nat → Nat) (U : List (Tensor α)) : (renumFactors σ U).length = U.length := by
  simp [renumFactors]

theorem getElem?_renumFactors (σ : Nat → Nat → Nat) (U : List (Tensor α)) (k : Nat) :
    (renumFactors σ U)[k]? = U[k]?.map (renumRows (σ k)) := by simp [renumFactors]

theorem renumFactors_cons (σ : Nat → Nat → Nat) (A : Tensor α) (U : List (Tensor α)) :
    renumFactors σ (A :: U) = renumRows (σ 0) A :: renumFactors (fun k => σ (k + 1)) U := by
  simp [renumFactors, List.mapIdx_cons]

theorem renumFactors_set (σ : Nat → Nat → Nat) (U : List (Tensor α)) (k : Nat) (B : Tensor α) :
    renumFactors σ (U.set k B) = (renumFactors σ U).set k (renumRows (σ k) B) := by
  refine List.ext_getElem? fun m => ?_
  rw [getElem?_renumFactors, List.getElem?_set, List.getElem?_set, length_renumFactors]
  split
  · rename_i h; subst h; split <;> rfl
  · rw [getElem?_renumFactors]

theorem map_shape_renumFactors (σ : Nat → Nat → Nat) (U : List (Tensor α)) :
    (renumFactors σ U).map Tensor.shape = U.map Tensor.shape := by
  refine List.ext_getElem? fun m => ?_
  rw [List.getElem?_map, getElem?_renumFactors, List.getElem?_map]
  cases U[m]? <;> rfl

end basic

/-! ### Sums over all entries -/

theorem sum_renum {M : Type} [AddCommMonoid M] {π : Nat → Nat} {d : Nat} (h : Set.BijOn π (Set.Iio d) (Set.Iio d)) (f : Nat → M) :
    ∑ i ∈ Finset.range d, f (π i) = ∑ i ∈ Finset.range d, f i := by
  refine Finset.sum_nbij π (fun i hi => ?_) (fun i hi j hj e => ?_) (fun i hi => ?_) fun _ _ => rfl
  · simpa using h.mapsTo (by simpa using hi)
  · exact h.injOn (by simpa using hi) (by simpa using hj) e
  · obtain ⟨j, hj, e⟩ := h.surjOn (show i ∈ Set.Iio d by simpa using hi)
    exact ⟨j, by simpa using hj, e⟩

theorem boxSum_renum {M : Type} [AddCommMonoid M] : ∀ {s : List Nat} {σ : Nat → Nat → Nat}, Renumbering s σ →
    ∀ f : List Nat → M, boxSum s (fun i => f (i.mapIdx σ)) = boxSum s f
  | [], _, _, _ => rfl
  | d :: s, σ, h, f => by
      have h0 : Set.BijOn (σ 0) (Set.Iio d) (Set.Iio d) := by simpa using h 0 (by simp)
      simp only [boxSum, List.mapIdx_cons]
      rw [← sum_renum h0 fun i => boxSum s fun is => f (i :: is)]
      exact Finset.sum_congr rfl fun i _ => boxSum_renum h.tail fun is => f (σ 0 i :: is)

/-! ### Entrywise operations -/

theorem map_renum {σ : Nat → Nat → Nat} {X : Tensor ℝ} (h : Renumbering X.shape σ) (f : ℝ → ℝ) :
    tf.map f (renum σ X) = renum σ (tf.map f X) := by
  refine ext_at rfl fun i hi => ?_
  have hi' : InB X.shape i := hi
  rw [at_map f _ (show InB (renum σ X).shape i from hi'), at_renum σ hi', at_renum σ (show InB (tf.map f X).shape i from hi'), at_map f _ (h.inB hi')]

theorem ewise_renum {σ : Nat → Nat → Nat} {X Y : Tensor ℝ} (h : Renumbering X.shape σ) (hs : X.shape = Y.shape) (f : ℝ → ℝ → ℝ) :
    ewise f (renum σ X) (renum σ Y) = renum σ <$> ewise f X Y := by
  rw [ewise_same f hs, ewise_same f (show (renum σ X).shape = (renum σ Y).shape from hs)]
  show Except.ok _ = Except.ok _
  congr 1
  refine ext_at rfl fun i hi => ?_
  have hi' : InB X.shape i := hi
  rw [at_ofFn _ (show InB (renum σ X).shape i from hi'), at_renum σ hi', at_renum σ (by rw [← hs]; exact hi'),
    at_renum σ (show InB (ofFn X.shape _).shape i from hi'), at_ofFn _ (h.inB hi')]

theorem reduceSum_renum {σ : Nat → Nat → Nat} {X : Tensor ℝ} (h : Renumbering X.shape σ) :
    reduceSum (renum σ X) = reduceSum X := by
  have e : ∀ Y : Tensor ℝ, reduceSum Y = boxSum Y.shape Y.at_ := fun Y => by
    unfold reduceSum
    exact sum_data Y
  rw [e, e, shape_renum, boxSum_congr (g := fun i => X.at_ (i.mapIdx σ)) fun i hi => at_renum σ hi, boxSum_renum h]

theorem norm_renum {σ : Nat → Nat → Nat} {X : Tensor ℝ} (h : Renumbering X.shape σ) : tf.norm (renum σ X) = tf.norm X := by
  unfold tf.norm
  rw [map_renum h, reduceSum_renum (show Renumbering (tf.map _ X).shape σ from h)]

theorem rmseIgnoreZero_renum {σ : Nat → Nat → Nat} {X Y : Tensor ℝ} (h : Renumbering X.shape σ) (hs : X.shape = Y.shape) :
    loss.rmseIgnoreZero (renum σ X) (renum σ Y) = loss.rmseIgnoreZero X Y := by
  unfold loss.rmseIgnoreZero loss.nonzero
  have hY : Renumbering Y.shape σ := hs ▸ h
  rw [if_neg (not_not.2 (show (renum σ X).shape = (renum σ Y).shape from hs)), if_neg (not_not.2 hs), map_renum h, ewise_renum hY (by exact hs.symm)]
  rw [ewise_same (A := Y) (B := tf.map _ X) _ hs.symm]
  change (do let d ← ewise (· - ·) (renum σ X) (renum σ _); _) = _
  rw [ewise_renum h (by exact hs), ok_bind, ewise_same (A := X) _ (by exact hs), ok_bind]
  change Except.ok _ = Except.ok _
  rw [map_renum (by exact h), reduceSum_renum (by exact h), reduceSum_renum (by exact h)]

theorem scalars_renum {σ : Nat → Nat → Nat} {X Y : Tensor ℝ} (h : Renumbering X.shape σ) (hs : Y.shape = X.shape) :
    cp.scalars (renum σ X) (renum σ Y) = cp.scalars X Y := by
  unfold cp.scalars
  have hY : Renumbering Y.shape σ := hs ▸ h
  rw [rmseIgnoreZero_renum h hs.symm, ewise_renum hY hs, norm_renum h, ewise_same (A := Y) _ hs]
  cases loss.rmseIgnoreZero X Y with
  | error e => rfl
  | ok l =>
      simp only [ok_bind]
      change (do let d ← (Except.ok (renum σ _) : Res (Tensor ℝ)); _) = _
      simp only [ok_bind]
      rw [norm_renum (by exact hY)]

end TD
