import Verif.Spec.Transposed
import Verif.Lemmas.Separated
import Verif.Lemmas.RotateTrain

/-! # Tensors with the modes in another order -/
namespace TD
open Spec Tensor tf ops Matrix
variable {α β : Type}

theorem length_permute (p l : List Nat) : (permute p l).length = p.length := by simp [permute]

theorem getD_permute {p l : List Nat} {k n : Nat} (h : p[k]? = some n) : (permute p l).getD k 0 = l.getD n 0 := by
  simp [permute, h]

theorem InB_permute {p s i : List Nat} (hp : p.Perm (List.range s.length)) (h : InB s i) : InB (permute p s) (permute p i) := by
  unfold permute
  rw [InB_map]
  intro k hk
  exact (InB_iff_getD.1 h).2 k (by simpa using hp.mem_iff.1 hk)

/-- Every index of the transposed tensor is a permuted index. -/
theorem permute_surj {p s j : List Nat} (hp : p.Perm (List.range s.length)) (h : InB (permute p s) j) :
    ∃ i, InB s i ∧ permute p i = j := by
  have hpl : p.length = s.length := by simpa using hp.length_eq
  have hjl : j.length = p.length := by rw [h.length, length_permute]
  have hnd : p.Nodup := hp.nodup_iff.2 List.nodup_range
  refine ⟨(List.range s.length).map fun k => j.getD (p.idxOf k) 0, ?_, ?_⟩
  · rw [InB_iff_getD]
    refine ⟨by simp, fun k hk => ?_⟩
    have hk' : k ∈ p := hp.mem_iff.2 (by simpa using hk)
    have hx : p.idxOf k < p.length := List.idxOf_lt_length_iff.2 hk'
    rw [getD_map_range_lt _ hk]
    have h1 := (InB_iff_getD.1 h).2 (p.idxOf k) (by rw [length_permute]; exact hx)
    rwa [getD_permute (n := k) (by rw [List.getElem?_eq_getElem hx, List.getElem_idxOf])] at h1
  · refine List.ext_getElem (by rw [length_permute, hjl]) fun m h1 h2 => ?_
    have hm : m < p.length := by rwa [length_permute] at h1
    have hpm : p[m] < s.length := by simpa using hp.mem_iff.1 (List.getElem_mem hm)
    simp only [permute, List.getElem_map]
    rw [getD_map_range_lt _ hpm, hnd.idxOf_getElem, List.getD_eq_getElem]

theorem permute_inj {p s i i' : List Nat} (hp : p.Perm (List.range s.length)) (h : i.length = s.length) (h' : i'.length = s.length)
    (e : permute p i = permute p i') : i = i' := by
  refine List.ext_getElem (by omega) fun k h1 h2 => ?_
  have hk : k ∈ p := hp.mem_iff.2 (by simp; omega)
  have hx : p.idxOf k < p.length := List.idxOf_lt_length_iff.2 hk
  have hpk : p[p.idxOf k]? = some k := by rw [List.getElem?_eq_getElem hx, List.getElem_idxOf]
  have := congrArg (fun l => l.getD (p.idxOf k) 0) e
  simp only [getD_permute hpk] at this
  rwa [List.getD_eq_getElem _ _ h1, List.getD_eq_getElem _ _ h2] at this

theorem transpose_iff [Zero α] {X Y : Tensor α} {p : List Nat} : tf.transpose X p = .ok Y ↔ IsTransposed p X Y := by
  constructor
  · intro h
    by_cases hp : p.Perm (List.range X.order)
    swap
    · rw [transpose_error hp] at h; cases h
    obtain ⟨r, hr, hs, he⟩ := transpose_spec hp
    rw [h] at hr; cases hr
    exact ⟨hp, hs, fun i hi => (he i hi).2⟩
  · intro h
    obtain ⟨r, hr, hs, he⟩ := transpose_spec (t := X) h.perm
    rw [hr]
    congr 1
    refine ext_at (hs.trans h.shape.symm) fun j hj => ?_
    rw [hs] at hj
    obtain ⟨i, hi, rfl⟩ := permute_surj h.perm hj
    exact (he i hi).2.trans (h.entry i hi).symm

/-- A sum over all entries does not depend on the order of the modes. -/
theorem boxSum_permute [AddCommMonoid β] {p s : List Nat} (hp : p.Perm (List.range s.length)) (F : List Nat → β) :
    boxSum (permute p s) F = boxSum s fun i => F (permute p i) := by
  have h : IsTransposed p (ofFn s fun i => F (permute p i)) (ofFn (permute p s) F) := by
    refine ⟨hp, rfl, fun i hi => ?_⟩
    rw [at_ofFn (s := permute p s) _ (InB_permute hp hi), at_ofFn (s := s) _ hi]
  have := (transpose_data_perm (transpose_iff.2 h)).sum_eq
  rw [sum_data, sum_data] at this
  rw [boxSum_congr (s := permute p s) (g := (ofFn (permute p s) F).at_) fun i hi => (at_ofFn _ hi).symm,
    boxSum_congr (s := s) (g := (ofFn s fun i => F (permute p i)).at_) fun i hi => (at_ofFn _ hi).symm]
  exact this

theorem Spec.IsTransposed.boxSum [Zero α] [AddCommMonoid β] {X Y : Tensor α} {p : List Nat} (h : IsTransposed p X Y)
    (F : List Nat → β) : boxSum Y.shape F = boxSum X.shape fun i => F (permute p i) := by
  rw [h.shape]; exact boxSum_permute h.perm F

/-! ### Lists of factors -/

theorem Spec.Picked.get {p : List Nat} {A A' : List β} (h : Picked p A A') {k n : Nat} (hk : p[k]? = some n) : A'[k]? = A[n]? := by
  have := congrArg (fun l => l[k]?) h
  simp only [List.getElem?_map, hk, Option.map_some] at this
  cases e : A'[k]? with
  | none => rw [e] at this; cases this
  | some a => rw [e] at this; exact (Option.some.inj this)

theorem Spec.Picked.length {p : List Nat} {A A' : List β} (h : Picked p A A') : A'.length = p.length := by
  simpa using congrArg List.length h

theorem Spec.Picked.of_get {p : List Nat} {A A' : List β} (hl : A'.length = p.length)
    (h : ∀ (k n : Nat), p[k]? = some n → A'[k]? = A[n]?) : Picked p A A' := by
  refine List.ext_getElem (by simpa using hl) fun k h1 h2 => ?_
  have hk : k < p.length := by simpa using h2
  have hk' : k < A'.length := by simpa using h1
  simp only [List.getElem_map]
  rw [← h k _ (List.getElem?_eq_getElem hk), List.getElem?_eq_getElem hk']

theorem Spec.Picked.map {γ : Type} {p : List Nat} {A A' : List β} (h : Picked p A A') (f : β → γ) : Picked p (A.map f) (A'.map f) := by
  refine Picked.of_get (by rw [List.length_map, h.length]) fun k n hk => ?_
  rw [List.getElem?_map, List.getElem?_map, h.get hk]

/-- Exists when the modes exist. -/
theorem exists_picked {p : List Nat} {A : List β} (hp : p.Perm (List.range A.length)) : ∃ A', Picked p A A' := by
  have h : ∀ k ∈ p, k < A.length := fun k hk => by simpa using hp.mem_iff.1 hk
  clear hp
  induction p with
  | nil => exact ⟨[], rfl⟩
  | cons k p ih =>
      obtain ⟨A', hA'⟩ := ih fun k hk => h k (by simp [hk])
      refine ⟨A[k]'(h k (by simp)) :: A', ?_⟩
      unfold Picked at hA' ⊢
      rw [List.map_cons, List.map_cons, hA', List.getElem?_eq_getElem (h k (by simp))]

theorem permute_of_picked {p l l' : List Nat} (h : Picked p l l') : l' = permute p l := by
  refine List.ext_getElem (by rw [h.length, length_permute]) fun k h1 h2 => ?_
  have hk : k < p.length := by rw [← h.length]; exact h1
  have e := h.get (List.getElem?_eq_getElem hk)
  rw [List.getElem?_eq_getElem h1] at e
  simp [permute, ← e]

section prods
variable [CommMonoid α] [Zero α]

omit [Zero α] in
/-- `∏_k f_k`, over the modes in any order. -/
theorem prod_permute {N : Nat} {p : List Nat} (hp : p.Perm (List.range N)) (f : Nat → α) :
    ((List.range N).map f).prod = (p.map f).prod := (hp.map f).prod_eq.symm

theorem kronEntry_prod : ∀ {A : List (Tensor α)} {i j : List Nat}, i.length = A.length → j.length = A.length →
    kronEntry A i j = ((List.range A.length).map fun k => (A[k]?.map fun M => M.at_ [i.getD k 0, j.getD k 0]).getD 1).prod
  | [], i, j, _, _ => by cases i <;> simp [kronEntry]
  | M :: A, [], _, h, _ => by simp at h
  | M :: A, _ :: _, [], _, h => by simp at h
  | M :: A, a :: i, b :: j, h, h' => by
      rw [kronEntry, kronEntry_prod (A := A) (by simpa using h) (by simpa using h'), List.length_cons, List.range_succ_eq_map,
        List.map_cons, List.prod_cons, List.map_map]
      rfl

theorem khatriEntry_prod (r : Nat) : ∀ {A : List (Tensor α)} {i : List Nat}, i.length = A.length →
    khatriEntry r A i = ((List.range A.length).map fun k => (A[k]?.map fun M => M.at_ [i.getD k 0, r]).getD 1).prod
  | [], i, _ => by cases i <;> simp [khatriEntry]
  | M :: A, [], h => by simp at h
  | M :: A, a :: i, h => by
      rw [khatriEntry, khatriEntry_prod r (A := A) (by simpa using h), List.length_cons, List.range_succ_eq_map,
        List.map_cons, List.prod_cons, List.map_map]
      rfl

theorem map_range_pick {γ : Type} {p : List Nat} (f g : Nat → γ) (h : ∀ (k n : Nat), p[k]? = some n → f k = g n) :
    (List.range p.length).map f = p.map g := by
  refine List.ext_getElem (by simp) fun k h1 h2 => ?_
  have hk : k < p.length := by simpa using h1
  simp only [List.getElem_map, List.getElem_range]
  exact h k _ (List.getElem?_eq_getElem hk)

theorem kronEntry_permute {p : List Nat} {A A' : List (Tensor α)} (hp : p.Perm (List.range A.length)) (h : Picked p A A')
    {i j : List Nat} (hi : i.length = A.length) (hj : j.length = A.length) :
    kronEntry A' (permute p i) (permute p j) = kronEntry A i j := by
  rw [kronEntry_prod hi hj, kronEntry_prod (by rw [length_permute, h.length]) (by rw [length_permute, h.length]),
    prod_permute hp, h.length]
  congr 1
  refine map_range_pick _ _ fun k n hk => ?_
  rw [h.get hk, getD_permute hk, getD_permute hk]

theorem khatriEntry_permute {p : List Nat} {A A' : List (Tensor α)} (hp : p.Perm (List.range A.length)) (h : Picked p A A')
    {i : List Nat} (hi : i.length = A.length) (r : Nat) :
    khatriEntry r A' (permute p i) = khatriEntry r A i := by
  rw [khatriEntry_prod r hi, khatriEntry_prod r (by rw [length_permute, h.length]), prod_permute hp, h.length]
  congr 1
  refine map_range_pick _ _ fun k n hk => ?_
  rw [h.get hk, getD_permute hk]

end prods

theorem rowDims_picked {p : List Nat} {A A' : List (Tensor α)} (h : Picked p A A') : rowDims A' = permute p (rowDims A) :=
  permute_of_picked (h.map fun M => M.shape.getD 0 0)

theorem colDims_picked {p : List Nat} {A A' : List (Tensor α)} (h : Picked p A A') : colDims A' = permute p (colDims A) :=
  permute_of_picked (h.map fun M => M.shape.getD 1 0)

/-! ### Entrywise operations and losses -/

section entrywise
variable {p : List Nat} {X Y Z W : Tensor ℝ}

theorem Spec.IsTransposed.map (h : IsTransposed p X Y) (f : ℝ → ℝ) : IsTransposed p (tf.map f X) (tf.map f Y) := by
  refine ⟨h.perm, h.shape, fun i hi => ?_⟩
  have hi : InB X.shape i := hi
  rw [at_map f _ (by rw [h.shape]; exact InB_permute h.perm hi), at_map f _ hi, h.entry i hi]

theorem Spec.IsTransposed.ewise (h : IsTransposed p X Y) (h' : IsTransposed p Z W) (hs : X.shape = Z.shape) (f : ℝ → ℝ → ℝ) :
    ∃ U V, tf.ewise f X Z = .ok U ∧ tf.ewise f Y W = .ok V ∧ IsTransposed p U V ∧ U.shape = X.shape := by
  have hs' : Y.shape = W.shape := by rw [h.shape, h'.shape, hs]
  refine ⟨_, _, ewise_same f hs, ewise_same f hs', ⟨h.perm, h.shape, fun i hi => ?_⟩, rfl⟩
  have hi : InB X.shape i := hi
  rw [at_ofFn _ (by rw [h.shape]; exact InB_permute h.perm hi), at_ofFn _ hi, h.entry i hi, h'.entry i (by rw [← hs]; exact hi)]

theorem Spec.IsTransposed.reduceSum (h : IsTransposed p X Y) : tf.reduceSum Y = tf.reduceSum X :=
  (transpose_data_perm (transpose_iff.2 h)).sum_eq

theorem Spec.IsTransposed.norm (h : IsTransposed p X Y) : tf.norm Y = tf.norm X := by
  unfold tf.norm
  rw [(h.map _).reduceSum]

theorem Spec.IsTransposed.rmseIgnoreZero (h : IsTransposed p X Y) (h' : IsTransposed p Z W) (hs : X.shape = Z.shape) :
    loss.rmseIgnoreZero Y W = loss.rmseIgnoreZero X Z := by
  have hs' : Y.shape = W.shape := by rw [h.shape, h'.shape, hs]
  unfold loss.rmseIgnoreZero loss.nonzero
  rw [if_neg (not_not.2 hs), if_neg (not_not.2 hs')]
  obtain ⟨U, V, e1, e2, h1, s1⟩ := h'.ewise (h.map fun x => if x ≠ 0 then 1 else 0) hs.symm (· * ·)
  rw [e1, e2, ok_bind, ok_bind]
  obtain ⟨U', V', e1, e2, h2, s2⟩ := h.ewise h1 (by rw [s1, hs]) (· - ·)
  rw [e1, e2, ok_bind, ok_bind]
  rw [(h2.map _).reduceSum, (h.map _).reduceSum]

theorem Spec.IsTransposed.scalars (h : IsTransposed p X Y) (h' : IsTransposed p Z W) (hs : X.shape = Z.shape) :
    cp.scalars Y W = cp.scalars X Z := by
  unfold cp.scalars
  obtain ⟨U, V, e1, e2, h1, s1⟩ := h'.ewise h hs.symm (· - ·)
  rw [h.rmseIgnoreZero h' hs, e1, e2, h.norm]
  simp only [ok_bind, h1.norm]

end entrywise

/-! ### Unfoldings -/

theorem set_permute {p s i : List Nat} {k n : Nat} (hp : p.Perm (List.range s.length)) (hk : p[k]? = some n) (hi : i.length = s.length)
    (b : Nat) : (permute p i).set k b = permute p (i.set n b) := by
  have hnd : p.Nodup := hp.nodup_iff.2 List.nodup_range
  obtain ⟨hkl, hkn⟩ := List.getElem?_eq_some_iff.1 hk
  have hn : n < i.length := by rw [hi, ← hkn]; simpa using hp.mem_iff.1 (List.getElem_mem hkl)
  refine List.ext_getElem (by simp [permute]) fun m h1 h2 => ?_
  have hm : m < p.length := by rw [length_permute] at h2; exact h2
  rw [List.getElem_set]
  simp only [permute, List.getElem_map, List.getD_eq_getElem?_getD, List.getElem?_set]
  by_cases e : k = m
  · subst e
    rw [if_pos rfl, if_pos hkn.symm, if_pos (by omega)]
    rfl
  · rw [if_neg e, if_neg]
    intro e'
    exact e ((List.Nodup.getElem_inj_iff hnd).1 (hkn.trans e'))

theorem insertIdx_set_self {γ : Type} (a b : γ) : ∀ (l : List γ) (n : Nat), (l.insertIdx n a).set n b = l.insertIdx n b
  | l, 0 => by simp
  | [], n + 1 => by simp
  | x :: l, n + 1 => by simp [insertIdx_set_self a b l n]

theorem unkolda_replace (s : List Nat) (n a b j : Nat) : (unkolda s n a j).set n b = unkolda s n b j :=
  insertIdx_set_self _ _ _ _


/-- The Gram matrix of an unfolding, as a sum over all entries. -/
theorem gram_unfM {X : Tensor ℝ} {n : Nat} (hn : n < X.shape.length) {m J : Nat} (hm : X.shape.getD n 0 = m)
    (hJ : otherSize X.shape n = J) (a b : Fin m) :
    (unfM X n m J * (unfM X n m J)ᵀ) a b =
      boxSum X.shape fun i => if i.getD n 0 = a then X.at_ i * X.at_ (i.set n b) else 0 := by
  subst hm hJ
  rw [boxSum_unkolda hn, Matrix.mul_apply, Finset.sum_eq_single (a : Nat)]
  · rw [Finset.sum_range]
    refine Finset.sum_congr rfl fun j _ => ?_
    rw [if_pos (unkolda_facts hn _ _).2.1, unkolda_replace]
    rfl
  · intro c _ hc
    refine Finset.sum_eq_zero fun j _ => if_neg ?_
    rw [(unkolda_facts hn _ _).2.1]
    exact hc
  · intro h
    exact absurd (Finset.mem_range.2 a.isLt) h

/-- Transposing the data keeps the Gram matrices of the unfoldings. -/
theorem Spec.IsTransposed.gram {X Y : Tensor ℝ} {p : List Nat} (h : IsTransposed p X Y) {k n : Nat} (hk : p[k]? = some n) {m J J' : Nat}
    (hm : X.shape.getD n 0 = m) (hJ : otherSize X.shape n = J) (hJ' : otherSize Y.shape k = J') :
    unfM Y k m J' * (unfM Y k m J')ᵀ = unfM X n m J * (unfM X n m J)ᵀ := by
  obtain ⟨hkl, hkn⟩ := List.getElem?_eq_some_iff.1 hk
  have hn : n < X.shape.length := by rw [← hkn]; simpa using h.perm.mem_iff.1 (List.getElem_mem hkl)
  have hpl : p.length = X.shape.length := by simpa using h.perm.length_eq
  have hYl : Y.shape.length = p.length := by rw [h.shape, length_permute]
  have hYk : Y.shape.getD k 0 = m := by rw [h.shape, getD_permute hk, hm]
  ext a b
  rw [gram_unfM hn hm hJ, gram_unfM (by omega) hYk hJ', h.boxSum]
  refine boxSum_congr fun i hi => ?_
  rw [getD_permute hk, set_permute h.perm hk hi.length, h.entry i hi]
  by_cases e : i.getD n 0 = a
  · rw [if_pos e, if_pos e, h.entry]
    rw [InB_iff_getD] at hi ⊢
    refine ⟨by rw [List.length_set]; exact hi.1, fun q hq => ?_⟩
    rw [List.getD_eq_getElem?_getD, List.getElem?_set]
    by_cases e' : n = q
    · subst e'
      rw [if_pos rfl, if_pos (by rw [hi.1]; exact hn), Option.getD_some, hm]
      exact b.isLt
    · rw [if_neg e', ← List.getD_eq_getElem?_getD]
      exact hi.2 q hq
  · rw [if_neg e, if_neg e]

theorem frobSq_gram {m n q : Nat} (Q : Mat m q) (M : Mat m n) : frobSq (Qᵀ * M) = (Qᵀ * (M * Mᵀ) * Q).trace := by
  rw [frobSq_eq_trace, transpose_mul, transpose_transpose, trace_mul_comm]
  simp only [Matrix.mul_assoc]

/-- Leading singular subspaces depend on the Gram matrix only. -/
theorem Spec.Separated.gram {m n n' r : Nat} {M : Mat m n} {M' : Mat m n'} (h : Separated M r) (hG : M' * M'ᵀ = M * Mᵀ) {U s V U' s' V'}
    (hM : IsThinSVD M U s V) (hM' : IsThinSVD M' U' s' V') (hr : r ≤ min m n) (hr' : r ≤ min m n') :
    cols U' r hr' * (cols U' r hr')ᵀ = cols U r hr * (cols U r hr)ᵀ := by
  refine h.unique hM hr (cols_orth hM'.orthU hr') ?_
  have := hM'.kyFan hr' (cols_orth hM.orthU hr)
  rw [frobSq_gram, frobSq_gram, hG] at this
  rwa [frobSq_gram, frobSq_gram]

theorem otherSize_permute {p s : List Nat} (hp : p.Perm (List.range s.length)) {k n : Nat} (hk : p[k]? = some n) :
    otherSize (permute p s) k = otherSize s n := by
  have hnd : p.Nodup := hp.nodup_iff.2 List.nodup_range
  have hpl : p.length = s.length := by simpa using hp.length_eq
  obtain ⟨hkl, hkn⟩ := List.getElem?_eq_some_iff.1 hk
  unfold otherSize
  rw [length_permute]
  refine Finset.prod_bij (fun a _ => p.getD a 0) (fun a ha => ?_) (fun a ha b hb e => ?_) (fun b hb => ?_) fun a ha => ?_
  · have hal : a < p.length := Finset.mem_range.1 (Finset.mem_erase.1 ha).2
    rw [List.getD_eq_getElem _ _ hal]
    refine Finset.mem_erase.2 ⟨fun e => (Finset.mem_erase.1 ha).1 ((hnd.getElem_inj_iff).1 (e.trans hkn.symm)), ?_⟩
    simpa using hp.mem_iff.1 (List.getElem_mem hal)
  · have hal : a < p.length := Finset.mem_range.1 (Finset.mem_erase.1 ha).2
    have hbl : b < p.length := Finset.mem_range.1 (Finset.mem_erase.1 hb).2
    rw [List.getD_eq_getElem _ _ hal, List.getD_eq_getElem _ _ hbl] at e
    exact (hnd.getElem_inj_iff).1 e
  · have hb' : b ∈ p := hp.mem_iff.2 (by simpa using (Finset.mem_erase.1 hb).2)
    obtain ⟨a, ha, rfl⟩ := List.mem_iff_getElem.1 hb'
    refine ⟨a, Finset.mem_erase.2 ⟨?_, Finset.mem_range.2 ha⟩, List.getD_eq_getElem _ _ ha⟩
    rintro rfl
    exact (Finset.mem_erase.1 hb).1 hkn
  · have hal : a < p.length := Finset.mem_range.1 (Finset.mem_erase.1 ha).2
    rw [getD_permute (List.getElem?_eq_getElem hal), List.getD_eq_getElem p _ hal]

/-! ### HOSVD -/

/-- The entries of the approximation, from the projections. -/
theorem tucker_full_at {X g Y : Tensor ℝ} {U : List (Tensor ℝ)} (hne : X.shape ≠ []) (h13 : X.order ≤ 13)
    (hm : AllMat U) (hr : rowDims U = X.shape) (hg : ttm X U none true = .ok g) (hY : tucker.fullOf g U = .ok Y) :
    Y.shape = X.shape ∧ ∀ i, InB X.shape i → Y.at_ i = boxSum X.shape fun j => kronEntry (U.map projOf) i j * X.at_ j := by
  have hrT : rowDims (U.map projOf) = X.shape := by
    rw [← hr]; unfold rowDims
    rw [List.map_map]; rfl
  have hcT : X.shape = colDims (U.map projOf) := by
    rw [← hr]; unfold rowDims colDims
    rw [List.map_map]; rfl
  have e := tucker_full_proj hne h13 hm hr hg hY
  obtain ⟨a1, a2⟩ := modeProds_all X (U.map projOf) hcT
  rw [List.length_map] at a1 a2
  rw [e]
  exact ⟨a1.trans hrT, fun i hi => a2 i (by rw [hrT]; exact hi)⟩

/-- The squared norm of the core, from the approximation. -/
theorem core_norm {X g Y : Tensor ℝ} {U : List (Tensor ℝ)} (hne : X.shape ≠ []) (h13 : X.order ≤ 13)
    (hm : AllMat U) (hr : rowDims U = X.shape) (hg : ttm X U none true = .ok g) (hY : tucker.fullOf g U = .ok Y) :
    normSqT g = boxSum X.shape fun i => X.at_ i * Y.at_ i := by
  obtain ⟨g', Y', e1, e2, hgs, hYs, hge, hYe⟩ := tucker_entries hne h13 hm hr
  rw [hg] at e1; cases e1
  rw [hY] at e2; cases e2
  rw [boxSum_congr (g := fun i => boxSum g.shape fun j => g.at_ j * (kronEntry U i j * X.at_ i)) (fun i hi => by
    rw [hYe i hi, ← boxSum_mul_left]; exact boxSum_congr fun j _ => by ring), boxSum_swap]
  refine boxSum_congr fun j hj => ?_
  rw [boxSum_mul_left, ← hge j hj]; ring

variable {svd svd' : Tensor ℝ → Res (Tensor ℝ × Tensor ℝ × Tensor ℝ)} {X Y : Tensor ℝ} {ranks : List Nat} {p : List Nat}

theorem hosvd_transposed (hs : SvdOk svd) (hs' : SvdOk svd') (h1 : 1 ≤ X.order) (h13 : X.order ≤ 13)
    (hpos : ∀ d ∈ X.shape, 0 < d) (hlen : X.order ≤ ranks.length) (h : IsTransposed p X Y)
    (hsep : ∀ n < X.order, ∀ M, unfold X n = .ok M → Separated (toMat M (X.shape.getD n 0) (otherSize X.shape n))
      (min (ranks.getD n 0) (min (X.shape.getD n 0) (otherSize X.shape n)))) :
    ∃ A A' g g' full full', tucker.HOSVD.run svd X ranks = .ok (A, g, full) ∧
      tucker.HOSVD.run svd' Y (permute p ranks) = .ok (A', g', full') ∧ IsTransposed p full full' ∧ full.shape = X.shape ∧
      Picked p (A.map projector) (A'.map projector) ∧ normSqT g' = normSqT g := by
  have hpl : p.length = X.shape.length := by simpa using h.perm.length_eq
  have hYo : Y.order = X.order := by unfold order; rw [h.shape, length_permute, hpl]
  have hposY : ∀ d ∈ Y.shape, 0 < d := by
    intro d hd
    rw [h.shape] at hd
    obtain ⟨n, hn, rfl⟩ := List.mem_map.1 hd
    exact getD_pos_of hpos (by simpa using h.perm.mem_iff.1 hn)
  have hne : X.shape ≠ [] := by intro e; unfold order at h1; rw [e] at h1; simp at h1
  have hneY : Y.shape ≠ [] := by intro e; unfold order at h1 hYo; rw [e] at hYo; simp at hYo; omega
  obtain ⟨A, g, F, a1, a2, a3, a4, a5, a6⟩ := hosvd_ok hs h1 h13 hpos hlen
  obtain ⟨A', g', F', b1, b2, b3, b4, b5, b6⟩ := hosvd_ok (ranks := permute p ranks) hs' (X := Y) (by omega) (by omega) hposY
    (by rw [length_permute, hYo, hpl]; rfl)
  have hP : Picked p (A.map projector) (A'.map projector) := by
    refine Picked.of_get (by rw [List.length_map, b4.1, h.shape, length_permute]) fun k n hk => ?_
    obtain ⟨hkl, hkn⟩ := List.getElem?_eq_some_iff.1 hk
    have hn : n < X.shape.length := by rw [← hkn]; simpa using h.perm.mem_iff.1 (List.getElem_mem hkl)
    obtain ⟨M, U, s, V, hr, c1, c2, c3, c4⟩ := a6 n hn
    obtain ⟨M', U', s', V', hr', d1, d2, d3, d4⟩ := b6 k (by rw [hYo]; unfold order; omega)
    rw [List.getElem?_map, List.getElem?_map, c1, d1, Option.map_some, Option.map_some]
    congr 1
    have hm : Y.shape.getD k 0 = X.shape.getD n 0 := by rw [h.shape, getD_permute hk]
    have hJ : otherSize Y.shape k = otherSize X.shape n := by rw [h.shape, otherSize_permute h.perm hk]
    have hrk : (permute p ranks).getD k 0 = ranks.getD n 0 := getD_permute hk
    obtain ⟨T, hT⟩ : ∃ T, unfold X n = .ok T := ⟨_, unfold_closed X hn (getD_pos_of hpos hn)⟩
    have hS := hsep n hn T hT
    rw [(toMat_unfold hn (getD_pos_of hpos hn) hT).2] at hS
    have key : ∀ (m' J' r' : Nat), m' = X.shape.getD n 0 → J' = otherSize X.shape n → r' = ranks.getD n 0 →
        ∀ U' s' V' (hr' : min r' (min m' J') ≤ min m' J'), M'.shape = [m', min r' (min m' J')] →
        IsThinSVD (unfM Y k m' J') U' s' V' → toMat M' m' (min r' (min m' J')) = cols U' _ hr' → projector M' = projector M := by
      rintro _ _ _ rfl rfl rfl U' s' V' hr' d2 d3 d4
      rw [projector_congr d2 c2, d4, c4]
      exact hS.gram (h.gram hk rfl rfl hJ) c3 d3 _ _
    exact key _ _ _ hm hJ hrk U' s' V' hr' d2 d3 d4
  obtain ⟨f1, f2⟩ := tucker_full_at hne h13 a4.allMat a4.rowDims a2 a3
  obtain ⟨f1', f2'⟩ := tucker_full_at hneY (by omega) b4.allMat b4.rowDims b2 b3
  have hF : IsTransposed p F F' := by
    refine ⟨by rw [f1]; exact h.perm, by rw [f1', f1, h.shape], fun i hi => ?_⟩
    rw [f1] at hi
    rw [f2 i hi, f2' _ (by rw [h.shape]; exact InB_permute h.perm hi), h.boxSum]
    refine boxSum_congr fun j hj => ?_
    rw [h.entry j hj, kronEntry_permute (A := A.map projOf) (A' := A'.map projOf) (by rw [List.length_map, a4.1]; exact h.perm) hP
      (by rw [hi.length, List.length_map, a4.1]) (by rw [hj.length, List.length_map, a4.1])]
  refine ⟨A, A', g, g', F, F', a1, b1, hF, f1, hP, ?_⟩
  rw [core_norm hne h13 a4.allMat a4.rowDims a2 a3, core_norm hneY (by omega) b4.allMat b4.rowDims b2 b3, h.boxSum]
  exact boxSum_congr fun i hi => by rw [h.entry i hi, hF.entry i (by rw [f1]; exact hi)]

end TD
