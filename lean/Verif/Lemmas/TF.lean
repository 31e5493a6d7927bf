import Mathlib.Data.List.Range
import Mathlib.Data.List.Sort
import Verif.Lemmas.Tensor
import Verif.Model.Ops

namespace TD

theorem getD_map_of_lt {β γ : Type} (l : List β) (f : β → γ) (k : Nat) (d : β) (e : γ)
    (h : k < l.length) : (l.map f).getD k e = f (l.getD k d) := by
  rw [List.getD_eq_getElem _ _ (by simpa using h), List.getD_eq_getElem _ _ h]; simp

theorem map_getD_range (l : List Nat) (n : Nat) (h : l.length = n) :
    (List.range n).map (fun k => l.getD k 0) = l := by
  subst h
  apply List.ext_getElem
  · simp
  · intro k h1 h2
    simp only [List.getElem_map, List.getElem_range]
    rw [List.getD_eq_getElem _ _ h2]

theorem getD_map_idxOf {γ : Type} (p : List Nat) (g : Nat → γ) (e : γ) {k : Nat} (h : k ∈ p) :
    (p.map g).getD (p.idxOf k) e = g k := by
  have hl := List.idxOf_lt_length_iff.2 h
  rw [List.getD_eq_getElem _ _ (by simpa using hl)]
  simp

theorem map_idxOf_self {p : List Nat} (h : p.Nodup) :
    p.map (fun k => p.idxOf k) = List.range p.length := by
  apply List.ext_getElem
  · simp
  · intro k h1 h2
    simp only [List.getElem_map, List.getElem_range]
    exact h.idxOf_getElem k (by simpa using h1)

theorem InB_map {l : List Nat} {f g : Nat → Nat} : InB (l.map f) (l.map g) ↔ ∀ k ∈ l, g k < f k := by
  induction l with
  | nil => simp
  | cons a l ih => simp [ih]

theorem InB_append {s1 s2 i1 i2 : List Nat} (h : i1.length = s1.length) :
    InB (s1 ++ s2) (i1 ++ i2) ↔ InB s1 i1 ∧ InB s2 i2 := by
  induction s1 generalizing i1 with
  | nil => simp at h; simp [h]
  | cons a s ih =>
      cases i1 with
      | nil => simp at h
      | cons b i => simp at h; simp [ih h, and_assoc]

theorem ravel_append {s1 s2 i1 i2 : List Nat} (h : i1.length = s1.length) :
    ravel (s1 ++ s2) (i1 ++ i2) = ravel s1 i1 * s2.prod + ravel s2 i2 := by
  induction s1 generalizing i1 with
  | nil => simp at h; simp [h, ravel]
  | cons a s ih =>
      cases i1 with
      | nil => simp at h
      | cons b i =>
          simp at h
          simp [ravel, ih h]; ring

theorem ravel_pair (m n i j : Nat) : ravel [m, n] [i, j] = i * n + j := by simp [ravel]

namespace tf
open Tensor
variable {α : Type}

theorem transpose_eq [Zero α] {t : Tensor α} {p : List Nat} (hp : p.Perm (List.range t.order)) :
    transpose t p = .ok (ofFn (p.map fun k => t.shape.getD k 0) fun idx =>
      t.at_ ((List.range t.order).map fun k => idx.getD (p.idxOf k) 0)) := by
  unfold transpose; rw [if_pos hp]

theorem transpose_error [Zero α] {t : Tensor α} {p : List Nat} (hp : ¬ p.Perm (List.range t.order)) :
    transpose t p = .error .invalidArgument := by
  unfold transpose; rw [if_neg hp]

/-- Entry form of `transpose` : the new index is the old one read through `perm`. -/
theorem transpose_spec [Zero α] {t : Tensor α} {p : List Nat} (hp : p.Perm (List.range t.order)) :
    ∃ r, transpose t p = .ok r ∧ r.shape = p.map (fun k => t.shape.getD k 0) ∧
      ∀ idx, InB t.shape idx → InB r.shape (p.map fun k => idx.getD k 0) ∧
        r.at_ (p.map fun k => idx.getD k 0) = t.at_ idx := by
  refine ⟨_, transpose_eq hp, rfl, fun idx hidx => ?_⟩
  have hin : InB (p.map fun k => t.shape.getD k 0) (p.map fun k => idx.getD k 0) := by
    rw [InB_map]
    intro k hk
    have hk' : k < t.shape.length := by simpa [order] using (hp.mem_iff.1 hk)
    exact (InB_iff_getD.1 hidx).2 k hk'
  refine ⟨hin, ?_⟩
  rw [at_ofFn _ hin]
  congr 1
  calc (List.range t.order).map (fun k => (p.map fun k => idx.getD k 0).getD (p.idxOf k) 0)
      = (List.range t.order).map (fun k => idx.getD k 0) := by
        apply List.map_congr_left
        intro k hk
        exact getD_map_idxOf p _ _ (hp.mem_iff.2 hk)
    _ = idx := map_getD_range _ _ hidx.length

theorem transpose_ok_length [Zero α] {t r : Tensor α} {p : List Nat} (h : transpose t p = .ok r) :
    r.data.length = t.data.length := by
  unfold transpose at h
  split at h
  · rename_i hp
    simp only [Except.ok.injEq] at h
    subst h
    rw [Tensor.wf, Tensor.wf, shape_ofFn]
    have h1 : (p.map fun k => t.shape.getD k 0).Perm ((List.range t.order).map fun k => t.shape.getD k 0) :=
      hp.map _
    rw [h1.prod_eq, map_getD_range _ t.order rfl]
  · simp at h

theorem transpose_inv [Zero α] {t r : Tensor α} {p : List Nat} (h : transpose t p = .ok r) :
    transpose r ((List.range p.length).map p.idxOf) = .ok t := by
  unfold transpose at h
  split at h
  swap
  · simp at h
  rename_i hp
  simp only [Except.ok.injEq] at h
  have hlen : p.length = t.order := by simpa using hp.length_eq
  have hnd : p.Nodup := hp.nodup_iff.2 List.nodup_range
  have hro : r.order = t.order := by subst h; simp [order, hlen]
  have hq : ((List.range p.length).map p.idxOf).Perm (List.range r.order) := by
    rw [hro, ← hlen]
    have h1 : ((List.range p.length).map p.idxOf).Perm (p.map p.idxOf) := by
      rw [hlen]; exact (hp.map _).symm
    exact h1.trans (by rw [map_idxOf_self hnd])
  obtain ⟨u, hu, hus, hua⟩ := transpose_spec hq
  rw [hu]
  congr 1
  have hrs : r.shape = p.map (fun k => t.shape.getD k 0) := by subst h; rfl
  have hmem : ∀ k ∈ List.range p.length, k ∈ p := fun k hk => by
    rw [hlen] at hk; exact hp.mem_iff.2 hk
  have hshape : u.shape = t.shape := by
    rw [hus, hrs, List.map_map]
    rw [← map_getD_range t.shape p.length hlen.symm]
    apply List.map_congr_left
    intro k hk
    simp only [Function.comp]
    rw [getD_map_idxOf _ _ _ (hmem k hk), map_getD_range t.shape p.length hlen.symm]
  apply ext_at hshape
  intro idx hidx
  rw [hshape] at hidx
  obtain ⟨r', hr', hrs', hra'⟩ := transpose_spec hp
  have : r' = r := by
    have := transpose_eq hp; rw [hr', h] at this; simpa using this
  subst this
  obtain ⟨hb, hb'⟩ := hra' idx hidx
  have := hua _ hb
  rw [hb'] at this
  rw [← this.2]
  congr 1
  rw [List.map_map]
  rw [← map_getD_range idx p.length (by rw [hlen]; exact hidx.length)]
  apply List.map_congr_left
  intro k hk
  simp only [Function.comp]
  rw [map_getD_range idx p.length (by rw [hlen]; exact hidx.length)]
  rw [getD_map_idxOf _ _ _ (hmem k hk)]

theorem reshapeDims_nat (n : Nat) (s : List Nat) :
    reshapeDims n (s.map fun k : Nat => (k : Int)) = .ok s := by
  unfold reshapeDims
  have h1 : ¬ ((s.map fun k : Nat => (k : Int)).any (· < -1)) = true := by
    simp only [List.any_map, List.any_eq_true, not_exists, not_and]
    intro k _; simp only [Function.comp, decide_eq_true_eq]; omega
  have h2 : (s.map fun k : Nat => (k : Int)).count (-1) = 0 := by
    rw [List.count_eq_zero]; simp
  rw [if_neg h1, if_pos h2, List.map_map]
  congr 1
  conv_rhs => rw [← List.map_id s]
  apply List.map_congr_left; intro k _; simp

theorem reshape_nat {t : Tensor α} {s : List Nat} (h : t.data.length = s.prod) :
    reshape t (s.map fun k : Nat => (k : Int)) = .ok ⟨s, t.data, h⟩ := by
  unfold reshape
  rw [reshapeDims_nat]
  simp only
  rw [dif_pos h]

theorem reshape_nat_error {t : Tensor α} {s : List Nat} (h : t.data.length ≠ s.prod) :
    reshape t (s.map fun k : Nat => (k : Int)) = .error .invalidArgument := by
  unfold reshape
  rw [reshapeDims_nat]
  simp only
  rw [dif_neg h]

theorem reshape_infer {t : Tensor α} {m c : Nat} (hm : 0 < m) (h : t.data.length = m * c) :
    reshape t [(m : Int), -1] = .ok ⟨[m, c], t.data, by simp [h]⟩ := by
  unfold reshape
  have hd : reshapeDims t.data.length [(m : Int), -1] = .ok [m, c] := by
    unfold reshapeDims
    have hne : (m : Int) ≠ -1 := by omega
    have hge : ¬ (m : Int) < -1 := by omega
    simp [hge, h, hne, hm.ne', Nat.mul_div_cancel_left _ hm]
  rw [hd]
  simp only
  rw [dif_pos (by simp [h])]

theorem reshape_infer_zero {t : Tensor α} :
    reshape t [((0 : Nat) : Int), -1] = .error .invalidArgument := by
  unfold reshape reshapeDims
  simp

theorem reshape_flat (t : Tensor α) :
    reshape t [-1] = .ok ⟨[t.data.length], t.data, by simp⟩ := by
  unfold reshape
  have hd : reshapeDims t.data.length [-1] = .ok [t.data.length] := by
    unfold reshapeDims
    simp [Nat.mod_one]
  rw [hd]
  simp only
  rw [dif_pos (by simp)]

/-- Reading a reshaped tensor. -/
theorem at_reshaped [Zero α] (t : Tensor α) {s idx idx' : List Nat} (h : t.data.length = s.prod)
    (hr : ravel s idx' = ravel t.shape idx) :
    (⟨s, t.data, h⟩ : Tensor α).at_ idx' = t.at_ idx := by
  unfold at_; simp only [hr]

end tf

namespace ops

theorem erase_range_reverse {n N : Nat} :
    (List.range N).reverse.erase n = ((List.range N).filter (· ≠ n)).reverse := by
  rw [List.Nodup.erase_eq_filter (by simpa using List.nodup_range), List.filter_reverse]
  congr 1
  apply List.filter_congr
  intro x _
  by_cases h : x = n <;> simp [h]

theorem genPerm_ok {N n : Nat} (h : n < N) :
    genPerm N (n : Int) = .ok (n :: ((List.range N).filter (· ≠ n)).reverse) := by
  unfold genPerm pyRemove
  rw [if_pos (by simp [h])]
  simp only [Int.toNat_natCast, erase_range_reverse]

theorem genPerm_error {N : Nat} {m : Int} (h : m < 0 ∨ (N : Int) ≤ m) :
    genPerm N m = .error .valueError := by
  unfold genPerm pyRemove
  rw [if_neg]
  simp only [List.mem_reverse, List.mem_range, not_and]
  intro h0
  omega

theorem genPerm_perm {N n : Nat} (h : n < N) :
    (n :: ((List.range N).filter (· ≠ n)).reverse).Perm (List.range N) := by
  have h1 : (((List.range N).filter (· ≠ n)).reverse).Perm ((List.range N).erase n) := by
    rw [List.Nodup.erase_eq_filter List.nodup_range]
    refine (List.reverse_perm _).trans ?_
    apply List.Perm.of_eq
    apply List.filter_congr
    intro x _
    by_cases h : x = n <;> simp [h]
  exact (h1.cons n).trans (List.perm_cons_erase (by simpa using h)).symm

theorem argsort_eq {p : List Nat} {N : Nat} (hp : p.Perm (List.range N)) :
    argsort p = (List.range p.length).map p.idxOf := by
  have hnd : p.Nodup := hp.nodup_iff.2 List.nodup_range
  have hlen : p.length = N := by simpa using hp.length_eq
  unfold argsort
  set L := p.zipIdx.mergeSort (fun a b => decide (a.1 ≤ b.1)) with hL
  have hperm : L.Perm p.zipIdx := List.mergeSort_perm _ _
  have hsort : L.Pairwise (fun a b => a.1 ≤ b.1) := by
    have := List.pairwise_mergeSort (le := fun (a b : Nat × Nat) => decide (a.1 ≤ b.1))
      (fun a b c => by simp; omega) (fun a b => by simp; omega) p.zipIdx
    simpa using this
  have hfst : L.map Prod.fst = List.range N := by
    have h1 : (L.map Prod.fst).Perm (List.range N) := by
      refine (hperm.map _).trans ?_
      have h2 : p.zipIdx.map Prod.fst = p := by simp
      rw [h2]
      exact hp
    refine List.Perm.eq_of_pairwise (le := (· ≤ ·)) ?_ ?_ ?_ h1
    · intro a b _ _ h1 h2; exact Nat.le_antisymm h1 h2
    · rw [List.pairwise_map]; exact hsort
    · exact (List.pairwise_lt_range (n := N)).imp (fun h => Nat.le_of_lt h)
  have hsnd : ∀ q ∈ L, q.2 = p.idxOf q.1 := by
    intro q hq
    have hq' := hperm.mem_iff.1 hq
    rw [List.mem_zipIdx_iff_getElem?] at hq'
    obtain ⟨hlt, he⟩ := List.getElem?_eq_some_iff.1 hq'
    rw [← he, hnd.idxOf_getElem]
  calc L.map Prod.snd = L.map (fun q => p.idxOf q.1) := List.map_congr_left hsnd
    _ = (L.map Prod.fst).map p.idxOf := by rw [List.map_map]; rfl
    _ = _ := by rw [hfst, hlen]

end ops
end TD
