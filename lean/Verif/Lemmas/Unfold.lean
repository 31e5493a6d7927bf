import Mathlib.Algebra.BigOperators.Intervals
import Verif.Lemmas.TF
import Verif.Spec.Unfold

namespace TD
open Spec
variable {α : Type}

theorem ravel_map (shape idx l : List Nat) :
    ravel (l.map fun k => shape.getD k 0) (l.map fun k => idx.getD k 0) = axesRank shape idx l := by
  induction l with
  | nil => rfl
  | cons a l ih => simp only [List.map_cons, ravel, axesRank, ih]

theorem restProd (s : Nat → Nat) (n N : Nat) :
    ((((List.range N).filter (· ≠ n)).reverse).map s).prod = ∏ m ∈ (Finset.range N).erase n, s m := by
  induction N with
  | zero => simp
  | succ N ih =>
      rw [List.range_succ, List.filter_append, List.reverse_append, List.map_append,
        List.prod_append, ih, Finset.range_add_one]
      by_cases h : N = n
      · subst h
        simp
      · rw [Finset.erase_insert_of_ne h, Finset.prod_insert (by simp)]
        simp [h]

theorem restRank (shape idx : List Nat) (n N : Nat) :
    axesRank shape idx ((List.range N).filter (· ≠ n)).reverse =
      ∑ k ∈ (Finset.range N).erase n,
        idx.getD k 0 * ∏ m ∈ (Finset.range k).erase n, shape.getD m 0 := by
  induction N with
  | zero => simp [axesRank]
  | succ N ih =>
      rw [List.range_succ, List.filter_append, List.reverse_append, Finset.range_add_one]
      by_cases h : N = n
      · subst h
        simp only [ne_eq, not_true_eq_false, decide_false, Bool.false_eq_true, not_false_eq_true,
          List.filter_cons_of_neg, List.filter_nil, List.reverse_nil, List.nil_append]
        rw [ih]
        congr 1
        ext x; simp
      · rw [Finset.erase_insert_of_ne h, Finset.sum_insert (by simp)]
        rw [← ih]
        have : ([N].filter (· ≠ n)).reverse = [N] := by simp [h]
        rw [this]
        simp only [List.singleton_append, axesRank]
        rw [restProd]

namespace ops
open Tensor

/-- Row-major size of a list of axes that is a permutation of all axes. -/
theorem prod_map_perm {shape p : List Nat} (hp : p.Perm (List.range shape.length)) :
    (p.map fun k => shape.getD k 0).prod = shape.prod := by
  rw [(hp.map fun k => shape.getD k 0).prod_eq, map_getD_range _ _ rfl]

/-- Entry form of `unfold`. -/
theorem unfold_spec [Zero α] (X : Tensor α) {n : Nat} (hn : n < X.order)
    (hpos : 0 < X.shape.getD n 0) :
    ∃ M, unfold X n = .ok M ∧ M.shape = [X.shape.getD n 0, otherSize X.shape n] ∧
      ∀ idx, InB X.shape idx → idx.getD n 0 < X.shape.getD n 0 ∧
        koldaCol X.shape idx n < otherSize X.shape n ∧
        M.at_ [idx.getD n 0, koldaCol X.shape idx n] = X.at_ idx := by
  set L := ((List.range X.order).filter (· ≠ n)).reverse with hL
  have hp : (n :: L).Perm (List.range X.order) := genPerm_perm hn
  obtain ⟨r, hr, hrs, hra⟩ := tf.transpose_spec hp
  have hother : (L.map fun k => X.shape.getD k 0).prod = otherSize X.shape n := by
    rw [hL, restProd]; rfl
  have hlen : r.data.length = X.shape.getD n 0 * otherSize X.shape n := by
    rw [r.wf, hrs, List.map_cons, List.prod_cons, hother]
  refine ⟨⟨[X.shape.getD n 0, otherSize X.shape n], r.data, by simp [hlen]⟩, ?_, rfl, ?_⟩
  · unfold ops.unfold
    rw [genPerm_ok hn]
    show (tf.transpose X (n :: L) >>= fun tr => tf.reshape tr _) = _
    rw [hr]
    show tf.reshape r _ = _
    rw [Int.toNat_natCast, tf.reshape_infer hpos hlen]
  · intro idx hidx
    obtain ⟨hb, ha⟩ := hra idx hidx
    have hrank : ravel (L.map fun k => X.shape.getD k 0) (L.map fun k => idx.getD k 0) =
        koldaCol X.shape idx n := by
      rw [ravel_map, hL, restRank]; rfl
    rw [hrs, List.map_cons, List.map_cons, InB_cons] at hb
    refine ⟨hb.1, ?_, ?_⟩
    · have := ravel_lt hb.2
      rwa [hrank, hother] at this
    · rw [← ha]
      apply tf.at_reshaped
      rw [hrs, ravel_pair, List.map_cons, List.map_cons]
      simp only [ravel]
      rw [hother, hrank]

end ops

theorem kolda_bijective (shape : List Nat) (n : Nat) (hn : n < shape.length)
    (i j : Nat) (hi : i < shape.getD n 0) (hj : j < otherSize shape n) :
    ∃! idx, InB shape idx ∧ idx.getD n 0 = i ∧ koldaCol shape idx n = j := by
  set L := ((List.range shape.length).filter (· ≠ n)).reverse with hL
  have hp : (n :: L).Perm (List.range shape.length) := ops.genPerm_perm hn
  have hnd : (n :: L).Nodup := hp.nodup_iff.2 List.nodup_range
  have hother : (L.map fun k => shape.getD k 0).prod = otherSize shape n := by
    rw [hL, restProd]; rfl
  have hrank : ∀ idx : List Nat, ravel (L.map fun k => shape.getD k 0) (L.map fun k => idx.getD k 0) =
      koldaCol shape idx n := fun idx => by
    rw [ravel_map, hL, restRank]; rfl
  have hins : ∀ idx, InB shape idx →
      InB ((n :: L).map fun k => shape.getD k 0) ((n :: L).map fun k => idx.getD k 0) := by
    intro idx h
    rw [InB_map]
    intro k hk
    have hk' : k < shape.length := by simpa using (hp.mem_iff.1 hk)
    exact (InB_iff_getD.1 h).2 k hk'
  -- the digits of `j`
  set ds := unravel (L.map fun k => shape.getD k 0) j with hds
  have hdsB : InB (L.map fun k => shape.getD k 0) ds := unravel_inB (by rw [hother]; exact hj)
  set q := i :: ds with hq
  have hqlen : q.length = (n :: L).length := by
    have := hdsB.length; simp [hq, this]
  set idx0 := (List.range shape.length).map (fun k => q.getD ((n :: L).idxOf k) 0) with hidx0
  have hread : (n :: L).map (fun k => idx0.getD k 0) = q := by
    have h1 : ∀ k ∈ n :: L, idx0.getD k 0 = q.getD ((n :: L).idxOf k) 0 := by
      intro k hk
      have hk' : k < shape.length := by simpa using (hp.mem_iff.1 hk)
      rw [hidx0, getD_map_of_lt _ _ _ 0 _ (by simpa using hk')]
      congr 2
      rw [List.getD_eq_getElem _ _ (by simpa using hk')]
      simp
    rw [List.map_congr_left h1]
    have h2 := map_idxOf_self hnd
    calc (n :: L).map (fun k => q.getD ((n :: L).idxOf k) 0)
        = ((n :: L).map (fun k => (n :: L).idxOf k)).map (fun k => q.getD k 0) := by
          rw [List.map_map]; rfl
      _ = q := by rw [h2]; exact map_getD_range _ _ hqlen
  rw [List.map_cons, hq, List.cons.injEq] at hread
  refine ⟨idx0, ⟨?_, hread.1, ?_⟩, ?_⟩
  · rw [InB_iff_getD]
    refine ⟨by simp [hidx0], fun k hk => ?_⟩
    have hk' : k ∈ n :: L := hp.mem_iff.2 (by simpa using hk)
    rcases List.mem_cons.1 hk' with rfl | hkL
    · rw [hread.1]; exact hi
    · have := hdsB
      rw [← hread.2, InB_map] at this
      exact this k hkL
  · rw [← hrank, hread.2, hds, ravel_unravel (by rw [hother]; exact hj)]
  · rintro idx ⟨hB, h1, h2⟩
    have hB' := hins idx hB
    rw [List.map_cons, List.map_cons, InB_cons] at hB'
    have hL' : L.map (fun k => idx.getD k 0) = ds := by
      rw [hds, ← h2, ← hrank idx, unravel_ravel hB'.2]
    rw [← map_getD_range idx shape.length hB.length, ← map_getD_range idx0 shape.length (by simp [hidx0])]
    apply List.map_congr_left
    intro k hk
    rcases List.mem_cons.1 (hp.mem_iff.2 hk) with rfl | hkL
    · rw [h1, hread.1]
    · have h3 : L.map (fun k => idx.getD k 0) = L.map (fun k => idx0.getD k 0) := by
        rw [hL', hread.2]
      exact (List.map_inj_left.1 h3) k hkL


end TD
