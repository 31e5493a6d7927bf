import Verif.Lemmas.Unfold

/-!
# C01, C02, C03 : `unfold` and `fold`
-/
namespace TD.Props
open TD Tensor Spec
variable {α : Type} [Zero α]

/-- **C01** (entry map). -/
theorem C01_unfold_entry (X : Tensor α) (n : Nat) (hn : n < X.order)
    (hpos : 0 < X.shape.getD n 0) :
    ∃ M, ops.unfold X n = .ok M ∧ M.shape = [X.shape.getD n 0, otherSize X.shape n] ∧
      ∀ idx, InB X.shape idx → idx.getD n 0 < X.shape.getD n 0 ∧
        koldaCol X.shape idx n < otherSize X.shape n ∧
        M.at_ [idx.getD n 0, koldaCol X.shape idx n] = X.at_ idx :=
  ops.unfold_spec X hn hpos

/-- **C01** (every matrix cell is used exactly once). -/
theorem C01_unfold_bijective (shape : List Nat) (n : Nat) (hn : n < shape.length)
    (i j : Nat) (hi : i < shape.getD n 0) (hj : j < otherSize shape n) :
    ∃! idx, InB shape idx ∧ idx.getD n 0 = i ∧ koldaCol shape idx n = j :=
  kolda_bijective shape n hn i j hi hj

/-- The hypotheses are met by the `3x4x2` tensor of the docstring (`ops.py:60-70`), and the column of
`X[2,1,1]` in the mode-1 unfolding is `2 + 3*1 = 5`. -/
example : (1 : Nat) < (Tensor.ofFn [3, 4, 2] (fun i => ravel [3, 4, 2] i)).order ∧
    0 < (Tensor.ofFn [3, 4, 2] (fun i => ravel [3, 4, 2] i)).shape.getD 1 0 ∧
    InB [3, 4, 2] [2, 1, 1] ∧ koldaCol [3, 4, 2] [2, 1, 1] 1 = 5 := by decide

/-- **C02** (`fold` undoes `unfold`). -/
theorem C02_fold_unfold (X M : Tensor α) (n : Nat) (h : ops.unfold X n = .ok M) :
    ops.fold M n X.shape = .ok X := by
  have hn : n < X.order := by
    by_contra hlt
    unfold ops.unfold at h
    rw [ops.genPerm_error (Or.inr (by exact_mod_cast Nat.le_of_not_lt hlt))] at h
    cases h
  set L := ((List.range X.order).filter (· ≠ n)).reverse with hL
  have hp : (n :: L).Perm (List.range X.order) := ops.genPerm_perm hn
  obtain ⟨r, hr, hrs, -⟩ := tf.transpose_spec hp
  have hother : (L.map fun k => X.shape.getD k 0).prod = otherSize X.shape n := by
    rw [hL, restProd]; rfl
  have hlen : r.data.length = X.shape.getD n 0 * otherSize X.shape n := by
    rw [r.wf, hrs, List.map_cons, List.prod_cons, hother]
  unfold ops.unfold at h
  rw [ops.genPerm_ok hn] at h
  change (tf.transpose X (n :: L) >>= fun tr => tf.reshape tr _) = _ at h
  rw [hr] at h
  change tf.reshape r _ = _ at h
  rw [Int.toNat_natCast] at h
  rcases Nat.eq_zero_or_pos (X.shape.getD n 0) with h0 | hpos
  · rw [h0, tf.reshape_infer_zero] at h; cases h
  rw [tf.reshape_infer hpos hlen] at h
  simp only [Except.ok.injEq] at h
  subst h
  unfold ops.fold
  rw [show X.shape.length = X.order from rfl, ops.genPerm_ok hn]
  change (tf.reshape _ (List.map _ (n :: L)) >>= fun r => tf.transpose r (ops.argsort (n :: L))) = _
  have hmap : (n :: L).map (fun k => ((X.shape.getD k 0 : Nat) : Int)) =
      ((n :: L).map fun k => X.shape.getD k 0).map (fun k : Nat => (k : Int)) := by
    rw [List.map_map]; rfl
  rw [hmap, tf.reshape_nat (s := (n :: L).map fun k => X.shape.getD k 0) (by
    simp only [List.map_cons, List.prod_cons, hother]; exact hlen)]
  change tf.transpose _ (ops.argsort (n :: L)) = _
  rw [ops.argsort_eq hp]
  have : (⟨(n :: L).map fun k => X.shape.getD k 0, r.data, by
      simp only [List.map_cons, List.prod_cons, hother]; exact hlen⟩ : Tensor α) = r := by
    cases r; simp only at hrs; subst hrs; rfl
  rw [this]
  exact tf.transpose_inv hr

/-- **C02** (`unfold` undoes `fold`), including that both succeed. -/
theorem C02_unfold_fold (M : Tensor α) (n : Nat) (shape : List Nat) (hn : n < shape.length)
    (hpos : 0 < shape.getD n 0) (hM : M.shape = [shape.getD n 0, otherSize shape n]) :
    ∃ X, ops.fold M n shape = .ok X ∧ X.shape = shape ∧ ops.unfold X n = .ok M := by
  set L := ((List.range shape.length).filter (· ≠ n)).reverse with hL
  have hp : (n :: L).Perm (List.range shape.length) := ops.genPerm_perm hn
  have hnd : (n :: L).Nodup := hp.nodup_iff.2 List.nodup_range
  have hother : (L.map fun k => shape.getD k 0).prod = otherSize shape n := by
    rw [hL, restProd]; rfl
  have hlen : M.data.length = ((n :: L).map fun k => shape.getD k 0).prod := by
    rw [M.wf, hM]; simp only [List.map_cons, List.prod_cons, List.prod_nil, hother, mul_one]
  set r : Tensor α := ⟨(n :: L).map fun k => shape.getD k 0, M.data, hlen⟩ with hrdef
  have hpl : (n :: L).length = shape.length := by simpa using hp.length_eq
  have hro : r.order = shape.length := by rw [← hpl]; simp [hrdef, order]
  set q := (List.range (n :: L).length).map (n :: L).idxOf with hq
  have hqp : q.Perm (List.range r.order) := by
    rw [hro, ← hpl]
    refine List.Perm.trans ?_ (by rw [map_idxOf_self hnd] : ((n :: L).map (fun k => (n :: L).idxOf k)).Perm _)
    rw [hq, hpl]; exact (hp.map _).symm
  obtain ⟨X, hX, hXs, hXa⟩ := tf.transpose_spec (t := r) hqp
  have hXshape : X.shape = shape := by
    rw [hXs, hq, List.map_map, hpl]
    conv_rhs => rw [← map_getD_range shape shape.length rfl]
    apply List.map_congr_left
    intro k hk
    simp only [Function.comp, hrdef]
    exact getD_map_idxOf _ _ _ (hp.mem_iff.2 hk)
  refine ⟨X, ?_, hXshape, ?_⟩
  · unfold ops.fold
    rw [ops.genPerm_ok hn]
    change (tf.reshape _ (List.map _ (n :: L)) >>= fun r => tf.transpose r (ops.argsort (n :: L))) = _
    have hmap : (n :: L).map (fun k => ((shape.getD k 0 : Nat) : Int)) =
        ((n :: L).map fun k => shape.getD k 0).map (fun k : Nat => (k : Int)) := by
      rw [List.map_map]; rfl
    rw [hmap, tf.reshape_nat hlen]
    change tf.transpose r (ops.argsort (n :: L)) = _
    rw [ops.argsort_eq hp]
    exact hX
  · have hinv := tf.transpose_inv hX
    have hqinv : (List.range q.length).map q.idxOf = n :: L := by
      have hqn : q.Nodup := hqp.nodup_iff.2 List.nodup_range
      have hql : q.length = (n :: L).length := by simp [hq]
      apply List.ext_getElem
      · simp [hq]
      · intro k h1 h2
        simp only [List.getElem_map, List.getElem_range]
        have hk : (n :: L)[k] < shape.length := by
          have := hp.mem_iff.1 (List.getElem_mem h2); simpa using this
        have hgk : q[(n :: L)[k]]'(by rw [hql, hpl]; exact hk) = k := by
          simp only [hq, List.getElem_map, List.getElem_range]
          exact hnd.idxOf_getElem k h2
        have := hqn.idxOf_getElem ((n :: L)[k]) (by rw [hql, hpl]; exact hk)
        rw [hgk] at this
        exact this
    rw [hqinv] at hinv
    unfold ops.unfold
    rw [show X.order = shape.length by rw [order, hXshape], ops.genPerm_ok hn]
    change (tf.transpose X (n :: L) >>= fun tr => tf.reshape tr _) = _
    rw [hinv]
    change tf.reshape r _ = _
    rw [Int.toNat_natCast, hXshape, tf.reshape_infer hpos (c := otherSize shape n) (by
      rw [r.wf]; simp only [hrdef, List.map_cons, List.prod_cons, hother])]
    congr 1
    cases M; simp only at hM; subst hM; rfl

example : (1 : Nat) < [3, 4, 2].length ∧ 0 < [3, 4, 2].getD 1 0 ∧
    (Tensor.mat 4 6 (fun i j => i + j)).shape = [[3, 4, 2].getD 1 0, otherSize [3, 4, 2] 1] := by decide

/-- **C03** (bad modes are rejected by both functions). -/
theorem C03_bad_mode_raises (X M : Tensor α) (shape : List Nat) (m : Int) :
    (m < 0 ∨ (X.order : Int) ≤ m → ops.unfold X m = .error .valueError) ∧
    (m < 0 ∨ (shape.length : Int) ≤ m → ops.fold M m shape = .error .valueError) := by
  constructor
  · intro h; unfold ops.unfold; rw [ops.genPerm_error h]; rfl
  · intro h; unfold ops.fold; rw [ops.genPerm_error h]; rfl

/-- **C03** (acceptance of `unfold`): it succeeds exactly on a mode in range whose dimension is
non-zero.  (A zero dimension makes TensorFlow's `-1` inference fail.) -/
theorem C03_unfold_succeeds_iff (X : Tensor α) (m : Int) :
    (∃ M, ops.unfold X m = .ok M) ↔ 0 ≤ m ∧ m < X.order ∧ 0 < X.shape.getD m.toNat 0 := by
  constructor
  · rintro ⟨M, h⟩
    by_cases hm : m < 0 ∨ (X.order : Int) ≤ m
    · rw [(C03_bad_mode_raises X X [] m).1 hm] at h; cases h
    · rw [not_or, not_lt, not_le] at hm
      refine ⟨hm.1, hm.2, ?_⟩
      obtain ⟨n, rfl⟩ := Int.eq_ofNat_of_zero_le hm.1
      have hn : n < X.order := by exact_mod_cast hm.2
      rw [Int.toNat_natCast]
      by_contra h0
      have h0 : X.shape.getD n 0 = 0 := by omega
      unfold ops.unfold at h
      rw [ops.genPerm_ok hn] at h
      change (tf.transpose X _ >>= fun tr => tf.reshape tr _) = _ at h
      obtain ⟨r, hr, -⟩ := tf.transpose_spec (ops.genPerm_perm hn)
      rw [hr] at h
      change tf.reshape r _ = _ at h
      rw [Int.toNat_natCast, h0, tf.reshape_infer_zero] at h
      cases h
  · rintro ⟨h0, h1, h2⟩
    obtain ⟨n, rfl⟩ := Int.eq_ofNat_of_zero_le h0
    obtain ⟨M, hM, -⟩ := ops.unfold_spec X (n := n) (by exact_mod_cast h1) (by simpa using h2)
    exact ⟨M, hM⟩

/-- **C03** (acceptance of `fold`): it succeeds exactly on a mode in range when the element counts
agree, and then the result has the requested shape. -/
theorem C03_fold_succeeds_iff (M : Tensor α) (m : Int) (shape : List Nat) :
    (∃ X, ops.fold M m shape = .ok X) ↔
      0 ≤ m ∧ m < shape.length ∧ M.data.length = shape.prod := by
  by_cases hm : m < 0 ∨ (shape.length : Int) ≤ m
  · constructor
    · rintro ⟨X, h⟩
      rw [(C03_bad_mode_raises M M shape m).2 hm] at h; cases h
    · rintro ⟨h0, h1, -⟩; omega
  · rw [not_or, not_lt, not_le] at hm
    obtain ⟨n, rfl⟩ := Int.eq_ofNat_of_zero_le hm.1
    have hn : n < shape.length := by exact_mod_cast hm.2
    set L := ((List.range shape.length).filter (· ≠ n)).reverse with hL
    have hp : (n :: L).Perm (List.range shape.length) := ops.genPerm_perm hn
    have hprod := ops.prod_map_perm hp
    have hmap : (n :: L).map (fun k => ((shape.getD k 0 : Nat) : Int)) =
        ((n :: L).map fun k => shape.getD k 0).map (fun k : Nat => (k : Int)) := by
      rw [List.map_map]; rfl
    unfold ops.fold
    rw [ops.genPerm_ok hn]
    change (∃ X, (tf.reshape _ (List.map _ (n :: L)) >>= fun r =>
      tf.transpose r (ops.argsort (n :: L))) = .ok X) ↔ _
    rw [hmap]
    by_cases hlen : M.data.length = shape.prod
    · refine ⟨fun _ => ⟨hm.1, hm.2, hlen⟩, fun _ => ?_⟩
      rw [tf.reshape_nat (by rw [hprod]; exact hlen)]
      change ∃ X, tf.transpose _ (ops.argsort (n :: L)) = .ok X
      rw [ops.argsort_eq hp]
      have hnd : (n :: L).Nodup := hp.nodup_iff.2 List.nodup_range
      have hpl : (n :: L).length = shape.length := by simpa using hp.length_eq
      have hqp : ((List.range (n :: L).length).map (n :: L).idxOf).Perm
          (List.range ((n :: L).map fun k => shape.getD k 0).length) := by
        rw [List.length_map]
        refine List.Perm.trans ?_ (by rw [map_idxOf_self hnd] : ((n :: L).map (fun k => (n :: L).idxOf k)).Perm _)
        rw [hpl]; exact (hp.map _).symm
      obtain ⟨X, hX, -⟩ := tf.transpose_spec
        (t := ⟨(n :: L).map fun k => shape.getD k 0, M.data, by rw [hprod]; exact hlen⟩) hqp
      exact ⟨X, hX⟩
    · refine ⟨?_, fun h => absurd h.2.2 hlen⟩
      rw [tf.reshape_nat_error (by rw [hprod]; exact hlen)]
      rintro ⟨X, h⟩; cases h

example : ((-1 : Int) < 0) ∧ ((3 : Int) ≥ (Tensor.ofFn [3, 4, 2] (fun i => ravel [3, 4, 2] i)).order) := by
  decide

end TD.Props
