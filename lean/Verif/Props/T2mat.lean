import Mathlib.Algebra.Ring.Int.Defs
import Verif.Lemmas.Mul

/-!
# C04 – C07 : `t2mat`, axis arguments, `vectorize`, `vec_to_tensor`
-/
namespace TD.Props
open TD Tensor Spec ops
variable {α : Type} [Zero α]

/-- Is the axis argument a tuple? -/
def isTuple : Axis → Bool
  | .tuple _ => true
  | _ => false

/-- **C04** (entry map).  `r` and `c` may be ints, lists, or both tuples; together they must name
every axis exactly once. -/
theorem C04_t2mat_entry (X : Tensor α) (r c : Axis) (hk : isTuple r = isTuple c)
    (hp : (r.elems ++ c.elems).Perm (List.range X.order)) :
    ∃ M, t2mat X r (.ax c) = .ok M ∧ M.shape = [axesSize X.shape r.elems, axesSize X.shape c.elems] ∧
      ∀ idx, InB X.shape idx →
        axesRank X.shape idx r.elems < axesSize X.shape r.elems ∧
        axesRank X.shape idx c.elems < axesSize X.shape c.elems ∧
        M.at_ [axesRank X.shape idx r.elems, axesRank X.shape idx c.elems] = X.at_ idx := by
  have hlt : ∀ i ∈ r.elems, i < X.order := fun i hi => by
    have := hp.mem_iff.1 (List.mem_append_left _ hi); simpa using this
  have key : t2mat X r (.ax c) = t2mat X (.list r.elems) (.ax (.list c.elems)) := by
    cases r <;> cases c <;> simp [isTuple] at hk <;>
      simp only [Axis.elems, t2mat_int_eq, t2mat_cint_eq, t2mat_tuple_eq]
  rw [key, t2mat_list_eq _ _ _ hlt]
  exact t2mat_core X _ _ hp

example : ((Axis.list [2, 0]).elems ++ (Axis.int 1).elems).Perm
    (List.range (Tensor.ofFn [3, 4, 2] (fun i => ravel [3, 4, 2] i)).order) := by decide

/-- **C04** (`c_axis = -1` means the remaining axes in ascending order). -/
theorem C04_t2mat_rest (X : Tensor α) (r : Axis) (hk : isTuple r = false) :
    t2mat X r .rest = t2mat X r (.ax (.list (freeAxes X.order r.elems))) := by
  cases r with
  | int i =>
      rw [t2mat_int_eq]
      have h : t2mat X (.int i) .rest = t2mat X (.list [i]) .rest := by
        unfold t2mat t2matSt
        dsimp only
        cases dimsAt X.shape [i] <;> rfl
      rw [h, t2mat_rest_eq]; rfl
  | list l => exact t2mat_rest_eq X l
  | tuple l => simp [isTuple] at hk

/-- **C04** (link with `unfold`: remaining axes in *descending* order). -/
theorem C04_unfold_eq_t2mat (X : Tensor α) (n : Nat) (hn : n < X.order) (hpos : 0 < X.shape.getD n 0) :
    unfold X n = t2mat X (.int n) (.ax (.list (freeAxes X.order [n]).reverse)) := by
  have hfree : freeAxes X.order [n] = (List.range X.order).filter (· ≠ n) := by
    unfold freeAxes
    apply List.filter_congr
    intro x _; simp
  rw [t2mat_int_eq, t2mat_list_eq _ _ _ (by simpa using hn), hfree]
  have hp := genPerm_perm hn
  obtain ⟨r, hr, hrs, -⟩ := tf.transpose_spec hp
  set L := ((List.range X.order).filter (· ≠ n)).reverse with hL
  have hmem : ∀ i ∈ L, i < X.shape.length := by
    intro i hi; simp [hL] at hi; exact hi.1
  rw [dimsAt_ok hmem]
  change _ = (tf.transpose X (n :: L) >>= fun tr => tf.reshape tr _)
  unfold ops.unfold
  rw [genPerm_ok hn]
  change (tf.transpose X (n :: L) >>= fun tr => tf.reshape tr _) = _
  rw [hr, ok_bind, ok_bind]
  have hlen : r.data.length = X.shape.getD n 0 * (L.map fun k => X.shape.getD k 0).prod := by
    rw [r.wf, hrs, List.map_cons, List.prod_cons]
  rw [Int.toNat_natCast, tf.reshape_infer hpos hlen]
  have := tf.reshape_nat (t := r) (s := [X.shape.getD n 0, (L.map fun k => X.shape.getD k 0).prod])
    (by simpa using hlen)
  simp only [List.map_cons, List.map_nil, List.prod_cons, List.prod_nil, mul_one] at this ⊢
  rw [this]

/-- **C04** (rejection): axes that are not a permutation of all axes never give a result. -/
theorem C04_t2mat_rejects (X : Tensor α) (r c : Axis)
    (hp : ¬ (r.elems ++ c.elems).Perm (List.range X.order)) :
    ∀ M, t2mat X r (.ax c) ≠ .ok M := by
  intro M h
  have core : ∀ rl cl : List Nat, ¬ (rl ++ cl).Perm (List.range X.order) →
      ∀ M, t2mat X (.list rl) (.ax (.list cl)) ≠ .ok M := by
    intro rl cl hp M h
    unfold t2mat t2matSt at h
    dsimp only at h
    cases hd : dimsAt X.shape rl with
    | error e => rw [hd] at h; cases h
    | ok rd =>
        rw [hd] at h
        dsimp only at h
        cases hc : dimsAt X.shape cl with
        | error e => rw [hc] at h; cases h
        | ok cd =>
            rw [hc, tf.transpose_error hp] at h
            cases h
  cases r <;> cases c <;> simp only [Axis.elems] at hp <;>
    first
    | ((try simp only [t2mat_int_eq, t2mat_cint_eq, t2mat_tuple_eq] at h); exact core _ _ hp M h)
    | (unfold t2mat t2matSt at h; dsimp only at h; split at h <;> cases h)

/-- **C05** is false of the code: for *every* tensor, every list `l` of valid row axes and every int
column axis `k`, the caller's list is `l ++ [k]` after the call. -/
theorem C05_list_argument_is_modified_false (X : Tensor α) (l : List Nat) (k : Nat)
    (hl : ∀ i ∈ l, i < X.order) :
    (t2matSt X (.list l) (.ax (.int k))).2 = .list (l ++ [k]) := by
  unfold t2matSt
  dsimp only
  rw [dimsAt_ok hl]

/-- The documented call `t2mat(X, [1, 0], 2)` on a `2x3x4` tensor modifies its argument. -/
example : (t2matSt (Tensor.ofFn [2, 3, 4] (fun i => ravel [2, 3, 4] i)) (.list [1, 0]) (.ax (.int 2))).2
    = .list [1, 0, 2] := by
  apply C05_list_argument_is_modified_false
  decide

/-- **C05** (partial): in every other combination of argument kinds the row argument is unchanged.
(Column arguments are never aliased by the code: the model returns no new value for them.)
Missing: the combination list/int, where the claim is false. -/
theorem C05_arguments_unchanged_partial (X : Tensor α) (r : Axis) (c : CAxis)
    (h : ¬ ((∃ l, r = .list l) ∧ ∃ k, c = .ax (.int k))) : (t2matSt X r c).2 = r := by
  unfold t2matSt
  cases r with
  | int i =>
      dsimp only
      cases dimsAt X.shape [i] with
      | error e => rfl
      | ok rd => cases c with
        | rest => rfl
        | ax a => cases a <;> rfl
  | list l =>
      dsimp only
      cases dimsAt X.shape l with
      | error e => rfl
      | ok rd => cases c with
        | rest => rfl
        | ax a => cases a with
          | int k => exact absurd ⟨⟨l, rfl⟩, ⟨k, rfl⟩⟩ h
          | list m => rfl
          | tuple m => rfl
  | tuple l =>
      dsimp only
      cases dimsAt X.shape l with
      | error e => rfl
      | ok rd => cases c with
        | rest => rfl
        | ax a => cases a <;> rfl

example : ¬ ((∃ l, Axis.list [1, 0] = .list l) ∧ ∃ k, CAxis.ax (.list [2]) = .ax (.int k)) := by simp

/-- **C07** (`vectorize` is row-major): entry `∑_k i_k ∏_{m>k} I_m` of the vector is `X[i]`. -/
theorem C07_vectorize_entry (X : Tensor α) :
    ∃ v, vectorize X = .ok v ∧ v.shape = [X.shape.prod] ∧ v.data = X.data ∧
      ∀ idx, InB X.shape idx → axesRank X.shape idx (List.range X.order) < X.shape.prod ∧
        v.at_ [axesRank X.shape idx (List.range X.order)] = X.at_ idx := by
  refine ⟨_, tf.reshape_flat X, by simp [X.wf], rfl, fun idx hidx => ?_⟩
  have hr : axesRank X.shape idx (List.range X.order) = ravel X.shape idx := by
    rw [← ravel_map, map_getD_range _ X.order rfl, map_getD_range _ X.order hidx.length]
  rw [hr]
  refine ⟨ravel_lt hidx, ?_⟩
  apply tf.at_reshaped
  simp [ravel]

omit [Zero α] in
/-- **C07** (round trip). -/
theorem C07_vec_to_tensor_vectorize (X v : Tensor α) (h : vectorize X = .ok v) :
    vecToTensor v (X.shape.map fun k : Nat => (k : Int)) = .ok X := by
  unfold vectorize at h
  rw [tf.reshape_flat] at h
  simp only [Except.ok.injEq] at h
  subst h
  exact tf.reshape_nat X.wf

omit [Zero α] in
/-- **C07** (round trip, other direction). -/
theorem C07_vectorize_vec_to_tensor (v X : Tensor α) (n : Nat) (hv : v.shape = [n]) (s : List Nat)
    (h : vecToTensor v (s.map fun k : Nat => (k : Int)) = .ok X) : X.shape = s ∧ vectorize X = .ok v := by
  unfold vecToTensor at h
  by_cases hl : v.data.length = s.prod
  · rw [tf.reshape_nat hl] at h
    simp only [Except.ok.injEq] at h
    subst h
    refine ⟨rfl, ?_⟩
    unfold vectorize
    rw [tf.reshape_flat]
    congr 1
    cases v with
    | mk sh d w =>
      simp only at hv; subst hv
      simp only [Tensor.mk.injEq, and_true]
      simpa using w
  · rw [tf.reshape_nat_error hl] at h; cases h

omit [Zero α] in
/-- **C07** (size mismatch raises, match succeeds). -/
theorem C07_vec_to_tensor_accepts_iff (v : Tensor α) (s : List Nat) :
    (∃ X, vecToTensor v (s.map fun k : Nat => (k : Int)) = .ok X) ↔ v.data.length = s.prod := by
  unfold vecToTensor
  constructor
  · rintro ⟨X, h⟩
    by_contra hl
    rw [tf.reshape_nat_error hl] at h; cases h
  · intro hl; exact ⟨_, tf.reshape_nat hl⟩

example : (Tensor.ofFn [6] (fun i => ravel [6] i)).data.length = [2, 3].prod ∧
    ∃ X, vecToTensor (Tensor.ofFn [6] (fun i => ravel [6] i)) ([2, 3].map fun k : Nat => (k : Int)) = .ok X :=
  ⟨by decide, (C07_vec_to_tensor_accepts_iff _ _).2 (by decide)⟩

end TD.Props
