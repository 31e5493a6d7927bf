import Mathlib.Tactic.Ring
import Mathlib.Tactic.Linarith
import Mathlib.Data.List.Perm.Basic
import Mathlib.Data.List.Nodup
import Mathlib.Data.List.GetD
import Verif.Model.Tensor

namespace TD

@[simp] theorem ok_bind {β γ : Type} (a : β) (f : β → Res γ) : ((.ok a : Res β) >>= f) = f a := rfl
@[simp] theorem error_bind {β γ : Type} (e : PyErr) (f : β → Res γ) :
    ((.error e : Res β) >>= f) = .error e := rfl

@[simp] theorem InB_nil (idx : List Nat) : InB [] idx ↔ idx = [] := by
  unfold InB; exact List.forall₂_nil_right_iff

@[simp] theorem InB_nil_left (s : List Nat) : InB s [] ↔ s = [] := by
  unfold InB; exact List.forall₂_nil_left_iff

@[simp] theorem InB_cons (n i : Nat) (s is : List Nat) :
    InB (n :: s) (i :: is) ↔ i < n ∧ InB s is := by
  unfold InB; exact List.forall₂_cons

theorem InB.length {s idx : List Nat} (h : InB s idx) : idx.length = s.length :=
  List.Forall₂.length_eq h

theorem InB_iff_getElem {s idx : List Nat} :
    InB s idx ↔ idx.length = s.length ∧ ∀ k (h : k < idx.length) (h' : k < s.length), idx[k] < s[k] := by
  unfold InB
  rw [List.forall₂_iff_get]
  simp [List.get_eq_getElem]

theorem InB_iff_getD {s idx : List Nat} :
    InB s idx ↔ idx.length = s.length ∧ ∀ k < s.length, idx.getD k 0 < s.getD k 0 := by
  rw [InB_iff_getElem]
  constructor
  · rintro ⟨hl, h⟩
    refine ⟨hl, fun k hk => ?_⟩
    rw [List.getD_eq_getElem _ _ (by omega), List.getD_eq_getElem _ _ hk]
    exact h k (by omega) hk
  · rintro ⟨hl, h⟩
    refine ⟨hl, fun k hk hk' => ?_⟩
    have := h k hk'
    rwa [List.getD_eq_getElem _ _ (by omega), List.getD_eq_getElem _ _ hk'] at this

theorem mem_indices : ∀ {s idx : List Nat}, idx ∈ indices s ↔ InB s idx
  | [], idx => by simp [indices]
  | n :: s, [] => by simp [indices]
  | n :: s, i :: is => by
      simp [indices, mem_indices (s := s)]

theorem ravel_lt : ∀ {s idx : List Nat}, InB s idx → ravel s idx < s.prod
  | [], idx, h => by simp at h; simp [ravel]
  | n :: s, [], h => by simp at h
  | n :: s, i :: is, h => by
      simp only [InB_cons] at h
      have := ravel_lt h.2
      simp only [ravel, List.prod_cons]
      calc i * s.prod + ravel s is < i * s.prod + s.prod := by omega
        _ = (i + 1) * s.prod := by ring
        _ ≤ n * s.prod := Nat.mul_le_mul_right _ h.1

theorem unravel_ravel : ∀ {s idx : List Nat}, InB s idx → unravel s (ravel s idx) = idx
  | [], idx, h => by simp at h; simp [unravel, h]
  | n :: s, [], h => by simp at h
  | n :: s, i :: is, h => by
      simp only [InB_cons] at h
      have hlt := ravel_lt h.2
      have hpos : 0 < s.prod := by omega
      simp only [ravel, unravel]
      rw [show i * s.prod + ravel s is = ravel s is + s.prod * i by ring]
      rw [Nat.add_mul_div_left _ _ hpos, Nat.div_eq_of_lt hlt, Nat.add_mul_mod_self_left,
        Nat.mod_eq_of_lt hlt, unravel_ravel h.2]
      simp

theorem unravel_inB : ∀ {s : List Nat} {k : Nat}, k < s.prod → InB s (unravel s k)
  | [], k, h => by simp [unravel]
  | n :: s, k, h => by
      simp only [List.prod_cons] at h
      have hpos : 0 < s.prod := by
        rcases Nat.eq_zero_or_pos s.prod with h0 | h0
        · simp [h0] at h
        · exact h0
      simp only [unravel, InB_cons]
      exact ⟨(Nat.div_lt_iff_lt_mul hpos).2 h, unravel_inB (Nat.mod_lt _ hpos)⟩

theorem ravel_unravel : ∀ {s : List Nat} {k : Nat}, k < s.prod → ravel s (unravel s k) = k
  | [], k, h => by simp at h; simp [ravel, h]
  | n :: s, k, h => by
      simp only [List.prod_cons] at h
      have hpos : 0 < s.prod := by
        rcases Nat.eq_zero_or_pos s.prod with h0 | h0
        · simp [h0] at h
        · exact h0
      simp only [unravel, ravel]
      rw [ravel_unravel (Nat.mod_lt _ hpos)]
      rw [Nat.mul_comm]; exact Nat.div_add_mod k s.prod

theorem ravel_inj {s i j : List Nat} (hi : InB s i) (hj : InB s j) (h : ravel s i = ravel s j) :
    i = j := by
  rw [← unravel_ravel hi, ← unravel_ravel hj, h]

theorem range_mul (n p : Nat) :
    List.range (n * p) = (List.range n).flatMap fun i => (List.range p).map (i * p + ·) := by
  induction n with
  | zero => simp
  | succ n ih =>
      rw [Nat.succ_mul, List.range_add, ih, List.range_succ]
      simp [List.flatMap_append]

theorem indices_eq_map_unravel : ∀ s : List Nat, indices s = (List.range s.prod).map (unravel s)
  | [] => by simp [indices, unravel]
  | n :: s => by
      simp only [indices, List.prod_cons]
      rw [range_mul, List.map_flatMap, indices_eq_map_unravel s]
      congr 1
      funext i
      simp only [List.map_map]
      apply List.map_congr_left
      intro k hk
      simp only [List.mem_range] at hk
      have hpos : 0 < s.prod := by omega
      simp only [Function.comp, unravel]
      rw [show i * s.prod + k = k + s.prod * i by ring, Nat.add_mul_div_left _ _ hpos,
        Nat.div_eq_of_lt hk, Nat.add_mul_mod_self_left, Nat.mod_eq_of_lt hk]
      simp

theorem nodup_indices (s : List Nat) : (indices s).Nodup := by
  rw [indices_eq_map_unravel]
  refine List.Nodup.map_on ?_ List.nodup_range
  intro x hx y hy h
  simp only [List.mem_range] at hx hy
  rw [← ravel_unravel hx, ← ravel_unravel hy, h]

namespace Tensor
variable {α : Type}

@[simp] theorem shape_ofFn (s : List Nat) (f : List Nat → α) : (ofFn s f).shape = s := rfl

theorem at_ofFn [Zero α] {s idx : List Nat} (f : List Nat → α) (h : InB s idx) :
    (ofFn s f).at_ idx = f idx := by
  unfold at_ ofFn
  simp only [indices_eq_map_unravel, List.map_map]
  have hlt := ravel_lt h
  rw [List.getD_eq_getElem _ _ (by simpa using hlt)]
  simp [unravel_ravel h]

theorem data_eq [Zero α] (t : Tensor α) : t.data = (indices t.shape).map t.at_ := by
  rw [indices_eq_map_unravel]
  apply List.ext_getElem
  · simp [t.wf]
  · intro k h1 h2
    have hk : k < t.shape.prod := by rw [← t.wf]; exact h1
    simp only [List.map_map, List.getElem_map, List.getElem_range, Function.comp]
    unfold at_
    rw [ravel_unravel hk, List.getD_eq_getElem _ _ h1]

theorem ext_at [Zero α] {t u : Tensor α} (hs : t.shape = u.shape)
    (h : ∀ idx, InB t.shape idx → t.at_ idx = u.at_ idx) : t = u := by
  have hd : t.data = u.data := by
    rw [data_eq t, data_eq u, ← hs]
    apply List.map_congr_left
    intro idx hidx
    exact h idx (mem_indices.1 hidx)
  cases t; cases u
  simp only at hs hd
  subst hs; subst hd; rfl

theorem ofFn_at [Zero α] (t : Tensor α) : ofFn t.shape t.at_ = t :=
  ext_at rfl (fun _ h => at_ofFn _ h)

theorem ofFn_congr {s : List Nat} {f g : List Nat → α} (h : ∀ idx, InB s idx → f idx = g idx) :
    ofFn s f = ofFn s g := by
  unfold ofFn
  congr 1
  apply List.map_congr_left
  intro idx hidx
  exact h idx (mem_indices.1 hidx)

@[simp] theorem shape_mat (m n : Nat) (f : Nat → Nat → α) : (mat m n f).shape = [m, n] := rfl

theorem at_mat [Zero α] {m n i j : Nat} (f : Nat → Nat → α) (hi : i < m) (hj : j < n) :
    (mat m n f).at_ [i, j] = f i j := by
  unfold mat
  rw [at_ofFn _ (by simp [hi, hj])]

theorem InB_pair {m n : Nat} {idx : List Nat} :
    InB [m, n] idx ↔ ∃ i j, idx = [i, j] ∧ i < m ∧ j < n := by
  constructor
  · intro h
    match idx, h with
    | [], h => simp at h
    | [i], h => simp at h
    | [i, j], h => simp at h; exact ⟨i, j, rfl, h⟩
    | i :: j :: k :: l, h => simp at h
  · rintro ⟨i, j, rfl, h⟩
    simpa using h

theorem ext_mat [Zero α] {A B : Tensor α} {m n : Nat} (hA : A.shape = [m, n])
    (hB : B.shape = [m, n]) (h : ∀ i < m, ∀ j < n, A.at_ [i, j] = B.at_ [i, j]) : A = B := by
  apply ext_at (hA.trans hB.symm)
  intro idx hidx
  rw [hA, InB_pair] at hidx
  obtain ⟨i, j, rfl, hi, hj⟩ := hidx
  exact h i hi j hj

end Tensor
end TD
