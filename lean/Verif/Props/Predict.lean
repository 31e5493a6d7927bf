import Mathlib.Algebra.Order.Ring.Int
import Mathlib.Tactic.NormNum
import Verif.Lemmas.Tensor
import Verif.Lemmas.Train

/-!
# C40, C41 : `predict`
-/
namespace TD.Props
open TD Tensor fact
variable {α : Type}

/-- Index `k` of a dimension of size `n` denotes coordinate `i`: itself, or counted from the end. -/
def Denotes (n : Nat) (k : Int) (i : Nat) : Prop := i < n ∧ (k = i ∨ k = (i : Int) - n)

theorem adjust_ok {n : Nat} {k : Int} {i : Nat} : adjust n k = .ok i ↔ Denotes n k i := by
  unfold adjust Denotes
  split
  · constructor
    · intro h; cases h
    · intro h; omega
  · rw [Except.ok.injEq]
    split <;> omega

theorem adjust_error {n : Nat} {k : Int} (h : ∀ i, ¬ Denotes n k i) : adjust n k = .error .indexError := by
  unfold adjust
  split
  · rfl
  · exfalso
    rename_i h1
    by_cases hk : k < 0
    · exact h (k + n).toNat ⟨by omega, Or.inr (by omega)⟩
    · exact h k.toNat ⟨by omega, Or.inl (by omega)⟩

theorem mapM_adjust {l : List (Nat × Int)} {idx : List Nat}
    (h : List.Forall₂ (fun (p : Nat × Int) i => Denotes p.1 p.2 i) l idx) :
    l.mapM (fun p => adjust p.1 p.2) = .ok idx := by
  induction h with
  | nil => rfl
  | cons h1 _ ih => rw [List.mapM_cons, adjust_ok.2 h1, ih]; rfl

theorem mapM_adjust_error : ∀ {l : List (Nat × Int)}, (∃ p ∈ l, ∀ i, ¬ Denotes p.1 p.2 i) →
    l.mapM (fun p => adjust p.1 p.2) = .error .indexError
  | [], h => by simp at h
  | p :: l, h => by
      rw [List.mapM_cons]
      cases hp : adjust p.1 p.2 with
      | error e =>
          have : e = .indexError := by
            unfold adjust at hp
            split at hp
            · cases hp; rfl
            · cases hp
          rw [this]; rfl
      | ok i =>
          have : ∃ q ∈ l, ∀ i, ¬ Denotes q.1 q.2 i := by
            obtain ⟨q, hq, hq'⟩ := h
            rcases List.mem_cons.1 hq with rfl | hq
            · exact absurd (adjust_ok.1 hp) (hq' i)
            · exact ⟨q, hq, hq'⟩
          rw [mapM_adjust_error this]; rfl

/-- **C40** for HOSVD and HOOI: for every trained tensor of order at least 1, a key with one index per mode
returns the entry it denotes.  Missing: the classes with a guard, see `C40_guarded_raises_false`. -/
theorem C40_entry_partial [Zero α] (T : Tensor α) (key : List Int) (idx : List Nat) (h1 : 1 ≤ T.order)
    (hlen : key.length = T.order)
    (h : List.Forall₂ (fun (p : Nat × Int) i => Denotes p.1 p.2 i) (T.shape.zip key) idx) :
    InB T.shape idx ∧ barePredict (some T) key = .ok (T.at_ idx) := by
  have hin : InB T.shape idx := by
    rw [InB_iff_getD]
    have hl := h.length_eq
    have hlen' : key.length = T.shape.length := hlen
    simp only [List.length_zip, hlen', min_self] at hl
    refine ⟨hl.symm, fun m hm => ?_⟩
    have := h.get (i := m) (by simp; omega) (by omega)
    simp only [List.get_eq_getElem, List.getElem_zip] at this
    rw [List.getD_eq_getElem _ _ (by omega), List.getD_eq_getElem _ _ hm]
    exact this.1
  refine ⟨hin, ?_⟩
  unfold barePredict item
  match key, hlen, h with
  | [], hlen, _ => simp at hlen; omega
  | [k], hlen, h =>
      have ho : T.order = 1 := by simpa using hlen.symm
      obtain ⟨n, hn⟩ : ∃ n, T.shape = [n] := List.length_eq_one_iff.1 ho
      rw [hn] at h
      simp only [ho, if_true]
      rw [hn]
      simp only [List.zip_cons_cons, List.zip_nil_right] at h
      obtain ⟨i, rfl⟩ : ∃ i, idx = [i] := by
        cases h with
        | cons a b => cases b; exact ⟨_, rfl⟩
      have hd : Denotes n k i := by cases h with | cons a b => exact a
      have : ([n] : List Nat).getD 0 0 = n := rfl
      rw [this, adjust_ok.2 hd]
      rfl
  | k1 :: k2 :: ks, hlen, h =>
      simp only [if_pos hlen]
      rw [mapM_adjust h]
      rfl

/-- **C40**: an index out of bounds raises `IndexError`. -/
theorem C40_out_of_bounds_partial [Zero α] (T : Tensor α) (key : List Int) (h1 : 1 ≤ T.order)
    (hlen : key.length = T.order) (h : ∃ p ∈ T.shape.zip key, ∀ i, ¬ Denotes p.1 p.2 i) :
    barePredict (some T) key = .error .indexError := by
  unfold barePredict item
  match key, hlen, h with
  | [], hlen, _ => simp at hlen; omega
  | [k], hlen, h =>
      have ho : T.order = 1 := by simpa using hlen.symm
      obtain ⟨n, hn⟩ : ∃ n, T.shape = [n] := List.length_eq_one_iff.1 ho
      rw [hn] at h
      simp only [ho, if_true]
      rw [hn]
      simp only [List.zip_cons_cons, List.zip_nil_right, List.mem_singleton, exists_eq_left] at h
      have : ([n] : List Nat).getD 0 0 = n := rfl
      rw [this, adjust_error h]
      rfl
  | k1 :: k2 :: ks, hlen, h =>
      simp only [if_pos hlen]
      rw [mapM_adjust_error h]
      rfl

/-- **C40**: a key of the wrong length other than 1 raises `ValueError`, unless it is empty and the tensor has a single entry. -/
theorem C40_wrong_length_partial [Zero α] (T : Tensor α) (key : List Int) (h1 : key.length ≠ 1)
    (hlen : key.length ≠ T.order) (h0 : key ≠ [] ∨ T.shape.prod ≠ 1) : barePredict (some T) key = .error .valueError := by
  unfold barePredict item
  match key, h1, hlen, h0 with
  | [], _, _, h0 => simp only [if_neg (h0.resolve_left (by simp))]
  | k1 :: k2 :: ks, _, hlen, _ => simp only [if_neg hlen]

example : barePredict (some (ofFn [2, 3] fun _ => (1 : Int))) [] = .error .valueError ∧
    barePredict (some (ofFn [2, 3] fun _ => (1 : Int))) [0, 0, 0] = .error .valueError :=
  ⟨C40_wrong_length_partial _ _ (by decide) (by decide) (by decide), C40_wrong_length_partial _ _ (by decide) (by decide) (by decide)⟩

/-- **C40** is false for the empty key and a tensor with a single entry: the entry is returned. -/
theorem C40_empty_key_false [Zero α] (T : Tensor α) (h : T.shape.prod = 1) :
    barePredict (some T) [] = .ok (T.at_ (unravel T.shape 0)) := by
  unfold barePredict item
  simp only [if_pos h]

example : List.Forall₂ (fun (p : Nat × Int) i => Denotes p.1 p.2 i) ([2, 3].zip [-1, 0]) [1, 0] := by
  refine .cons ⟨by norm_num, Or.inr (by norm_num)⟩ (.cons ⟨by norm_num, Or.inl (by norm_num)⟩ .nil)

/-- **C40** is false for the wrong length 1: a single index into a tensor of order other than 1 does not raise
but returns the entry at that row-major position, counted from the end if negative; it raises `IndexError` only if there is no such
position. -/
theorem C40_single_index_false [Zero α] (T : Tensor α) (k : Int) (h2 : T.order ≠ 1) :
    (∀ p, Denotes T.shape.prod k p → barePredict (some T) [k] = .ok (T.at_ (unravel T.shape p))) ∧
      ((∀ p, ¬ Denotes T.shape.prod k p) → barePredict (some T) [k] = .error .indexError) := by
  unfold barePredict item
  simp only [if_neg h2]
  refine ⟨fun p hp => ?_, fun h => ?_⟩
  · rw [adjust_ok.2 hp]; rfl
  · rw [adjust_error h]; rfl

example : Denotes ([2, 3] : List Nat).prod (-1) 5 ∧ ∀ p, ¬ Denotes ([2, 3] : List Nat).prod 6 p :=
  ⟨⟨by decide, Or.inr (by decide)⟩, fun p hp => by
    have h6 : ([2, 3] : List Nat).prod = 6 := rfl
    rw [h6] at hp
    unfold Denotes at hp
    omega⟩

/-- **C40** is false for CP, NCP and NTUCKER: after training on any tensor with more than one entry, `predict`
raises `ValueError` for every key (the guard takes the truth value of an array). -/
theorem C40_guarded_raises_false [Zero α] [DecidableEq α] (T : Tensor α) (key : List Int)
    (h : 2 ≤ T.shape.prod) : guardedPredict (some T) key = .error .valueError := by
  unfold guardedPredict falsy
  simp only [if_neg (show ¬ T.shape.prod = 0 by omega), if_neg (show ¬ T.shape.prod = 1 by omega)]
  rfl

/-- And a single entry equal to 0 is reported as untrained. -/
theorem C40_guarded_zero_false : guardedPredict (some (ofFn [1, 1] fun _ => (0 : Int))) [0, 0] = .error .tensorErr := by
  decide

/-- What remains of **C40** for the guarded classes: tensors with a single non-zero entry. -/
theorem C40_guarded_single_partial [Zero α] [DecidableEq α] (T : Tensor α) (key : List Int)
    (h : T.shape.prod = 1) (h0 : T.at_ (unravel T.shape 0) ≠ 0) :
    guardedPredict (some T) key = barePredict (some T) key := by
  unfold guardedPredict falsy barePredict
  simp only [h, one_ne_zero, if_false, if_true, h0, decide_false]
  rfl

/-- **C41** for CP, NCP, NTUCKER: an object that was never trained has no full tensor and `predict` raises
`TensorErr`, for every key. -/
theorem C41_guarded_partial [Zero α] [DecidableEq α] {F K : Type} (key : List Int) :
    guardedPredict (({} : Self F K (Tensor α)).full) key = .error .tensorErr := rfl

/-- **C41** is false for HOSVD and HOOI: `AttributeError`. -/
theorem C41_bare_false [Zero α] {F K : Type} (key : List Int) :
    barePredict (({} : Self F K (Tensor α)).full) key = .error .attributeError := rfl

/-- **C41** is false for PITF: `predict` is not implemented, trained or not. -/
theorem C41_pitf_false (full : Option (Tensor α)) (key : List Int) :
    PITF.predict full key = .error .notImplemented := rfl

end TD.Props
