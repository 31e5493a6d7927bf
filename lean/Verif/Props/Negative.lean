import Verif.Lemmas.Negative
import Verif.Spec.ModeProd

/-!
# C146: axes counted from the end

A user who writes `axis=-1` must not get the result for another axis.
-/
namespace TD.Props
open TD Spec Tensor tf ops
variable {α : Type}

/-- **C146** (link to the model of the other theorems): on axes that are not negative these are the functions of C08 and C10. -/
theorem C146_mul_nat [Zero α] [tf.Red α] (neg : Tensor α → List Int → Res (Tensor α)) (A B : Tensor α) (a b : List Nat) :
    mulZ neg A B (a.map Int.ofNat) (b.map Int.ofNat) = mul A B (.list a) (.list b) := by
  unfold mulZ mul
  rw [t2matZ_nat, t2matZ_nat]
  have e : ∀ (n : Nat) (l : List Nat), ((List.range n).filter fun (k : Nat) => (k : Int) ∉ l.map Int.ofNat) = (List.range n).filter (· ∉ l) :=
    fun n l => List.filter_congr fun k _ => by
      have : (k : Int) ∉ l.map Int.ofNat ↔ k ∉ l :=
        not_congr ⟨fun h => by obtain ⟨j, hj, e⟩ := List.mem_map.1 h; exact Int.ofNat.inj e ▸ hj, fun h => List.mem_map.2 ⟨k, h, rfl⟩⟩
      simp only [this]
  simp only [e]
  rfl

@[inherit_doc C146_mul_nat]
theorem C146_ttm_nat [Zero α] [tf.Ein α] (t : Tensor α) (ms : List (Tensor α)) (axis : List Nat) (tr : Bool) :
    ttmZ t ms (axis.map Int.ofNat) tr = ttm t ms (some axis) tr ∧
      ttmZ t ms (axis.map Int.ofNat) = ttm t ms (some axis) (tr := false) := by
  have h : ∀ tr, ttmZ t ms (axis.map Int.ofNat) tr = ttm t ms (some axis) tr := fun tr => by
    unfold ttmZ ttm
    rw [ttmEqZ_nat]
    simp
  exact ⟨h tr, h false⟩

/-- **C146** (`mul`): a negative axis in either list always raises, whatever `tf.transpose` does with negative numbers. -/
theorem C146_mul_raises [Zero α] [tf.Red α] (neg : Tensor α → List Int → Res (Tensor α)) (A B : Tensor α) (a b : List Int)
    (h : (∃ i ∈ a, i < 0) ∨ ∃ i ∈ b, i < 0) : ∃ e, mulZ neg A B a b = .error e := by
  unfold mulZ
  rcases h with h | h
  · obtain ⟨e, he⟩ := t2matZ_negative neg A a h
    exact ⟨e, by rw [he]; rfl⟩
  · cases t2matZ neg A a with
    | error e => exact ⟨e, rfl⟩
    | ok M =>
        obtain ⟨e, he⟩ := t2matZ_negative neg B b h
        exact ⟨e, by rw [ok_bind, he]; rfl⟩

/-- **C146** (`ttm`): one of the axes `-1`, ..., `-6`, or an axis below `-ndims`, always raises; so does every negative axis if the
tensor has at most six axes.
Partial: from seven axes on an axis in `-ndims`, ..., `-7` can give a wrong tensor, see `C146_ttm_seven_false`. -/
theorem C146_ttm_raises_partial [Zero α] [tf.Ein α] (t : Tensor α) (ms : List (Tensor α)) (axis : List Int) (tr : Bool)
    (hN : t.order ≤ 26) (h : ∃ i ∈ axis, i < 0 ∧ (-6 ≤ i ∨ i < -(t.order : Int))) : ∃ e, ttmZ t ms axis tr = .error e := by
  unfold ttmZ
  cases he : ttmEqZ t.order axis tr with
  | error e => exact ⟨e, rfl⟩
  | ok eqn =>
      have hb := ttmEqZ_bounds he
      generalize t.order = n at hN hb he h
      have c1 : ∀ i : Int, -(n : Int) ≤ i → i < n → chr ((122 : Int) - (n : Int) + 1 + i) = .ok (Char.ofNat (123 - n + i).toNat) :=
        fun i h1 h2 => by
          unfold chr
          rw [if_pos (by omega), if_pos (by omega)]
          congr 3; omega
      have c2 : ∀ i : Int, -(n : Int) ≤ i → i < n → chr ((97 : Int) + i) = .ok (Char.ofNat (97 + i).toNat) :=
        fun i h1 h2 => by
          unfold chr
          rw [if_pos (by omega), if_pos (by omega)]
      unfold ttmEqZ at he
      simp only at he
      rw [mapM_ok (g := fun i : Nat => Char.ofNat (123 - (n : Int) + i).toNat)
          (fun i hi => c1 i (by omega) (by have := List.mem_range.1 hi; omega)), ok_bind,
        mapM_ok (g := fun i : Int => if tr then [Char.ofNat (123 - (n : Int) + i).toNat, Char.ofNat (97 + i).toNat]
            else [Char.ofNat (97 + i).toNat, Char.ofNat (123 - (n : Int) + i).toNat])
          (fun i hi => by rw [c1 i (hb i hi).1 (hb i hi).2, ok_bind, c2 i (hb i hi).1 (hb i hi).2, ok_bind]), ok_bind] at he
      obtain ⟨se, -, he⟩ := negBind_ok he
      obtain ⟨ta, -, he⟩ := negBind_ok he
      obtain ⟨j, hj, hj0⟩ := h
      have hax : axis ≠ [] := List.ne_nil_of_mem hj
      have hchr : ∀ k : Int, 46 ≤ k → k < 128 → Char.ofNat k.toNat ≠ '-' ∧ Char.ofNat k.toNat ≠ ',' := fun k h1 h2 => by
        have hk : (Char.ofNat k.toNat).toNat = k.toNat := ascii_toNat _ (by omega)
        constructor <;> intro e <;> rw [e] at hk
        · have d1 : ('-' : Char).toNat = 45 := rfl
          omega
        · have d1 : (',' : Char).toNat = 44 := rfl
          omega
      refine ⟨.valueError, ?_⟩
      rw [ok_bind]
      cases he
      unfold tf.einsum
      rw [joinComma_cons _ (by simpa using hax), parse_none (by simp)]
      · intro w hw
        rcases List.mem_cons.1 hw with rfl | hw
        · constructor <;> intro hm <;> obtain ⟨k, hk, e⟩ := List.mem_map.1 hm <;> have := List.mem_range.1 hk
          · exact (hchr _ (by omega) (by omega)).1 e
          · exact (hchr _ (by omega) (by omega)).2 e
        · obtain ⟨i, hi, rfl⟩ := List.mem_map.1 hw
          have := hb i hi
          have a1 := hchr (123 - n + i) (by omega) (by omega)
          have a2 := hchr (97 + i) (by omega) (by omega)
          cases tr <;> simp [a1.1.symm, a1.2.symm, a2.1.symm, a2.2.symm]
      · refine ⟨_, List.mem_cons_of_mem _ (List.mem_map.2 ⟨j, hj, rfl⟩), Char.ofNat (97 + j).toNat, by cases tr <;> simp, ?_⟩
        have := hb j hj
        have key : ∀ k < 97, 90 < k → isLabel (Char.ofNat k) = false := by decide
        exact key _ (by omega) (by omega)

/-- A tensor with seven axes and the identity matrix, for `C146_ttm_seven_false` (the call is `ops.py:265-357`). -/
def X7 : Tensor Int := ofFn (2 :: List.replicate 6 1) fun i => (i.getD 0 0 : Int) + 1
@[inherit_doc X7] def I7 : Tensor Int := mat 2 2 fun i j => if i = j then 1 else 0

set_option maxRecDepth 10000 in
/-- **C146** is false of tensors with seven axes: the product with the identity along axis `-7`, the first one, returns `[3, 3]`
instead of `[1, 2]`; the letter computed for the new index is `Z`, and the old index is called `m`, so both are summed out. -/
theorem C146_ttm_seven_false :
    (ttmZ X7 [I7] [-7]).toOption.map (fun Y => (Y.shape, Y.data)) = some (X7.shape, [3, 3]) ∧
      (ttmZ X7 [I7] [0]).toOption.map (fun Y => (Y.shape, Y.data)) = some (X7.shape, [1, 2]) ∧
      (modeProd X7 0 I7).data = [1, 2] := by decide +kernel

/-- The hypotheses are met: a matrix, the last axis called `-1`. -/
example : ∃ e, mulZ (fun t _ => .ok t) I7 I7 [-1] [0] = .error e :=
  C146_mul_raises _ _ _ _ _ (.inl ⟨-1, by simp, by decide⟩)
example : ∃ e, ttmZ I7 [I7] [-1] = .error e := C146_ttm_raises_partial _ _ _ _ (by decide) ⟨-1, by simp, by decide⟩

end TD.Props
