import Verif.Lemmas.Skip
import Verif.Lemmas.Mul

namespace TD
open Spec Tensor tf
variable {α : Type}

theorem rowDims_append (a b : List (Tensor α)) : rowDims (a ++ b) = rowDims a ++ rowDims b := by
  simp [rowDims]
theorem colDims_append (a b : List (Tensor α)) : colDims (a ++ b) = colDims a ++ colDims b := by
  simp [colDims]
@[simp] theorem length_rowDims (a : List (Tensor α)) : (rowDims a).length = a.length := by simp [rowDims]
@[simp] theorem length_colDims (a : List (Tensor α)) : (colDims a).length = a.length := by simp [colDims]

theorem kronEntry_append [CommSemiring α] : ∀ {a b : List (Tensor α)} {r1 r2 c1 c2 : List Nat},
    r1.length = a.length → c1.length = a.length →
    kronEntry (a ++ b) (r1 ++ r2) (c1 ++ c2) = kronEntry a r1 c1 * kronEntry b r2 c2
  | [], b, [], r2, [], c2, _, _ => by simp [kronEntry]
  | M :: a, b, r :: r1, r2, c :: c1, c2, h1, h2 => by
      simp only [List.cons_append, kronEntry]
      rw [kronEntry_append (by simpa using h1) (by simpa using h2), mul_assoc]

namespace ops

/-- Closed form of the binary Kronecker product. -/
theorem kron2_eq [CommSemiring α] {A B : Tensor α} {m n p q : Nat} (hA : A.shape = [m, n])
    (hB : B.shape = [p, q]) :
    kron [A, B] = .ok (mat (m * p) (n * q) fun i j =>
      A.at_ [i / p, j / q] * B.at_ [i % p, j % q]) := by
  obtain ⟨K, hK, hKs, hKe⟩ := kron_core (ms := [A, B]) (by
    intro M hM
    simp only [List.mem_cons, List.not_mem_nil, or_false] at hM
    rcases hM with rfl | rfl <;> simp [hA, hB]) (by simp) (by simp)
  have hr : rowDims [A, B] = [m, p] := by simp [rowDims, hA, hB]
  have hc : colDims [A, B] = [n, q] := by simp [colDims, hA, hB]
  rw [hr, hc] at hKs hKe
  rw [hK]
  congr 1
  apply ext_mat (m := m * p) (n := n * q) (by simpa using hKs) (by simp)
  intro i hi j hj
  rw [at_mat _ hi hj]
  have hp : 0 < p := Nat.pos_of_mul_pos_left (Nat.lt_of_le_of_lt (Nat.zero_le _) hi)
  have hq : 0 < q := Nat.pos_of_mul_pos_left (Nat.lt_of_le_of_lt (Nat.zero_le _) hj)
  have h1 : InB [m, p] [i / p, i % p] := by
    simp [Nat.div_lt_iff_lt_mul hp, hi, Nat.mod_lt _ hp]
  have h2 : InB [n, q] [j / q, j % q] := by
    simp [Nat.div_lt_iff_lt_mul hq, hj, Nat.mod_lt _ hq]
  have := hKe _ _ h1 h2
  rw [ravel_pair, ravel_pair, Nat.mul_comm (i / p), Nat.mul_comm (j / q), Nat.div_add_mod,
    Nat.div_add_mod] at this
  rw [this]
  simp [kronEntry]

theorem InB_split {s1 s2 i : List Nat} (h : InB (s1 ++ s2) i) :
    ∃ a b, i = a ++ b ∧ InB s1 a ∧ InB s2 b := by
  have hl := h.length
  refine ⟨i.take s1.length, i.drop s1.length, (List.take_append_drop _ _).symm, ?_⟩
  rw [← InB_append (by simp at hl; simp; omega), List.take_append_drop]
  exact h

theorem digit_lt {a b x y : Nat} (hx : x < a) (hy : y < b) : x * b + y < a * b := by
  have : (x + 1) * b ≤ a * b := Nat.mul_le_mul_right b hx
  rw [Nat.add_mul] at this; omega

theorem digit_div {b x y : Nat} (hy : y < b) : (x * b + y) / b = x := by
  rw [Nat.mul_comm, Nat.mul_add_div (by omega), Nat.div_eq_of_lt hy, Nat.add_zero]

theorem digit_mod {b x y : Nat} (hy : y < b) : (x * b + y) % b = y := by
  rw [Nat.mul_comm, Nat.mul_add_mod, Nat.mod_eq_of_lt hy]

/-- Letters produced by `chr` are never `-` or `,`. -/
theorem letter_ne_sep (i : Nat) : letter i ≠ '-' ∧ letter i ≠ ',' := by
  have key : ∀ c : Char, c.toNat < 97 → c.toNat ≠ 0 → letter i ≠ c := by
    intro c h1 h2 e
    subst e
    unfold letter Char.ofNat at h1 h2
    split at h1
    · rename_i hv
      simp only [Char.toNat, Char.ofNatAux] at h1
      simp only [UInt32.toNat, BitVec.toNat_ofNatLT] at h1
      omega
    · rename_i hv
      rw [dif_neg hv] at h2
      exact h2 rfl
  exact ⟨key _ (by decide) (by decide), key _ (by decide) (by decide)⟩

/-- An operand containing a character that is not a letter makes the equation unparseable. -/
theorem parse_none {ws : List (List Char)} {out : List Char} (hws : ws ≠ [])
    (h1 : ∀ w ∈ ws, '-' ∉ w ∧ ',' ∉ w) (hbad : ∃ w ∈ ws, ∃ c ∈ w, isLabel c = false) :
    parseEq (joinComma ws ++ '-' :: '>' :: out) = none := by
  unfold parseEq
  rw [splitArrow_append (not_mem_join (by decide) fun w hw => (h1 w hw).1)]
  simp only [splitAll_join hws fun w hw => (h1 w hw).2]
  rw [if_neg]
  obtain ⟨w, hw, c, hc, hl⟩ := hbad
  simp only [Bool.and_eq_true, List.all_eq_true, not_and]
  intro h
  have := (h w hw).2 c hc
  rw [hl] at this; cases this

theorem kron_too_many [CommSemiring α] {ms : List (Tensor α)} (h : 13 < ms.length) :
    kron ms = .error .valueError := by
  have : tf.einsum (kronEq ms.length) ms = .error .valueError := by
    unfold einsum
    rw [kronEq_eq, List.zipWith_map, List.zipWith_self, parse_none]
    · simp only [ne_eq, List.map_eq_nil_iff, List.range_eq_nil]; omega
    · intro w hw
      obtain ⟨i, -, rfl⟩ := List.mem_map.1 hw
      constructor <;> simp only [List.mem_cons, List.not_mem_nil, or_false, not_or]
      · exact ⟨Ne.symm (letter_ne_sep _).1, Ne.symm (letter_ne_sep _).1⟩
      · exact ⟨Ne.symm (letter_ne_sep _).2, Ne.symm (letter_ne_sep _).2⟩
    · exact ⟨[letter 26, letter 27], List.mem_map.2 ⟨13, by simpa using h, rfl⟩, letter 26, by simp,
        by decide⟩
  simp only [kron, skip, Bool.false_eq_true, if_false, this, error_bind]

theorem kron_nil [CommSemiring α] : kron ([] : List (Tensor α)) = .error .valueError := by
  have : tf.einsum (kronEq 0) ([] : List (Tensor α)) = .error .valueError := by
    unfold einsum
    rw [show parseEq (kronEq 0) = none from by decide]
  simp only [kron, skip, Bool.false_eq_true, if_false, List.length_nil, this, error_bind]

theorem khatri_nil [CommSemiring α] : khatri ([] : List (Tensor α)) = .error .valueError := by
  have : tf.einsum (khatriEq 0) ([] : List (Tensor α)) = .error .valueError := by
    unfold einsum einsumL einsumOk
    rw [show parseEq (khatriEq 0) = none from by decide]
  simp only [khatri, skip, Bool.false_eq_true, if_false, List.length_nil, this, error_bind]

theorem khatriEq_eq (n : Nat) : khatriEq n = joinComma ((List.range n).map fun i => [letter i, 'z']) ++
    '-' :: '>' :: ((List.range n).map letter ++ ['z']) := by
  unfold khatriEq
  simp only [List.map_map]
  rw [List.append_assoc]
  rfl

theorem einsumL_error [CommSemiring α] {ins : List (List Char)} {out : List Char} {ts : List (Tensor α)}
    (h : ¬ einsumOk ins out (ts.map Tensor.shape)) : einsumL ins out ts = .error .valueError := by
  unfold einsumL; simp only; rw [if_neg h]

theorem mem_zip_flatten {β γ : Type} : ∀ {ins : List (List β)} {shapes : List (List γ)},
    (∀ p ∈ ins.zip shapes, p.1.length = p.2.length) → ∀ {w : List β} {s : List γ}, (w, s) ∈ ins.zip shapes →
    ∀ {q : β × γ}, q ∈ w.zip s → q ∈ ins.flatten.zip shapes.flatten
  | [], _, _, w, s, hm, _, _ => by simp at hm
  | _ :: _, [], _, w, s, hm, _, _ => by simp at hm
  | v :: ins, t :: shapes, h, w, s, hm, q, hq => by
      rw [List.flatten_cons, List.flatten_cons, List.zip_append (h (v, t) (by simp))]
      rw [List.zip_cons_cons, List.mem_cons] at hm
      rcases hm with e | hm
      · cases e; exact List.mem_append_left _ hq
      · exact List.mem_append_right _ (mem_zip_flatten (fun p hp => h p (by simp [hp])) hm hq)

theorem einsumOk_dim {ins : List (List Char)} {out : List Char} {shapes : List (List Nat)}
    (h : einsumOk ins out shapes) {w : List Char} {s : List Nat} (hm : (w, s) ∈ ins.zip shapes) {j : Nat}
    {c : Char} {d : Nat} (hc : w[j]? = some c) (hd : s[j]? = some d) : labelDim ins shapes c = d := by
  apply h.2.2.2.2.2 (c, d)
  apply mem_zip_flatten h.2.1 hm
  rw [List.mem_iff_getElem?]
  exact ⟨j, by simp [List.getElem?_zip_eq_some, hc, hd]⟩

theorem khatri_too_many [CommSemiring α] {ms : List (Tensor α)} (h : 25 < ms.length) :
    khatri ms = .error .valueError := by
  have : tf.einsum (khatriEq ms.length) ms = .error .valueError := by
    rw [khatriEq_eq]
    by_cases h26 : ms.length = 26
    · rw [einsum_eq, einsumL_error]
      · intro hok
        have := hok.2.2.1 [letter 25, 'z'] (List.mem_map.2 ⟨25, by simp [h26], rfl⟩)
        revert this; decide
      · simp only [ne_eq, List.map_eq_nil_iff, List.range_eq_nil]; omega
      · intro w hw
        obtain ⟨i, -, rfl⟩ := List.mem_map.1 hw
        simp
      · intro w hw c hc
        obtain ⟨i, hi, rfl⟩ := List.mem_map.1 hw
        simp only [List.mem_cons, List.not_mem_nil, or_false, List.mem_range] at hc hi
        rcases hc with rfl | rfl
        · exact letter_isLabel _ (by omega)
        · decide
      · intro c hc
        simp only [List.mem_append, List.mem_map, List.mem_range, List.mem_singleton] at hc
        rcases hc with ⟨i, hi, rfl⟩ | rfl
        · exact letter_isLabel _ (by omega)
        · decide
    · unfold einsum
      rw [parse_none]
      · simp only [ne_eq, List.map_eq_nil_iff, List.range_eq_nil]; omega
      · intro w hw
        obtain ⟨i, -, rfl⟩ := List.mem_map.1 hw
        constructor <;> simp only [List.mem_cons, List.not_mem_nil, or_false, not_or]
        · exact ⟨Ne.symm (letter_ne_sep _).1, by decide⟩
        · exact ⟨Ne.symm (letter_ne_sep _).2, by decide⟩
      · exact ⟨[letter 26, 'z'], List.mem_map.2 ⟨26, by simp; omega, rfl⟩, letter 26, by simp,
          by decide⟩
  simp only [khatri, skip, Bool.false_eq_true, if_false, this, error_bind]

theorem khatri_ok_imp [CommSemiring α] {ms : List (Tensor α)} {K : Tensor α} (h : khatri ms = .ok K) :
    ms ≠ [] ∧ ms.length ≤ 25 ∧ AllMat ms ∧ ∃ R, ∀ M ∈ ms, M.shape.getD 1 0 = R := by
  have hne : ms ≠ [] := by rintro rfl; rw [khatri_nil] at h; cases h
  have hle : ms.length ≤ 25 := by
    by_contra hgt
    rw [khatri_too_many (by omega)] at h; cases h
  have hok : einsumOk ((List.range ms.length).map fun i => [letter i, 'z'])
      ((List.range ms.length).map letter ++ ['z']) (ms.map Tensor.shape) := by
    by_contra hno
    have : tf.einsum (khatriEq ms.length) ms = .error .valueError := by
      rw [khatriEq_eq, einsum_eq, einsumL_error hno]
      · simp only [ne_eq, List.map_eq_nil_iff, List.range_eq_nil, List.length_eq_zero_iff]
        exact hne
      · intro w hw
        obtain ⟨i, -, rfl⟩ := List.mem_map.1 hw
        simp
      · intro w hw c hc
        obtain ⟨i, hi, rfl⟩ := List.mem_map.1 hw
        simp only [List.mem_cons, List.not_mem_nil, or_false, List.mem_range] at hc hi
        rcases hc with rfl | rfl
        · exact letter_isLabel _ (by omega)
        · decide
      · intro c hc
        simp only [List.mem_append, List.mem_map, List.mem_range, List.mem_singleton] at hc
        rcases hc with ⟨i, hi, rfl⟩ | rfl
        · exact letter_isLabel _ (by omega)
        · decide
    simp only [khatri, skip, Bool.false_eq_true, if_false, this, error_bind] at h
    cases h
  have hmat : AllMat ms := by
    intro M hM
    obtain ⟨i, hi, rfl⟩ := List.mem_iff_getElem.1 hM
    have := hok.2.1 ([letter i, 'z'], ms[i].shape) (by
      rw [List.mem_iff_getElem]
      exact ⟨i, by simpa using hi, by simp⟩)
    simpa using this.symm
  refine ⟨hne, hle, hmat, labelDim ((List.range ms.length).map fun i => [letter i, 'z'])
    (ms.map Tensor.shape) 'z', ?_⟩
  intro M hM
  have hz := hok.2.2.2.2.2 ('z', M.shape.getD 1 0) (by
    clear hok h hne
    -- the flattened zip contains the last label of every operand
    have key : ∀ (l : List Nat) (ms : List (Tensor α)), l.length = ms.length → AllMat ms → M ∈ ms →
        (('z', M.shape.getD 1 0) : Char × Nat) ∈
          (l.map fun i => [letter i, 'z']).flatten.zip (ms.map Tensor.shape).flatten := by
      intro l
      induction l with
      | nil => intro ms hl _ hM; cases ms <;> simp_all
      | cons i l ih =>
          intro ms hl hmat hM
          cases ms with
          | nil => simp at hl
          | cons N ms =>
              simp only [List.map_cons, List.flatten_cons]
              rw [List.zip_append (by simp [hmat N (by simp)])]
              rcases List.mem_cons.1 hM with rfl | hM
              · apply List.mem_append_left
                rw [hmat.shape_eq (M := M) (by simp)]
                simp
              · exact List.mem_append_right _ (ih ms (by simpa using hl)
                  (fun N hN => hmat N (by simp [hN])) hM)
    exact key _ ms (by simp) hmat hM)
  exact hz.symm

/-- Gram identity on digits. -/
theorem gram_boxSum [CommSemiring α] (i j : Nat) (ms : List (Tensor α)) :
    boxSum (rowDims ms) (fun is => khatriEntry i ms is * khatriEntry j ms is) =
      (ms.map fun M => ∑ l ∈ Finset.range (M.shape.getD 0 0), M.at_ [l, i] * M.at_ [l, j]).prod := by
  induction ms with
  | nil => simp [rowDims, boxSum, khatriEntry]
  | cons M ms ih =>
      rw [List.map_cons, List.prod_cons, ← ih]
      change boxSum (M.shape.getD 0 0 :: rowDims ms) _ = _
      rw [boxSum, Finset.sum_mul]
      apply Finset.sum_congr rfl
      intro l _
      rw [← boxSum_mul_left]
      congr 1
      funext is
      simp only [khatriEntry]
      ring

end ops
end TD
