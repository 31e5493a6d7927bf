import Verif.Lemmas.SpecialRel
import Verif.Lemmas.Ttm

/-! # What the exact operations do with marks -/
namespace TD
open Tensor Spec sp Num
variable {F : Fmt} {P : Num F → Prop}

theorem enat_top_of_mem : ∀ {l : List ℕ∞}, ⊤ ∈ l → l.sum = ⊤
  | [], h => by simp at h
  | a :: l, h => by
      rw [List.sum_cons]
      rcases List.mem_cons.1 h with rfl | h
      · exact top_add _
      · rw [enat_top_of_mem h]; exact add_top _

theorem boxSum_top {s : List Nat} {f : List Nat → ℕ∞} {i : List Nat} (hi : InB s i) (h : f i = ⊤) : boxSum s f = ⊤ := by
  rw [boxSum_eq_list_sum]
  exact enat_top_of_mem (List.mem_map.2 ⟨i, mem_indices.2 hi, h⟩)

theorem range_top {n : Nat} {f : Nat → ℕ∞} {i : Nat} (hi : i < n) (h : f i = ⊤) : ∑ k ∈ Finset.range n, f k = ⊤ := by
  rw [← top_le_iff, ← h]
  exact Finset.single_le_sum (f := f) (fun _ _ => bot_le) (Finset.mem_range.2 hi)

theorem mark_top {x : Num F} (h : P x) : mark P x = ⊤ := if_pos h

theorem enat_mul_eq_top {a b : ℕ∞} (ha : a ≠ 0) (hb : b ≠ 0) (h : a = ⊤ ∨ b = ⊤) : a * b = ⊤ := by
  rcases h with rfl | rfl
  · exact ENat.top_mul hb
  · exact ENat.mul_top ha

theorem enat_mul_ne_zero {a b : ℕ∞} (ha : a ≠ 0) (hb : b ≠ 0) : a * b ≠ 0 := mul_ne_zero ha hb

theorem kron_marks : ∀ (L : List (Tensor (Num F))) (rs cs : List Nat), AllMat L → InB (rowDims L) rs → InB (colDims L) cs →
    kronEntry (L.map (marks P)) rs cs ≠ 0 ∧
      ∀ (k : Nat) (M : Tensor (Num F)), L[k]? = some M → P (M.at_ [rs.getD k 0, cs.getD k 0]) → kronEntry (L.map (marks P)) rs cs = ⊤
  | [], rs, cs, _, _, _ => by simp [kronEntry]
  | A :: L, [], cs, _, h, _ => by cases h
  | A :: L, r :: rs, [], _, _, h => by cases h
  | A :: L, r :: rs, c :: cs, hm, hr, hc => by
      obtain ⟨hr0, hr1⟩ := (InB_cons _ _ _ _).1 hr
      obtain ⟨hc0, hc1⟩ := (InB_cons _ _ _ _).1 hc
      obtain ⟨h1, h2⟩ := kron_marks L rs cs (fun M hM => hm M (by simp [hM])) hr1 hc1
      have hA : A.shape = [A.shape.getD 0 0, A.shape.getD 1 0] := AllMat.shape_eq hm (by simp)
      have hb : InB A.shape [r, c] := by rw [hA]; exact InB_pair.2 ⟨_, _, rfl, hr0, hc0⟩
      have h0 : (marks P A).at_ [r, c] ≠ 0 := by rw [at_marks A hb]; exact mark_ne_zero _
      refine ⟨enat_mul_ne_zero h0 h1, fun k M hk hP => enat_mul_eq_top h0 h1 ?_⟩
      cases k with
      | zero =>
          simp only [List.getElem?_cons_zero, Option.some.injEq] at hk
          subst hk
          exact Or.inl (by rw [at_marks A hb]; exact mark_top hP)
      | succ k => exact Or.inr (h2 k M (by simpa using hk) (by simpa using hP))

theorem khatri_marks (c : Nat) : ∀ (L : List (Tensor (Num F))) (rs : List Nat), AllMat L → InB (rowDims L) rs →
    (∀ M ∈ L, c < M.shape.getD 1 0) →
    khatriEntry c (L.map (marks P)) rs ≠ 0 ∧
      ∀ (k : Nat) (M : Tensor (Num F)), L[k]? = some M → P (M.at_ [rs.getD k 0, c]) → khatriEntry c (L.map (marks P)) rs = ⊤
  | [], rs, _, _, _ => by simp [khatriEntry]
  | A :: L, [], _, h, _ => by cases h
  | A :: L, r :: rs, hm, hr, hc => by
      obtain ⟨hr0, hr1⟩ := (InB_cons _ _ _ _).1 hr
      obtain ⟨h1, h2⟩ := khatri_marks c L rs (fun M hM => hm M (by simp [hM])) hr1 (fun M hM => hc M (by simp [hM]))
      have hA : A.shape = [A.shape.getD 0 0, A.shape.getD 1 0] := AllMat.shape_eq hm (by simp)
      have hb : InB A.shape [r, c] := by rw [hA]; exact InB_pair.2 ⟨_, _, rfl, hr0, hc A (by simp)⟩
      have h0 : (marks P A).at_ [r, c] ≠ 0 := by rw [at_marks A hb]; exact mark_ne_zero _
      refine ⟨enat_mul_ne_zero h0 h1, fun k M hk hP => enat_mul_eq_top h0 h1 ?_⟩
      cases k with
      | zero =>
          simp only [List.getElem?_cons_zero, Option.some.injEq] at hk
          subst hk
          exact Or.inl (by rw [at_marks A hb]; exact mark_top hP)
      | succ k => exact Or.inr (h2 k M (by simpa using hk) (by simpa using hP))

theorem prod_marks : ∀ (L : List (Tensor (Num F))) (i : List Nat), (∀ M ∈ L, InB M.shape i) →
    ((L.map (marks P)).map (·.at_ i)).prod ≠ 0 ∧ ∀ M ∈ L, P (M.at_ i) → ((L.map (marks P)).map (·.at_ i)).prod = ⊤
  | [], i, _ => by simp
  | A :: L, i, h => by
      obtain ⟨h1, h2⟩ := prod_marks L i fun M hM => h M (by simp [hM])
      have hb := h A (by simp)
      have h0 : (marks P A).at_ i ≠ 0 := by rw [at_marks A hb]; exact mark_ne_zero _
      simp only [List.map_cons, List.prod_cons]
      refine ⟨enat_mul_ne_zero h0 h1, fun M hM hP => enat_mul_eq_top h0 h1 ?_⟩
      rcases List.mem_cons.1 hM with rfl | hM
      · exact Or.inl (by rw [at_marks _ hb]; exact mark_top hP)
      · exact Or.inr (h2 M hM hP)

/-- An entry of a chain of mode products is at least each of the products it sums. -/
theorem modeProds_ge : ∀ (ps : List (Nat × Tensor ℕ∞)) (X : Tensor ℕ∞) (i j : List Nat), (ps.map Prod.fst).Nodup →
    (∀ p ∈ ps, p.1 < X.order) → InB (modeProds X ps).shape i → InB X.shape j →
    (∀ k, k ∉ ps.map Prod.fst → j.getD k 0 = i.getD k 0) →
    (ps.map fun p => p.2.at_ [i.getD p.1 0, j.getD p.1 0]).prod * X.at_ j ≤ (modeProds X ps).at_ i
  | [], X, i, j, _, _, hi, hj, h => by
      have : j = i := by
        have e1 := (InB_iff_getD.1 hi).1
        have e2 := (InB_iff_getD.1 hj).1
        change i.length = X.shape.length at e1
        apply List.ext_getElem (by omega)
        intro k h1 h2
        have := h k (by simp)
        rwa [List.getD_eq_getElem _ _ h1, List.getD_eq_getElem _ _ h2] at this
      subst this
      simp [modeProds]
  | p :: ps, X, i, j, hnd, hlt, hi, hj, h => by
      rw [List.map_cons, List.nodup_cons] at hnd
      have e : modeProds X (p :: ps) = modeProds (modeProd X p.1 p.2) ps := rfl
      rw [e] at hi ⊢
      have hp := hlt p (by simp)
      have hsh : (modeProd X p.1 p.2).shape = X.shape.set p.1 (p.2.shape.getD 0 0) := rfl
      have hlen : j.length = X.shape.length := (InB_iff_getD.1 hj).1
      have hpl : p.1 < j.length := by rw [hlen]; exact hp
      have hout : (modeProds (modeProd X p.1 p.2) ps).shape.getD p.1 0 = p.2.shape.getD 0 0 := by
        rw [modeProds_shape_out _ hnd.1, hsh, getD_set_self hp]
      have hip : i.getD p.1 0 < p.2.shape.getD 0 0 := by
        rw [← hout]
        refine (InB_iff_getD.1 hi).2 p.1 ?_
        rw [modeProds_shape_length, hsh, List.length_set]; exact hp
      have hj' : InB (modeProd X p.1 p.2).shape (j.set p.1 (i.getD p.1 0)) := by
        rw [hsh, InB_iff_getD]
        refine ⟨by simpa using hlen, fun k hk => ?_⟩
        rw [List.length_set] at hk
        by_cases hkp : k = p.1
        · subst hkp
          rw [getD_set_self hpl, getD_set_self hp]; exact hip
        · rw [getD_set_ne (Ne.symm hkp), getD_set_ne (Ne.symm hkp)]; exact (InB_iff_getD.1 hj).2 k hk
      have ih := modeProds_ge ps (modeProd X p.1 p.2) i (j.set p.1 (i.getD p.1 0)) hnd.2
        (fun q hq => by
          rw [Tensor.order, hsh, List.length_set]; exact hlt q (by simp [hq])) hi hj' (fun k hk => by
          by_cases hkp : k = p.1
          · subst hkp; rw [getD_set_self hpl]
          · rw [getD_set_ne (Ne.symm hkp)]
            exact h k (by simp [hk, hkp]))
      refine le_trans ?_ ih
      have hX : (modeProd X p.1 p.2).at_ (j.set p.1 (i.getD p.1 0)) ≥ p.2.at_ [i.getD p.1 0, j.getD p.1 0] * X.at_ j := by
        rw [hsh] at hj'
        rw [modeProd, at_ofFn _ hj', getD_set_self hpl]
        have hjp : j.getD p.1 0 < X.shape.getD p.1 0 := (InB_iff_getD.1 hj).2 p.1 hp
        have := Finset.single_le_sum (f := fun k => p.2.at_ [i.getD p.1 0, k] * X.at_ ((j.set p.1 (i.getD p.1 0)).set p.1 k))
          (fun _ _ => bot_le) (Finset.mem_range.2 hjp)
        refine le_trans (le_of_eq ?_) this
        congr 2
        rw [List.set_set, List.getD_eq_getElem _ _ hpl, List.set_getElem_self]
      have hps : (ps.map fun q => q.2.at_ [i.getD q.1 0, (j.set p.1 (i.getD p.1 0)).getD q.1 0]) =
          ps.map fun q => q.2.at_ [i.getD q.1 0, j.getD q.1 0] := by
        refine List.map_congr_left fun q hq => ?_
        have hne : p.1 ≠ q.1 := fun e => hnd.1 (by rw [e]; exact List.mem_map.2 ⟨q, hq, rfl⟩)
        rw [getD_set_ne hne]
      rw [hps, List.map_cons, List.prod_cons]
      calc _ = (ps.map fun q => q.2.at_ [i.getD q.1 0, j.getD q.1 0]).prod *
            (p.2.at_ [i.getD p.1 0, j.getD p.1 0] * X.at_ j) := by ring
        _ ≤ _ := mul_le_mul_right hX _

end TD
