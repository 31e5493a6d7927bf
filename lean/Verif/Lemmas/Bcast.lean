import Verif.Lemmas.Ewise
import Verif.Spec.Bcast

namespace TD.tf
open TD Spec Tensor
variable {α : Type}

theorem bcastRev_spec : ∀ a b s : List Nat, bcastRev a b = some s ↔
    s.length = max a.length b.length ∧ ∀ k < s.length, BcastDim (a.getD k 1) (b.getD k 1) (s.getD k 1)
  | [], b, s => by
      simp only [bcastRev, Option.some.injEq, List.length_nil, Nat.zero_max, List.getD_nil]
      constructor
      · rintro rfl
        refine ⟨rfl, fun k _ => Or.inr (Or.inl ⟨rfl, rfl⟩)⟩
      · rintro ⟨hl, h⟩
        apply List.ext_getElem hl.symm
        intro k h1 h2
        have := h k h2
        rw [List.getD_eq_getElem _ _ h1, List.getD_eq_getElem _ _ h2] at this
        unfold BcastDim at this
        omega
  | x :: a, [], s => by
      simp only [bcastRev, Option.some.injEq, List.length_nil, Nat.max_zero, List.getD_nil]
      constructor
      · rintro rfl
        refine ⟨rfl, fun k _ => Or.inr (Or.inr ⟨rfl, rfl⟩)⟩
      · rintro ⟨hl, h⟩
        apply List.ext_getElem hl.symm
        intro k h1 h2
        have := h k h2
        rw [List.getD_eq_getElem _ _ h1, List.getD_eq_getElem _ _ h2] at this
        unfold BcastDim at this
        omega
  | x :: a, y :: b, s => by
      have ih := bcastRev_spec a b
      simp only [bcastRev]
      constructor
      · intro h
        obtain ⟨r, hr, h⟩ := Option.bind_eq_some_iff.1 h
        obtain ⟨hl, hk⟩ := (ih r).1 hr
        have : ∃ z, s = z :: r ∧ BcastDim x y z := by
          unfold BcastDim
          split at h
          · exact ⟨x, (Option.some.inj h).symm, by omega⟩
          · split at h
            · exact ⟨y, (Option.some.inj h).symm, by omega⟩
            · split at h
              · exact ⟨x, (Option.some.inj h).symm, by omega⟩
              · cases h
        obtain ⟨z, rfl, hz⟩ := this
        refine ⟨by simp [hl, Nat.succ_max_succ], fun k hk' => ?_⟩
        cases k with
        | zero => simpa using hz
        | succ k => simpa using hk k (by simpa using hk')
      · rintro ⟨hl, h⟩
        obtain _ | ⟨z, r⟩ := s
        · simp at hl
        have hr : bcastRev a b = some r := by
          refine (ih r).2 ⟨by simp only [List.length_cons] at hl; omega, fun k hk => ?_⟩
          simpa using h (k + 1) (by simpa using hk)
        rw [hr, Option.bind_some]
        have hz : BcastDim x y z := by simpa using h 0 (by simp)
        unfold BcastDim at hz
        split
        · congr 2; omega
        · split
          · congr 2; omega
          · split
            · congr 2; omega
            · omega

theorem bcastShape_spec (a b s : List Nat) : bcastShape a b = some s ↔ Bcast a b s := by
  have h1 : bcastShape a b = some s ↔ bcastRev a.reverse b.reverse = some s.reverse := by
    unfold bcastShape
    constructor
    · intro h
      obtain ⟨r, hr, rfl⟩ := Option.map_eq_some_iff.1 h
      rw [hr, List.reverse_reverse]
    · intro h
      rw [h]; simp
  rw [h1, bcastRev_spec]
  unfold Bcast
  simp

theorem Bcast_comm {a b s : List Nat} : Bcast a b s ↔ Bcast b a s := by
  have hd : ∀ x y z, BcastDim x y z ↔ BcastDim y x z := by intro x y z; unfold BcastDim; omega
  unfold Bcast
  rw [Nat.max_comm]
  simp only [hd]

theorem bcastIdx_eq {a idx : List Nat} (h : a.length ≤ idx.length) : bcastIdx a idx = alignIdx a idx := by
  unfold bcastIdx alignIdx
  apply List.ext_getElem
  · simp; omega
  · intro k h1 h2
    have hk : k < a.length := by simpa using h2
    rw [List.getElem_zipWith, List.getElem_map, List.getElem_range, List.getElem_drop,
      List.getD_eq_getElem _ _ hk, List.getD_eq_getElem _ _ (by omega)]

theorem ewise_spec [Zero α] (f : α → α → α) (A B : Tensor α) :
    (∀ s, Bcast A.shape B.shape s → ∃ C, ewise f A B = .ok C ∧ C.shape = s ∧ ∀ idx, InB s idx →
      C.at_ idx = f (A.at_ (alignIdx A.shape idx)) (B.at_ (alignIdx B.shape idx))) ∧
    ((¬ ∃ s, Bcast A.shape B.shape s) → ewise f A B = .error .invalidArgument) := by
  constructor
  · intro s hs
    unfold ewise
    rw [(bcastShape_spec _ _ _).2 hs]
    refine ⟨_, rfl, rfl, fun idx hi => ?_⟩
    have := hi.length
    have := hs.1
    rw [at_ofFn _ hi, bcastIdx_eq (by omega), bcastIdx_eq (by omega)]
  · intro h
    unfold ewise
    cases e : bcastShape A.shape B.shape with
    | none => rfl
    | some s => exact absurd ⟨s, (bcastShape_spec _ _ _).1 e⟩ h

theorem ewise_comm [Zero α] (f : α → α → α) (hf : ∀ x y, f x y = f y x) (A B : Tensor α) :
    ewise f A B = ewise f B A := by
  by_cases h : ∃ s, Bcast A.shape B.shape s
  · obtain ⟨s, hs⟩ := h
    unfold ewise
    rw [(bcastShape_spec _ _ _).2 hs, (bcastShape_spec _ _ _).2 (Bcast_comm.1 hs)]
    simp only
    congr 2
    funext idx
    rw [hf]
  · rw [(ewise_spec f A B).2 h, (ewise_spec f B A).2 (fun ⟨s, hs⟩ => h ⟨s, Bcast_comm.1 hs⟩)]

end TD.tf
