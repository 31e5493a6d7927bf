import Verif.Lemmas.EinsumPerm

/-! # Two operands of an Einstein sum with the same labels may be multiplied first -/
namespace TD.tf
open TD Tensor ops
variable {α : Type}

theorem sumOver_congr_in [CommSemiring α] {d : Char → Nat} {cs : List Char} (hnd : cs.Nodup) {F G : (Char → Nat) → α}
    {env : Char → Nat} (h : ∀ env', (∀ c ∈ cs, env' c < d c) → (∀ c, c ∉ cs → env' c = env c) → F env' = G env') :
    sumOver d cs F env = sumOver d cs G env := by
  induction cs generalizing env with
  | nil => exact h env (by simp) (fun _ _ => rfl)
  | cons c cs ih =>
      rw [List.nodup_cons] at hnd
      simp only [sumOver]
      refine Finset.sum_congr rfl fun v hv => ih hnd.2 fun env' h1 h2 => h env' (fun x hx => ?_) fun x hx => ?_
      · rcases List.mem_cons.1 hx with rfl | hx
        · rw [h2 x hnd.1, Function.update_self]; exact Finset.mem_range.1 hv
        · exact h1 x hx
      · simp only [List.mem_cons, not_or] at hx
        rw [h2 x hx.2, Function.update_of_ne hx.1]

/-- Replacing two operands with equal labels and equal shapes by their entrywise product changes neither the result nor whether
there is one. -/
theorem einsumL_merge [CommSemiring α] {q : List Char × Tensor α} {ps : List (List Char × Tensor α)} {w out : List Char}
    {A B : Tensor α} (hs : A.shape = B.shape) :
    einsumL ((q :: (w, A) :: (w, B) :: ps).map Prod.fst) out ((q :: (w, A) :: (w, B) :: ps).map Prod.snd) =
      einsumL ((q :: (w, ofFn A.shape fun i => A.at_ i * B.at_ i) :: ps).map Prod.fst) out
        ((q :: (w, ofFn A.shape fun i => A.at_ i * B.at_ i) :: ps).map Prod.snd) := by
  have hfl : ∀ (qs : List (List Char × Tensor α)) c, c ∈ (qs.map Prod.fst).flatten ↔ ∃ p ∈ qs, c ∈ p.1 := fun qs c => by
    simp only [List.mem_flatten, List.mem_map, exists_exists_and_eq_and]
  have hz : ∀ (qs : List (List Char × Tensor α)) (env : Char → Nat),
      List.zipWith (fun w (t : Tensor α) => t.at_ (w.map env)) (qs.map Prod.fst) (qs.map Prod.snd) =
        qs.map fun p => p.2.at_ (p.1.map env) := fun qs env => by
    rw [List.zipWith_map, List.zipWith_self]
  set H : Tensor α := ofFn A.shape fun i => A.at_ i * B.at_ i with hH
  have hHs : H.shape = A.shape := rfl
  have hiff : einsumOk ((q :: (w, A) :: (w, B) :: ps).map Prod.fst) out (((q :: (w, A) :: (w, B) :: ps).map Prod.snd).map Tensor.shape) ↔
      einsumOk ((q :: (w, H) :: ps).map Prod.fst) out (((q :: (w, H) :: ps).map Prod.snd).map Tensor.shape) := by
    rw [einsumOk_iff, einsumOk_iff]
    simp only [List.forall_mem_cons, List.exists_mem_cons_iff, hHs, ← hs, and_self_left, or_self_left]
  by_cases hok : einsumOk ((q :: (w, A) :: (w, B) :: ps).map Prod.fst) out (((q :: (w, A) :: (w, B) :: ps).map Prod.snd).map Tensor.shape)
  · obtain ⟨h1, h2, h3, D, h4⟩ := einsumOk_iff.1 hok
    obtain ⟨k1, -, k3, -⟩ := einsumOk_iff.1 (hiff.1 hok)
    set S := ((q :: (w, A) :: (w, B) :: ps).map Prod.fst).flatten.dedup.filter (· ∉ out) with hS
    have hSm : ∀ c, c ∈ S ↔ (∃ p ∈ q :: (w, A) :: (w, B) :: ps, c ∈ p.1) ∧ c ∉ out := fun c => by
      rw [hS]
      simp only [List.mem_filter, List.mem_dedup, decide_eq_true_eq, hfl]
    have hSn : S.Nodup := (List.nodup_dedup _).filter _
    have hwD : w.map D = A.shape := h4 (w, A) (by simp)
    rw [einsumL_eq (D := D) (S := S) (ts := (q :: (w, A) :: (w, B) :: ps).map Prod.snd),
      einsumL_eq (D := D) (S := S) (ts := (q :: (w, H) :: ps).map Prod.snd)]
    · congr 1
      refine ofFn_congr fun idx hidx => sumOver_congr_in hSn fun env he he' => ?_
      rw [hz, hz]
      simp only [List.map_cons, List.prod_cons]
      have hin : InB A.shape (w.map env) := by
        rw [← hwD, InB_iff_getElem]
        refine ⟨by simp, fun k hk hk' => ?_⟩
        simp only [List.getElem_map]
        have hk0 : k < w.length := by simpa using hk
        by_cases hc : w[k] ∈ out
        · rw [he' _ fun hm => ((hSm _).1 hm).2 hc]
          obtain ⟨j, hj, e⟩ := List.mem_iff_getElem.1 hc
          rw [← e]
          have hl : idx.length = out.length := by simpa using hidx.length_eq
          rw [bindLabels_getElem h2 hj, List.getD_eq_getElem _ _ (by omega)]
          have := (InB_iff_getElem.1 hidx).2 j (by omega) (by rw [List.length_map]; exact hj)
          rw [List.getElem_map] at this
          exact this
        · exact he _ ((hSm _).2 ⟨⟨(w, A), by simp, List.getElem_mem _⟩, hc⟩)
      rw [hH, at_ofFn _ hin]
      ring
    · rw [List.map_map, List.map_map]
      refine List.map_congr_left fun p hp => ?_
      rcases List.mem_cons.1 hp with rfl | hp
      · exact h4 _ (by simp)
      rcases List.mem_cons.1 hp with rfl | hp
      · exact hwD
      · exact h4 _ (by simp [hp])
    · intro w' hw
      obtain ⟨p, hp, rfl⟩ := List.mem_map.1 hw
      exact k1 p hp
    · exact h2
    · exact fun c hc => (hfl _ c).2 (k3 c hc)
    · exact hSn
    · intro c
      rw [hSm, hfl]
      simp only [List.exists_mem_cons_iff, or_self_left]
    · rw [List.map_map, List.map_map]
      exact List.map_congr_left fun p hp => h4 p hp
    · intro w' hw
      obtain ⟨p, hp, rfl⟩ := List.mem_map.1 hw
      exact h1 p hp
    · exact h2
    · exact fun c hc => (hfl _ c).2 (h3 c hc)
    · exact hSn
    · intro c
      rw [hSm, hfl]
  · rw [einsumL_error hok, einsumL_error fun h => hok (hiff.2 h)]

end TD.tf
