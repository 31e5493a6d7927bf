import Verif.Lemmas.KronLaws
import Verif.Lemmas.Ttm

/-! # The operands of an Einstein sum may be listed in any order -/
namespace TD.tf
open TD Tensor ops
variable {α : Type}

theorem einsumOk_iff {ps : List (List Char × Tensor α)} {out : List Char} :
    einsumOk (ps.map Prod.fst) out ((ps.map Prod.snd).map Tensor.shape) ↔
      (∀ p ∈ ps, p.1.Nodup) ∧ out.Nodup ∧ (∀ c ∈ out, ∃ p ∈ ps, c ∈ p.1) ∧ ∃ D : Char → Nat, ∀ p ∈ ps, p.1.map D = p.2.shape := by
  have hfl : ∀ c, c ∈ (ps.map Prod.fst).flatten ↔ ∃ p ∈ ps, c ∈ p.1 := fun c => by
    simp only [List.mem_flatten, List.mem_map, exists_exists_and_eq_and]
  constructor
  · intro h
    refine ⟨fun p hp => h.2.2.1 _ (List.mem_map_of_mem hp), h.2.2.2.1, fun c hc => (hfl c).1 (h.2.2.2.2.1 c hc),
      labelDim (ps.map Prod.fst) ((ps.map Prod.snd).map Tensor.shape), fun p hp => ?_⟩
    have hm : (p.1, p.2.shape) ∈ (ps.map Prod.fst).zip ((ps.map Prod.snd).map Tensor.shape) := by
      rw [List.map_map, List.zip_map']
      exact List.mem_map.2 ⟨p, hp, rfl⟩
    have hl : p.1.length = p.2.shape.length := h.2.1 _ hm
    refine List.ext_getElem (by simpa using hl) fun j h1 h2 => ?_
    rw [List.getElem_map]
    exact einsumOk_dim h hm (List.getElem?_eq_getElem (by simpa using h1)) (List.getElem?_eq_getElem h2)
  · rintro ⟨h1, h2, h3, D, h4⟩
    refine einsumOk_of (D := D) ?_ (fun w hw => ?_) h2 fun c hc => (hfl c).2 (h3 c hc)
    · rw [List.map_map, List.map_map]
      exact List.map_congr_left fun p hp => h4 p hp
    · obtain ⟨p, hp, rfl⟩ := List.mem_map.1 hw
      exact h1 p hp

/-- The result of an Einstein sum, or its failure, does not depend on the order of the operands. -/
theorem einsumL_perm [CommSemiring α] {ps ps' : List (List Char × Tensor α)} {out : List Char} (h : ps.Perm ps') :
    einsumL (ps.map Prod.fst) out (ps.map Prod.snd) = einsumL (ps'.map Prod.fst) out (ps'.map Prod.snd) := by
  have hfl : ∀ (qs : List (List Char × Tensor α)) c, c ∈ (qs.map Prod.fst).flatten ↔ ∃ p ∈ qs, c ∈ p.1 := fun qs c => by
    simp only [List.mem_flatten, List.mem_map, exists_exists_and_eq_and]
  have hz : ∀ (qs : List (List Char × Tensor α)) (env : Char → Nat),
      List.zipWith (fun w (t : Tensor α) => t.at_ (w.map env)) (qs.map Prod.fst) (qs.map Prod.snd) =
        qs.map fun p => p.2.at_ (p.1.map env) := fun qs env => by
    rw [List.zipWith_map, List.zipWith_self]
  by_cases hok : einsumOk (ps.map Prod.fst) out ((ps.map Prod.snd).map Tensor.shape)
  · obtain ⟨h1, h2, h3, D, h4⟩ := einsumOk_iff.1 hok
    have key : ∀ qs : List (List Char × Tensor α), ps.Perm qs →
        einsumL (qs.map Prod.fst) out (qs.map Prod.snd) = .ok (ofFn (out.map D) fun idx =>
          sumOver D ((ps.map Prod.fst).flatten.dedup.filter (· ∉ out))
            (fun env => (ps.map fun p => p.2.at_ (p.1.map env)).prod) (bindLabels out idx)) := fun qs hq => by
      rw [einsumL_eq (D := D) (S := (ps.map Prod.fst).flatten.dedup.filter (· ∉ out))]
      · congr 2
        funext idx
        congr 1
        funext env
        rw [hz, (hq.map _).prod_eq]
      · rw [List.map_map, List.map_map]
        exact List.map_congr_left fun p hp => h4 p (hq.mem_iff.2 hp)
      · intro w hw
        obtain ⟨p, hp, rfl⟩ := List.mem_map.1 hw
        exact h1 p (hq.mem_iff.2 hp)
      · exact h2
      · intro c hc
        obtain ⟨p, hp, hc'⟩ := h3 c hc
        exact (hfl qs c).2 ⟨p, hq.mem_iff.1 hp, hc'⟩
      · exact (List.nodup_dedup _).filter _
      · intro c
        simp only [List.mem_filter, List.mem_dedup, decide_eq_true_eq, hfl]
        refine and_congr ⟨?_, ?_⟩ Iff.rfl
        · rintro ⟨p, hp, hc⟩; exact ⟨p, hq.mem_iff.1 hp, hc⟩
        · rintro ⟨p, hp, hc⟩; exact ⟨p, hq.mem_iff.2 hp, hc⟩
    rw [key ps (List.Perm.refl _), key ps' h]
  · rw [einsumL_error hok, einsumL_error]
    intro hok'
    apply hok
    obtain ⟨h1, h2, h3, D, h4⟩ := einsumOk_iff.1 hok'
    refine einsumOk_iff.2 ⟨fun p hp => h1 p (h.mem_iff.1 hp), h2, fun c hc => ?_, D, fun p hp => h4 p (h.mem_iff.1 hp)⟩
    obtain ⟨p, hp, hc'⟩ := h3 c hc
    exact ⟨p, h.mem_iff.2 hp, hc'⟩

end TD.tf

namespace TD.ops
open TD Tensor tf
variable {α : Type}

/-- Up to order 26 and for axes in range, `ttm` is one Einstein sum on labels. -/
theorem ttm_einsumL [CommSemiring α] (X : Tensor α) (ps : List (Nat × Tensor α)) (tr : Bool) (hne : ps ≠ []) (hN : X.order ≤ 26)
    (hlt : ∀ p ∈ ps, p.1 < X.order) :
    ttm X (ps.map Prod.snd) (some (ps.map Prod.fst)) tr =
      (let qs : List (List Char × Tensor α) := ((List.range X.order).map fun i => letter (26 - X.order + i), X) ::
          ps.map fun p => (if tr then [letter (26 - X.order + p.1), letter p.1] else [letter p.1, letter (26 - X.order + p.1)], p.2);
        einsumL (qs.map Prod.fst) ((List.range X.order).map fun k => if k ∈ ps.map Prod.fst then letter k else letter (26 - X.order + k))
          (qs.map Prod.snd)) := by
  have hax : ∀ i ∈ ps.map Prod.fst, i < X.order := fun i hi => by
    obtain ⟨p, hp, rfl⟩ := List.mem_map.1 hi
    exact hlt p hp
  simp only [ttm, Option.isSome_some, ne_eq, not_true_eq_false, and_false, if_false, Option.getD_some]
  rw [ttmEq_ok (by simpa using hne) hN hax, ok_bind, einsum_eq]
  · simp only [List.map_cons, List.map_map]
    rfl
  · simp
  · intro w hw
    rcases List.mem_cons.1 hw with rfl | hw
    · obtain ⟨p, hp⟩ := List.exists_mem_of_ne_nil ps hne
      have := hlt p hp
      simp only [ne_eq, List.map_eq_nil_iff, List.range_eq_nil]; omega
    · obtain ⟨i, hi, rfl⟩ := List.mem_map.1 hw
      cases tr <;> simp
  · intro w hw c hc
    rcases List.mem_cons.1 hw with rfl | hw
    · obtain ⟨i, hi, rfl⟩ := List.mem_map.1 hc
      have := List.mem_range.1 hi
      exact letter_isLabel _ (by omega)
    · obtain ⟨i, hi, rfl⟩ := List.mem_map.1 hw
      have := hax i hi
      cases tr <;> simp only [if_true, Bool.false_eq_true, if_false, List.mem_cons, List.not_mem_nil, or_false] at hc <;>
        rcases hc with rfl | rfl <;> exact letter_isLabel _ (by omega)
  · intro c hc
    obtain ⟨k, hk, rfl⟩ := List.mem_map.1 hc
    have := List.mem_range.1 hk
    split <;> exact letter_isLabel _ (by omega)

theorem splitArrow_keeps {c : Char} {b : List Char} : ∀ {a l out : List Char},
    (a ++ [c]).IsChain (fun x y => ¬ (x = '-' ∧ y = '>')) → c ≠ '-' → splitArrow (a ++ c :: b) = some (l, out) → c ∈ l
  | [], l, out, _, hc, h => by
      rw [List.nil_append] at h
      unfold splitArrow at h
      split at h
      · next e => cases e; exact absurd rfl hc
      · next e =>
          cases e
          obtain ⟨⟨l', o'⟩, -, h2⟩ := Option.map_eq_some_iff.1 h
          cases h2; simp
      · next e => cases e
  | d :: a, l, out, hch, hc, h => by
      rw [List.cons_append] at h hch
      unfold splitArrow at h
      split at h
      · next e =>
          exfalso
          cases a with
          | nil => cases e; exact (List.isChain_cons_cons.1 hch).1 ⟨rfl, rfl⟩
          | cons x a => cases e; exact (List.isChain_cons_cons.1 hch).1 ⟨rfl, rfl⟩
      · next e =>
          cases e
          obtain ⟨⟨l', o'⟩, h1, h2⟩ := Option.map_eq_some_iff.1 h
          cases h2
          exact List.mem_cons_of_mem _ (splitArrow_keeps (List.IsChain.tail hch) hc h1)
      · next e => cases e

theorem mem_splitAll {c : Char} (hc : c ≠ ',') : ∀ {l : List Char}, c ∈ l → ∃ w ∈ splitAll ',' l, c ∈ w
  | [], h => by simp at h
  | d :: l, h => by
      unfold splitAll
      split
      · next e =>
          subst e
          obtain ⟨w, h1, h2⟩ := mem_splitAll hc ((List.mem_cons.1 h).resolve_left hc)
          exact ⟨w, List.mem_cons_of_mem _ h1, h2⟩
      · rcases List.mem_cons.1 h with rfl | h
        · split
          · exact ⟨_, List.mem_singleton_self _, by simp⟩
          · exact ⟨_, List.mem_cons_self, by simp⟩
        · obtain ⟨w, h1, h2⟩ := mem_splitAll hc h
          split
          · next e => rw [e] at h1; simp at h1
          · next e =>
              rw [e] at h1
              rcases List.mem_cons.1 h1 with rfl | h1
              · exact ⟨_, List.mem_cons_self, List.mem_cons_of_mem _ h2⟩
              · exact ⟨w, List.mem_cons_of_mem _ h1, h2⟩

theorem ascii_toNat : ∀ k < 128, (Char.ofNat k).toNat = k := by decide

/-- Above order 26 the equation contains characters that are no letters. -/
theorem ttm_large [CommSemiring α] (X : Tensor α) (ms : List (Tensor α)) (axis : List Nat) (tr : Bool) (hN : 26 < X.order)
    (hlt : ∀ i ∈ axis, i < X.order) : ttm X ms (some axis) tr = .error .valueError := by
  simp only [ttm, Option.isSome_some, ne_eq, not_true_eq_false, and_false, if_false, Option.getD_some]
  generalize X.order = N at hN hlt
  unfold ttmEq
  simp only
  by_cases hbig : 123 < N
  · obtain ⟨n, rfl⟩ : ∃ n, N = n + 1 := ⟨N - 1, by omega⟩
    rw [List.range_succ_eq_map, List.mapM_cons]
    have : chr (122 - ((n + 1 : Nat) : Int) + 1 + ((0 : Nat) : Int)) = .error .valueError := by
      unfold chr; rw [if_neg (by push_cast; omega)]
    rw [this]; rfl
  have h1 : ∀ i < N, chr ((122 : Int) - (N : Int) + 1 + (i : Int)) = .ok (Char.ofNat (123 - N + i)) := fun i hi => by
    unfold chr
    have e : (122 : Int) - (N : Int) + 1 + (i : Int) = ((123 - N + i : Nat) : Int) := by omega
    rw [e, if_pos (by omega), if_pos (by omega), Int.toNat_natCast]
  have h2 : ∀ i < N, chr ((97 : Int) + (i : Int)) = .ok (Char.ofNat (97 + i)) := fun i hi => by
    unfold chr
    rw [if_pos (by omega), if_pos (by omega)]
    congr 1
  rw [mapM_ok (g := fun i => Char.ofNat (123 - N + i)) (fun i hi => h1 i (by simpa using hi)), ok_bind,
    mapM_ok (g := fun i => if tr then [Char.ofNat (123 - N + i), Char.ofNat (97 + i)] else [Char.ofNat (97 + i), Char.ofNat (123 - N + i)])
      (fun i hi => by rw [h1 i (hlt i hi), ok_bind, h2 i (hlt i hi), ok_bind]), ok_bind,
    mapM_ok (g := fun i => (i, Char.ofNat (97 + i))) (fun i hi => by rw [h2 i (hlt i hi), ok_bind]; rfl), ok_bind,
    setAll_eq _ _ _ (by simpa using hlt), ok_bind, ok_bind]
  unfold einsum
  have hN' : N = (N - 27) + 1 + 26 := by omega
  have hr : (List.range N).map (fun i => Char.ofNat (123 - N + i)) =
      (List.range (N - 27)).map (fun i => Char.ofNat (123 - N + i)) ++ '`' ::
        (List.range 26).map (fun i => Char.ofNat (123 - N + (N - 27 + 1 + i))) := by
    conv_lhs => rw [hN', List.range_add, List.range_succ]
    rw [List.map_append, List.map_append, List.map_singleton, List.map_map, List.append_assoc, ← hN']
    congr 2
    rw [show 123 - N + (N - 27) = 96 from by omega]
    rfl
  have : ∀ rest : List Char, parseEq ((List.range N).map (fun i => Char.ofNat (123 - N + i)) ++ rest) = none := fun rest => by
    unfold parseEq
    cases hs : splitArrow ((List.range N).map (fun i => Char.ofNat (123 - N + i)) ++ rest) with
    | none => rfl
    | some lo =>
        obtain ⟨l, out⟩ := lo
        rw [hr, List.append_assoc] at hs
        have hm := splitArrow_keeps (c := '`') ?_ (by decide) hs
        · obtain ⟨w, w1, w2⟩ := mem_splitAll (by decide) hm
          simp only
          rw [if_neg]
          simp only [Bool.and_eq_true, List.all_eq_true, not_and_or]
          left
          intro hall
          exact absurd ((hall w w1).2 _ w2) (by decide)
        · have : (List.range (N - 27)).map (fun i => Char.ofNat (123 - N + i)) ++ ['`'] =
              (List.range (N - 27 + 1)).map (fun i => Char.ofNat (123 - N + i)) := by
            rw [List.range_succ, List.map_append, List.map_singleton, show 123 - N + (N - 27) = 96 from by omega]
          rw [this, List.isChain_map, List.isChain_range_succ]
          intro m hm ⟨e1, e2⟩
          have c1 : (Char.ofNat (123 - N + m)).toNat = 123 - N + m := by
            exact ascii_toNat _ (by omega)
          have c2 : (Char.ofNat (123 - N + m.succ)).toNat = 123 - N + m.succ := by
            exact ascii_toNat _ (by omega)
          rw [e1] at c1; rw [e2] at c2
          have d1 : ('-' : Char).toNat = 45 := rfl
          have d2 : ('>' : Char).toNat = 62 := rfl
          omega
  rw [List.append_assoc, this]

theorem ttm_perm [CommSemiring α] (X : Tensor α) {ps ps' : List (Nat × Tensor α)} (tr : Bool)
    (hlt : ∀ p ∈ ps, p.1 < X.order) (h : ps.Perm ps') :
    ttm X (ps.map Prod.snd) (some (ps.map Prod.fst)) tr = ttm X (ps'.map Prod.snd) (some (ps'.map Prod.fst)) tr := by
  by_cases hN : X.order ≤ 26
  swap
  · rw [ttm_large X _ _ tr (by omega) fun i hi => ?_, ttm_large X _ _ tr (by omega) fun i hi => ?_]
    · obtain ⟨p, hp, rfl⟩ := List.mem_map.1 hi
      exact hlt p (h.mem_iff.2 hp)
    · obtain ⟨p, hp, rfl⟩ := List.mem_map.1 hi
      exact hlt p hp
  by_cases hne : ps = []
  · subst hne; rw [h.nil_eq]
  have hne' : ps' ≠ [] := fun e => hne (by rw [e] at h; exact h.eq_nil)
  rw [ttm_einsumL X ps tr hne hN hlt, ttm_einsumL X ps' tr hne' hN fun p hp => hlt p (h.mem_iff.2 hp)]
  simp only
  rw [einsumL_perm ((h.map _).cons _)]
  congr 1
  refine List.map_congr_left fun k _ => ?_
  exact if_congr (h.map Prod.fst).mem_iff rfl rfl

end TD.ops
