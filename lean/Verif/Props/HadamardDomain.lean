import Verif.Spec.BcastMany
import Verif.Props.Hadamard
import Verif.Lemmas.Bcast

/-!
# C15 : the exact domain of `hadamard`
-/
namespace TD.Props
open TD Spec Tensor ops

theorem bcastDim_iff {x y z : Nat} : BcastDim x y z ↔ (x = 1 ∨ x = z) ∧ (y = 1 ∨ y = z) ∧ (x = z ∨ y = z) := by
  unfold BcastDim
  omega

theorem getD_rev_one {a : List Nat} {k : Nat} (h : a.length ≤ k) : a.reverse.getD k 1 = 1 :=
  List.getD_eq_default _ _ (by rw [List.length_reverse]; exact h)

/-- The common shape of one shape more. -/
theorem bcastMany_snoc {ss : List (List Nat)} {s m s' : List Nat} (hs : BcastMany ss s) (h : Bcast s m s') :
    BcastMany (ss ++ [m]) s' := by
  obtain ⟨h1, ⟨b, hb, hb'⟩, h3⟩ := hs
  obtain ⟨g1, g2⟩ := h
  refine ⟨fun a ha => ?_, ?_, fun k hk => ?_⟩
  · rcases List.mem_append.1 ha with ha | ha
    · have := h1 a ha; omega
    · rw [List.mem_singleton.1 ha]; omega
  · rcases le_total s.length m.length with hl | hl
    · exact ⟨m, by simp, by omega⟩
    · exact ⟨b, by simp [hb], by omega⟩
  · obtain ⟨e1, e2, e3⟩ := bcastDim_iff.1 (g2 k hk)
    by_cases hks : k < s.length
    · obtain ⟨f1, c, hc, f2⟩ := h3 k hks
      refine ⟨fun a ha => ?_, ?_⟩
      · rcases List.mem_append.1 ha with ha | ha
        · have := f1 a ha; omega
        · rw [List.mem_singleton.1 ha]; exact e2
      · rcases e3 with e3 | e3
        · exact ⟨c, by simp [hc], by omega⟩
        · exact ⟨m, by simp, e3⟩
    · rw [getD_rev_one (show s.length ≤ k by omega)] at e1 e3
      refine ⟨fun a ha => ?_, ?_⟩
      · rcases List.mem_append.1 ha with ha | ha
        · left; exact getD_rev_one ((h1 a ha).trans (by omega))
        · rw [List.mem_singleton.1 ha]; exact e2
      · rcases e3 with e3 | e3
        · exact ⟨b, by simp [hb], by rw [getD_rev_one (by omega)]; exact e3⟩
        · exact ⟨m, by simp, e3⟩

/-- Shapes that have a common shape with others have one. -/
theorem bcastMany_step {ss xs : List (List Nat)} {s m t : List Nat} (hs : BcastMany ss s) (ht : BcastMany (ss ++ m :: xs) t) :
    ∃ s', Bcast s m s' := by
  obtain ⟨h1, ⟨b, hb, hb'⟩, h3⟩ := hs
  obtain ⟨g1, -, g3⟩ := ht
  let g := fun k => if s.reverse.getD k 1 = 1 then m.reverse.getD k 1 else s.reverse.getD k 1
  refine ⟨((List.range (max s.length m.length)).map g).reverse, by simp, fun k hk => ?_⟩
  have hk : k < max s.length m.length := by simpa using hk
  have e : ((List.range (max s.length m.length)).map g).reverse.reverse.getD k 1 = g k := by
    rw [List.reverse_reverse, List.getD_eq_getElem _ _ (by simpa using hk)]; simp
  rw [e, bcastDim_iff]
  have hbt : s.length ≤ t.length := by
    have := g1 b (by simp [hb]); omega
  have hmt : m.length ≤ t.length := g1 m (by simp)
  obtain ⟨f1, -⟩ := g3 k (by omega)
  have f2 := f1 m (by simp)
  have f3 : s.reverse.getD k 1 = 1 ∨ s.reverse.getD k 1 = t.reverse.getD k 1 := by
    by_cases hks : k < s.length
    · obtain ⟨-, c, hc, q⟩ := h3 k hks
      have := f1 c (by simp [hc]); omega
    · left; exact getD_rev_one (by omega)
  simp only [g]
  split_ifs <;> omega

theorem bcastMany_unique {ss : List (List Nat)} {s t : List Nat} (hs : BcastMany ss s) (ht : BcastMany ss t) : s = t := by
  obtain ⟨h1, ⟨b, hb, hb'⟩, h3⟩ := hs
  obtain ⟨g1, ⟨c, hc, hc'⟩, g3⟩ := ht
  have hl : s.length = t.length := by
    have := h1 c hc; have := g1 b hb; omega
  rw [← List.reverse_inj]
  refine List.ext_getElem (by simp [hl]) fun k hk hk' => ?_
  have hk : k < s.length := by simpa using hk
  obtain ⟨e1, a, ha, e2⟩ := h3 k hk
  obtain ⟨f1, a', ha', f2⟩ := g3 k (by omega)
  have p := e1 a' ha'
  have q := f1 a ha
  rw [← List.getD_eq_getElem _ 1, ← List.getD_eq_getElem _ 1]
  omega

/-- Aligning twice is aligning once. -/
theorem alignIdx_align {a s i : List Nat} (hi : s.length ≤ i.length) (ha : a.length ≤ s.length)
    (h : ∀ k < s.length, a.reverse.getD k 1 = 1 ∨ a.reverse.getD k 1 = s.reverse.getD k 1) :
    alignIdx a (alignIdx s i) = alignIdx a i := by
  unfold alignIdx
  refine List.map_congr_left fun k hk => ?_
  have hk := List.mem_range.1 hk
  by_cases h1 : a.getD k 0 = 1
  · rw [if_pos h1, if_pos h1]
  rw [if_neg h1, if_neg h1]
  have hks : s.length - a.length + k < s.length := by omega
  rw [List.length_map, List.length_range, List.getD_eq_getElem _ _ (by simpa using hks), List.getElem_map, List.getElem_range]
  have e := h (a.length - 1 - k) (by omega)
  rw [List.getD_eq_getElem _ _ (by simp; omega), List.getD_eq_getElem _ _ (by simp; omega), List.getElem_reverse, List.getElem_reverse] at e
  rw [List.getD_eq_getElem _ _ hk] at h1
  have i1 : a.length - 1 - (a.length - 1 - k) = k := by omega
  have i2 : s.length - 1 - (a.length - 1 - k) = s.length - a.length + k := by omega
  simp only [i1, i2] at e
  rw [if_neg, show i.length - s.length + (s.length - a.length + k) = i.length - a.length + k by omega]
  rw [List.getD_eq_getElem _ _ hks]
  omega

theorem alignIdx_self {s i : List Nat} (h : InB s i) : alignIdx s i = i := by
  obtain ⟨hl, hk⟩ := InB_iff_getElem.1 h
  unfold alignIdx
  refine List.ext_getElem (by simp [hl]) fun k h1 h2 => ?_
  have h3 := hk k h2 (by omega)
  rw [List.getElem_map, List.getElem_range, hl, Nat.sub_self, Nat.zero_add, List.getD_eq_getElem _ _ (by omega : k < s.length),
    List.getD_eq_getElem _ _ h2]
  split_ifs <;> omega

theorem alignIdx_inB {s i : List Nat} {t : List Nat} (hi : InB t i) (hl : s.length ≤ t.length)
    (h : ∀ k < s.length, s.reverse.getD k 1 = 1 ∨ s.reverse.getD k 1 = t.reverse.getD k 1) : InB s (alignIdx s i) := by
  obtain ⟨hil, hik⟩ := InB_iff_getElem.1 hi
  refine InB_iff_getElem.2 ⟨by simp [alignIdx], fun k h1 h2 => ?_⟩
  simp only [alignIdx, List.getElem_map, List.getElem_range]
  rw [List.getD_eq_getElem _ _ h2, List.getD_eq_getElem _ _ (by omega)]
  have e := h (s.length - 1 - k) (by omega)
  rw [List.getD_eq_getElem _ _ (by simp; omega), List.getD_eq_getElem _ _ (by simp; omega), List.getElem_reverse, List.getElem_reverse] at e
  have i1 : s.length - 1 - (s.length - 1 - k) = k := by omega
  have i2 : t.length - 1 - (s.length - 1 - k) = i.length - s.length + k := by omega
  simp only [i1, i2] at e
  have := hik (i.length - s.length + k) (by omega) (by omega)
  split_ifs <;> omega

/-- The folding of `hadamard`, one operand at a time. -/
theorem hadamard_fold {α : Type} [CommSemiring α] (ms : List (Tensor α)) :
    ∀ (done : List (Tensor α)) (H : Tensor α), BcastMany (done.map Tensor.shape) H.shape →
      (∀ i, InB H.shape i → H.at_ i = (done.map fun M => M.at_ (alignIdx M.shape i)).prod) →
      (∀ s, BcastMany ((done ++ ms).map Tensor.shape) s → ∃ R, ms.foldlM (tf.ewise (· * ·)) H = .ok R ∧ R.shape = s ∧
        ∀ i, InB s i → R.at_ i = ((done ++ ms).map fun M => M.at_ (alignIdx M.shape i)).prod) ∧
      ((¬ ∃ s, BcastMany ((done ++ ms).map Tensor.shape) s) → ms.foldlM (tf.ewise (· * ·)) H = .error .invalidArgument) := by
  induction ms with
  | nil =>
      intro done H h1 h2
      rw [List.append_nil]
      refine ⟨fun s hs => ⟨H, rfl, bcastMany_unique h1 hs, fun i hi => ?_⟩, fun hn => absurd ⟨_, h1⟩ hn⟩
      rw [← bcastMany_unique h1 hs] at hi
      exact h2 i hi
  | cons M ms ih =>
      intro done H h1 h2
      obtain ⟨w1, w2⟩ := tf.ewise_spec (· * ·) H M
      have step : ∀ s', Bcast H.shape M.shape s' → ∃ C, tf.ewise (· * ·) H M = .ok C ∧
          BcastMany ((done ++ [M]).map Tensor.shape) C.shape ∧
          ∀ i, InB C.shape i → C.at_ i = ((done ++ [M]).map fun M => M.at_ (alignIdx M.shape i)).prod := by
        intro s' hs'
        obtain ⟨C, c1, c2, c3⟩ := w1 s' hs'
        have hB : BcastMany ((done ++ [M]).map Tensor.shape) C.shape := by
          rw [List.map_append, c2]; exact bcastMany_snoc h1 hs'
        refine ⟨C, c1, hB, fun i hi => ?_⟩
        rw [c2] at hi
        rw [c3 i hi, h2, List.map_append, List.prod_append, List.map_singleton, List.prod_singleton]
        · congr 2
          refine List.map_congr_left fun N hN => ?_
          rw [alignIdx_align (by rw [hi.length, hs'.1]; omega) (h1.1 _ (List.mem_map_of_mem hN)) fun k hk =>
            (h1.2.2 k hk).1 _ (List.mem_map_of_mem hN)]
        · refine alignIdx_inB hi (by rw [hs'.1]; omega) fun k hk => ?_
          have := bcastDim_iff.1 (hs'.2 k (by rw [hs'.1]; omega))
          exact this.1
      rw [List.foldlM_cons]
      constructor
      · intro s hs
        rw [List.map_append, List.map_cons] at hs
        obtain ⟨s', hs'⟩ := bcastMany_step h1 hs
        obtain ⟨C, c1, c2, c3⟩ := step s' hs'
        rw [c1, ok_bind]
        have := (ih (done ++ [M]) C c2 c3).1 s (by simpa using hs)
        simpa using this
      · intro hn
        by_cases hs' : ∃ s', Bcast H.shape M.shape s'
        · obtain ⟨s', hs'⟩ := hs'
          obtain ⟨C, c1, c2, c3⟩ := step s' hs'
          rw [c1, ok_bind]
          exact (ih (done ++ [M]) C c2 c3).2 (by simpa using hn)
        · rw [w2 hs']; rfl

/-- **C15** (any shapes): `hadamard` returns exactly if something is kept and the kept shapes have a common shape under
broadcasting; the entries are the products of the entries of the stretched operands.  Otherwise it raises. -/
theorem C15_hadamard_accepts_iff {α : Type} [CommSemiring α] (ms : List (Tensor α)) (s : Skip) :
    (∀ sh, BcastMany ((kept ms s).map Tensor.shape) sh → ∃ H, hadamard ms s = .ok H ∧ H.shape = sh ∧
      ∀ i, InB sh i → H.at_ i = ((kept ms s).map fun M => M.at_ (alignIdx M.shape i)).prod) ∧
    ((¬ ∃ sh, BcastMany ((kept ms s).map Tensor.shape) sh) →
      hadamard ms s = .error (if kept ms s = [] then .typeError else .invalidArgument)) := by
  unfold hadamard
  rw [skip_eq_kept]
  cases kept ms s with
  | nil =>
      refine ⟨fun sh h => ?_, fun _ => rfl⟩
      obtain ⟨-, ⟨a, ha, -⟩, -⟩ := h
      cases ha
  | cons M l =>
      have := hadamard_fold l [M] M ⟨by simp, ⟨M.shape, by simp, rfl⟩, fun k _ => ⟨by simp, M.shape, by simp, rfl⟩⟩ fun i hi => by
        rw [List.map_singleton, List.prod_singleton, alignIdx_self hi]
      rw [if_neg (by simp)]
      exact this

/-- **C15** (any shapes): the order of the kept operands does not matter, not even for what is raised. -/
theorem C15_hadamard_perm_any {α : Type} [CommSemiring α] (ms ms' : List (Tensor α)) (s s' : Skip)
    (hp : (kept ms s).Perm (kept ms' s')) : hadamard ms s = hadamard ms' s' := by
  have hb : ∀ sh, BcastMany ((kept ms s).map Tensor.shape) sh ↔ BcastMany ((kept ms' s').map Tensor.shape) sh := fun sh => by
    unfold BcastMany
    simp only [(hp.map Tensor.shape).mem_iff]
  obtain ⟨a1, a2⟩ := C15_hadamard_accepts_iff ms s
  obtain ⟨b1, b2⟩ := C15_hadamard_accepts_iff ms' s'
  by_cases h : ∃ sh, BcastMany ((kept ms s).map Tensor.shape) sh
  · obtain ⟨sh, h⟩ := h
    obtain ⟨H, e1, e2, e3⟩ := a1 sh h
    obtain ⟨H', f1, f2, f3⟩ := b1 sh ((hb sh).1 h)
    rw [e1, f1]
    refine congrArg _ (ext_at (e2.trans f2.symm) fun i hi => ?_)
    rw [e2] at hi
    rw [e3 i hi, f3 i hi]
    exact (hp.map _).prod_eq
  · rw [a2 h, b2 fun ⟨sh, hs⟩ => h ⟨sh, (hb sh).2 hs⟩]
    have : kept ms s = [] ↔ kept ms' s' = [] := ⟨fun e => by rw [e] at hp; exact hp.symm.eq_nil, fun e => by rw [e] at hp; exact hp.eq_nil⟩
    simp only [this]

/-- A common shape, and none. -/
example : BcastMany [[2, 1], [3], [1, 3]] [2, 3] ∧ ¬ ∃ s, BcastMany [[2, 3], [2]] s := by
  refine ⟨⟨by decide, by decide, by decide⟩, ?_⟩
  rintro ⟨s, h1, -, h3⟩
  have hl := h1 [2, 3] (by simp)
  obtain ⟨e, -⟩ := h3 0 (by simp at hl; omega)
  have a := e [2, 3] (by simp)
  have b := e [2] (by simp)
  simp at a b
  omega

end TD.Props
