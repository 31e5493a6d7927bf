import Mathlib.Algebra.Ring.Int.Defs
import Verif.Lemmas.ModeProd
import Verif.Lemmas.EinsumPerm

/-!
# C10 - C13 : `ttm`
-/
namespace TD.Props
open TD Tensor Spec ops
variable {α : Type}

/-- The matrices fit the axes: `ms[k]` has as many columns (rows, with `transpose=True`) as mode
`axis[k]` of the tensor. -/
def Conformable (X : Tensor α) (axis : List Nat) (ms : List (Tensor α)) (tr : Bool) : Prop :=
  axis.length = ms.length ∧ ∀ p ∈ axis.zip ms,
    ∃ J, p.2.shape = if tr then [X.shape.getD p.1 0, J] else [J, X.shape.getD p.1 0]

/-- **C13**, the part that holds: order at most 13, or any order when the used modes satisfy
`mode + order < 26` (for example a single product along mode 0 up to order 25).  Missing: the remaining
orders, where the property is false, see `C13_order_above_13_raises_false`. -/
theorem C13_ttm_any_order_partial [CommSemiring α] (X : Tensor α) (ms : List (Tensor α)) (axis : List Nat) (tr : Bool)
    (hne : axis ≠ []) (hnd : axis.Nodup) (hlt : ∀ i ∈ axis, i < X.order)
    (h26 : ∀ i ∈ axis, i + X.order < 26) (hc : Conformable X axis ms tr) :
    ttm X ms (some axis) tr = .ok (modeProds X (axis.zip (if tr then ms.map matT else ms))) := by
  obtain ⟨hlen, hsh⟩ := hc
  have h1 : (axis.zip ms).map Prod.fst = axis := List.map_fst_zip (by omega)
  have h2 : (axis.zip ms).map Prod.snd = ms := List.map_snd_zip (by omega)
  have hmem : ∀ p ∈ axis.zip ms, p.1 ∈ axis := fun p hp => (List.of_mem_zip hp).1
  have := ttm_core X (axis.zip ms) tr (by
      intro e
      rw [e] at h1
      exact hne h1.symm) (by rw [h1]; exact hnd) (fun p hp => hlt _ (hmem p hp))
    (fun p hp => h26 _ (hmem p hp)) hsh
  rw [h1, h2] at this
  rw [this]
  congr 2
  cases tr
  · simp
  · simp only [if_true]
    rw [List.zip_map_right]
    rfl

/-- **C10**: up to order 13, `ttm` is the sequence of mode products, in the order given; with
`transpose=True` every matrix is transposed first. -/
theorem C10_ttm_mode_products [CommSemiring α] (X : Tensor α) (ms : List (Tensor α)) (axis : List Nat)
    (tr : Bool) (hN : X.order ≤ 13) (hne : axis ≠ []) (hnd : axis.Nodup) (hlt : ∀ i ∈ axis, i < X.order)
    (hc : Conformable X axis ms tr) :
    ttm X ms (some axis) tr = .ok (modeProds X (axis.zip (if tr then ms.map matT else ms))) :=
  C13_ttm_any_order_partial X ms axis tr hne hnd hlt (fun i hi => by have := hlt i hi; omega) hc

/-- **C10** (default axis): without `axis`, matrix `k` multiplies mode `k`. -/
theorem C10_ttm_default_axis [CommSemiring α] (X : Tensor α) (ms : List (Tensor α)) (tr : Bool)
    (hN : X.order ≤ 13) (hne : ms ≠ []) (hlen : ms.length ≤ X.order)
    (hc : Conformable X (List.range ms.length) ms tr) :
    ttm X ms none tr =
      .ok (modeProds X ((List.range ms.length).zip (if tr then ms.map matT else ms))) := by
  rw [← C10_ttm_mode_products X ms _ tr hN (by simpa using hne) List.nodup_range
    (fun i hi => by simp at hi; omega) hc]
  rfl

/-- **C10** (entry of a single product, for reading the specification back). -/
theorem C10_ttm_single [CommSemiring α] (X A : Tensor α) (n J : Nat) (hN : X.order ≤ 13)
    (hn : n < X.order) (hA : A.shape = [J, X.shape.getD n 0]) :
    ∃ Y, ttm X [A] (some [n]) = .ok Y ∧ Y.shape = X.shape.set n J ∧
      ∀ idx, InB Y.shape idx → Y.at_ idx =
        ∑ k ∈ Finset.range (X.shape.getD n 0), A.at_ [idx.getD n 0, k] * X.at_ (idx.set n k) := by
  have hsh : (modeProd X n A).shape = X.shape.set n J := by
    change X.shape.set n (A.shape.getD 0 0) = _
    rw [hA]; rfl
  refine ⟨modeProd X n A, ?_, hsh, fun idx hi => at_ofFn _ hi⟩
  exact C10_ttm_mode_products X [A] [n] false hN (by simp) (by simp) (by simpa using hn)
    ⟨rfl, by simp; exact ⟨J, hA⟩⟩

/-- **C10** (boundary): with no matrix at all `ttm` raises `ValueError` instead of returning the
tensor. -/
theorem C10_ttm_nothing_raises [CommSemiring α] (X : Tensor α) (tr : Bool) (hN : X.order ≤ 26) :
    ttm X [] none tr = .error .valueError := by
  have : ∃ eqn, ttmEq X.order [] tr = .ok eqn ∧ tf.parseEq eqn = none := by
    unfold ttmEq
    simp only
    rw [mapM_ok (g := fun i => tf.letter (26 - X.order + i)) (by
      intro i hi; exact chr_tensor hN (by simpa using hi))]
    refine ⟨_, rfl, ?_⟩
    have hl : ∀ w ∈ ([(List.range X.order).map fun i => tf.letter (26 - X.order + i), []] : List (List Char)),
        '-' ∉ w ∧ ',' ∉ w := by
      intro w hw
      simp only [List.mem_cons, List.not_mem_nil, or_false] at hw
      rcases hw with rfl | rfl
      · constructor
        · rw [List.mem_map]; rintro ⟨i, -, e⟩; exact (letter_ne_sep _).1 e
        · rw [List.mem_map]; rintro ⟨i, -, e⟩; exact (letter_ne_sep _).2 e
      · simp
    have he : ∀ (w out : List Char), w ++ ',' :: joinComma [] ++ '-' :: '>' :: out =
        joinComma [w, []] ++ '-' :: '>' :: out := fun w out => rfl
    rw [List.reverse_nil, he]
    unfold tf.parseEq
    rw [tf.splitArrow_append (tf.not_mem_join (by decide) fun w hw => (hl w hw).1)]
    simp only [tf.splitAll_join (ws := [(List.range X.order).map fun i => tf.letter (26 - X.order + i), []])
      (by simp) fun w hw => (hl w hw).2]
    simp
  obtain ⟨eqn, h1, h2⟩ := this
  simp only [ttm, Option.isSome_none, Bool.false_eq_true, false_and, if_false, List.length_nil,
    List.range_zero, Option.getD_none]
  rw [h1, ok_bind]
  unfold tf.einsum
  rw [h2]

/-- **C11**: listing the (axis, matrix) pairs in another order does not change the result, nor whether there is one, for tensors
of any order and matrices of any sizes. -/
theorem C11_ttm_order_independent [CommSemiring α] (X : Tensor α) (ms ms' : List (Tensor α))
    (axis axis' : List Nat) (tr : Bool) (hlt : ∀ i ∈ axis, i < X.order) (hlen : axis.length = ms.length)
    (hlen' : axis'.length = ms'.length) (hp : (axis.zip ms).Perm (axis'.zip ms')) :
    ttm X ms (some axis) tr = ttm X ms' (some axis') tr := by
  have h1 : (axis.zip ms).map Prod.fst = axis := List.map_fst_zip (by omega)
  have h2 : (axis.zip ms).map Prod.snd = ms := List.map_snd_zip (by omega)
  have h1' : (axis'.zip ms').map Prod.fst = axis' := List.map_fst_zip (by omega)
  have h2' : (axis'.zip ms').map Prod.snd = ms' := List.map_snd_zip (by omega)
  have := ttm_perm X tr (fun p hp => hlt _ (List.of_mem_zip hp).1) hp
  rwa [h1, h2, h1', h2'] at this

/-- **C12**: skipping is multiplying by the kept matrices on the kept positions. -/
theorem C12_ttm_skip [CommSemiring α] (X : Tensor α) (ms : List (Tensor α)) (tr : Bool) (s : Skip)
    (h : ∀ i < ms.length, keeps s i → i < X.order) :
    ttm X ms none tr s =
      ttm X (kept ms s) (some ((List.range ms.length).filter fun i => decide (keeps s i))) tr := by
  have hmem : ∀ i, s.mem i = !decide (keeps s i) := by
    intro i
    cases s with
    | none => rfl
    | int k => by_cases h : (i : Int) = k <;> simp [Skip.mem, keeps, h]
    | list l => by_cases h : (i : Int) ∈ l <;> simp [Skip.mem, keeps, h]
  have hax : (List.range (min X.order ms.length)).filter (fun i => !s.mem i) =
      (List.range ms.length).filter fun i => decide (keeps s i) := by
    simp only [hmem, Bool.not_not]
    by_cases hle : ms.length ≤ X.order
    · rw [Nat.min_eq_right hle]
    · rw [Nat.min_eq_left (by omega)]
      obtain ⟨d, hd⟩ : ∃ d, ms.length = X.order + d := ⟨ms.length - X.order, by omega⟩
      rw [hd, List.range_add, List.filter_append, List.filter_map]
      have : List.filter ((fun i => decide (keeps s i)) ∘ (X.order + ·)) (List.range d) = [] := by
        rw [List.filter_eq_nil_iff]
        intro k hk
        simp only [Function.comp_apply, decide_eq_true_eq]
        intro hkeep
        have := h (X.order + k) (by simp at hk; omega) hkeep
        omega
      rw [this]; simp
  cases s with
  | none =>
      have e : (List.range ms.length).filter (fun i => decide (keeps .none i)) = List.range ms.length :=
        List.filter_eq_self.2 (fun _ _ => decide_eq_true trivial)
      rw [kept_none, e]
      rfl
  | int k =>
      simp only [ttm, Option.isSome_none, Bool.false_eq_true, false_and, if_false, Option.getD_some,
        Option.isSome_some, ne_eq, not_true_eq_false, and_false]
      rw [hax, skip_eq_kept]
  | list l =>
      simp only [ttm, Option.isSome_none, Bool.false_eq_true, false_and, if_false, Option.getD_some,
        Option.isSome_some, ne_eq, not_true_eq_false, and_false]
      rw [hax, skip_eq_kept]

/-- **C12**: `axis` and `skip_matrices_index` together raise `ValueError`. -/
theorem C12_axis_and_skip_raise [CommSemiring α] (X : Tensor α) (ms : List (Tensor α)) (axis : List Nat)
    (tr : Bool) (s : Skip) (hs : s ≠ .none) : ttm X ms (some axis) tr s = .error .valueError := by
  simp [ttm, hs]

/-- Cases meeting the hypotheses of C10 - C12. -/
example : let X : Tensor Int := ofFn [2, 3, 2] fun i => i.sum
    Conformable X [2, 0] [mat 4 2 fun i j => i + j, mat 1 2 fun i j => i - j] false ∧
    (∀ i < 3, keeps (.int 1) i → i < X.order) ∧ (Skip.int 1 ≠ .none) := by
  refine ⟨⟨rfl, ?_⟩, by decide, by decide⟩
  intro p hp
  simp only [List.zip_cons_cons, List.zip_nil_right, List.mem_cons, List.not_mem_nil, or_false] at hp
  rcases hp with rfl | rfl
  · exact ⟨4, rfl⟩
  · exact ⟨1, rfl⟩
example : ∃ Y, ttm (ofFn [2, 2] fun | [i, j] => (2 * i + j : Int) | _ => 0)
    [mat 1 2 fun _ j => (j + 1 : Int)] (some [1]) = .ok Y ∧ Y.shape = [2, 1] ∧ Y.data = [2, 8] :=
  ⟨_, rfl, by decide, by decide⟩

/-- **C13** fails: for every order from 14 to 26 the letter of mode 0 of the tensor is also the letter
of the rows of matrix `26 - order`; when those two sizes differ (neither being 1, which TensorFlow might
broadcast) a conformable product of all modes raises `ValueError`. -/
theorem C13_order_above_13_raises_false [CommSemiring α] (X : Tensor α) (ms : List (Tensor α)) (A : Tensor α)
    (h14 : 14 ≤ X.order) (h26 : X.order ≤ 26) (hlen : ms.length = X.order)
    (hA : ms[26 - X.order]? = some A) (hmis : X.shape.getD 0 0 ≠ A.shape.getD 0 0) :
    ttm X ms = .error .valueError := by
  set N := X.order with hN
  have hi : 26 - N < ms.length := by omega
  have hE : ttm X ms = tf.einsumL
      (((List.range N).map fun i => tf.letter (26 - N + i)) ::
        (List.range ms.length).map fun i => [tf.letter i, tf.letter (26 - N + i)])
      ((List.range N).map fun k => if k ∈ List.range ms.length then tf.letter k else tf.letter (26 - N + k))
      (X :: ms) := by
    simp only [ttm, Option.isSome_none, Bool.false_eq_true, false_and, if_false, Option.getD_none]
    rw [ttmEq_ok (by rw [ne_eq, List.range_eq_nil]; omega) (by omega) (by intro i hi; simp at hi; omega), ok_bind]
    apply tf.einsum_eq
    · simp
    · intro w hw
      rcases List.mem_cons.1 hw with rfl | hw
      · simp only [ne_eq, List.map_eq_nil_iff, List.range_eq_nil]; omega
      · obtain ⟨i, hi, rfl⟩ := List.mem_map.1 hw
        simp
    · intro w hw c hc
      rcases List.mem_cons.1 hw with rfl | hw
      · obtain ⟨i, hi, rfl⟩ := List.mem_map.1 hc
        simp at hi
        exact tf.letter_isLabel _ (by omega)
      · obtain ⟨i, hi, rfl⟩ := List.mem_map.1 hw
        simp at hi hc
        rcases hc with rfl | rfl <;> exact tf.letter_isLabel _ (by omega)
    · intro c hc
      obtain ⟨i, hi, rfl⟩ := List.mem_map.1 hc
      simp at hi
      split <;> exact tf.letter_isLabel _ (by omega)
  rw [hE, einsumL_error]
  intro hok
  have h0 := einsumOk_dim hok (w := (List.range N).map fun i => tf.letter (26 - N + i)) (s := X.shape)
    (by simp) (j := 0) (c := tf.letter (26 - N)) (d := X.shape.getD 0 0)
    (by rw [List.getElem?_map, List.getElem?_range (by omega)]; rfl)
    (by rw [List.getElem?_eq_getElem (by unfold order at hN; omega),
          List.getD_eq_getElem _ _ (by unfold order at hN; omega)])
  have hAi : ms[26 - N] = A := by
    rw [List.getElem?_eq_getElem hi] at hA; exact Option.some.inj hA
  have hmem : ([tf.letter (26 - N), tf.letter (26 - N + (26 - N))], A.shape) ∈
      (((List.range N).map fun i => tf.letter (26 - N + i)) ::
        (List.range ms.length).map fun i => [tf.letter i, tf.letter (26 - N + i)]).zip
        ((X :: ms).map Tensor.shape) := by
    rw [List.map_cons, List.zip_cons_cons]
    apply List.mem_cons_of_mem
    rw [List.mem_iff_getElem]
    exact ⟨26 - N, by simpa using hi, by simp [hAi]⟩
  have hl2 : A.shape.length = 2 := by
    have := hok.2.1 _ hmem
    simpa using this.symm
  have h1 := einsumOk_dim hok hmem (j := 0) (c := tf.letter (26 - N)) (d := A.shape.getD 0 0) rfl
    (by rw [List.getElem?_eq_getElem (by omega), List.getD_eq_getElem _ _ (by omega)])
  exact hmis (h0.symm.trans h1)

/-- A conformable instance: order 14, mode 0 of size 2, matrix 12 of shape 3 x 2, all sizes at least
2. -/
example : let X : Tensor Int := ofFn (List.replicate 14 2) fun _ => 1
    let ms : List (Tensor Int) := List.replicate 14 (mat 3 2 fun _ _ => 1)
    X.order = 14 ∧ ms.length = 14 ∧ (∃ A, ms[26 - X.order]? = some A ∧ X.shape.getD 0 0 ≠ A.shape.getD 0 0) ∧
    ∀ i < 14, ∃ A, ms[i]? = some A ∧ A.shape = [3, X.shape.getD i 0] := by
  refine ⟨rfl, rfl, ⟨_, rfl, by decide⟩, ?_⟩
  intro i hi
  have : i = 0 ∨ i = 1 ∨ i = 2 ∨ i = 3 ∨ i = 4 ∨ i = 5 ∨ i = 6 ∨ i = 7 ∨ i = 8 ∨ i = 9 ∨ i = 10 ∨ i = 11 ∨
    i = 12 ∨ i = 13 := by omega
  rcases this with rfl | rfl | rfl | rfl | rfl | rfl | rfl | rfl | rfl | rfl | rfl | rfl | rfl | rfl <;>
    exact ⟨_, rfl, rfl⟩

/-- An order-14 tensor and 14 conformable matrices. -/
def X14 : Tensor Int := ofFn (2 :: List.replicate 13 1) fun i => (i.getD 0 0 : Int) + 1
@[inherit_doc X14] def ms14 : List (Tensor Int) :=
  (mat 1 2 fun _ j => (j : Int) + 1) :: List.replicate 11 (mat 1 1 fun _ _ => (1 : Int)) ++
    [mat 2 1 fun _ _ => (1 : Int), mat 1 1 fun _ _ => (1 : Int)]

set_option maxRecDepth 10000 in
/-- **C13** fails silently too: when the two sizes agree, `ttm` returns a tensor of the right shape with
wrong entries (here `[1, 4]` instead of `[5, 5]`). -/
theorem C13_silently_wrong_false :
    (ttm X14 ms14).toOption.map (·.data) = some [1, 4] ∧
      (modeProds X14 ((List.range 14).zip ms14)).data = [5, 5] := by decide +kernel

end TD.Props
