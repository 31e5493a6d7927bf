import Verif.Lemmas.KronLaws
import Verif.Spec.ModeProd

namespace TD
open Spec Tensor tf
variable {α : Type}

theorem mapM_ok {β γ : Type} {f : β → Res γ} {g : β → γ} : ∀ {l : List β}, (∀ x ∈ l, f x = .ok (g x)) →
    l.mapM f = (.ok (l.map g) : Res (List γ))
  | [], _ => rfl
  | x :: l, h => by
      rw [List.mapM_cons, h x (by simp), ok_bind, mapM_ok (fun y hy => h y (by simp [hy]))]
      rfl

namespace tf
variable [CommSemiring α]

theorem sumOver_congr_on {d : Char → Nat} {cs : List Char} {F G : (Char → Nat) → α} {env : Char → Nat}
    (h : ∀ env', (∀ c, c ∉ cs → env' c = env c) → F env' = G env') :
    sumOver d cs F env = sumOver d cs G env := by
  induction cs generalizing env with
  | nil => exact h env (fun _ _ => rfl)
  | cons c cs ih =>
      simp only [sumOver]
      apply Finset.sum_congr rfl
      intro v _
      apply ih
      intro env' he
      apply h
      intro x hx
      simp only [List.mem_cons, not_or] at hx
      rw [he x hx.2, Function.update_of_ne hx.1]

theorem sumOver_mul_left {d : Char → Nat} {cs : List Char} {F : (Char → Nat) → α} {env : Char → Nat} (k : α) :
    sumOver d cs (fun e => k * F e) env = k * sumOver d cs F env := by
  induction cs generalizing env with
  | nil => rfl
  | cons c cs ih =>
      simp only [sumOver, ih, Finset.mul_sum]

end tf

/-- Nested sum form of a sequence of mode products (last product outermost). -/
def ttmSum [CommSemiring α] {β : Type} (X : Tensor α) (n K : β → Nat) (g : β → Nat → Nat → α) :
    List β → List Nat → α
  | [], cur => X.at_ cur
  | p :: r, cur => ∑ v ∈ Finset.range (K p), g p (cur.getD (n p) 0) v * ttmSum X n K g r (cur.set (n p) v)

theorem getD_set_ne {l : List Nat} {i j v : Nat} (h : i ≠ j) : (l.set i v).getD j 0 = l.getD j 0 := by
  simp only [List.getD_eq_getElem?_getD, List.getElem?_set_ne h]

theorem getD_set_self {l : List Nat} {i v : Nat} (h : i < l.length) : (l.set i v).getD i 0 = v := by
  simp only [List.getD_eq_getElem?_getD, List.getElem?_set_self h, Option.getD_some]

theorem ttmSum_congr [CommSemiring α] {β : Type} {X : Tensor α} {n K : β → Nat} {g g' : β → Nat → Nat → α}
    {r : List β} {cur : List Nat} (hnd : (r.map n).Nodup)
    (h : ∀ p ∈ r, ∀ v < K p, g p (cur.getD (n p) 0) v = g' p (cur.getD (n p) 0) v) :
    ttmSum X n K g r cur = ttmSum X n K g' r cur := by
  induction r generalizing cur with
  | nil => rfl
  | cons p r ih =>
      simp only [List.map_cons, List.nodup_cons, List.mem_map, not_exists, not_and] at hnd
      simp only [ttmSum]
      apply Finset.sum_congr rfl
      intro v hv
      rw [h p (by simp) v (Finset.mem_range.1 hv), ih hnd.2]
      intro q hq w hw
      rw [getD_set_ne (fun e => hnd.1 q hq e.symm)]
      exact h q (by simp [hq]) w hw

theorem sumOver_eq_ttmSum [CommSemiring α] {β : Type} {X : Tensor α} {N : Nat} {n K : β → Nat}
    {g : β → Nat → Nat → α} {D : Char → Nat} {T a : Nat → Char}
    (hT : ∀ i < N, ∀ j < N, T i = T j → i = j) {ax : List Nat}
    (haT : ∀ i ∈ ax, ∀ j < N, a i ≠ T j) {r : List β} (hnd : (r.map n).Nodup)
    (hr : ∀ p ∈ r, n p < N ∧ n p ∈ ax ∧ D (T (n p)) = K p)
    {env : Char → Nat} {cur : List Nat} (hl : cur.length = N)
    (hc : ∀ k < N, env (if k ∈ r.map n then a k else T k) = cur.getD k 0) :
    sumOver D (r.map fun p => T (n p)) (fun env => X.at_ (((List.range N).map T).map env) *
      (r.map fun p => g p (env (a (n p))) (env (T (n p)))).prod) env = ttmSum X n K g r cur := by
  induction r generalizing env cur with
  | nil =>
      simp only [List.map_nil, sumOver, ttmSum, List.prod_nil, mul_one]
      congr 1
      rw [List.map_map, ← map_getD_range cur N hl]
      apply List.map_congr_left
      intro k hk
      have := hc k (by simpa using hk)
      simpa using this
  | cons p r ih =>
      simp only [List.map_cons, List.nodup_cons] at hnd
      obtain ⟨hpN, hpa, hpK⟩ := hr p (by simp)
      simp only [List.map_cons, sumOver, ttmSum, List.prod_cons]
      rw [hpK]
      apply Finset.sum_congr rfl
      intro v _
      have hne : a (n p) ≠ T (n p) := haT _ hpa _ hpN
      rw [sumOver_congr_on (G := fun env' => g p (cur.getD (n p) 0) v *
        (X.at_ (((List.range N).map T).map env') *
          (r.map fun q => g q (env' (a (n q))) (env' (T (n q)))).prod))]
      · rw [sumOver_mul_left]
        congr 1
        apply ih hnd.2 (fun q hq => hr q (by simp [hq])) (by simpa using hl)
        intro k hk
        by_cases hkr : k ∈ r.map n
        · have hkn : n p ≠ k := fun e => hnd.1 (e ▸ hkr)
          have hka : k ∈ ax := by
            obtain ⟨q, hq, rfl⟩ := List.mem_map.1 hkr
            exact (hr q (by simp [hq])).2.1
          have := hc k hk
          rw [if_pos (by simp [hkr])] at this
          rw [if_pos hkr, Function.update_of_ne (haT k hka _ hpN), this, getD_set_ne hkn]
        · rw [if_neg hkr]
          by_cases hkn : k = n p
          · subst hkn
            rw [Function.update_self, getD_set_self (by omega)]
          · have := hc k hk
            rw [if_neg (by simp only [List.map_cons, List.mem_cons, not_or]; exact ⟨hkn, hkr⟩)] at this
            rw [Function.update_of_ne (fun e => hkn (hT k hk _ hpN e)), this, getD_set_ne (Ne.symm hkn)]
      · intro env' he
        have h1 : env' (a (n p)) = cur.getD (n p) 0 := by
          rw [he _ (by
            intro hm
            obtain ⟨q, hq, e⟩ := List.mem_map.1 hm
            exact haT _ hpa _ (hr q (by simp [hq])).1 e.symm), Function.update_of_ne hne]
          have := hc (n p) hpN
          rwa [if_pos (by simp)] at this
        have h2 : env' (T (n p)) = v := by
          rw [he _ (by
            intro hm
            obtain ⟨q, hq, e⟩ := List.mem_map.1 hm
            exact hnd.1 (List.mem_map.2 ⟨q, hq, hT _ (hr q (by simp [hq])).1 _ hpN e⟩)),
            Function.update_self]
        rw [h1, h2]; ring

/-! ### Sequence of mode products -/

theorem modeProds_append [NonUnitalNonAssocSemiring α] (X : Tensor α) (ps qs : List (Nat × Tensor α)) :
    modeProds X (ps ++ qs) = modeProds (modeProds X ps) qs := by
  simp [modeProds, List.foldl_append]

theorem modeProds_shape_length [NonUnitalNonAssocSemiring α] (X : Tensor α) (ps : List (Nat × Tensor α)) :
    (modeProds X ps).shape.length = X.shape.length := by
  induction ps using List.reverseRecOn with
  | nil => rfl
  | append_singleton ps p ih =>
      rw [modeProds_append, ← ih]
      change ((modeProds X ps).shape.set _ _).length = _
      rw [List.length_set]

theorem modeProds_shape_out [NonUnitalNonAssocSemiring α] (X : Tensor α) {ps : List (Nat × Tensor α)} {k : Nat}
    (h : k ∉ ps.map Prod.fst) : (modeProds X ps).shape.getD k 0 = X.shape.getD k 0 := by
  induction ps using List.reverseRecOn with
  | nil => rfl
  | append_singleton ps p ih =>
      simp only [List.map_append, List.map_cons, List.map_nil, List.mem_append, List.mem_singleton,
        not_or] at h
      rw [modeProds_append, ← ih h.1]
      simp only [modeProds, List.foldl_cons, List.foldl_nil, modeProd, shape_ofFn]
      exact getD_set_ne (Ne.symm h.2)

theorem modeProds_shape_in [NonUnitalNonAssocSemiring α] (X : Tensor α) {ps : List (Nat × Tensor α)}
    (hnd : (ps.map Prod.fst).Nodup) {p : Nat × Tensor α} (hp : p ∈ ps) (hlt : p.1 < X.shape.length) :
    (modeProds X ps).shape.getD p.1 0 = p.2.shape.getD 0 0 := by
  induction ps using List.reverseRecOn with
  | nil => simp at hp
  | append_singleton ps q ih =>
      rw [List.map_append, List.nodup_append'] at hnd
      have hsh : (modeProds X (ps ++ [q])).shape = (modeProds X ps).shape.set q.1 (q.2.shape.getD 0 0) := by
        rw [modeProds_append]; rfl
      rw [hsh]
      rcases List.mem_append.1 hp with hp | hp
      · rw [getD_set_ne, ih hnd.1 hp]
        intro e
        exact hnd.2.2 (List.mem_map.2 ⟨p, hp, rfl⟩) (by simp [e])
      · simp only [List.mem_singleton] at hp
        subst hp
        rw [getD_set_self (by rw [modeProds_shape_length]; exact hlt)]

theorem InB_set {s idx : List Nat} {n v d : Nat} (h : InB (s.set n d) idx) (hv : v < s.getD n 0) :
    InB s (idx.set n v) := by
  rw [InB_iff_getD] at h ⊢
  refine ⟨by simpa using h.1, fun k hk => ?_⟩
  by_cases hkn : n = k
  · subst hkn
    rw [getD_set_self (by have := h.1; simp at this; omega)]; exact hv
  · have := h.2 k (by simpa using hk)
    rw [getD_set_ne hkn] at this
    rw [getD_set_ne hkn]; exact this

theorem modeProds_at [CommSemiring α] (X : Tensor α) {ps : List (Nat × Tensor α)}
    (hnd : (ps.map Prod.fst).Nodup) {idx : List Nat} (hi : InB (modeProds X ps).shape idx) :
    (modeProds X ps).at_ idx = ttmSum X Prod.fst (fun p => X.shape.getD p.1 0)
      (fun p i j => p.2.at_ [i, j]) ps.reverse idx := by
  induction ps using List.reverseRecOn generalizing idx with
  | nil => rfl
  | append_singleton ps p ih =>
      rw [List.map_append, List.nodup_append'] at hnd
      have e : modeProds X (ps ++ [p]) = modeProd (modeProds X ps) p.1 p.2 := by
        rw [modeProds_append]; rfl
      rw [e] at hi ⊢
      have hout : (modeProds X ps).shape.getD p.1 0 = X.shape.getD p.1 0 :=
        modeProds_shape_out X (fun hm => hnd.2.2 hm (by simp))
      have hi' : InB ((modeProds X ps).shape.set p.1 (p.2.shape.getD 0 0)) idx := hi
      unfold modeProd
      rw [at_ofFn _ hi', List.reverse_append, List.reverse_singleton, List.singleton_append, ttmSum, hout]
      apply Finset.sum_congr rfl
      intro v hv
      rw [ih hnd.1]
      exact InB_set hi' (by rw [hout]; exact Finset.mem_range.1 hv)

namespace ops

theorem chr_tensor {N i : Nat} (hN : N ≤ 26) (hi : i < N) :
    chr ((122 : Int) - (N : Int) + 1 + (i : Int)) = .ok (letter (26 - N + i)) := by
  unfold chr
  have e : (122 : Int) - (N : Int) + 1 + (i : Int) = ((97 + (26 - N + i) : Nat) : Int) := by
    push_cast [Nat.cast_sub hN]; ring
  rw [e, if_pos (by omega), if_pos (by omega), Int.toNat_natCast]
  rfl

theorem chr_mat {i : Nat} (hi : i < 26) : chr ((97 : Int) + (i : Int)) = .ok (letter i) := by
  unfold chr
  rw [if_pos (by omega), if_pos (by omega)]
  congr 1

theorem setAll_eq (f : Nat → Char) : ∀ (axis : List Nat) (base : List Char), (∀ i ∈ axis, i < base.length) →
    setAll base (axis.map fun i => (i, f i)) =
      .ok ((List.range base.length).map fun k => if k ∈ axis then f k else base.getD k 'x')
  | [], base, _ => by
      simp only [List.map_nil, setAll, List.not_mem_nil, if_false]
      congr 1
      apply List.ext_getElem
      · simp
      · intro k h1 h2
        rw [List.getElem_map, List.getElem_range, List.getD_eq_getElem _ _ h1]
  | i :: axis, base, h => by
      rw [List.map_cons, setAll, if_pos (h i (by simp)), setAll_eq f axis _ (by
        intro j hj; rw [List.length_set]; exact h j (by simp [hj])), List.length_set]
      congr 1
      apply List.map_congr_left
      intro k hk
      by_cases hka : k ∈ axis
      · simp [hka]
      · by_cases hki : i = k
        · subst hki
          simp only [hka, if_false, List.mem_cons, true_or, if_true]
          rw [List.getD_eq_getElem?_getD, List.getElem?_set_self (h i (by simp)), Option.getD_some]
        · simp only [hka, if_false, List.mem_cons, Ne.symm hki, or_self]
          rw [List.getD_eq_getElem?_getD, List.getElem?_set_ne hki, List.getD_eq_getElem?_getD]

/-- The equation text when all letters are usable. -/
theorem ttmEq_ok {N : Nat} {axis : List Nat} {tr : Bool} (hne : axis ≠ []) (hN : N ≤ 26)
    (hlt : ∀ i ∈ axis, i < N) :
    ttmEq N axis tr = .ok (joinComma (((List.range N).map fun i => letter (26 - N + i)) ::
        axis.map fun i => if tr then [letter (26 - N + i), letter i] else [letter i, letter (26 - N + i)]) ++
      '-' :: '>' :: (List.range N).map fun k => if k ∈ axis then letter k else letter (26 - N + k)) := by
  unfold ttmEq
  simp only
  rw [mapM_ok (g := fun i => letter (26 - N + i)) (by
    intro i hi; exact chr_tensor hN (by simpa using hi)), ok_bind,
    mapM_ok (g := fun i => if tr then [letter (26 - N + i), letter i] else [letter i, letter (26 - N + i)]) (by
      intro i hi
      have := hlt i hi
      rw [chr_tensor hN this, ok_bind, chr_mat (by omega), ok_bind]), ok_bind,
    mapM_ok (g := fun i => (i, letter i)) (by
      intro i hi
      have := hlt i hi
      rw [chr_mat (by omega), ok_bind]; rfl), ok_bind, setAll_eq _ _ _ (by simpa using hlt), ok_bind]
  congr 1
  have hj : ∀ (w : List Char) (ws : List (List Char)), ws ≠ [] → joinComma (w :: ws) = w ++ ',' :: joinComma ws := by
    intro w ws h
    cases ws with
    | nil => exact absurd rfl h
    | cons v ws => rfl
  rw [hj _ _ (by simpa using hne), List.append_assoc, List.append_assoc]
  congr 4
  rw [List.length_map, List.length_range]
  apply List.map_congr_left
  intro k hk
  have hk : k < N := by simpa using hk
  split
  · rfl
  · rw [List.getD_eq_getElem _ _ (by simpa using hk)]; simp

theorem ttm_core [CommSemiring α] (X : Tensor α) (ps : List (Nat × Tensor α)) (tr : Bool)
    (hne : ps ≠ []) (hnd : (ps.map Prod.fst).Nodup) (hlt : ∀ p ∈ ps, p.1 < X.order)
    (h26 : ∀ p ∈ ps, p.1 + X.order < 26)
    (hsh : ∀ p ∈ ps, ∃ J, p.2.shape = if tr then [X.shape.getD p.1 0, J] else [J, X.shape.getD p.1 0]) :
    ttm X (ps.map Prod.snd) (some (ps.map Prod.fst)) tr =
      .ok (modeProds X (ps.map fun p => (p.1, if tr then matT p.2 else p.2))) := by
  set N := X.order with hNdef
  have hN : N ≤ 26 := by
    obtain ⟨p, hp⟩ := List.exists_mem_of_ne_nil ps hne
    have := h26 p hp; omega
  set T : Nat → Char := fun i => letter (26 - N + i) with hTdef
  set TL := (List.range N).map T with hTL
  set axis := ps.map Prod.fst with haxis
  have hax : ∀ i ∈ axis, i < N ∧ i + N < 26 := by
    intro i hi
    obtain ⟨p, hp, rfl⟩ := List.mem_map.1 hi
    exact ⟨hlt p hp, h26 p hp⟩
  have hTinj : ∀ i < N, ∀ j < N, T i = T j → i = j := by
    intro i hi j hj e
    have := letter_inj (by omega) (by omega) e; omega
  have haT : ∀ i ∈ axis, ∀ j < N, letter i ≠ T j := by
    intro i hi j hj e
    have := hax i hi
    have := letter_inj (by omega) (by omega) e; omega
  set out := (List.range N).map fun k => if k ∈ axis then letter k else T k with hout
  set ins := TL :: axis.map fun i => if tr then [T i, letter i] else [letter i, T i] with hins
  have hlabT : ∀ i < N, isLabel (T i) = true := fun i hi => letter_isLabel _ (by omega)
  have hlabA : ∀ i ∈ axis, isLabel (letter i) = true := fun i hi =>
    letter_isLabel _ (by have := hax i hi; omega)
  -- dimensions
  let J : Nat × Tensor α → Nat := fun p => if tr then p.2.shape.getD 1 0 else p.2.shape.getD 0 0
  have hsh' : ∀ p ∈ ps, p.2.shape = if tr then [X.shape.getD p.1 0, J p] else [J p, X.shape.getD p.1 0] := by
    intro p hp
    obtain ⟨j, hj⟩ := hsh p hp
    cases tr <;> simp_all [J]
  have hndL : (TL ++ axis.map letter).Nodup := by
    rw [List.nodup_append']
    refine ⟨List.nodup_range.map_on (fun x hx y hy e => hTinj x (by simpa using hx) y (by simpa using hy) e),
      nodup_letters hnd (fun i hi => by have := hax i hi; omega), ?_⟩
    intro c hc hc'
    obtain ⟨j, hj, rfl⟩ := List.mem_map.1 hc
    obtain ⟨i, hi, e⟩ := List.mem_map.1 hc'
    exact haT i hi j (by simpa using hj) e
  set D := bindLabels (TL ++ axis.map letter) (X.shape ++ ps.map J) with hD
  obtain ⟨hDT, hDA⟩ := map_bindLabels_append hndL (us := X.shape) (vs := ps.map J)
    (by simp [hTL, hNdef, order]) (by simp [haxis])
  have hDTk : ∀ k < N, D (T k) = X.shape.getD k 0 := by
    intro k hk
    have h1 : (TL.map D).getD k 0 = X.shape.getD k 0 := by rw [hDT]
    rw [← h1, hTL, List.map_map, getD_map_range_lt _ hk]; rfl
  have hDAp : ∀ p ∈ ps, D (letter p.1) = J p := by
    rw [haxis, List.map_map, List.map_map] at hDA
    exact fun p hp => List.map_inj_left.1 hDA p hp
  have hmap : ins.map (fun w => w.map D) = (X :: ps.map Prod.snd).map Tensor.shape := by
    rw [hins, List.map_cons, List.map_cons, hDT, haxis, List.map_map, List.map_map, List.map_map]
    congr 1
    apply List.map_congr_left
    intro p hp
    simp only [Function.comp_apply]
    rw [hsh' p hp, ← hDTk p.1 (hlt p hp), ← hDAp p hp]
    cases tr <;> rfl
  have hmemF : ∀ c, c ∈ ins.flatten ↔ (∃ k < N, c = T k) ∨ ∃ i ∈ axis, c = letter i := by
    intro c
    rw [hins, List.flatten_cons, List.mem_append, hTL]
    constructor
    · rintro (hc | hc)
      · obtain ⟨k, hk, rfl⟩ := List.mem_map.1 hc
        exact Or.inl ⟨k, by simpa using hk, rfl⟩
      · obtain ⟨w, hw, hc⟩ := List.mem_flatten.1 hc
        obtain ⟨i, hi, rfl⟩ := List.mem_map.1 hw
        cases tr <;> simp at hc <;> rcases hc with rfl | rfl
        · exact Or.inr ⟨i, hi, rfl⟩
        · exact Or.inl ⟨i, (hax i hi).1, rfl⟩
        · exact Or.inl ⟨i, (hax i hi).1, rfl⟩
        · exact Or.inr ⟨i, hi, rfl⟩
    · rintro (⟨k, hk, rfl⟩ | ⟨i, hi, rfl⟩)
      · exact Or.inl (List.mem_map.2 ⟨k, by simpa using hk, rfl⟩)
      · refine Or.inr (List.mem_flatten.2 ⟨_, List.mem_map.2 ⟨i, hi, rfl⟩, ?_⟩)
        cases tr <;> simp
  have hmemO : ∀ c, c ∈ out ↔ (∃ k < N, k ∉ axis ∧ c = T k) ∨ ∃ i ∈ axis, c = letter i := by
    intro c
    rw [hout]
    simp only [List.mem_map, List.mem_range]
    constructor
    · rintro ⟨k, hk, rfl⟩
      by_cases hka : k ∈ axis
      · exact Or.inr ⟨k, hka, by simp [hka]⟩
      · exact Or.inl ⟨k, hk, hka, by simp [hka]⟩
    · rintro (⟨k, hk, hka, rfl⟩ | ⟨i, hi, rfl⟩)
      · exact ⟨k, hk, by simp [hka]⟩
      · exact ⟨i, (hax i hi).1, by simp [hi]⟩
  have hndO : out.Nodup := by
    rw [hout]
    apply List.nodup_range.map_on
    intro x hx y hy e
    have hx : x < N := by simpa using hx
    have hy : y < N := by simpa using hy
    by_cases hxa : x ∈ axis <;> by_cases hya : y ∈ axis <;> simp only [hxa, hya, if_true, if_false] at e
    · exact letter_inj (by omega) (by omega) e
    · exact absurd e (haT x hxa y hy)
    · exact absurd e.symm (haT y hya x hx)
    · exact hTinj x hx y hy e
  set S := ps.reverse.map (fun p => T p.1) with hS
  have hmemS : ∀ c, c ∈ S ↔ ∃ i ∈ axis, c = T i := by
    intro c
    rw [hS, haxis]
    simp only [List.mem_map, List.mem_reverse, exists_exists_and_eq_and]
    constructor
    · rintro ⟨p, hp, rfl⟩; exact ⟨p, hp, rfl⟩
    · rintro ⟨p, hp, rfl⟩; exact ⟨p, hp, rfl⟩
  have hndR : (ps.reverse.map Prod.fst).Nodup := by
    rw [List.map_reverse, List.nodup_reverse]; exact hnd
  have hndS : S.Nodup := by
    have : S = (ps.reverse.map Prod.fst).map T := by rw [hS, List.map_map]; rfl
    rw [this]
    apply hndR.map_on
    intro x hx y hy e
    rw [List.map_reverse, List.mem_reverse] at hx hy
    exact hTinj x (hax x hx).1 y (hax y hy).1 e
  have hE : ttm X (ps.map Prod.snd) (some axis) tr = einsumL ins out (X :: ps.map Prod.snd) := by
    simp only [ttm, Option.isSome_some, ne_eq, not_true_eq_false, and_false, if_false, Option.getD_some]
    rw [ttmEq_ok (by simpa [haxis] using hne) hN (fun i hi => (hax i hi).1), ok_bind]
    apply einsum_eq
    · simp
    · intro w hw
      rcases List.mem_cons.1 hw with rfl | hw
      · obtain ⟨p, hp⟩ := List.exists_mem_of_ne_nil ps hne
        have := hlt p hp
        simp only [ne_eq, List.map_eq_nil_iff, List.range_eq_nil]; omega
      · obtain ⟨i, hi, rfl⟩ := List.mem_map.1 hw
        cases tr <;> simp
    · intro w hw c hc
      rcases (hmemF c).1 (List.mem_flatten.2 ⟨w, hw, hc⟩) with ⟨k, hk, rfl⟩ | ⟨i, hi, rfl⟩
      · exact hlabT k hk
      · exact hlabA i hi
    · intro c hc
      rcases (hmemO c).1 hc with ⟨k, hk, -, rfl⟩ | ⟨i, hi, rfl⟩
      · exact hlabT k hk
      · exact hlabA i hi
  rw [hE, einsumL_eq (D := D) (S := S) hmap]
  · congr 1
    set qs := ps.map fun p => (p.1, if tr then matT p.2 else p.2) with hqs
    have hqf : qs.map Prod.fst = axis := by rw [hqs, List.map_map]; rfl
    have hJrow : ∀ p ∈ ps, (if tr then matT p.2 else p.2).shape.getD 0 0 = J p := by
      intro p hp
      cases tr
      · rfl
      · simp [matT, J]
    have hshape : out.map D = (modeProds X qs).shape := by
      have hlen : (modeProds X qs).shape.length = N := modeProds_shape_length X qs
      rw [← map_getD_range _ N hlen, hout, List.map_map]
      apply List.map_congr_left
      intro k hk
      have hk : k < N := by simpa using hk
      simp only [Function.comp_apply]
      by_cases hka : k ∈ axis
      · obtain ⟨p, hp, rfl⟩ := List.mem_map.1 hka
        rw [if_pos hka, hDAp p hp]
        have := modeProds_shape_in X (ps := qs) (by rw [hqf]; exact hnd)
          (p := (p.1, if tr then matT p.2 else p.2)) (List.mem_map.2 ⟨p, hp, rfl⟩) (hlt p hp)
        rw [this, hJrow p hp]
      · rw [if_neg hka, hDTk k hk, modeProds_shape_out X (by rw [hqf]; exact hka)]
    apply ext_at
    · rw [shape_ofFn, hshape]
    · intro idx hidx
      rw [shape_ofFn] at hidx
      rw [at_ofFn _ hidx]
      rw [hshape] at hidx
      rw [modeProds_at X (by rw [hqf]; exact hnd) hidx]
      have hlen : idx.length = N := by
        rw [hidx.length]; exact modeProds_shape_length X qs
      -- the product of the operands
      have hF : ∀ env : Char → Nat, (List.zipWith (fun w t => t.at_ (w.map env)) ins (X :: ps.map Prod.snd)).prod =
          X.at_ (TL.map env) * (ps.reverse.map fun p => (fun (p : Nat × Tensor α) (i j : Nat) =>
            p.2.at_ (if tr then [j, i] else [i, j])) p (env (letter p.1)) (env (T p.1))).prod := by
        intro env
        rw [hins, List.zipWith_cons_cons, List.prod_cons, List.map_reverse, (List.reverse_perm _).prod_eq,
          haxis, List.map_map (f := Prod.fst), List.zipWith_map, List.zipWith_self]
        congr 2
        apply List.map_congr_left
        intro p _
        cases tr <;> rfl
      simp only [hF]
      rw [hS, sumOver_eq_ttmSum (n := Prod.fst) (K := fun p => X.shape.getD p.1 0)
        (g := fun p i j => p.2.at_ (if tr then [j, i] else [i, j])) (N := N) (T := T) (a := letter) hTinj haT hndR
        (by
          intro p hp
          rw [List.mem_reverse] at hp
          exact ⟨hlt p hp, List.mem_map.2 ⟨p, hp, rfl⟩, hDTk _ (hlt p hp)⟩) hlen]
      · -- compare the two nested sums
        have hrev : qs.reverse = ps.reverse.map fun p => (p.1, if tr then matT p.2 else p.2) := by
          rw [hqs, List.map_reverse]
        have hcomp : ∀ (r : List (Nat × Tensor α)) (cur : List Nat),
            ttmSum X Prod.fst (fun p => X.shape.getD p.1 0) (fun p i j => p.2.at_ [i, j])
              (r.map fun p => (p.1, if tr then matT p.2 else p.2)) cur =
            ttmSum X Prod.fst (fun p => X.shape.getD p.1 0)
              (fun p i j => (if tr then matT p.2 else p.2).at_ [i, j]) r cur := by
          intro r
          induction r with
          | nil => intro cur; rfl
          | cons p r ih =>
              intro cur
              simp only [List.map_cons, ttmSum, ih]
        rw [hrev, hcomp]
        apply ttmSum_congr hndR
        intro p hp v hv
        rw [List.mem_reverse] at hp
        have hb : idx.getD p.1 0 < J p := by
          have h1 := (InB_iff_getD.1 hidx).2 p.1 (by rw [modeProds_shape_length]; exact hlt p hp)
          have := modeProds_shape_in X (ps := qs) (by rw [hqf]; exact hnd)
            (p := (p.1, if tr then matT p.2 else p.2)) (List.mem_map.2 ⟨p, hp, rfl⟩) (hlt p hp)
          rw [this, hJrow p hp] at h1
          exact h1
        have hs := hsh' p hp
        cases tr
        · rfl
        · simp only [if_true] at hs ⊢
          unfold matT
          rw [at_mat _ (by rw [hs]; exact hb) (by rw [hs]; exact hv)]
      · intro k hk
        have hmem : k ∈ ps.reverse.map Prod.fst ↔ k ∈ axis := by
          rw [List.map_reverse, List.mem_reverse]
        have := bindLabels_getElem hndO (vs := idx) (k := k) (by simpa [hout] using hk)
        rw [← this]
        congr 1
        simp only [hout, List.getElem_map, List.getElem_range, hmem]
  · intro w hw
    rcases List.mem_cons.1 hw with rfl | hw
    · exact (List.nodup_append'.1 hndL).1
    · obtain ⟨i, hi, rfl⟩ := List.mem_map.1 hw
      have := haT i hi i (hax i hi).1
      cases tr <;> simp [this, Ne.symm this]
  · exact hndO
  · intro c hc
    rw [hmemF]
    rcases (hmemO c).1 hc with ⟨k, hk, -, rfl⟩ | h
    · exact Or.inl ⟨k, hk, rfl⟩
    · exact Or.inr h
  · exact hndS
  · intro c
    rw [hmemS, hmemF, hmemO]
    constructor
    · rintro ⟨i, hi, rfl⟩
      refine ⟨Or.inl ⟨i, (hax i hi).1, rfl⟩, ?_⟩
      rintro (⟨k, hk, hka, e⟩ | ⟨j, hj, e⟩)
      · exact hka (hTinj i (hax i hi).1 k hk e ▸ hi)
      · exact haT j hj i (hax i hi).1 e.symm
    · rintro ⟨⟨k, hk, rfl⟩ | h, h2⟩
      · by_cases hka : k ∈ axis
        · exact ⟨k, hka, rfl⟩
        · exact absurd (Or.inl ⟨k, hk, hka, rfl⟩) h2
      · exact absurd (Or.inr h) h2

end ops
end TD
