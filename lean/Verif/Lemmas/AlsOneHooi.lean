import Verif.Lemmas.AlsOneRun
import Verif.Props.Synthetic
import Verif.Props.Hooi

/-! # One component: HOOI -/
namespace TD
open Spec Tensor tf ops Matrix

/-! ### Sums of products -/

theorem boxSum_outer : ∀ (s : List Nat) (v : Nat → Nat → ℝ), boxSum s (fun i => outerEntry s.length v i) =
    ∏ k ∈ Finset.range s.length, ∑ a ∈ Finset.range (s.getD k 0), v k a
  | [], v => by simp [boxSum, outerEntry]
  | d :: s, v => by
      rw [boxSum, List.length_cons, Finset.prod_range_succ']
      have : ∀ a ∈ Finset.range d, boxSum s (fun is => outerEntry (s.length + 1) v (a :: is)) =
          v 0 a * boxSum s fun is => outerEntry s.length (fun k => v (k + 1)) is := by
        intro a _
        rw [← boxSum_mul_left]
        refine boxSum_congr fun i _ => ?_
        unfold outerEntry
        rw [Finset.prod_range_succ', mul_comm]
        rfl
      rw [Finset.sum_congr rfl this, ← Finset.sum_mul, boxSum_outer s fun k => v (k + 1), mul_comm]
      rfl

theorem sliceSum_rest {s : List Nat} {n a : Nat} (hn : n < s.length) (ha : a < s.getD n 0) (v : Nat → Nat → ℝ) :
    sliceSum s n a (fun i => restEntry s.length v n i) =
      ∏ k ∈ (Finset.range s.length).erase n, ∑ b ∈ Finset.range (s.getD k 0), v k b := by
  set F : Nat → Nat → ℝ := Function.update v n fun b => if b = a then 1 else 0 with hF
  have : sliceSum s n a (fun i => restEntry s.length v n i) = boxSum s fun i => outerEntry s.length F i := by
    refine boxSum_congr fun i hi => ?_
    rw [outerEntry_split _ hn, hF, restEntry_update, Function.update_self]
    split <;> simp
  rw [this, boxSum_outer, ← Finset.mul_prod_erase _ _ (Finset.mem_range.2 hn), hF, Function.update_self,
    Finset.sum_ite_eq' (Finset.range (s.getD n 0)) a, if_pos (Finset.mem_range.2 ha), one_mul]
  exact Finset.prod_congr rfl fun k hk => by rw [Function.update_of_ne (Finset.ne_of_mem_erase hk)]

theorem boxSum_slices {s : List Nat} {n : Nat} (hn : n < s.length) (f : List Nat → ℝ) :
    boxSum s f = ∑ a ∈ Finset.range (s.getD n 0), sliceSum s n a f := by
  rw [boxSum_unkolda hn]
  refine Finset.sum_congr rfl fun a ha => ?_
  rw [sliceSum_unkolda hn (Finset.mem_range.1 ha), Finset.sum_range]

/-- `⟨X, v_0 ∘ v_1 ∘ …⟩`. -/
noncomputable def along (X : Tensor ℝ) (v : Nat → Nat → ℝ) : ℝ := boxSum X.shape fun i => X.at_ i * outerEntry X.order v i

theorem along_split {X : Tensor ℝ} (v : Nat → Nat → ℝ) {n : Nat} (hn : n < X.order) :
    along X v = ∑ a ∈ Finset.range (X.shape.getD n 0), v n a * sliceSum X.shape n a fun i => X.at_ i * restEntry X.order v n i := by
  unfold along
  rw [boxSum_slices hn]
  refine Finset.sum_congr rfl fun a _ => ?_
  rw [← sliceSum_mul]
  refine sliceSum_congr fun i hi hia => ?_
  rw [outerEntry_split _ hn, hia]
  ring

/-- All the vectors have norm one. -/
def UnitVecs (shape : List Nat) (v : Nat → Nat → ℝ) : Prop :=
  ∀ k < shape.length, ∑ a ∈ Finset.range (shape.getD k 0), v k a ^ 2 = 1

theorem bestVec_unit {X : Tensor ℝ} {v : Nat → Nat → ℝ} (h : UnitVecs X.shape v) {n a : Nat} (hn : n < X.order)
    (ha : a < X.shape.getD n 0) :
    bestVec X v n a = sliceSum X.shape n a fun i => X.at_ i * restEntry X.order v n i := by
  have : sliceSum X.shape n a (fun i => restEntry X.order v n i ^ 2) = 1 := by
    have e : (fun i => restEntry X.order v n i ^ 2) = fun i => restEntry X.shape.length (fun k b => v k b ^ 2) n i := by
      funext i
      exact (Finset.prod_pow _ 2 _).symm
    rw [e, sliceSum_rest hn ha]
    exact Finset.prod_eq_one fun k hk => h k (Finset.mem_range.1 (Finset.mem_of_mem_erase hk))
  unfold bestVec
  rw [this, div_one]

/-- A unit vector with the largest inner product with `y` is parallel to it. -/
theorem unit_max {m : Nat} {y b : Nat → ℝ} (hb : ∑ a ∈ Finset.range m, b a ^ 2 = 1)
    (hmax : ∀ q : Nat → ℝ, ∑ a ∈ Finset.range m, q a ^ 2 = 1 →
      (∑ a ∈ Finset.range m, q a * y a) ^ 2 ≤ (∑ a ∈ Finset.range m, b a * y a) ^ 2)
    (hy : ∃ a < m, y a ≠ 0) : ∃ t : ℝ, t ≠ 0 ∧ (∀ a < m, b a = t * y a) ∧
      ∀ a < m, (∑ a ∈ Finset.range m, b a * y a) * b a = y a := by
  set c := ∑ a ∈ Finset.range m, b a * y a with hc
  set Y := ∑ a ∈ Finset.range m, y a ^ 2 with hY
  have hY0 : 0 < Y := by
    obtain ⟨a, ha, h⟩ := hy
    exact Finset.sum_pos' (fun _ _ => sq_nonneg _) ⟨a, Finset.mem_range.2 ha, by positivity⟩
  have h1 := hmax (fun a => y a / Real.sqrt Y) (by
    simp only [div_pow, Real.sq_sqrt hY0.le]
    rw [← Finset.sum_div, ← hY, div_self hY0.ne'])
  have e1 : ∑ a ∈ Finset.range m, y a / Real.sqrt Y * y a = Y / Real.sqrt Y := by
    rw [hY, Finset.sum_div]
    exact Finset.sum_congr rfl fun a _ => by ring
  rw [e1, div_pow, Real.sq_sqrt hY0.le, pow_two, mul_div_assoc, div_self hY0.ne', mul_one] at h1
  have hz : ∑ a ∈ Finset.range m, (b a - c / Y * y a) ^ 2 = 1 - c ^ 2 / Y := by
    have : ∑ a ∈ Finset.range m, (b a - c / Y * y a) ^ 2 =
        ∑ a ∈ Finset.range m, b a ^ 2 - 2 * (c / Y) * ∑ a ∈ Finset.range m, b a * y a +
          (c / Y) ^ 2 * ∑ a ∈ Finset.range m, y a ^ 2 := by
      rw [Finset.mul_sum, Finset.mul_sum, ← Finset.sum_sub_distrib, ← Finset.sum_add_distrib]
      exact Finset.sum_congr rfl fun a _ => by ring
    rw [this, hb, ← hc, ← hY]
    field_simp
    ring
  have hge : 0 ≤ 1 - c ^ 2 / Y := by rw [← hz]; exact Finset.sum_nonneg fun _ _ => sq_nonneg _
  have hle : 1 ≤ c ^ 2 / Y := by rw [le_div_iff₀ hY0, one_mul]; exact h1
  have heq : c ^ 2 / Y = 1 := le_antisymm (by linarith) hle
  rw [heq, sub_self] at hz
  have hba : ∀ a < m, b a = c / Y * y a := by
    intro a ha
    have := (Finset.sum_eq_zero_iff_of_nonneg (fun _ _ => sq_nonneg _)).1 hz a (Finset.mem_range.2 ha)
    have := pow_eq_zero_iff (two_ne_zero) |>.1 this
    linarith
  refine ⟨c / Y, fun h0 => ?_, hba, fun a ha => ?_⟩
  · rw [pow_two, mul_div_assoc, h0, mul_zero] at heq
    exact zero_ne_one heq
  · rw [hba a ha, ← mul_assoc, ← mul_div_assoc, ← pow_two, heq, one_mul]

/-! ### The factors of HOOI -/

/-- All ranks are one. -/
theorem tucker_one {shape ranks : List Nat} {A : List (Tensor ℝ)} (h1 : ∀ n < shape.length, ranks.getD n 0 = 1)
    (h : TuckerShapes shape ranks A) : FactorsFor shape 1 A := by
  unfold FactorsFor
  refine List.ext_getElem (by simp [h.1]) fun k hk hk' => ?_
  rw [List.length_map] at hk
  rw [List.getElem_map, List.getElem_map, h.2 k _ (List.getElem?_eq_getElem hk), h1 k (by rw [← h.1]; exact hk)]
  rw [List.getD_eq_getElem _ _ (by rw [← h.1]; exact hk)]

theorem boxSum_ones (N : Nat) (f : List Nat → ℝ) : boxSum (List.replicate N 1) f = f (List.replicate N 0) := by
  induction N generalizing f with
  | zero => rfl
  | succ N ih => rw [List.replicate_succ, boxSum, Finset.sum_range_one, ih]; rfl

/-- The core and the reconstruction, with one component. -/
theorem core_one {X : Tensor ℝ} {A : List (Tensor ℝ)} (h1 : 1 ≤ X.order) (h13 : X.order ≤ 13)
    (hA : FactorsFor X.shape 1 A) : ∃ g Y, ttm X A none true = .ok g ∧ tucker.fullOf g A = .ok Y ∧ Y.shape = X.shape ∧
      normSqT g = along X (firstCol A) ^ 2 ∧
      ∀ i, InB X.shape i → Y.at_ i = along X (firstCol A) * outerEntry X.order (firstCol A) i := by
  have hne : X.shape ≠ [] := by intro e; rw [Tensor.order, e] at h1; simp at h1
  obtain ⟨g, Y, e1, e2, e3, e4, e5, e6⟩ := tucker_entries hne h13 hA.allMat hA.rowDims
  have hc : colDims A = List.replicate X.order 1 := by
    unfold colDims
    rw [show X.order = A.length from hA.length.symm]
    exact List.eq_replicate_iff.2 ⟨by simp, fun b hb => by
      obtain ⟨M, hM, rfl⟩ := List.mem_map.1 hb
      exact hA.cols M hM⟩
  have hk : ∀ i, InB X.shape i → kronEntry A i (List.replicate X.order 0) = outerEntry X.order (firstCol A) i := by
    intro i hi
    have hl := hA.length
    have := Props.kronEntry_replicate 0 A i (by rw [hi.length, hl])
    rw [hl] at this
    change kronEntry A i (List.replicate X.shape.length 0) = _
    rw [this, khatriEntry_outer (by rw [hi.length, hl]), hl]
    rfl
  have hg : g.at_ (List.replicate X.order 0) = along X (firstCol A) := by
    rw [e5 _ (by rw [e3, hc]; exact InB_iff_getD.2 ⟨by simp, fun k hk => by
      rw [List.length_replicate] at hk
      simp [List.getD_eq_getElem?_getD, hk]⟩)]
    exact boxSum_congr fun i hi => by rw [hk i hi, mul_comm]
  refine ⟨g, Y, e1, e2, e4, ?_, fun i hi => ?_⟩
  · unfold normSqT
    rw [e3, hc, boxSum_ones, hg]
  · rw [e6 i hi, e3, hc, boxSum_ones, hg, hk i hi]

theorem orthoCols_one {M : Tensor ℝ} {m : Nat} (h : OrthoCols M m 1) : ∑ a ∈ Finset.range m, M.at_ [a, 0] ^ 2 = 1 := by
  have := congrFun (congrFun h.2 0) 0
  rw [Matrix.mul_apply, Matrix.one_apply_eq] at this
  rw [Finset.sum_range, ← this]
  exact Finset.sum_congr rfl fun a _ => by rw [pow_two]; rfl

theorem orthoCols_one_of {m : Nat} {q : Nat → ℝ} (h : ∑ a ∈ Finset.range m, q a ^ 2 = 1) :
    OrthoCols (mat m 1 fun a _ => q a) m 1 := by
  refine ⟨rfl, ?_⟩
  ext i j
  obtain rfl : i = 0 := Subsingleton.elim _ _
  obtain rfl : j = 0 := Subsingleton.elim _ _
  rw [Matrix.mul_apply, Matrix.one_apply_eq, ← h, Finset.sum_range]
  refine Finset.sum_congr rfl fun a _ => ?_
  rw [Matrix.transpose_apply, toMat_apply, pow_two]
  have : (mat m 1 fun a _ => q a).at_ [(a : Nat), ((0 : Fin 1) : Nat)] = q a := at_mat _ a.isLt Nat.one_pos
  rw [this]

/-- Factors of the trainings of HOOI with one component, not orthogonal to `X`. -/
structure HooiOne (X : Tensor ℝ) (ranks : List Nat) (A : List (Tensor ℝ)) : Prop where
  shapes : TuckerShapes X.shape ranks A
  unit : UnitVecs X.shape (firstCol A)
  hits : along X (firstCol A) ≠ 0

theorem coreSq_one {X : Tensor ℝ} {A : List (Tensor ℝ)} (h1 : 1 ≤ X.order) (h13 : X.order ≤ 13)
    (hA : FactorsFor X.shape 1 A) : coreSq X A = along X (firstCol A) ^ 2 := by
  obtain ⟨g, Y, e1, -, -, e2, -⟩ := core_one h1 h13 hA
  unfold coreSq
  rw [e1]
  exact e2

theorem hooi_step_one {svd : Tensor ℝ → Res (Tensor ℝ × Tensor ℝ × Tensor ℝ)} (hs : SvdOk svd) {X : Tensor ℝ}
    {ranks : List Nat} (h2 : 2 ≤ X.order) (h13 : X.order ≤ 13) (hpos : ∀ d ∈ X.shape, 0 < d)
    (hlen : X.order ≤ ranks.length) (hr : ∀ n < X.order, ranks.getD n 0 = 1) {A A' : List (Tensor ℝ)}
    (hA : HooiOne X ranks A) {n : Nat} (hn : n < X.order) (h : tucker.HOOI.modeUpdate svd X ranks A n = .ok A') :
    HooiOne X ranks A' ∧ (∃ d : ℝ, d ≠ 0 ∧ ∀ a < X.shape.getD n 0, firstCol A' n a = d * bestVec X (firstCol A) n a) ∧
      (∀ k < X.order, k ≠ n → ∀ a < X.shape.getD k 0, firstCol A' k a = firstCol A k a) ∧
      ∀ a < X.shape.getD n 0, along X (firstCol A') * firstCol A' n a = bestVec X (firstCol A) n a := by
  have hl : A.length = X.order := hA.shapes.1
  have hnA : n < A.length := by omega
  have hF := tucker_one hr hA.shapes
  have hadm : ranks.getD n 0 ≤ min (X.shape.getD n 0) (∏ m ∈ (Finset.range X.order).erase n, ranks.getD m 0) := by
    rw [hr n hn, Finset.prod_eq_one fun m hm => hr m (Finset.mem_range.1 (Finset.mem_of_mem_erase hm))]
    exact Nat.le_min.2 ⟨cp.getD_pos hpos hn, Nat.le_refl 1⟩
  obtain ⟨B, b1, b2, b3⟩ := (hooi_update hs h2 h13 hpos hlen hA.shapes hn).1 hadm
  rw [h] at b1
  cases b1
  rw [hr n hn] at b2 b3
  have hB : FactorsFor X.shape 1 (A.set n B) := hF.set b2.1
  have ho : ∀ (Q : Tensor ℝ), ∀ k, k ≠ n → ∀ a, firstCol (A.set n Q) k a = firstCol A k a :=
    fun Q k hk a => firstCol_set_ne hk Q a
  have hQn : ∀ (Q : Tensor ℝ) (a : Nat), firstCol (A.set n Q) n a = Q.at_ [a, 0] :=
    fun Q a => firstCol_get (List.getElem?_set_self hnA) a
  set y : Nat → ℝ := fun a => sliceSum X.shape n a fun i => X.at_ i * restEntry X.order (firstCol A) n i with hy
  have hal : ∀ Q : Tensor ℝ, along X (firstCol (A.set n Q)) = ∑ a ∈ Finset.range (X.shape.getD n 0), Q.at_ [a, 0] * y a := by
    intro Q
    rw [along_split _ hn]
    refine Finset.sum_congr rfl fun a _ => ?_
    rw [hQn, hy]
    congr 1
    refine sliceSum_congr fun i _ _ => ?_
    congr 1
    exact Finset.prod_congr rfl fun k hk => ho Q k (Finset.ne_of_mem_erase hk) _
  have hy0 : ∃ a < X.shape.getD n 0, y a ≠ 0 := by
    by_contra hne
    push Not at hne
    refine hA.hits ?_
    rw [along_split _ hn]
    exact Finset.sum_eq_zero fun a ha => by
      have : (sliceSum X.shape n a fun i => X.at_ i * restEntry X.order (firstCol A) n i) = 0 := hne a (Finset.mem_range.1 ha)
      rw [this, mul_zero]
  obtain ⟨t, t0, t1, t2⟩ := unit_max (orthoCols_one b2) (y := y) (fun q hq => by
    have := b3 _ (orthoCols_one_of hq)
    rw [coreSq_one (by omega) h13 (hF.set rfl), coreSq_one (by omega) h13 hB, hal, hal] at this
    refine le_trans (le_of_eq ?_) this
    congr 1
    exact Finset.sum_congr rfl fun a ha => by rw [at_mat _ (Finset.mem_range.1 ha) Nat.one_pos]) hy0
  have hbest : ∀ a < X.shape.getD n 0, bestVec X (firstCol A) n a = y a := fun a ha => bestVec_unit hA.unit hn ha
  refine ⟨⟨hA.shapes.set (by rw [hr n hn]; exact b2.1), fun k hk => ?_, ?_⟩, ⟨t, t0, fun a ha => ?_⟩, fun k _ hk a _ => ho B k hk a,
    fun a ha => ?_⟩
  · by_cases e : k = n
    · subst e
      rw [← orthoCols_one b2]
      exact Finset.sum_congr rfl fun a _ => by rw [hQn]
    · rw [← hA.unit k hk]
      exact Finset.sum_congr rfl fun a _ => by rw [ho B k e]
  · obtain ⟨a, ha, hya⟩ := hy0
    have := t2 a ha
    intro h0
    rw [hal] at h0
    rw [h0, zero_mul] at this
    exact hya this.symm
  · rw [hQn, t1 a ha, hbest a ha]
  · rw [hQn, hal, t2 a ha, hbest a ha]

/-- One component: a step of HOOI is a step of the alternating least squares. -/
theorem hooi_main_one {svd : Tensor ℝ → Res (Tensor ℝ × Tensor ℝ × Tensor ℝ)} (hs : SvdOk svd) {X : Tensor ℝ}
    {ranks : List Nat} (h2 : 2 ≤ X.order) (h13 : X.order ≤ 13) (hpos : ∀ d ∈ X.shape, 0 < d)
    (hlen : X.order ≤ ranks.length) (hr : ∀ n < X.order, ranks.getD n 0 = 1) {A A' : List (Tensor ℝ)}
    {o : fact.Out (List (Tensor ℝ)) (Tensor ℝ) (Tensor ℝ) ℝ} (hA : HooiOne X ranks A)
    (h : tucker.HOOI.main svd X ranks A = .ok (A', o)) {w : Nat → Nat → ℝ} (hw : Parallel X.shape (firstCol A) w) :
    HooiOne X ranks A' ∧ Parallel X.shape (firstCol A') (refitAll X w) ∧ o.full.shape = X.shape ∧
      (∀ i, InB X.shape i → o.full.at_ i = outerEntry X.order (refitAll X w) i) ∧
      cp.scalars X o.full = .ok (o.loss, o.obj, o.rel) := by
  unfold tucker.HOOI.main at h
  cases hsw : tucker.HOOI.sweep svd X ranks A with
  | error e => rw [hsw] at h; cases h
  | ok A1 =>
  rw [hsw, ok_bind] at h
  obtain ⟨s1, hs1, hl1⟩ := fold_last (by omega) hsw
  obtain ⟨p1, q1⟩ := par_fold (col := firstCol) (P := HooiOne X ranks) (fun s n s' a b c => by
      obtain ⟨e1, e2, e3, -⟩ := hooi_step_one hs h2 h13 hpos hlen hr a b c
      exact ⟨e1, e2, e3⟩) (List.range (X.order - 1)) (fun n hn => by have := List.mem_range.1 hn; omega) hA hw hs1
  have hN : X.order - 1 < X.order := by omega
  obtain ⟨r1, ⟨d, r2, r3⟩, r4, r5⟩ := hooi_step_one hs h2 h13 hpos hlen hr p1 hN hl1
  have hF := tucker_one hr r1.shapes
  obtain ⟨g, Y, g1, g2, g3, -, g4⟩ := core_one (by omega) h13 hF
  rw [g1, ok_bind, g2, ok_bind] at h
  cases hsc : cp.scalars X Y with
  | error e => rw [hsc] at h; cases h
  | ok r =>
  obtain ⟨l, ob, rl⟩ := r
  rw [hsc, ok_bind] at h
  cases h
  rw [refitAll_last (by omega)]
  refine ⟨r1, q1.refit r2 r3 r4, g3, fun i hi => ?_, hsc⟩
  change Y.at_ i = _
  rw [g4 i hi, ← outerEntry_refit_par q1 hN hi, outerEntry_split _ hN, outerEntry_split _ hN, ← mul_assoc,
    r5 _ ((InB_iff_getD.1 hi).2 _ hN)]
  unfold refit
  rw [restEntry_update, Function.update_self]
  congr 1
  refine Finset.prod_congr rfl fun k hk => ?_
  have hk' := Finset.mem_range.1 (Finset.mem_of_mem_erase hk)
  exact r4 k hk' (Finset.ne_of_mem_erase hk) _ ((InB_iff_getD.1 hi).2 k hk')

end TD
