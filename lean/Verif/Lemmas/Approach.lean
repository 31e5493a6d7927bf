import Verif.Spec.Approach
import Verif.Spec.TuckerFit
import Verif.Lemmas.Stages

/-!
# Lemmas on the convergence of factors
-/
namespace TD
open Spec Tensor Filter Topology

theorem Spec.Approaches.all {A : ℕ → Tensor ℝ} {L : Tensor ℝ} (h : Approaches A L) (i : List Nat) :
    Tendsto (fun n => (A n).at_ i) atTop (𝓝 (L.at_ i)) := by
  by_cases hp : ravel L.shape i < L.shape.prod
  · have e : ∀ T : Tensor ℝ, T.shape = L.shape → T.at_ i = T.at_ (unravel L.shape (ravel L.shape i)) := by
      intro T hT
      unfold at_
      rw [hT, ravel_unravel hp]
    rw [e L rfl]
    simp only [fun n => e (A n) (h.1 n)]
    exact h.2 _ (unravel_inB hp)
  · have e : ∀ T : Tensor ℝ, T.shape = L.shape → T.at_ i = 0 := by
      intro T hT
      unfold at_
      rw [hT, List.getD_eq_default _ _ (by rw [T.wf, hT]; omega)]
    rw [e L rfl]
    simp only [fun n => e (A n) (h.1 n)]
    exact tendsto_const_nhds

theorem Spec.Approaches.const (L : Tensor ℝ) : Approaches (fun _ => L) L := ⟨fun _ => rfl, fun _ _ => tendsto_const_nhds⟩

theorem Spec.FactorsApproach.cons {F : ℕ → List (Tensor ℝ)} {K : Tensor ℝ} {L : List (Tensor ℝ)} (h : FactorsApproach F (K :: L)) :
    ∃ (M : ℕ → Tensor ℝ) (T : ℕ → List (Tensor ℝ)), (∀ n, F n = M n :: T n) ∧ Approaches M K ∧ FactorsApproach T L := by
  obtain ⟨M, K', h1, h2, h3⟩ := h.2 0 (by simp)
  simp only [List.getElem?_cons_zero, Option.some.injEq] at h2
  subst h2
  have hF : ∀ n, F n = M n :: (F n).tail := by
    intro n
    have := h1 n
    cases e : F n with
    | nil => rw [e] at this; cases this
    | cons a l =>
        rw [e] at this
        simp only [List.getElem?_cons_zero, Option.some.injEq] at this
        rw [this]; rfl
  refine ⟨M, fun n => (F n).tail, hF, h3, fun n => ?_, fun k hk => ?_⟩
  · have := h.1 n
    rw [List.length_tail, this]; rfl
  · obtain ⟨M', K', g1, g2, g3⟩ := h.2 (k + 1) (by simpa using hk)
    refine ⟨M', K', fun n => ?_, by simpa using g2, g3⟩
    have := g1 n
    rw [hF n, List.getElem?_cons_succ] at this
    exact this

theorem Spec.FactorsApproach.nil {F : ℕ → List (Tensor ℝ)} (h : FactorsApproach F []) (n : ℕ) : F n = [] :=
  List.length_eq_zero_iff.1 (h.1 n)

theorem khatri_tendsto {r : Nat} : ∀ {L : List (Tensor ℝ)} {F : ℕ → List (Tensor ℝ)} {i : List Nat}, FactorsApproach F L →
    Tendsto (fun n => khatriEntry r (F n) i) atTop (𝓝 (khatriEntry r L i))
  | [], F, i, h => by
      simp only [h.nil]
      exact tendsto_const_nhds
  | K :: L, F, [], h => by
      obtain ⟨M, T, hF, -, -⟩ := h.cons
      simp only [hF, khatriEntry]
      exact tendsto_const_nhds
  | K :: L, F, j :: i, h => by
      obtain ⟨M, T, hF, hM, hT⟩ := h.cons
      simp only [hF, khatriEntry]
      exact (hM.all _).mul (khatri_tendsto hT)

theorem kron_tendsto : ∀ {L : List (Tensor ℝ)} {F : ℕ → List (Tensor ℝ)} {i c : List Nat}, FactorsApproach F L →
    Tendsto (fun n => kronEntry (F n) i c) atTop (𝓝 (kronEntry L i c))
  | [], F, i, c, h => by
      simp only [h.nil]
      exact tendsto_const_nhds
  | K :: L, F, [], c, h => by
      obtain ⟨M, T, hF, -, -⟩ := h.cons
      simp only [hF, kronEntry]
      exact tendsto_const_nhds
  | K :: L, F, j :: i, [], h => by
      obtain ⟨M, T, hF, -, -⟩ := h.cons
      simp only [hF, kronEntry]
      exact tendsto_const_nhds
  | K :: L, F, j :: i, c :: cs, h => by
      obtain ⟨M, T, hF, hM, hT⟩ := h.cons
      simp only [hF, kronEntry]
      exact (hM.all _).mul (kron_tendsto hT)

theorem boxSum_tendsto : ∀ {s : List Nat} {f : ℕ → List Nat → ℝ} {g : List Nat → ℝ},
    (∀ i, Tendsto (fun n => f n i) atTop (𝓝 (g i))) → Tendsto (fun n => boxSum s (f n)) atTop (𝓝 (boxSum s g))
  | [], f, g, h => h []
  | n :: s, f, g, h => by
      simp only [boxSum]
      exact tendsto_finsetSum _ fun i _ => boxSum_tendsto fun is => h (i :: is)

theorem cpErr_tendsto {X : Tensor ℝ} {R : Nat} {F : ℕ → List (Tensor ℝ)} {L : List (Tensor ℝ)} {w : ℕ → Nat → ℝ} {v : Nat → ℝ}
    (h : FactorsApproach F L) (hw : ∀ r, Tendsto (fun n => w n r) atTop (𝓝 (v r))) :
    Tendsto (fun n => cpErr X R (F n) (w n)) atTop (𝓝 (cpErr X R L v)) := by
  unfold cpErr
  exact boxSum_tendsto fun i => ((tendsto_const_nhds (x := X.at_ i)).sub
    (tendsto_finsetSum _ fun r _ => (hw r).mul (khatri_tendsto h))).pow 2

theorem tkErr_tendsto {X : Tensor ℝ} {F : ℕ → List (Tensor ℝ)} {L : List (Tensor ℝ)} {G : ℕ → Tensor ℝ} {g : Tensor ℝ}
    (h : FactorsApproach F L) (hg : Approaches G g) :
    Tendsto (fun n => tkErr X (G n) (F n)) atTop (𝓝 (tkErr X g L)) := by
  unfold tkErr
  simp only [hg.1]
  exact boxSum_tendsto fun i => ((tendsto_const_nhds (x := X.at_ i)).sub
    (boxSum_tendsto fun j => (hg.all j).mul (kron_tendsto h))).pow 2

theorem Spec.FactorsApproach.set {F : ℕ → List (Tensor ℝ)} {L : List (Tensor ℝ)} (h : FactorsApproach F L) (k : Nat) (B : Tensor ℝ) :
    FactorsApproach (fun n => (F n).set k B) (L.set k B) := by
  refine ⟨fun n => by simp only [List.length_set]; exact h.1 n, fun j hj => ?_⟩
  rw [List.length_set] at hj
  by_cases e : k = j
  · subst e
    exact ⟨fun _ => B, B, fun n => List.getElem?_set_self (by rw [h.1 n]; exact hj), List.getElem?_set_self hj, .const B⟩
  · obtain ⟨M, K, g1, g2, g3⟩ := h.2 j hj
    exact ⟨M, K, fun n => by rw [List.getElem?_set_ne e, g1], by rw [List.getElem?_set_ne e, g2], g3⟩

theorem Spec.FactorsApproach.atMode {F F' : ℕ → List (Tensor ℝ)} {L : List (Tensor ℝ)} (h : FactorsApproach F L) (h' : FactorsApproach F' L)
    (m : Nat) : FactorsApproach (fun n => atMode (F n) (F' n) m) L := by
  have hl : ∀ n, ((F' n).take m ++ (F n).drop m).length = L.length := fun n => by
    rw [List.length_append, List.length_take, List.length_drop, h.1, h'.1]; omega
  refine ⟨fun n => hl n, fun j hj => ?_⟩
  rcases Nat.lt_or_ge j m with hjm | hjm
  · obtain ⟨M, K, g1, g2, g3⟩ := h'.2 j hj
    refine ⟨M, K, fun n => ?_, g2, g3⟩
    simp only [TD.atMode]
    rw [List.getElem?_append_left (by rw [List.length_take, h'.1]; omega), List.getElem?_take_of_lt hjm, g1]
  · obtain ⟨M, K, g1, g2, g3⟩ := h.2 j hj
    refine ⟨M, K, fun n => ?_, g2, g3⟩
    have e : (List.take m (F' n)).length = m := by rw [List.length_take, h'.1]; omega
    simp only [TD.atMode]
    rw [List.getElem?_append_right (by rw [e]; exact hjm), e, List.getElem?_drop, show m + (j - m) = j by omega, g1]

theorem Spec.Approaches.comp {A : ℕ → Tensor ℝ} {L : Tensor ℝ} (h : Approaches A L) {φ : ℕ → ℕ} (hφ : Tendsto φ atTop atTop) :
    Approaches (fun n => A (φ n)) L := ⟨fun _ => h.1 _, fun i hi => (h.2 i hi).comp hφ⟩

theorem Spec.FactorsApproach.comp {F : ℕ → List (Tensor ℝ)} {L : List (Tensor ℝ)} (h : FactorsApproach F L) {φ : ℕ → ℕ}
    (hφ : Tendsto φ atTop atTop) : FactorsApproach (fun n => F (φ n)) L := by
  refine ⟨fun n => h.1 _, fun k hk => ?_⟩
  obtain ⟨M, K, g1, g2, g3⟩ := h.2 k hk
  exact ⟨fun n => M (φ n), K, fun n => g1 _, g2, g3.comp hφ⟩

/-- Bounded tensors of one shape: all tensors of one list of shapes whose entries are bounded have a convergent subsequence. -/
theorem exists_limit {F : ℕ → List (Tensor ℝ)} {shapes : List (List Nat)} (hs : ∀ n, (F n).map shape = shapes) {c : ℝ}
    (hc : ∀ n, ∀ M ∈ F n, ∀ x ∈ M.data, |x| ≤ c) :
    ∃ (φ : ℕ → ℕ) (L : List (Tensor ℝ)), StrictMono φ ∧ FactorsApproach (fun n => F (φ n)) L := by
  classical
  let P := (shapes.map List.prod).sum + 1
  let dat : List (Tensor ℝ) → Nat → Nat → ℝ := fun U k p => ((U[k]?.map data).getD []).getD p 0
  let v : ℕ → (Fin shapes.length × Fin P → ℝ) := fun n q => dat (F n) q.1 q.2
  have h0 : ∀ n k p, |dat (F n) k p| ≤ max c 0 := by
    intro n k p
    simp only [dat]
    cases e : (F n)[k]? with
    | none => simp
    | some M =>
        simp only [Option.map_some, Option.getD_some]
        rcases Nat.lt_or_ge p M.data.length with h | h
        · rw [List.getD_eq_getElem _ _ h]
          exact (hc n M (List.mem_of_getElem? e) _ (List.getElem_mem h)).trans (le_max_left _ _)
        · rw [List.getD_eq_default _ _ h, abs_zero]; exact le_max_right _ _
  have hb : ∀ n, v n ∈ Set.pi Set.univ fun _ : Fin shapes.length × Fin P => Set.Icc (-(max c 0)) (max c 0) := by
    intro n q _
    exact abs_le.1 (h0 n q.1 q.2)
  obtain ⟨l, -, φ, hφ, hl⟩ := (isCompact_univ_pi fun _ : Fin shapes.length × Fin P => isCompact_Icc).tendsto_subseq hb
  have hP : ∀ {k : Nat} {s : List Nat}, shapes[k]? = some s → s.prod < P := by
    intro k s hk
    have := List.single_le_sum (l := shapes.map List.prod) (fun _ _ => Nat.zero_le _) s.prod
      (List.mem_map.2 ⟨s, List.mem_of_getElem? hk, rfl⟩)
    simp only [P]; omega
  have hlen : ∀ n, (F n).length = shapes.length := fun n => by rw [← hs n, List.length_map]
  let K : Fin shapes.length → Tensor ℝ := fun k =>
    ofFn shapes[k] fun i => if h : ravel shapes[k] i < P then l (k, ⟨_, h⟩) else 0
  refine ⟨φ, List.ofFn K, hφ, fun n => by rw [List.length_ofFn]; exact hlen _, fun k hk => ?_⟩
  rw [List.length_ofFn] at hk
  have hk' : ∀ n, k < (F n).length := fun n => by rw [hlen]; exact hk
  have hsh : ∀ n, ((F n)[k]'(hk' n)).shape = shapes[k] := by
    intro n
    have := congrArg (·[k]?) (hs n)
    simp only [List.getElem?_map, List.getElem?_eq_getElem (hk' n), List.getElem?_eq_getElem hk, Option.map_some,
      Option.some.injEq] at this
    exact this
  refine ⟨fun n => (F (φ n))[k]'(hk' _), K ⟨k, hk⟩, fun n => List.getElem?_eq_getElem _, ?_, fun n => hsh _, fun i hi => ?_⟩
  · rw [List.getElem?_eq_getElem (by rw [List.length_ofFn]; exact hk), List.getElem_ofFn]
  · have hi : InB shapes[k] i := hi
    have hp : ravel shapes[k] i < P := (ravel_lt hi).trans (hP (List.getElem?_eq_getElem hk))
    have e : (K ⟨k, hk⟩).at_ i = l (⟨k, hk⟩, ⟨_, hp⟩) := by
      show (ofFn shapes[k] _).at_ i = _
      rw [at_ofFn _ hi]
      exact dif_pos hp
    rw [e]
    have := (tendsto_pi_nhds.1 hl) (⟨k, hk⟩, ⟨_, hp⟩)
    refine this.congr fun n => ?_
    show dat (F (φ n)) k (ravel shapes[k] i) = _
    simp only [dat, List.getElem?_eq_getElem (hk' _), Option.map_some, Option.getD_some]
    unfold at_
    rw [hsh]

theorem abs_le_of_normSqT {T : Tensor ℝ} {x : ℝ} (hx : x ∈ T.data) : |x| ≤ Real.sqrt (normSqT T) := by
  rw [data_eq] at hx
  obtain ⟨i, hi, rfl⟩ := List.mem_map.1 hx
  have hi := mem_indices.1 hi
  rw [← Real.sqrt_sq_eq_abs]
  refine Real.sqrt_le_sqrt ?_
  unfold normSqT
  rw [boxSum_eq_sum_range]
  have := Finset.single_le_sum (f := fun k => T.at_ (unravel T.shape k) ^ 2) (fun _ _ => sq_nonneg _)
    (Finset.mem_range.2 (ravel_lt hi))
  simp only [unravel_ravel hi] at this
  exact this

theorem abs_le_of_ortho {M : Tensor ℝ} {m r : Nat} (h : OrthoCols M m r) {x : ℝ} (hx : x ∈ M.data) : |x| ≤ 1 := by
  rw [data_eq, h.1] at hx
  obtain ⟨i, hi, rfl⟩ := List.mem_map.1 hx
  obtain ⟨a, b, rfl, ha, hb⟩ := InB_pair.1 (mem_indices.1 hi)
  have h1 := congrFun (congrFun h.2 ⟨b, hb⟩) ⟨b, hb⟩
  rw [Matrix.mul_apply, Matrix.one_apply_eq] at h1
  have h2 := Finset.single_le_sum (f := fun j => (toMat M m r).transpose ⟨b, hb⟩ j * toMat M m r j ⟨b, hb⟩)
    (fun _ _ => mul_self_nonneg _) (Finset.mem_univ (⟨a, ha⟩ : Fin m))
  rw [h1] at h2
  exact abs_le_one_iff_mul_self_le_one.2 h2

/-- The last of the converging tensors apart. -/
theorem Spec.FactorsApproach.split {F : ℕ → List (Tensor ℝ)} {G : ℕ → Tensor ℝ} {L : List (Tensor ℝ)} {N : Nat}
    (hN : ∀ n, (F n).length = N) (h : FactorsApproach (fun n => F n ++ [G n]) L) :
    ∃ L' g, FactorsApproach F L' ∧ Approaches G g := by
  have hl : L.length = N + 1 := by rw [← h.1 0, List.length_append, hN]; rfl
  obtain ⟨M, K, g1, -, g3⟩ := h.2 N (by omega)
  have hM : M = G := funext fun n => by
    have := g1 n
    rw [List.getElem?_append_right (by rw [hN]), hN, Nat.sub_self] at this
    exact (Option.some.inj this).symm
  subst hM
  refine ⟨L.take N, K, ⟨fun n => by rw [hN, List.length_take]; omega, fun k hk => ?_⟩, g3⟩
  have hk' : k < N := by rw [List.length_take] at hk; omega
  obtain ⟨M', K', e1, e2, e3⟩ := h.2 k (by omega)
  refine ⟨M', K', fun n => ?_, by rw [List.getElem?_take_of_lt hk', e2], e3⟩
  have := e1 n
  rwa [List.getElem?_append_left (by rw [hN]; exact hk')] at this

end TD
