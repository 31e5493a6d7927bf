import Mathlib.Topology.Order.MonotoneConvergence
import Mathlib.Topology.Instances.Real.Lemmas
import Verif.Spec.Progress
import Verif.Props.Report
import Verif.Props.Hooi
import Verif.Props.Scheduled
import Verif.Props.ScaleBcu

/-!
# Progress of `CP_ALS` and `HOOI`
-/
namespace TD.Props
open TD Spec Tensor tf ops fact Filter

/-- In a non-increasing list the drops add up to at most the distance between the ends. -/
theorem drops_le {δ : ℝ} : ∀ {r : List ℝ}, r.Pairwise (· ≥ ·) → ∀ n, n + 1 ≤ r.length →
    open Classical in
    (((List.range n).filter fun j => δ < drop r j).length : ℝ) * δ ≤ r.getD 0 0 - r.getD n 0 := by
  classical
  intro r hr n
  induction n with
  | zero => intro _; simp
  | succ n ih =>
      intro hn
      have hge : r.getD (n + 1) 0 ≤ r.getD n 0 := by
        rw [List.getD_eq_getElem _ _ (by omega), List.getD_eq_getElem _ _ (by omega)]
        exact List.pairwise_iff_getElem.1 hr n (n + 1) (by omega) (by omega) (by omega)
      have := ih (by omega)
      rw [List.range_succ, List.filter_append, List.length_append]
      by_cases hd : δ < drop r n
      · rw [show [n].filter (fun j => decide (δ < drop r j)) = [n] by simp [hd]]
        unfold drop at hd
        push_cast [List.length_singleton]
        linarith
      · rw [show [n].filter (fun j => decide (δ < drop r j)) = [] by simp [hd]]
        push_cast [List.length_nil]
        linarith

theorem drops_bound {δ : ℝ} {r : List ℝ} (hr : r.Pairwise (· ≥ ·)) (h1 : ∀ x ∈ r, 0 ≤ x ∧ x ≤ 1) :
    (drops δ r : ℝ) * δ ≤ 1 := by
  rcases Nat.eq_zero_or_pos r.length with h0 | h0
  · unfold drops; rw [h0]; simp
  · have := drops_le (δ := δ) hr (r.length - 1) (by omega)
    rw [List.getD_eq_getElem _ _ h0, List.getD_eq_getElem _ _ (by omega)] at this
    have a := (h1 _ (List.getElem_mem h0)).2
    have b := (h1 _ (List.getElem_mem (show r.length - 1 < r.length by omega))).1
    unfold drops
    linarith

/-- **C102** for `CP_ALS`: however long the training, fewer than `1/δ` steps lower the residual by more than `δ`. -/
theorem C102_cp_drops (pinv : Tensor ℝ → Res (Tensor ℝ)) (hp : PinvOk pinv) (X : Tensor ℝ) (R : Nat)
    (A0 : List (Tensor ℝ)) (hA : FactorsFor X.shape R A0) (h2 : 2 ≤ X.order) (h25 : X.order ≤ 25)
    (hpos : ∀ d ∈ X.shape, 0 < d) (Ar : Arith ℝ) (args : Args ℝ) (steps : Int)
    (self self' : Self (List (Tensor ℝ)) (Tensor ℝ) (Tensor ℝ)) (ev : List Int) (hist : List (ℝ × ℝ))
    (h : train Ar (CP_ALS.cls (cp.main pinv X R)) args steps (.ok A0) self = (self', ev, .ok hist)) (δ : ℝ) :
    (drops δ (hist.map Prod.snd) : ℝ) * δ ≤ 1 :=
  drops_bound (C51_objective_nonincreasing pinv hp X R A0 hA h2 h25 hpos Ar args steps self self' ev hist h).1 fun x hx => by
    obtain ⟨p, hp', rfl⟩ := List.mem_map.1 hx
    exact C72_residual_at_most_one pinv hp X R A0 hA h2 h25 hpos Ar args steps self self' ev hist h p hp'

/-- **C102** for `HOOI`. -/
theorem C102_hooi_drops (svd : Tensor ℝ → Res (Tensor ℝ × Tensor ℝ × Tensor ℝ)) (hs : SvdOk svd) (X : Tensor ℝ)
    (ranks : List Nat) (h2 : 2 ≤ X.order) (h13 : X.order ≤ 13) (hpos : ∀ d ∈ X.shape, 0 < d)
    (hlen : X.order ≤ ranks.length) (Ar : Arith ℝ) (args : Args ℝ) (steps : Int)
    (self self' : Self (List (Tensor ℝ)) (Tensor ℝ) (Tensor ℝ)) (ev : List Int) (hist : List (ℝ × ℝ))
    (h : train Ar (HOOI.cls (tucker.HOOI.main svd X ranks)) args steps (tucker.HOOI.init svd X ranks) self =
      (self', ev, .ok hist)) (δ : ℝ) : (drops δ (hist.map Prod.snd) : ℝ) * δ ≤ 1 :=
  drops_bound (C58_hooi_nonincreasing svd hs X ranks h2 h13 hpos hlen Ar args steps self self' ev hist h).1
    fun x hx => by
      obtain ⟨p, hp', rfl⟩ := List.mem_map.1 hx
      exact C75_hooi_residual_at_most_one svd hs X ranks h2 h13 hpos hlen Ar args steps self self' ev hist h p hp'

/-- Trainings of all lengths whose residuals do not increase converge. -/
theorem converges {S F K : Type} {c : Cls S F K (Tensor ℝ) ℝ} {X : Tensor ℝ}
    (hc : ∀ s s' o, c.main s = .ok (s', o) → cp.scalars X o.full = .ok (o.loss, o.obj, o.rel))
    {args : Args ℝ} (ht : args.tol ≤ 0) {fresh : Res S} {self : Self F K (Tensor ℝ)} {hist : Nat → List (ℝ × ℝ)}
    (h : ∀ n : Nat, (train (exactArith ℝ) c args ((n : Int) + 1) fresh self).2.2 = .ok (hist n))
    (hmono : ∀ n, ((hist n).map Prod.snd).Pairwise (· ≥ ·)) (h1 : ∀ n, ∀ p ∈ hist n, 0 ≤ p.2 ∧ p.2 ≤ 1) :
    ∃ r, 0 ≤ r ∧ r ≤ 1 ∧ Antitone (fun n => lastRes (hist n)) ∧ Tendsto (fun n => lastRes (hist n)) atTop (nhds r) := by
  have hlen : ∀ n, (hist n).length = n + 1 := fun n => by
    have := all_steps (X := X) hc ht (Prod.ext (x := train (exactArith ℝ) c args ((n : Int) + 1) fresh self) rfl
      (Prod.ext rfl (h n)))
    omega
  have hlast : ∀ n, lastRes (hist n) = ((hist n)[n]?.map Prod.snd).getD 0 := fun n => by
    unfold lastRes
    rw [List.getLastD_eq_getLast?, List.getLast?_eq_getElem?, List.length_map, hlen, List.getElem?_map]
    rfl
  have hmem : ∀ n, 0 ≤ lastRes (hist n) ∧ lastRes (hist n) ≤ 1 := fun n => by
    rw [hlast, List.getElem?_eq_getElem (by have := hlen n; omega)]
    exact h1 n _ (List.getElem_mem _)
  have hanti : Antitone fun n => lastRes (hist n) := antitone_nat_of_succ_le fun n => by
    obtain ⟨s', ev', e, -⟩ := C82_prefix (exactArith ℝ) c args (((n + 1 : Nat) : Int) + 1) ((n : Int) + 1) fresh self _ _
      (hist (n + 1)) (Prod.ext rfl (Prod.ext rfl (h (n + 1)))) (by omega) (by omega)
    have e' : hist n = (hist (n + 1)).take (n + 1) := by
      have := h n
      rw [e] at this
      have := Except.ok.inj this
      rw [← this]; congr 1
    have l := hlen (n + 1)
    rw [hlast, hlast, e', List.getElem?_take_of_lt (by omega), List.getElem?_eq_getElem (by omega),
      List.getElem?_eq_getElem (by omega)]
    have := List.pairwise_iff_getElem.1 (hmono (n + 1)) n (n + 1) (by simp; omega) (by simp; omega) (by omega)
    simpa using this
  refine ⟨⨅ n, lastRes (hist n), le_ciInf fun n => (hmem n).1, (ciInf_le ⟨0, ?_⟩ 0).trans (hmem 0).2, hanti,
    tendsto_atTop_ciInf hanti ⟨0, ?_⟩⟩
  all_goals rintro _ ⟨n, rfl⟩; exact (hmem n).1

/-- **C102** for `CP_ALS` without stopping test (tolerance not positive): if no training breaks down, the last residual
decreases and converges as the number of steps grows. -/
theorem C102_cp_converges (pinv : Tensor ℝ → Res (Tensor ℝ)) (hp : PinvOk pinv) (X : Tensor ℝ) (R : Nat)
    (A0 : List (Tensor ℝ)) (hA : FactorsFor X.shape R A0) (h2 : 2 ≤ X.order) (h25 : X.order ≤ 25)
    (hpos : ∀ d ∈ X.shape, 0 < d) (args : Args ℝ) (ht : args.tol ≤ 0)
    (self : Self (List (Tensor ℝ)) (Tensor ℝ) (Tensor ℝ)) (hist : Nat → List (ℝ × ℝ))
    (h : ∀ n : Nat, (train (exactArith ℝ) (CP_ALS.cls (cp.main pinv X R)) args ((n : Int) + 1) (.ok A0) self).2.2 =
      .ok (hist n)) :
    ∃ r, 0 ≤ r ∧ r ≤ 1 ∧ Antitone (fun n => lastRes (hist n)) ∧ Tendsto (fun n => lastRes (hist n)) atTop (nhds r) :=
  converges (X := X) (c := CP_ALS.cls (cp.main pinv X R)) (fun _ _ _ hm => (cp_main_inv hm).choose_spec.2.2.2) ht h
    (fun n => (C51_objective_nonincreasing pinv hp X R A0 hA h2 h25 hpos _ args _ self _ _ (hist n)
      (Prod.ext rfl (Prod.ext rfl (h n)))).1)
    fun n => C72_residual_at_most_one pinv hp X R A0 hA h2 h25 hpos _ args _ self _ _ (hist n)
      (Prod.ext rfl (Prod.ext rfl (h n)))

/-- **C102** for `HOOI` without stopping test: for every nonzero tensor and admissible ranks the trainings of all lengths
return, and the last residual decreases and converges. -/
theorem C102_hooi_converges (svd : Tensor ℝ → Res (Tensor ℝ × Tensor ℝ × Tensor ℝ)) (hs : SvdOk svd) (X : Tensor ℝ)
    (ranks : List Nat) (h2 : 2 ≤ X.order) (h13 : X.order ≤ 13) (hpos : ∀ d ∈ X.shape, 0 < d)
    (hX : ∃ i, InB X.shape i ∧ X.at_ i ≠ 0) (hlen : X.order ≤ ranks.length) (hr : Admissible X.shape ranks)
    (args : Args ℝ) (ht : args.tol ≤ 0) (hv : args.validationInternal ≠ 0)
    (self : Self (List (Tensor ℝ)) (Tensor ℝ) (Tensor ℝ)) :
    ∃ hist : Nat → List (ℝ × ℝ),
      (∀ n : Nat, (train (exactArith ℝ) (HOOI.cls (tucker.HOOI.main svd X ranks)) args ((n : Int) + 1)
        (tucker.HOOI.init svd X ranks) self).2.2 = .ok (hist n)) ∧
      ∃ r, 0 ≤ r ∧ r ≤ 1 ∧ Antitone (fun n => lastRes (hist n)) ∧
        Tendsto (fun n => lastRes (hist n)) atTop (nhds r) := by
  have h := fun n : Nat => (C74_hooi_admissible svd hs X ranks h2 h13 hpos hX hlen (exactArith ℝ) args hv ((n : Int) + 1)
    (by omega) self).2 hr
  choose hist h using h
  refine ⟨hist, h, converges (X := X) (c := HOOI.cls (tucker.HOOI.main svd X ranks))
    (fun _ _ _ hm => (hooi_main_inv hm).choose_spec.2.2.2) ht h
    (fun n => (C58_hooi_nonincreasing svd hs X ranks h2 h13 hpos hlen _ args _ self _ _ (hist n)
      (Prod.ext rfl (Prod.ext rfl (h n)))).1)
    fun n => C75_hooi_residual_at_most_one svd hs X ranks h2 h13 hpos hlen _ args _ self _ _ (hist n)
      (Prod.ext rfl (Prod.ext rfl (h n)))⟩

/-- The hypothesis of `C102_cp_converges` is met by every positive tensor with rank one and positive initial factors. -/
example (pinv : Tensor ℝ → Res (Tensor ℝ)) (hp : PinvOk pinv) : ∃ hist : Nat → List (ℝ × ℝ), ∀ n : Nat,
    (train (exactArith ℝ) (CP_ALS.cls (cp.main pinv (mat 2 3 fun i j => (i : ℝ) + 2 * j + 1) 1)) { tol := 0 } ((n : Int) + 1)
      (.ok [ones [2, 1], ones [3, 1]]) {}).2.2 = .ok (hist n) := by
  have h := fun n : Nat => C73_rank_one_positive pinv hp (mat 2 3 fun i j => (i : ℝ) + 2 * j + 1) [ones [2, 1], ones [3, 1]]
    rfl (by
      intro M hM i hi
      simp only [List.mem_cons, List.not_mem_nil, or_false] at hM
      rcases hM with rfl | rfl
      · have hi : i < 2 := hi
        rw [ones, at_ofFn _ (by simp [InB, hi])]; exact one_pos
      · have hi : i < 3 := hi
        rw [ones, at_ofFn _ (by simp [InB, hi])]; exact one_pos) (le_refl 2) (by show 2 ≤ 25; omega)
    (by intro d hd; have : d ∈ [2, 3] := hd; simp at this; omega)
    (by
      intro i hi
      obtain ⟨a, b, rfl⟩ : ∃ a b, i = [a, b] := by
        have : i.length = 2 := hi.length_eq
        match i, this with
        | [a, b], _ => exact ⟨a, b, rfl⟩
      have hi : InB [2, 3] [a, b] := hi
      simp only [InB, List.forall₂_cons, List.Forall₂.nil, and_true] at hi
      rw [at_mat _ hi.1 hi.2]
      positivity) (exactArith ℝ) { tol := 0 } (by decide) ((n : Int) + 1) (by omega) {}
  choose hist h using h
  exact ⟨hist, h⟩

end TD.Props
