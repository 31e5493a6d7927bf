import Verif.Lemmas.CpMove
import Verif.Props.AlsOneLimit

/-!
# C164 : the reconstructions of `CP_ALS` come to rest, with any number of components
-/
namespace TD.Props
open TD Spec Tensor fact Filter Topology

/-- Trainings of all lengths are parts of one endless run, and store its reconstructions. -/
theorem endless_full {S F K X R : Type} {Ar : Arith R} {c : Cls S F K X R} (hu : c.update = none) (hc : c.core = none)
    {args : Args R} {fresh : Res S} {self : Self F K X} {self' : Nat → Self F K X} {ev : Nat → List Int} {hist : Nat → List (R × R)}
    (h : ∀ n : Nat, train Ar c args ((n : Int) + 1) fresh self = (self' n, ev n, .ok (hist n)))
    (hl : ∀ n, (hist n).length = n + 1) :
    ∃ (σ : Nat → S) (o : Nat → Out F K X R), fresh = .ok (σ 0) ∧ ∀ n, c.main (σ n) = .ok (σ (n + 1), o n) ∧
      (self' n).full = some (o n).full := by
  have hr := fun n => plain_run_full hu hc (h n)
  choose s0 σ o h0 hσ0 hn hh hf ha hm p hp hp1 hp2 hp3 using hr
  have hs0 : ∀ n, s0 n = s0 0 := fun n => Except.ok.inj ((h0 n).symm.trans (h0 0))
  have key : ∀ j n, j ≤ n → σ n j = σ j j := by
    intro j
    induction j with
    | zero => intro n _; rw [hσ0, hσ0, hs0 n]
    | succ j ih =>
        intro n hn
        have a := hm n j (by rw [hl]; omega)
        have b := hm (j + 1) j (by rw [hl]; omega)
        rw [ih n (by omega)] at a
        rw [ih (j + 1) (by omega), a] at b
        exact (Prod.mk.inj (Except.ok.inj b)).1
  refine ⟨fun j => σ j j, fun j => o j j, by show fresh = .ok (σ 0 0); rw [h0 0, hσ0], fun n => ⟨?_, ?_⟩⟩
  · have a := hm n n (by rw [hl]; omega)
    have b := hm (n + 1) n (by rw [hl]; omega)
    rw [key n (n + 1) (by omega)] at b
    rw [a] at b ⊢
    have := Prod.mk.inj (Except.ok.inj b)
    rw [this.1]
  · have hpn : p n = n := by
      by_contra hne
      have h1 := hp n
      rw [hl] at h1
      exact hp2 n n (by omega) (by rw [hl]; omega) (Or.inl rfl)
    have := hp3 n
    rw [hpn] at this
    exact this

/-- **C164** (moves): in every training of `CP_ALS` that returns, with any rank and arguments, the reconstruction moves between two
history entries by no more than the residual falls, times the order. -/
theorem C164_moves (pinv : Tensor ℝ → Res (Tensor ℝ)) (hp : PinvOk pinv) (X : Tensor ℝ) (R : Nat) (A0 : List (Tensor ℝ))
    (hA : FactorsFor X.shape R A0) (h2 : 2 ≤ X.order) (h25 : X.order ≤ 25) (hpos : ∀ d ∈ X.shape, 0 < d) (Ar : Arith ℝ)
    (args : Args ℝ) (steps : Int) (self self' : Self (List (Tensor ℝ)) (Tensor ℝ) (Tensor ℝ)) (ev : List Int)
    (hist : List (ℝ × ℝ))
    (h : train Ar (CP_ALS.cls (cp.main pinv X R)) args steps (.ok A0) self = (self', ev, .ok hist)) :
    ∃ Y : Nat → Tensor ℝ, (∀ j p, hist[j]? = some p → EntryOf X (Y j) p) ∧
      (∃ p < hist.length, Reported args steps p ∧ (∀ q, p < q → q < hist.length → ¬ Reported args steps q) ∧
        self'.full = some (Y p)) ∧ SmallMoves X Y hist ∧
      ∀ j p, hist[j]? = some p → normSqT (Y j) = (1 - p.2 ^ 2) * normSqT X := by
  obtain ⟨s0, σ, o, h0, hσ, -, hh, -, -, hm, hfull⟩ := plain_run_full (c := CP_ALS.cls (cp.main pinv X R)) rfl rfl h
  cases h0
  have hok : ∀ j ≤ hist.length, FactorsFor X.shape R (σ j) := by
    intro j
    induction j with
    | zero => intro _; rw [hσ]; exact hA
    | succ j ih =>
        intro hj
        obtain ⟨lam, -, hf', -⟩ := cp.main_ok hp (ih (by omega)) h2 h25 hpos (hm j hj)
        exact hf'
  have hlt : ∀ {j p}, hist[j]? = some p → j < hist.length := fun hq => (List.getElem?_eq_some_iff.1 hq).1
  have hr : ∀ j p, hist[j]? = some p → p = ((o j).loss, (o j).rel) := fun j p hq =>
    Option.some.inj (hq.symm.trans (hh j (hlt hq)))
  have hsq : ∀ j p, hist[j]? = some p → p.2 ^ 2 * normSqT X = distSqT X (o j).full := by
    intro j p hq
    obtain ⟨lam, -, -, -, -, -, -, -, m6, -, m8, m9, -⟩ := cp.main_ok hp (hok j (hlt hq).le) h2 h25 hpos (hm j (hlt hq))
    rw [hr j p hq, m8, ← m6, div_pow, Real.sq_sqrt (distSqT_nonneg _ _), Real.sq_sqrt m9.le, div_mul_cancel₀ _ m9.ne']
  refine ⟨fun j => (o j).full, fun j p hq => ?_, hfull, fun j p q hq hq' => ?_, fun j p hq => ?_⟩
  · obtain ⟨lam, -, -, -, -, -, -, m7, -⟩ := cp.main_ok hp (hok j (hlt hq).le) h2 h25 hpos (hm j (hlt hq))
    rw [hr j p hq]
    exact scalars_entry m7 (cp_main_inv (hm j (hlt hq))).choose_spec.2.2.2
  · obtain ⟨lam, -, -, m3, -, -, m4, -⟩ := cp.main_ok hp (hok j (hlt hq).le) h2 h25 hpos (hm j (hlt hq))
    have := (cp.main_move hp (hok (j + 1) (hlt hq)) h2 h25 hpos (hm (j + 1) (hlt hq'))).2 lam _ m3 m4
    rw [sub_mul, hsq j p hq, hsq (j + 1) q hq']
    exact this
  · rw [sub_mul, one_mul, hsq j p hq]
    exact (cp.main_move hp (hok j (hlt hq).le) h2 h25 hpos (hm j (hlt hq))).1

/-- **C164** (rest): without stopping test the reconstructions stored by the trainings with 1, 2, 3, … steps come to rest, even if
factors and weights do not converge. -/
theorem C164_rest (pinv : Tensor ℝ → Res (Tensor ℝ)) (hp : PinvOk pinv) (X : Tensor ℝ) (R : Nat) (A0 : List (Tensor ℝ))
    (hA : FactorsFor X.shape R A0) (h2 : 2 ≤ X.order) (h25 : X.order ≤ 25) (hpos : ∀ d ∈ X.shape, 0 < d)
    (args : Args ℝ) (ht : args.tol ≤ 0) (self : Self (List (Tensor ℝ)) (Tensor ℝ) (Tensor ℝ))
    (self' : Nat → Self (List (Tensor ℝ)) (Tensor ℝ) (Tensor ℝ)) (ev : Nat → List Int) (hist : Nat → List (ℝ × ℝ))
    (h : ∀ n : Nat, train (exactArith ℝ) (CP_ALS.cls (cp.main pinv X R)) args ((n : Int) + 1) (.ok A0) self =
      (self' n, ev n, .ok (hist n))) :
    ∃ Y : Nat → Tensor ℝ, (∀ n, (self' n).full = some (Y n)) ∧ ComesToRest X Y := by
  have hl : ∀ n, (hist n).length = n + 1 := fun n => by
    have := all_steps (X := X) (fun _ _ _ hm => (cp_main_inv hm).choose_spec.2.2.2) ht (h n)
    omega
  obtain ⟨σ, o, h0, hm⟩ := endless_full rfl rfl h hl
  cases h0
  have hok : ∀ j, FactorsFor X.shape R (σ j) := by
    intro j
    induction j with
    | zero => exact hA
    | succ j ih =>
        obtain ⟨lam, -, hf', -⟩ := cp.main_ok hp ih h2 h25 hpos (hm j).1
        exact hf'
  have hmv : ∀ j, distSqT (o j).full (o (j + 1)).full ≤ X.order * (distSqT X (o j).full - distSqT X (o (j + 1)).full) := by
    intro j
    obtain ⟨lam, -, -, m3, -, -, m4, -⟩ := cp.main_ok hp (hok j) h2 h25 hpos (hm j).1
    exact (cp.main_move hp (hok (j + 1)) h2 h25 hpos (hm (j + 1)).1).2 lam _ m3 m4
  refine ⟨fun n => (o n).full, fun n => (hm n).2, comes_to_rest (fun n => ?_) (fun n => ?_) hmv (antitone_nat_of_succ_le fun n => ?_)⟩
  · obtain ⟨lam, -, -, -, -, -, -, m7, -⟩ := cp.main_ok hp (hok n) h2 h25 hpos (hm n).1
    exact m7
  · exact (cp.main_move hp (hok n) h2 h25 hpos (hm n).1).1
  · have h3 := (distSqT_nonneg (o n).full (o (n + 1)).full).trans (hmv n)
    have h4 : (0 : ℝ) < X.order := by exact_mod_cast (by omega : 0 < X.order)
    have := nonneg_of_mul_nonneg_right h3 h4
    linarith

/-- The hypotheses of C163 and C164 for `CP_ALS` are met, at every number of steps, by every positive tensor and all positive initial
factors with one component. -/
example (pinv : Tensor ℝ → Res (Tensor ℝ)) (hp : PinvOk pinv) (X : Tensor ℝ) (A0 : List (Tensor ℝ)) (hA : FactorsFor X.shape 1 A0)
    (hA0 : ∀ M ∈ A0, ∀ i < M.shape.getD 0 0, 0 < M.at_ [i, 0]) (h2 : 2 ≤ X.order)
    (h25 : X.order ≤ 25) (hpos : ∀ d ∈ X.shape, 0 < d) (hX : ∀ i, InB X.shape i → 0 < X.at_ i) :
    ∃ (self' : Nat → Self (List (Tensor ℝ)) (Tensor ℝ) (Tensor ℝ)) (ev : Nat → List Int) (hist : Nat → List (ℝ × ℝ)),
      ∀ n : Nat, train (exactArith ℝ) (CP_ALS.cls (cp.main pinv X 1)) { tol := 0 } ((n : Int) + 1) (.ok A0) {} =
        (self' n, ev n, .ok (hist n)) := by
  have h := fun n : Nat => C73_rank_one_positive pinv hp X A0 hA hA0 h2 h25 hpos hX (exactArith ℝ) { tol := 0 } (by decide)
    ((n : Int) + 1) (by omega) {}
  choose hist h using h
  exact ⟨fun n => (train (exactArith ℝ) (CP_ALS.cls (cp.main pinv X 1)) { tol := 0 } ((n : Int) + 1) (.ok A0) {}).1,
    fun n => (train (exactArith ℝ) (CP_ALS.cls (cp.main pinv X 1)) { tol := 0 } ((n : Int) + 1) (.ok A0) {}).2.1, hist,
    fun n => Prod.ext rfl (Prod.ext rfl (h n))⟩

end TD.Props
