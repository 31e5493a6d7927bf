import Verif.Lemmas.Stages
import Verif.Props.Fixed
import Verif.Props.Progress

/-!
# C150 : how far a step of `CP_ALS` and `HOOI` is from a block-wise optimum
-/
namespace TD.Props
open TD Spec Tensor fact bcu

/-- What is seen at the last mode is the end of the sweep. -/
theorem atMode_last {τ : Type} {old new : List τ} {N : Nat} (ho : old.length = N) (hn : new.length = N) (h0 : 0 < N) (B : τ) :
    (atMode old new (N - 1)).set (N - 1) B = new.set (N - 1) B := by
  apply List.ext_getElem?
  intro k
  have hl : (atMode old new (N - 1)).length = N := by rw [atMode, List.length_append, List.length_take, List.length_drop]; omega
  by_cases hk : N - 1 = k
  · subst hk
    rw [List.getElem?_set_self (by omega), List.getElem?_set_self (by omega)]
  · rw [List.getElem?_set_ne hk, List.getElem?_set_ne hk, atMode]
    rcases Nat.lt_or_ge k (N - 1) with h | h
    · rw [List.getElem?_append_left (by rw [List.length_take]; omega), List.getElem?_take_of_lt h]
    · rw [List.getElem?_eq_none (by rw [List.length_append, List.length_take, List.length_drop]; omega),
        List.getElem?_eq_none (by omega)]

theorem atMode_zero {τ : Type} (old new : List τ) : atMode old new 0 = old := by simp [atMode]

/-- From the residuals to the squared errors. -/
theorem sq_of_residual {e x : ℝ} (he : 0 ≤ e) (hx : 0 < x) : (Real.sqrt e / Real.sqrt x) ^ 2 * x = e := by
  rw [div_pow, Real.sq_sqrt he, Real.sq_sqrt hx.le]
  field_simp

theorem cpErr_nonneg {X : Tensor ℝ} {R : Nat} {U : List (Tensor ℝ)} {w : Nat → ℝ} : 0 ≤ cpErr X R U w :=
  loss.boxSum_nonneg _ fun _ _ => sq_nonneg _

theorem tkErr_nonneg {X g : Tensor ℝ} {U : List (Tensor ℝ)} : 0 ≤ tkErr X g U := loss.boxSum_nonneg _ fun _ _ => sq_nonneg _

/-- **C150** for `CP_ALS`.  In a call of `train` that returns, let iterate 0 be the initial factors and iterate `j + 1` the factors fetched
by step `j`, with weights `lam (j + 1)`.  Then for every step:
* with the first `n` factors of the new iterate and the others of the old one, no matrix for mode `n`, with whatever weights, has a smaller
  error than the step reached;
* so no other last factor would lower the error of an iterate at all;
* and no other first factor would lower the squared error of an iterate by more than the next step did: the histories show by how much. -/
theorem C150_cp (pinv : Tensor ℝ → Res (Tensor ℝ)) (hp : PinvOk pinv) (X : Tensor ℝ) (R : Nat)
    (A0 : List (Tensor ℝ)) (hA : FactorsFor X.shape R A0) (h2 : 2 ≤ X.order) (h25 : X.order ≤ 25)
    (hpos : ∀ d ∈ X.shape, 0 < d) (Ar : Arith ℝ) (args : Args ℝ) (steps : Int)
    (self self' : Self (List (Tensor ℝ)) (Tensor ℝ) (Tensor ℝ)) (ev : List Int) (hist : List (ℝ × ℝ))
    (h : train Ar (CP_ALS.cls (cp.main pinv X R)) args steps (.ok A0) self = (self', ev, .ok hist)) :
    ∃ (F : Nat → List (Tensor ℝ)) (lam : Nat → Tensor ℝ), F 0 = A0 ∧
      self'.factors = some (F hist.length) ∧ self'.aux = some (lam hist.length) ∧
      ∀ j < hist.length,
        (∃ o, cp.main pinv X R (F j) = .ok (F (j + 1), o) ∧ o.factors = F (j + 1) ∧ o.aux = some (lam (j + 1))) ∧
        hist[j]?.map Prod.snd = some (Real.sqrt (cpErr X R (F (j + 1)) fun r => (lam (j + 1)).at_ [r]) /
          Real.sqrt (normSqT X)) ∧
        (∀ n < X.order, ∀ B : Tensor ℝ, B.shape = [X.shape.getD n 0, R] → ∀ w,
          cpErr X R (F (j + 1)) (fun r => (lam (j + 1)).at_ [r]) ≤ cpErr X R (((F (j + 1)).take n ++ (F j).drop n).set n B) w) ∧
        (∀ B : Tensor ℝ, B.shape = [X.shape.getD (X.order - 1) 0, R] → ∀ w,
          cpErr X R (F (j + 1)) (fun r => (lam (j + 1)).at_ [r]) ≤ cpErr X R ((F (j + 1)).set (X.order - 1) B) w) ∧
        ∀ r r', hist[j]?.map Prod.snd = some r → hist[j + 1]?.map Prod.snd = some r' →
          ∀ B : Tensor ℝ, B.shape = [X.shape.getD 0 0, R] → ∀ w,
            cpErr X R (F (j + 1)) (fun r => (lam (j + 1)).at_ [r]) - cpErr X R ((F (j + 1)).set 0 B) w ≤
              (r ^ 2 - r' ^ 2) * normSqT X := by
  obtain ⟨F, lam, f0, f1, f2, f3⟩ := C95_cp_fixed pinv hp X R A0 hA h2 h25 hpos Ar args steps self self' ev hist h
  have hok : ∀ j ≤ hist.length, FactorsFor X.shape R (F j) := by
    intro j
    induction j with
    | zero => intro _; rw [f0]; exact hA
    | succ j ih =>
        intro hj
        obtain ⟨⟨o, ho, -⟩, -⟩ := f3 j hj
        obtain ⟨lam, -, hf', -⟩ := cp.main_ok hp (ih (by omega)) h2 h25 hpos ho
        exact hf'
  have hst : ∀ j < hist.length, ∀ n < X.order, ∀ B : Tensor ℝ, B.shape = [X.shape.getD n 0, R] → ∀ w,
      cpErr X R (F (j + 1)) (fun r => (lam (j + 1)).at_ [r]) ≤ cpErr X R ((atMode (F j) (F (j + 1)) n).set n B) w := by
    intro j hj n hn B hB w
    obtain ⟨⟨o, ho, -, hl⟩, -⟩ := f3 j hj
    obtain ⟨l, l1, l2⟩ := cp.main_stages hp (hok j hj.le) h2 h25 hpos ho
    rw [hl, Option.some.injEq] at l1
    rw [← l1] at l2
    exact l2 n hn B hB w
  refine ⟨F, lam, f0, f1, f2, fun j hj => ⟨(f3 j hj).1, (f3 j hj).2.1, hst j hj, fun B hB w => ?_, fun r r' hr hr' B hB w => ?_⟩⟩
  · have := hst j hj (X.order - 1) (by omega) B hB w
    rwa [atMode_last (N := X.order) (hok j hj.le).length (hok (j + 1) hj).length (by omega)] at this
  · have hj' : j + 1 < hist.length := by
      by_contra hc
      rw [List.getElem?_eq_none (by omega)] at hr'
      cases hr'
    have hx : 0 < normSqT X := by
      obtain ⟨⟨o, ho, -⟩, -⟩ := f3 j hj
      obtain ⟨-, -, -, -, -, -, -, -, -, -, -, hx, -⟩ := cp.main_ok hp (hok j hj.le) h2 h25 hpos ho
      exact hx
    rw [(f3 j hj).2.1, Option.some.injEq] at hr
    rw [(f3 (j + 1) hj').2.1, Option.some.injEq] at hr'
    rw [← hr, ← hr', sub_mul, sq_of_residual cpErr_nonneg hx, sq_of_residual cpErr_nonneg hx]
    have := hst (j + 1) hj' 0 (by omega) B hB w
    rw [atMode_zero] at this
    linarith

/-- **C150** for `HOOI`, with the core in place of the weights. -/
theorem C150_hooi (svd : Tensor ℝ → Res (Tensor ℝ × Tensor ℝ × Tensor ℝ)) (hs : SvdOk svd) (X : Tensor ℝ)
    (ranks : List Nat) (h2 : 2 ≤ X.order) (h13 : X.order ≤ 13) (hpos : ∀ d ∈ X.shape, 0 < d)
    (hlen : ranks.length = X.order) (Ar : Arith ℝ) (args : Args ℝ) (steps : Int)
    (self self' : Self (List (Tensor ℝ)) (Tensor ℝ) (Tensor ℝ)) (ev : List Int) (hist : List (ℝ × ℝ))
    (h : train Ar (HOOI.cls (tucker.HOOI.main svd X ranks)) args steps (tucker.HOOI.init svd X ranks) self =
      (self', ev, .ok hist)) :
    ∃ (F : Nat → List (Tensor ℝ)) (G : Nat → Tensor ℝ), tucker.HOOI.init svd X ranks = .ok (F 0) ∧
      self'.factors = some (F hist.length) ∧ self'.aux = some (G hist.length) ∧
      ∀ j < hist.length,
        (∃ o, tucker.HOOI.main svd X ranks (F j) = .ok (F (j + 1), o) ∧ o.factors = F (j + 1) ∧ o.aux = some (G (j + 1))) ∧
        hist[j]?.map Prod.snd = some (Real.sqrt (tkErr X (G (j + 1)) (F (j + 1))) / Real.sqrt (normSqT X)) ∧
        (∀ n < X.order, ∀ B g : Tensor ℝ, B.shape = [X.shape.getD n 0, ranks.getD n 0] → g.shape = ranks →
          tkErr X (G (j + 1)) (F (j + 1)) ≤ tkErr X g (((F (j + 1)).take n ++ (F j).drop n).set n B)) ∧
        (∀ B g : Tensor ℝ, B.shape = [X.shape.getD (X.order - 1) 0, ranks.getD (X.order - 1) 0] → g.shape = ranks →
          tkErr X (G (j + 1)) (F (j + 1)) ≤ tkErr X g ((F (j + 1)).set (X.order - 1) B)) ∧
        ∀ r r', hist[j]?.map Prod.snd = some r → hist[j + 1]?.map Prod.snd = some r' →
          ∀ B g : Tensor ℝ, B.shape = [X.shape.getD 0 0, ranks.getD 0 0] → g.shape = ranks →
            tkErr X (G (j + 1)) (F (j + 1)) - tkErr X g ((F (j + 1)).set 0 B) ≤ (r ^ 2 - r' ^ 2) * normSqT X := by
  obtain ⟨F, G, f0, f1, f2, f3⟩ := C95_hooi_fixed svd hs X ranks h2 h13 hpos hlen Ar args steps self self' ev hist h
  obtain ⟨i1, i2, -⟩ := hooi_init hs hpos hlen.ge f0
  have hok : ∀ j ≤ hist.length, TuckerShapes X.shape ranks (F j) ∧
      ∀ k M, (F j)[k]? = some M → OrthoCols M (X.shape.getD k 0) (ranks.getD k 0) := by
    intro j
    induction j with
    | zero => intro _; exact ⟨i1, i2⟩
    | succ j ih =>
        intro hj
        obtain ⟨⟨o, ho, -⟩, -⟩ := f3 j hj
        obtain ⟨g, hf', ho', -⟩ := hooi_main hs h2 h13 hpos hlen.ge (ih (by omega)).1 ho
        exact ⟨hf', ho'⟩
  have hst : ∀ j < hist.length, ∀ n < X.order, ∀ B g : Tensor ℝ, B.shape = [X.shape.getD n 0, ranks.getD n 0] → g.shape = ranks →
      tkErr X (G (j + 1)) (F (j + 1)) ≤ tkErr X g ((atMode (F j) (F (j + 1)) n).set n B) := by
    intro j hj n hn B g hB hg
    obtain ⟨⟨o, ho, -, hl⟩, -⟩ := f3 j hj
    obtain ⟨l, l1, -, l2⟩ := hooi_stages hs h2 h13 hpos hlen (hok j hj.le).1 (hok j hj.le).2 ho
    rw [hl, Option.some.injEq] at l1
    rw [← l1] at l2
    exact l2 n hn B g hB hg
  refine ⟨F, G, f0, f1, f2, fun j hj => ⟨(f3 j hj).1, (f3 j hj).2.1, hst j hj, fun B g hB hg => ?_, fun r r' hr hr' B g hB hg => ?_⟩⟩
  · have := hst j hj (X.order - 1) (by omega) B g hB hg
    rwa [atMode_last (N := X.order) (hok j hj.le).1.1 (hok (j + 1) hj).1.1 (by omega)] at this
  · have hj' : j + 1 < hist.length := by
      by_contra hc
      rw [List.getElem?_eq_none (by omega)] at hr'
      cases hr'
    have hx : 0 < normSqT X := by
      obtain ⟨⟨o, ho, -⟩, -⟩ := f3 j hj
      obtain ⟨-, -, -, -, -, -, -, -, -, -, -, -, hx, -⟩ := hooi_main hs h2 h13 hpos hlen.ge (hok j hj.le).1 ho
      exact hx
    rw [(f3 j hj).2.1, Option.some.injEq] at hr
    rw [(f3 (j + 1) hj').2.1, Option.some.injEq] at hr'
    rw [← hr, ← hr', sub_mul, sq_of_residual tkErr_nonneg hx, sq_of_residual tkErr_nonneg hx]
    have := hst (j + 1) hj' 0 (by omega) B g hB hg
    rw [atMode_zero] at this
    linarith

/-- The trainings of C150 return: `HOOI` for every nonzero tensor with admissible ranks (for `CP_ALS` see the example of C102). -/
example (svd : Tensor ℝ → Res (Tensor ℝ × Tensor ℝ × Tensor ℝ)) (hs : SvdOk svd) (X : Tensor ℝ) (ranks : List Nat) (h2 : 2 ≤ X.order)
    (h13 : X.order ≤ 13) (hpos : ∀ d ∈ X.shape, 0 < d) (hX : ∃ i, InB X.shape i ∧ X.at_ i ≠ 0) (hlen : ranks.length = X.order)
    (hr : Admissible X.shape ranks) :
    ∃ hist, (train (exactArith ℝ) (HOOI.cls (tucker.HOOI.main svd X ranks)) { tol := 0 } 7 (tucker.HOOI.init svd X ranks) {}).2.2 = .ok hist :=
  (C74_hooi_admissible svd hs X ranks h2 h13 hpos hX hlen.ge (exactArith ℝ) { tol := 0 } (by decide) 7 (by omega) {}).2 hr

end TD.Props
