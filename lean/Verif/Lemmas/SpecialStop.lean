import Verif.Props.SpecialLoss
import Verif.Props.SpecialBcu
import Verif.Props.SpecialCp

/-! # Lemmas for C138: what a reconstruction of numbers was made of -/
namespace TD.Props
open TD Spec Tensor fact sp Num
variable {F : Fmt}

/-- The step a training stopped at by its own criterion has an input and a reconstruction of numbers. -/
theorem stop_numbers {S G K : Type} {c : Cls S G K (Tensor (Num F)) (Num F)} {X : Tensor (Num F)} (hc : ReportsOf c X)
    {tol : Num F} {s0 : S} {n : Nat} {o : Nat → Out G K (Tensor (Num F)) (Num F)} {k : Nat → Option K} (hn : 1 ≤ n)
    (h2 : Run (loopArith F) c tol s0 n o k)
    (hs : Stop (loopArith F) c.update.isSome tol (fun i => (o i).obj) (fun i => (o i).rel) (n - 1)) :
    AllFinite X ∧ AllFinite (o (n - 1)).full := by
  have hrep := reports_run hc h2
  obtain ⟨e1, -, e3, e4⟩ := hrep (n - 1) (by omega)
  obtain ⟨r1, w1, a1, -, -, b1⟩ := C125_objective X _ e1
  rw [a1] at e3
  obtain ⟨r2, a2, -, b2, -⟩ := C125_residual_partial X _ e1
  have e4' := e4
  rw [a2] at e4
  have hshow : (∀ i, InB X.shape i → Reveals (X.at_ i) (o (n - 1)).obj ∧ Reveals ((o (n - 1)).full.at_ i) (o (n - 1)).obj) ∧
      (∀ i, InB X.shape i → Reveals (X.at_ i) (o (n - 1)).rel ∧ Reveals ((o (n - 1)).full.at_ i) (o (n - 1)).rel) := by
    rw [← Except.ok.inj e3, ← Except.ok.inj e4]; exact ⟨b1, b2⟩
  have key : (o (n - 1)).obj.Finite ∨ (o (n - 1)).rel.Finite := by
    rcases hs with h5 | ⟨-, -, -, h5⟩
    · right
      by_contra hn
      have hneg := notNeg_residual e1 e4'
      have := lt_of_infinite hneg hn tol
      change Num.lt _ _ = true at h5
      rw [this] at h5; cases h5
    · left
      by_contra hn'
      exact not_stalled (n := n) (fun j hj => notNeg_objective (hrep j hj).1 (hrep j hj).2.2.1) (by omega) hn' h5
  constructor
  · intro i hi
    by_contra hn
    rcases key with hk | hk
    · exact (hshow.1 i hi).1.1 hn hk
    · exact (hshow.2 i hi).1.1 hn hk
  · intro i hi
    rw [e1] at hi
    by_contra hn
    rcases key with hk | hk
    · exact (hshow.1 i hi).2.1 hn hk
    · exact (hshow.2 i hi).2.1 hn hk

/-- The numbers a step reports. -/
theorem scalars_fl_reports {X full : Tensor (Num F)} {l obj rel : Num F} (h : scalars X full = .ok (l, obj, rel)) :
    full.shape = X.shape ∧ sp.rmseIgnoreZero X full = .ok l ∧ sp.objective X full = .ok obj ∧ sp.relResidual X full = .ok rel := by
  unfold scalars at h
  obtain ⟨l', h1, h⟩ := bind_ok_of h
  obtain ⟨o', h2, h⟩ := bind_ok_of h
  obtain ⟨r', h3, h⟩ := bind_ok_of h
  cases h
  refine ⟨?_, h1, h2, h3⟩
  by_contra hne
  unfold sp.rmseIgnoreZero at h1
  rw [if_pos (Ne.symm hne)] at h1
  cases h1

theorem cp_reports (pinv : Tensor (Num F) → Res (Tensor (Num F))) (X : Tensor (Num F)) (R : Nat) : ReportsOf (CP.cls pinv X R) X := by
  intro s s' o h
  change CP.main pinv X R s = .ok (s', o) at h
  unfold CP.main at h
  obtain ⟨⟨A, lam⟩, -, h⟩ := bind_ok_of h
  obtain ⟨full, -, h⟩ := bind_ok_of h
  obtain ⟨⟨l, obj, rel⟩, h3, h⟩ := bind_ok_of h
  cases h
  exact scalars_fl_reports h3

theorem ncp_reports (topSv : Tensor (Num F) → Res (Num F)) (X : Tensor (Num F)) (R : Nat) : ReportsOf (NCP.cls topSv X R) X := by
  intro s s' o h
  change NCP.main topSv X s = .ok (s', o) at h
  unfold NCP.main at h
  obtain ⟨st, -, h⟩ := bind_ok_of h
  obtain ⟨full, -, h⟩ := bind_ok_of h
  obtain ⟨⟨l, obj, rel⟩, h3, h⟩ := bind_ok_of h
  cases h
  exact scalars_fl_reports h3

theorem ntucker_reports (topSv : Tensor (Num F) → Res (Num F)) (X : Tensor (Num F)) : ReportsOf (NTUCKER.cls topSv X) X := by
  intro s s' o h
  change NTUCKER.main topSv X s = .ok (s', o) at h
  unfold NTUCKER.main at h
  obtain ⟨st, -, h⟩ := bind_ok_of h
  obtain ⟨full, -, h⟩ := bind_ok_of h
  obtain ⟨⟨l, obj, rel⟩, h3, h⟩ := bind_ok_of h
  cases h
  exact scalars_fl_reports h3

/-- The first index with a given value in one mode. -/
theorem inB_corner {s : List Nat} (hpos : ∀ d ∈ s, 0 < d) {n v : Nat} (hv : v < s.getD n 0) :
    InB s ((List.replicate s.length 0).set n v) := by
  rw [InB_iff_getD]
  refine ⟨by simp, fun k hk => ?_⟩
  have hk0 : 0 < s.getD k 0 := by
    rw [List.getD_eq_getElem _ _ hk]; exact hpos _ (List.getElem_mem hk)
  by_cases e : n = k
  · subst e
    rw [List.getD_eq_getElem _ _ (by simpa using hk), List.getElem_set_self]
    exact hv
  · rw [List.getD_eq_getElem _ _ (by simpa using hk), List.getElem_set_ne e, List.getElem_replicate]
    exact hk0

theorem kruskal_numbers {A : List (Tensor (Num F))} {lam Y : Tensor (Num F)} {shape : List Nat} {R : Nat} (hA : FactorsFor shape R A)
    (hne : shape ≠ []) (h25 : shape.length ≤ 25) (hpos : ∀ d ∈ shape, 0 < d) (hl : lam.shape = [R, 1])
    (hY : KTensor.extract ⟨A, .float32, lam, .float32⟩ = .ok Y) (hf : AllFinite Y) :
    (∀ M ∈ A, AllFinite M) ∧ ∀ r < R, (lam.at_ [r, 0]).Finite := by
  have hlen : A.length = shape.length := hA.length
  have hrow : rowDims A = shape := hA.rowDims
  have hU : Factors A R := hA.factors hne h25
  obtain ⟨Y', e, hs, hrev⟩ := C124_kruskal_shows ⟨A, .float32, lam, .float32⟩ R hU hl rfl
  cases hY.symm.trans e
  rw [hrow] at hs hrev
  constructor
  · intro M hM i hi
    obtain ⟨n, hn⟩ := List.getElem?_of_mem hM
    rw [hA.get hn] at hi
    obtain ⟨a, r, rfl, ha, hr⟩ := InB_pair.1 hi
    have hidx := inB_corner hpos (n := n) ha
    by_contra hb
    refine ((hrev _ hidx r hr).2 n M hn).1 ?_ (hf _ (by rw [hs]; exact hidx))
    have hnl : n < shape.length := by rw [← hlen]; exact (List.getElem?_eq_some_iff.1 hn).1
    rwa [List.getD_eq_getElem _ _ (by simpa using hnl), List.getElem_set_self]
  · intro r hr
    have h0 : 0 < shape.getD 0 0 := by
      cases shape with
      | nil => exact absurd rfl hne
      | cons d l => exact hpos d (by simp)
    have hidx := inB_corner hpos (n := 0) h0
    by_contra hb
    exact ((hrev _ hidx r hr).1).1 hb (hf _ (by rw [hs]; exact hidx))

theorem tucker_numbers {A : List (Tensor (Num F))} {g Y : Tensor (Num F)} (hne : A ≠ []) (h13 : A.length ≤ 13) (hm : AllMat A)
    (hg : g.shape = colDims A) (hr : ∀ d ∈ rowDims A, 0 < d) (hc : ∀ d ∈ colDims A, 0 < d)
    (hY : TTensor.extract ⟨g, .float32, A, .float32⟩ = .ok Y) (hf : AllFinite Y) : (∀ M ∈ A, AllFinite M) ∧ AllFinite g := by
  obtain ⟨Y', e, hs, hrev⟩ := C124_tucker_shows ⟨g, .float32, A, .float32⟩ hne h13 hm hg rfl
  cases hY.symm.trans e
  simp only at hs hrev
  have hlr : (rowDims A).length = A.length := by unfold rowDims; simp
  have hlc : (colDims A).length = A.length := by unfold colDims; simp
  have hA0 : 0 < A.length := List.length_pos_of_ne_nil hne
  have first : ∀ {s : List Nat}, s.length = A.length → (∀ d ∈ s, 0 < d) → InB s ((List.replicate s.length 0).set 0 0) := by
    intro s hl hp
    refine inB_corner hp ?_
    rw [List.getD_eq_getElem _ _ (by omega)]
    exact hp _ (List.getElem_mem _)
  constructor
  · intro M hM i hi
    obtain ⟨n, hn⟩ := List.getElem?_of_mem hM
    have hnl : n < A.length := (List.getElem?_eq_some_iff.1 hn).1
    obtain ⟨a, b, hab⟩ := List.length_eq_two.1 (hm M hM)
    rw [hab] at hi
    obtain ⟨x, y, rfl, hx, hy⟩ := InB_pair.1 hi
    have hra : (rowDims A).getD n 0 = a := by
      unfold rowDims
      rw [List.getD_eq_getElem _ _ (by simpa using hnl), List.getElem_map, (List.getElem?_eq_some_iff.1 hn).2, hab]; rfl
    have hcb : (colDims A).getD n 0 = b := by
      unfold colDims
      rw [List.getD_eq_getElem _ _ (by simpa using hnl), List.getElem_map, (List.getElem?_eq_some_iff.1 hn).2, hab]; rfl
    have h1 := inB_corner hr (n := n) (v := x) (by rw [hra]; exact hx)
    have h2 := inB_corner hc (n := n) (v := y) (by rw [hcb]; exact hy)
    by_contra hb
    refine ((hrev _ _ h1 (by rw [hg]; exact h2)).2 n M hn).1 ?_ (hf _ (by rw [hs]; exact h1))
    rw [List.getD_eq_getElem _ _ (by simpa [hlr] using hnl), List.getElem_set_self, List.getD_eq_getElem _ _ (by simpa [hlc] using hnl),
      List.getElem_set_self]
    exact hb
  · intro j hj
    by_contra hb
    have h1 := first hlr hr
    exact ((hrev _ _ h1 hj).1).1 hb (hf _ (by rw [hs]; exact h1))

end TD.Props
