import Verif.Lemmas.SpecialBcu
import Verif.Lemmas.Float32
import Verif.Spec.SpecialBcu
import Verif.Props.NTucker

/-!
# C136: the nonnegative trainings in rounded arithmetic with overflow, infinities and NaN
-/
namespace TD.Props
open TD Spec Tensor fact sp
variable {F : Fmt}

theorem notNegative_of {t : Tensor (Num F)} (h : AllQ NN t) : NotNegative t := fun _ _ => h.getD nn_zero _

theorem ncp_reach_fl {topSv : Tensor (Num F) → Res (Num F)} {X : Tensor (Num F)} {R : Nat} (h2 : 2 ≤ X.order) (h25 : X.order ≤ 25)
    (hpos : ∀ d ∈ X.shape, 0 < d) {s : State F} (h : Reach (NCP.cls topSv X R) (FreshNcp X R) s) :
    StOk (X.shape.map fun d => [d, R]) s := by
  induction h with
  | fresh hi =>
      obtain ⟨draws, hd, rfl⟩ := hi
      have := sp.init_ok X X.order draws
      rw [show draws.map Tensor.shape = X.shape.map fun d => [d, R] from hd] at this
      exact this
  | core _ hc _ => cases hc
  | main _ hm ih =>
      obtain ⟨s', o, e, a, -⟩ := NCP.main_ok (tot_total topSv) h2 h25 hpos ih
      have := (NCP.main_mono hm).symm.trans e
      cases this
      exact a
  | op1 _ hu hf ih =>
      cases hu
      obtain ⟨s', e, a⟩ := NCP.op1_ok ih (N := X.order) (by simp [Tensor.order])
      cases hf.symm.trans e
      exact a
  | op2 _ hu hf ih =>
      cases hu
      obtain ⟨s', e, a⟩ := NCP.op2_ok ih
      cases hf.symm.trans e
      exact a

/-- **C136** for `NCP_BCU`: after any history of `train` calls on one object, with any random draws, no entry of the exposed factors,
of the exposed full tensor or of the exposed weights compares less than zero, whatever was rounded, overflowed or became NaN on the
way.  Nothing is assumed about the entries of `X`, the singular value routine (which may raise) or the stopping test. -/
theorem C136_ncp_nonneg (F : Fmt) (topSv : Tensor (Num F) → Res (Num F)) (X : Tensor (Num F)) (R : Nat) (h2 : 2 ≤ X.order)
    (h25 : X.order ≤ 25) (hpos : ∀ d ∈ X.shape, 0 < d) (Ar : fact.Arith (Num F)) (calls : List (Call (State F) (Num F)))
    (hc : ∀ c ∈ calls, ∀ s, c.fresh = .ok s → FreshNcp X R s) :
    (∀ f, (history Ar (NCP.cls topSv X R) calls).1.factors = some f → FactorsFor X.shape R f ∧ ∀ M ∈ f, NotNegative M) ∧
    (∀ x, (history Ar (NCP.cls topSv X R) calls).1.full = some x → x.shape = X.shape ∧ NotNegative x) ∧
    (∀ w, (history Ar (NCP.cls topSv X R) calls).1.aux = some w → NotNegative w) := by
  have h := history_exposes (Ar := Ar) (c := NCP.cls topSv X R) (init := FreshNcp X R) hc
  have hmain : ∀ {s s' o}, Reach (NCP.cls topSv X R) (FreshNcp X R) s → (NCP.cls topSv X R).main s = .ok (s', o) →
      FactorsFor X.shape R o.factors ∧ (∀ M ∈ o.factors, AllQ NN M) ∧ o.aux = none ∧ o.full.shape = X.shape ∧ AllQ NN o.full := by
    intro s s' o hr hm
    obtain ⟨s1, o1, e, -, a⟩ := NCP.main_ok (tot_total topSv) h2 h25 hpos (ncp_reach_fl h2 h25 hpos hr)
    cases (NCP.main_mono hm).symm.trans e
    exact a
  refine ⟨fun f hf => ?_, fun x hx => ?_, fun w hw => ?_⟩
  · obtain ⟨s, s', o, hr, hm, rfl⟩ := h.factors f hf
    obtain ⟨a, b, -⟩ := hmain hr hm
    exact ⟨a, fun M hM => notNegative_of (b M hM)⟩
  · obtain ⟨s, s', o, hr, hm, rfl⟩ := h.full x hx
    obtain ⟨-, -, -, a, b⟩ := hmain hr hm
    exact ⟨a, notNegative_of b⟩
  · rcases h.aux w hw with h | ⟨s, s', o, hr, hm, e⟩ | ⟨s, s', f, hr, hc, -⟩
    · cases h
      exact notNegative_of (allQ_ofFn _ fun _ => nn_one)
    · rw [(hmain hr hm).2.2.1] at e; cases e
    · cases hc

/-- **C136** for `NCP_BCU`: no rounding, overflow, division by zero or NaN makes `train` raise; with a singular value routine that
returns some value for every matrix, and at least one step, the call returns a history and the object exposes factors. -/
theorem C136_ncp_completes (F : Fmt) (topSv : Tensor (Num F) → Res (Num F)) (ht : ∀ M, ∃ l, topSv M = .ok l) (X : Tensor (Num F))
    (R : Nat) (h2 : 2 ≤ X.order) (h25 : X.order ≤ 25) (hpos : ∀ d ∈ X.shape, 0 < d) (Ar : fact.Arith (Num F))
    (args : Args (Num F)) (hv : args.validationInternal ≠ 0 ∨ args.verbose = true) (steps : Int) (h1 : 1 ≤ steps) (s : State F)
    (hs : FreshNcp X R s) (self : Self (List (Tensor (Num F))) (Tensor (Num F)) (Tensor (Num F))) :
    ∃ self' ev hist, train Ar (NCP.cls topSv X R) args steps (.ok s) self = (self', ev, .ok hist) ∧
      self'.factors.isSome ∧ self'.full.isSome := by
  obtain ⟨draws, hd, rfl⟩ := hs
  have hi := sp.init_ok X X.order draws
  rw [show draws.map Tensor.shape = X.shape.map fun d => [d, R] from hd] at hi
  have hsafe : Safe (NCP.cls topSv X R) (StOk (X.shape.map fun d => [d, R])) := by
    refine ⟨fun s hs => ?_, fun f hf => (by cases hf), fun p hp s hs => ?_⟩
    · obtain ⟨s', o, e, a, -⟩ := NCP.main_ok ht h2 h25 hpos hs
      exact ⟨s', o, e, a⟩
    · cases hp
      exact ⟨NCP.op1_ok hs (N := X.order) (by simp [Tensor.order]), NCP.op2_ok hs⟩
  obtain ⟨hist, e⟩ := train_safe (A := Ar) hsafe hi (hv.imp_right Or.inl) h1 self
  generalize hr : train Ar (NCP.cls topSv X R) args steps (.ok (sp.init X X.order draws)) self = r at e
  obtain ⟨self', ev, h⟩ := r
  simp only at e
  subst e
  refine ⟨self', ev, hist, rfl, ?_⟩
  obtain ⟨_, _, _, _, -, -, -, -, -, -, -, ⟨_, -, -, -, hx⟩, hf, -⟩ := train_ok hr
  exact ⟨by rw [hf]; rfl, by rw [hx]; rfl⟩

theorem ntucker_reach_fl {topSv : Tensor (Num F) → Res (Num F)} {X : Tensor (Num F)} {ranks : List Nat}
    (hr : ranks.length = X.shape.length) (h2 : 2 ≤ X.order) (h13 : X.order ≤ 13) (hpos : ∀ d ∈ X.shape, 0 < d)
    (hrp : ∀ d ∈ ranks, 0 < d) {s : TState F} (h : Reach (NTUCKER.cls topSv X) (FreshNtucker X ranks) s) :
    TStOk X.shape ranks s := by
  induction h with
  | fresh hi =>
      obtain ⟨draws, gdraw, hd, hg, rfl⟩ := hi
      exact NTUCKER.init_ok X hd hg
  | core _ hc hf ih =>
      cases hc
      obtain ⟨s', k, e, a, -⟩ := NTUCKER.core_ok (tot_total topSv) hr (by omega) h13 ih
      cases (NTUCKER.core_mono hf).symm.trans e
      exact a
  | main _ hm ih =>
      obtain ⟨s', o, e, a, -⟩ := NTUCKER.main_ok (tot_total topSv) hr h2 h13 hpos hrp ih
      cases (NTUCKER.main_mono hm).symm.trans e
      exact a
  | op1 _ hu hf ih =>
      cases hu
      obtain ⟨s', e, a⟩ := NTUCKER.op1_ok ih
      cases hf.symm.trans e
      exact a
  | op2 _ hu hf ih =>
      cases hu
      obtain ⟨s', e, a⟩ := NTUCKER.op2_ok ih
      cases hf.symm.trans e
      exact a

/-- **C136** for `NTUCKER_BCU`: after any history of `train` calls on one object, with any random draws, no entry of the exposed
factors, of the exposed core or of the exposed full tensor compares less than zero. -/
theorem C136_ntucker_nonneg (F : Fmt) (topSv : Tensor (Num F) → Res (Num F)) (X : Tensor (Num F)) (ranks : List Nat)
    (hr : ranks.length = X.shape.length) (h2 : 2 ≤ X.order) (h13 : X.order ≤ 13) (hpos : ∀ d ∈ X.shape, 0 < d)
    (hrp : ∀ d ∈ ranks, 0 < d) (Ar : fact.Arith (Num F)) (calls : List (Call (TState F) (Num F)))
    (hc : ∀ c ∈ calls, ∀ s, c.fresh = .ok s → FreshNtucker X ranks s) :
    (∀ f, (history Ar (NTUCKER.cls topSv X) calls).1.factors = some f →
      f.map Tensor.shape = tuckerShapes X.shape ranks ∧ ∀ M ∈ f, NotNegative M) ∧
    (∀ x, (history Ar (NTUCKER.cls topSv X) calls).1.full = some x → x.shape = X.shape ∧ NotNegative x) ∧
    (∀ g, (history Ar (NTUCKER.cls topSv X) calls).1.aux = some g → g.shape = ranks ∧ NotNegative g) := by
  have h := history_exposes (Ar := Ar) (c := NTUCKER.cls topSv X) (init := FreshNtucker X ranks) hc
  have hmain : ∀ {s s' o}, Reach (NTUCKER.cls topSv X) (FreshNtucker X ranks) s → (NTUCKER.cls topSv X).main s = .ok (s', o) →
      o.factors.map Tensor.shape = tuckerShapes X.shape ranks ∧ (∀ M ∈ o.factors, AllQ NN M) ∧ o.aux = none ∧
        o.full.shape = X.shape ∧ AllQ NN o.full := by
    intro s s' o hs hm
    obtain ⟨s1, o1, e, -, a⟩ := NTUCKER.main_ok (tot_total topSv) hr h2 h13 hpos hrp (ntucker_reach_fl hr h2 h13 hpos hrp hs)
    cases (NTUCKER.main_mono hm).symm.trans e
    exact a
  refine ⟨fun f hf => ?_, fun x hx => ?_, fun g hg => ?_⟩
  · obtain ⟨s, s', o, hs, hm, rfl⟩ := h.factors f hf
    obtain ⟨a, b, -⟩ := hmain hs hm
    exact ⟨a, fun M hM => notNegative_of (b M hM)⟩
  · obtain ⟨s, s', o, hs, hm, rfl⟩ := h.full x hx
    obtain ⟨-, -, -, a, b⟩ := hmain hs hm
    exact ⟨a, notNegative_of b⟩
  · rcases h.aux g hg with h | ⟨s, s', o, hs, hm, e⟩ | ⟨s, s', f, hs, hc, hf⟩
    · cases h
    · rw [(hmain hs hm).2.2.1] at e; cases e
    · cases hc
      obtain ⟨s1, k, e, -, a, b⟩ := NTUCKER.core_ok (tot_total topSv) hr (by omega) h13 (ntucker_reach_fl hr h2 h13 hpos hrp hs)
      cases (NTUCKER.core_mono hf).symm.trans e
      exact ⟨a, notNegative_of b⟩

/-- **C136** for `NTUCKER_BCU`: no rounding, overflow, division by zero or NaN makes `train` raise. -/
theorem C136_ntucker_completes (F : Fmt) (topSv : Tensor (Num F) → Res (Num F)) (ht : ∀ M, ∃ l, topSv M = .ok l)
    (X : Tensor (Num F)) (ranks : List Nat) (hr : ranks.length = X.shape.length) (h2 : 2 ≤ X.order) (h13 : X.order ≤ 13)
    (hpos : ∀ d ∈ X.shape, 0 < d) (hrp : ∀ d ∈ ranks, 0 < d) (Ar : fact.Arith (Num F)) (args : Args (Num F))
    (hv : args.validationInternal ≠ 0 ∨ args.verbose = true) (steps : Int) (h1 : 1 ≤ steps) (s : TState F)
    (hs : FreshNtucker X ranks s) (self : Self (List (Tensor (Num F))) (Tensor (Num F)) (Tensor (Num F))) :
    ∃ self' ev hist, train Ar (NTUCKER.cls topSv X) args steps (.ok s) self = (self', ev, .ok hist) ∧
      self'.factors.isSome ∧ self'.full.isSome := by
  obtain ⟨draws, gdraw, hd, hg, rfl⟩ := hs
  have hi := NTUCKER.init_ok X hd hg
  have hsafe : Safe (NTUCKER.cls topSv X) (TStOk X.shape ranks) := by
    refine ⟨fun s hs => ?_, fun f hf s hs => ?_, fun p hp s hs => ?_⟩
    · obtain ⟨s', o, e, a, -⟩ := NTUCKER.main_ok ht hr h2 h13 hpos hrp hs
      exact ⟨s', o, e, a⟩
    · cases hf
      obtain ⟨s', k, e, a, -⟩ := NTUCKER.core_ok ht hr (by omega) h13 hs
      exact ⟨s', k, e, a⟩
    · cases hp
      exact ⟨NTUCKER.op1_ok hs, NTUCKER.op2_ok hs⟩
  obtain ⟨hist, e⟩ := train_safe (A := Ar) hsafe hi (hv.imp_right Or.inl) h1 self
  generalize hr : train Ar (NTUCKER.cls topSv X) args steps (.ok (NTUCKER.init X draws gdraw)) self = r at e
  obtain ⟨self', ev, h⟩ := r
  simp only at e
  subst e
  refine ⟨self', ev, hist, rfl, ?_⟩
  obtain ⟨_, _, _, _, -, -, -, -, -, -, -, ⟨_, -, -, -, hx⟩, hf, -⟩ := train_ok hr
  exact ⟨by rw [hf]; rfl, by rw [hx]; rfl⟩

/-- The hypotheses are met, and training returns, for instance here: float32, and a tensor that holds a NaN and an infinity. -/
example : ∃ (X : Tensor (Num f32)) (s : State f32) (t : TState f32), X.at_ [0, 0] = .nan ∧ X.at_ [1, 1] = .inf true ∧
    FreshNcp X 2 s ∧ FreshNtucker X [1, 2] t ∧
    (∃ self' ev hist, train (Num.loopArith f32) (NCP.cls (fun _ => .ok 1) X 2) { tol := 0 } 7 (.ok s) {} = (self', ev, .ok hist) ∧
      self'.factors.isSome ∧ self'.full.isSome) ∧
    ∃ self' ev hist, train (Num.loopArith f32) (NTUCKER.cls (fun _ => .ok 1) X) { tol := 0 } 7 (.ok t) {} = (self', ev, .ok hist) ∧
      self'.factors.isSome ∧ self'.full.isSome := by
  have hs1 : FreshNcp (⟨[2, 2], [.nan, 1, 0, .inf true], rfl⟩ : Tensor (Num f32)) 2 _ :=
    ⟨[ofFn [2, 2] fun _ => 1, ofFn [2, 2] fun _ => 1], rfl, rfl⟩
  have hs2 : FreshNtucker (⟨[2, 2], [.nan, 1, 0, .inf true], rfl⟩ : Tensor (Num f32)) [1, 2] _ :=
    ⟨[ofFn [2, 1] fun _ => 1, ofFn [2, 2] fun _ => 1], ofFn [1, 2] fun _ => 1, rfl, rfl, rfl⟩
  refine ⟨⟨[2, 2], [.nan, 1, 0, .inf true], rfl⟩, _, _, rfl, rfl, hs1, hs2, ?_, ?_⟩
  · exact C136_ncp_completes f32 _ (fun _ => ⟨1, rfl⟩) _ 2 (le_refl 2) (by show 2 ≤ 25; omega) (by simp) _ _
      (Or.inl (by decide)) 7 (by decide) _ hs1 _
  · exact C136_ntucker_completes f32 _ (fun _ => ⟨1, rfl⟩) _ [1, 2] rfl (le_refl 2) (by show 2 ≤ 13; omega) (by simp) (by simp) _ _
      (Or.inl (by decide)) 7 (by decide) _ hs2 _

end TD.Props
