import Verif.Lemmas.LimitSv
import Verif.Lemmas.Float32
import Verif.Props.Ncp
import Verif.Props.Cp
import Verif.Props.NTucker
import Verif.Props.Tolerance
import Verif.Lemmas.LimitPinv

/-!
# C140 : with increasing precision the trainings tend to the exact ones

`F 0, F 1, …` are formats with better and better precision and range (`Refining`).  The data, the initial factors or draws
and the tolerance are rounded to the format, all operations are rounded, with overflow, infinities and NaN.  If the training
in exact arithmetic returns and none of its comparisons is a tie, then from some format on the rounded training returns, makes
the same number of steps and the same events, and all its attributes and reported numbers tend to the exact ones.
-/
namespace TD.Props
open TD Spec Tensor fact sp Num Filter Topology Lim

/-- **C140** for `NCP_BCU`. -/
theorem C140_ncp (F : ℕ → Fmt) (hF : Refining F) (topSvs : ∀ j, Tensor (Num (F j)) → Res (Num (F j))) (topSv : Tensor ℝ → Res ℝ)
    (ht : SvTends topSvs topSv) (X : Tensor ℝ) (R : Nat) (draws : List (Tensor ℝ)) (args : Args ℝ) (steps : Int)
    (self : ∀ j, Self (List (Tensor (Num (F j)))) (Tensor (Num (F j))) (Tensor (Num (F j))))
    (self0 self0' : Self (List (Tensor ℝ)) (Tensor ℝ) (Tensor ℝ)) (hs : TendsSelf self self0) (ev : List Int) (hist : List (ℝ × ℝ))
    (h : train (exactArith ℝ) (bcu.NCP.cls topSv X R) args steps (bcu.init X X.order draws) self0 = (self0', ev, .ok hist))
    (hn : NoTies (exactArith ℝ) true X args.tol hist) :
    ∃ self' hist', (∀ᶠ j in atTop, train (loopArith (F j)) (NCP.cls (topSvs j) (rounded (F j) X) R) (roundedArgs (F j) args) steps
        (.ok (sp.init (rounded (F j) X) X.order (draws.map (rounded (F j))))) (self j) = (self' j, ev, .ok (hist' j))) ∧
      TendsSelf self' self0' ∧ TendsHist hist' hist := by
  have hX := rounded_tends hF X
  refine train_tends (PS := St) (X0 := X) hF (c := fun j => NCP.cls (topSvs j) (rounded (F j) X) R)
    (c0 := bcu.NCP.cls topSv X R) ⟨fun a b hab => ncp_main hF ht hX (rounded_zeros X) hab, fun _ => rfl,
    ⟨fun j => (NCP.op1 (rounded (F j) X).order, NCP.op2), fun _ => rfl, fun a b hab => ⟨?_, ncp_op2 hab⟩⟩, fun _ => rfl,
    ⟨fun j => ofFn [1, R] fun _ => (1 : Num (F j)), fun _ => rfl, ?_⟩, fun _ _ _ hm => (bcu.NCP.main_inv hm).choose_spec.2.2.2.2.2⟩
    (fun b hb => ⟨_, Eventually.of_forall fun _ => rfl, Lim.init hF hX (roundedL_tends hF draws) hb⟩) hs h hn
  · exact ncp_op1 hF hab X.order
  · exact tendsT_ofFn _ fun _ _ => tends_one

/-- **C140** for `NTUCKER_BCU`. -/
theorem C140_ntucker (F : ℕ → Fmt) (hF : Refining F) (topSvs : ∀ j, Tensor (Num (F j)) → Res (Num (F j))) (topSv : Tensor ℝ → Res ℝ)
    (ht : SvTends topSvs topSv) (X : Tensor ℝ) (draws : List (Tensor ℝ)) (gdraw : Tensor ℝ) (args : Args ℝ) (steps : Int)
    (self : ∀ j, Self (List (Tensor (Num (F j)))) (Tensor (Num (F j))) (Tensor (Num (F j))))
    (self0 self0' : Self (List (Tensor ℝ)) (Tensor ℝ) (Tensor ℝ)) (hs : TendsSelf self self0) (ev : List Int) (hist : List (ℝ × ℝ))
    (h : train (exactArith ℝ) (bcu.NTUCKER.cls topSv X) args steps (bcu.NTUCKER.init X draws gdraw) self0 = (self0', ev, .ok hist))
    (hn : NoTies (exactArith ℝ) true X args.tol hist) :
    ∃ self' hist', (∀ᶠ j in atTop, train (loopArith (F j)) (NTUCKER.cls (topSvs j) (rounded (F j) X)) (roundedArgs (F j) args) steps
        (.ok (NTUCKER.init (rounded (F j) X) (draws.map (rounded (F j))) (rounded (F j) gdraw))) (self j) =
          (self' j, ev, .ok (hist' j))) ∧
      TendsSelf self' self0' ∧ TendsHist hist' hist := by
  have hX := rounded_tends hF X
  refine train_tends (PS := Tt) (X0 := X) hF (c := fun j => NTUCKER.cls (topSvs j) (rounded (F j) X))
    (c0 := bcu.NTUCKER.cls topSv X) ⟨fun a b hab => ntucker_main hF ht hX (rounded_zeros X) hab,
    ⟨fun j => NTUCKER.core (topSvs j) (rounded (F j) X), fun _ => rfl, fun a b hab => ntucker_core hF ht hX hab⟩,
    ⟨fun j => (NTUCKER.op1 (rounded (F j) X).order, NTUCKER.op2), fun _ => rfl, fun a b hab => ⟨?_, ntucker_op2 hab⟩⟩, fun _ => rfl,
    fun _ => rfl, fun _ _ _ hm => (bcu.NTUCKER.main_inv hm).choose_spec.2.2.2.2.2⟩
    (fun b hb => ⟨_, Eventually.of_forall fun _ => rfl, ntucker_init hF hX (roundedL_tends hF draws) (rounded_tends hF gdraw) hb⟩) hs h hn
  exact ntucker_op1 hF hab X.order

/-- **C140** for `CP_ALS`. -/
theorem C140_cp (F : ℕ → Fmt) (hF : Refining F) (pinvs : ∀ j, Tensor (Num (F j)) → Res (Tensor (Num (F j))))
    (pinv : Tensor ℝ → Res (Tensor ℝ)) (hp : PinvTends pinvs pinv) (X : Tensor ℝ) (R : Nat) (A : List (Tensor ℝ)) (args : Args ℝ)
    (steps : Int) (self : ∀ j, Self (List (Tensor (Num (F j)))) (Tensor (Num (F j))) (Tensor (Num (F j))))
    (self0 self0' : Self (List (Tensor ℝ)) (Tensor ℝ) (Tensor ℝ)) (hs : TendsSelf self self0) (ev : List Int) (hist : List (ℝ × ℝ))
    (h : train (exactArith ℝ) (CP_ALS.cls (cp.main pinv X R)) args steps (.ok A) self0 = (self0', ev, .ok hist))
    (hn : NoTies (exactArith ℝ) false X args.tol hist) :
    ∃ self' hist', (∀ᶠ j in atTop, train (loopArith (F j)) (CP.cls (pinvs j) (rounded (F j) X) R) (roundedArgs (F j) args) steps
        (.ok (A.map (rounded (F j)))) (self j) = (self' j, ev, .ok (hist' j))) ∧
      TendsSelf self' self0' ∧ TendsHist hist' hist := by
  have hX := rounded_tends hF X
  exact train_tends (PS := TendsL) (X0 := X) hF (c := fun j => CP.cls (pinvs j) (rounded (F j) X) R)
    (c0 := CP_ALS.cls (cp.main pinv X R)) ⟨fun a b hab => cp_main hF hp hX (rounded_zeros X) R hab, fun _ => rfl, fun _ => rfl,
    fun _ => rfl, fun _ => rfl, fun _ _ _ hm => cp_main_scalars hm⟩ (TendsR.ok (roundedL_tends hF A)) hs h hn

/-- **C140** for `HOOI`. -/
theorem C140_hooi (F : ℕ → Fmt) (hF : Refining F) (svds : ∀ j, Svd (F j))
    (svd : Tensor ℝ → Res (Tensor ℝ × Tensor ℝ × Tensor ℝ)) (hv : SvdTends svds svd) (X : Tensor ℝ) (ranks : List Nat) (args : Args ℝ)
    (steps : Int) (self : ∀ j, Self (List (Tensor (Num (F j)))) (Tensor (Num (F j))) (Tensor (Num (F j))))
    (self0 self0' : Self (List (Tensor ℝ)) (Tensor ℝ) (Tensor ℝ)) (hs : TendsSelf self self0) (ev : List Int) (hist : List (ℝ × ℝ))
    (h : train (exactArith ℝ) (fact.HOOI.cls (tucker.HOOI.main svd X ranks)) args steps (tucker.HOOI.init svd X ranks) self0 =
      (self0', ev, .ok hist))
    (hn : NoTies (exactArith ℝ) false X args.tol hist) :
    ∃ self' hist', (∀ᶠ j in atTop, train (loopArith (F j)) (HOOI.cls (svds j) (rounded (F j) X) ranks) (roundedArgs (F j) args) steps
        (tucker.HOOI.init (svds j) (rounded (F j) X) ranks) (self j) = (self' j, ev, .ok (hist' j))) ∧
      TendsSelf self' self0' ∧ TendsHist hist' hist := by
  have hX := rounded_tends hF X
  exact train_tends (PS := TendsL) (X0 := X) hF (c := fun j => HOOI.cls (svds j) (rounded (F j) X) ranks)
    (c0 := fact.HOOI.cls (tucker.HOOI.main svd X ranks)) ⟨fun a b hab => Lim.hooi_main hF hv hX (rounded_zeros X) ranks hab, fun _ => rfl,
    fun _ => rfl, fun _ => rfl, fun _ => rfl, fun _ _ _ hm => hooi_main_scalars hm⟩ (Lim.hooi_init hv hX ranks) hs h hn

/-- **C140** for `HOSVD`, whose only decision is to run. -/
theorem C140_hosvd (F : ℕ → Fmt) (hF : Refining F) (svds : ∀ j, Svd (F j))
    (svd : Tensor ℝ → Res (Tensor ℝ × Tensor ℝ × Tensor ℝ)) (hv : SvdTends svds svd) (X : Tensor ℝ) (ranks : List Nat)
    (self : ∀ j, Self (List (Tensor (Num (F j)))) (Tensor (Num (F j))) (Tensor (Num (F j))))
    (self0 self0' : Self (List (Tensor ℝ)) (Tensor ℝ) (Tensor ℝ))
    (h : HOSVD.train (fun _ : Unit => tucker.HOSVD.run svd X ranks) (.ok ()) self0 = (self0', .ok ())) :
    ∃ self', (∀ᶠ j in atTop, HOSVD.train (fun _ : Unit => HOSVD.run (svds j) (rounded (F j) X) ranks) (.ok ()) (self j) =
        (self' j, .ok ())) ∧ TendsSelf self' self0' := by
  unfold HOSVD.train at h ⊢
  simp only at h
  cases hr : tucker.HOSVD.run svd X ranks with
  | error e => rw [hr] at h; cases h
  | ok p =>
      rw [hr] at h
      cases h
      obtain ⟨a, ha, h1, h2, h3⟩ := hosvd_run hF hv (rounded_tends hF X) ranks _ hr
      refine ⟨fun j => { full := some (a j).2.2, factors := some (a j).1, aux := some (a j).2.1, finish := true }, ?_,
        ⟨⟨_, fun _ => rfl, h3⟩, ⟨_, fun _ => rfl, h1⟩, ⟨_, fun _ => rfl, h2⟩, fun _ => rfl⟩⟩
      filter_upwards [ha] with j e
      simp only [e]

/-! ### The routines -/

/-- **C140** (singular values): the true largest singular value, rounded to the format, is such a routine.  The exact routine
has to raise on everything that is not a matrix with at least one entry. -/
theorem C140_sv_rounded (F : ℕ → Fmt) (hF : Refining F) (topSv : Tensor ℝ → Res ℝ) (h : TopSvOk topSv)
    (he : ∀ M, (∀ m n, M.shape = [m, n] → m = 0 ∨ n = 0) → ∃ e, topSv M = .error e) :
    SvTends (fun j M => (topSv (reals M)).map (Num.round (F j))) topSv :=
  svTends_rounded hF h he

/-- **C140** (pseudo-inverses): the true pseudo-inverse with entries rounded to the format is such a routine, if the exact one
it is compared with raises on singular matrices. -/
theorem C140_pinv_rounded (F : ℕ → Fmt) (hF : Refining F) (pinv pinv0 : Tensor ℝ → Res (Tensor ℝ)) (h : PinvOk pinv)
    (h0 : ∀ V P, pinv0 V = .ok P → pinv V = .ok P ∧ ∃ n, V.shape = [n, n] ∧ (toMat V n n).det ≠ 0) :
    PinvTends (fun j M => (pinv (reals M)).map (rounded (F j))) pinv0 :=
  pinvTends_rounded hF h h0

/-- **C140** for `CP_ALS` with rank one, positive data and positive initial factors: with the true pseudo-inverse, rounded,
nothing else is assumed. -/
theorem C140_cp_rank_one (F : ℕ → Fmt) (hF : Refining F) (pinv : Tensor ℝ → Res (Tensor ℝ)) (hp : PinvOk pinv) (X : Tensor ℝ)
    (A : List (Tensor ℝ)) (hA : FactorsFor X.shape 1 A) (hA0 : ∀ M ∈ A, ∀ i < M.shape.getD 0 0, 0 < M.at_ [i, 0])
    (h2 : 2 ≤ X.order) (h25 : X.order ≤ 25) (hpos : ∀ d ∈ X.shape, 0 < d) (hX0 : ∀ i, InB X.shape i → 0 < X.at_ i) (args : Args ℝ)
    (steps : Int) (self : ∀ j, Self (List (Tensor (Num (F j)))) (Tensor (Num (F j))) (Tensor (Num (F j))))
    (self0 self0' : Self (List (Tensor ℝ)) (Tensor ℝ) (Tensor ℝ)) (hs : TendsSelf self self0) (ev : List Int) (hist : List (ℝ × ℝ))
    (h : train (exactArith ℝ) (CP_ALS.cls (cp.main pinv X 1)) args steps (.ok A) self0 = (self0', ev, .ok hist))
    (hn : NoTies (exactArith ℝ) false X args.tol hist) :
    ∃ self' hist', (∀ᶠ j in atTop, train (loopArith (F j)) (CP.cls (fun M => (pinv (reals M)).map (rounded (F j))) (rounded (F j) X) 1)
        (roundedArgs (F j) args) steps (.ok (A.map (rounded (F j)))) (self j) = (self' j, ev, .ok (hist' j))) ∧
      TendsSelf self' self0' ∧ TendsHist hist' hist := by
  have hX := rounded_tends hF X
  have hA' : cp.PosFactors X.shape 1 A := ⟨hA, fun M hM i hi r hr => by
    obtain rfl : r = 0 := by omega
    exact hA0 M hM i hi⟩
  refine train_tends (PS := fun a b => TendsL a b ∧ cp.PosFactors X.shape 1 b) (X0 := X) hF
    (c := fun j => CP.cls (fun M => (pinv (reals M)).map (rounded (F j))) (rounded (F j) X) 1)
    (c0 := CP_ALS.cls (cp.main pinv X 1)) ⟨fun a b hab => ?_, fun _ => rfl, fun _ => rfl,
    fun _ => rfl, fun _ => rfl, fun _ _ _ hm => cp_main_scalars hm⟩ (TendsR.ok ⟨roundedL_tends hF A, hA'⟩) hs h hn
  intro y hy
  change cp.main pinv X 1 b = .ok y at hy
  obtain ⟨A', lam, h1, h3⟩ := cp.sweep_pos hp hab.2 h2 h25 hpos hX0
  have hy1 : y.1 = A' := by
    unfold cp.main at hy
    rw [h1, ok_bind] at hy
    simp only at hy
    cases hf : cp.fullOf A' lam with
    | error e => rw [hf] at hy; cases hy
    | ok Y =>
    rw [hf, ok_bind] at hy
    cases hq : cp.scalars X Y with
    | error e => rw [hq] at hy; cases hy
    | ok q => rw [hq, ok_bind] at hy; cases hy; rfl
  rw [← cp_main_strict hp hab.2 h2 h25 hpos hX0] at hy
  obtain ⟨x, e1, e2, e3⟩ := cp_main hF (pinvTends_rounded hF hp fun _ _ => strict_ok) hX (rounded_zeros X) 1 hab.1 y hy
  exact ⟨x, e1, ⟨e2, by rw [hy1]; exact h3⟩, e3⟩

/-! ### Ties -/

/-- **C140** (ties): only finitely many tolerances are ties for the residual or the stall test; so for `CP_ALS` and `HOOI`
(`track = false`) the hypothesis `NoTies` excludes finitely many tolerances.  For every class. -/
theorem C140_few_ties {S F K : Type} (c : Cls S F K (Tensor ℝ) ℝ) (X : Tensor ℝ) (track : Bool) (args : Args ℝ) (steps : Int)
    (fresh : Res S) (self : Self F K (Tensor ℝ)) :
    {tol : ℝ | ∃ self' ev hist, train (exactArith ℝ) c { args with tol := tol } steps fresh self = (self', ev, .ok hist) ∧
      ∃ k < hist.length, histRel hist k = tol ∨
        |histObj X hist k - refObj (exactArith ℝ) track (histObj X hist) k| /
          (refObj (exactArith ℝ) track (histObj X hist) k + 1) = tol}.Finite := by
  -- all histories are initial parts of each other
  have hpre : ∀ t t' self1 self2 ev1 ev2 h1 h2, train (exactArith ℝ) c { args with tol := t } steps fresh self = (self1, ev1, .ok h1) →
      train (exactArith ℝ) c { args with tol := t' } steps fresh self = (self2, ev2, .ok h2) → h1 <+: h2 ∨ h2 <+: h1 := by
    intro t t' self1 self2 ev1 ev2 h1 h2 e1 e2
    rcases le_total t' t with h | h
    · obtain ⟨_, _, _, e3, e4, -⟩ := C141_exact c args t t' h steps fresh self self2 ev2 h2 e2
      rw [e1] at e3
      cases e3
      exact Or.inl e4
    · obtain ⟨_, _, _, e3, e4, -⟩ := C141_exact c args t' t h steps fresh self self1 ev1 h1 e1
      rw [e2] at e3
      cases e3
      exact Or.inr e4
  have hsub : ∀ (f : List (ℝ × ℝ) → Nat → ℝ), (∀ h h' : List (ℝ × ℝ), h <+: h' → ∀ k < h.length, f h' k = f h k) → ∀ k,
      {v : ℝ | ∃ t self' ev hist, train (exactArith ℝ) c { args with tol := t } steps fresh self = (self', ev, .ok hist) ∧
        k < hist.length ∧ f hist k = v}.Subsingleton := by
    rintro f hf k v ⟨t, s1, ev1, h1, e1, k1, rfl⟩ w ⟨t', s2, ev2, h2, e2, k2, rfl⟩
    rcases hpre t t' s1 s2 ev1 ev2 h1 h2 e1 e2 with h | h
    · exact (hf _ _ h k k1).symm
    · exact hf _ _ h k k2
  have hfin : ∀ (f : List (ℝ × ℝ) → Nat → ℝ), (∀ h h' : List (ℝ × ℝ), h <+: h' → ∀ k < h.length, f h' k = f h k) →
      (⋃ k ∈ Finset.range steps.toNat, {v : ℝ | ∃ t self' ev hist,
        train (exactArith ℝ) c { args with tol := t } steps fresh self = (self', ev, .ok hist) ∧ k < hist.length ∧ f hist k = v}).Finite :=
    fun f hf => Set.Finite.biUnion (Finset.finite_toSet _) fun k _ => (hsub f hf k).finite
  refine ((hfin histRel fun h h' hp k hk => histRel_prefix hp hk).union
    (hfin (fun hist k => |histObj X hist k - refObj (exactArith ℝ) track (histObj X hist) k| /
          (refObj (exactArith ℝ) track (histObj X hist) k + 1)) fun h h' hp k hk => ?_)).subset ?_
  · simp only [histObj_prefix hp hk, ref_prefix hp (Or.inl hk)]
  · rintro tol ⟨self', ev, hist, e, k, hk, ht⟩
    obtain ⟨_, _, _, -, -, hl, -⟩ := C43_history _ c _ steps fresh self self' ev hist e
    have hk' : k ∈ Finset.range steps.toNat := Finset.mem_range.2 (by omega)
    rcases ht with ht | ht
    · exact Or.inl (Set.mem_biUnion hk' ⟨tol, self', ev, hist, e, hk, ht⟩)
    · exact Or.inr (Set.mem_biUnion hk' ⟨tol, self', ev, hist, e, hk, ht⟩)

/-! ### The hypotheses can be met -/

/-- IEEE arithmetic with more and more bits and range, upwards and downwards. -/
noncomputable def fmts (j : ℕ) : Fmt where
  arith := fl.ieeeSub (j + 1) (Nat.succ_pos j) (-(j + 1 : ℤ)) (by omega)
  big := 2 ^ j
  one_le_big := one_le_pow₀ (by norm_num)
  rnd_nonneg _ := fl.nearestSub_nonneg _ _
  u_le := by show (2⁻¹ : ℝ) ^ (j + 1) ≤ 1 / 2; rw [pow_succ]; have := pow_le_one₀ (n := j) (a := (2⁻¹ : ℝ)) (by norm_num) (by norm_num); linarith
  eta_le := by
    show (2 : ℝ) ^ (-(j + 1 : ℤ) - 1) ≤ 1 / 4
    refine (zpow_le_zpow_right₀ (by norm_num) (show -(j + 1 : ℤ) - 1 ≤ -2 by omega)).trans (by norm_num)

theorem fmts_refining : Refining fmts := by
  have h := tendsto_pow_atTop_nhds_zero_of_lt_one (r := (2⁻¹ : ℝ)) (by norm_num) (by norm_num)
  refine ⟨h.comp (tendsto_add_atTop_nat 1), ?_, tendsto_pow_atTop_atTop_of_one_lt (by norm_num)⟩
  refine (h.comp (tendsto_add_atTop_nat 2)).congr fun j => ?_
  show (2⁻¹ : ℝ) ^ (j + 2) = 2 ^ (-(j + 1 : ℤ) - 1)
  rw [show (-(j + 1 : ℤ) - 1) = -((j + 2 : ℕ) : ℤ) by push_cast; ring, zpow_neg, zpow_natCast, inv_pow]

/-- A fresh object. -/
theorem tendsSelf_fresh : TendsSelf (F := fmts) (fun _ => {}) {} := ⟨fun _ => rfl, fun _ => rfl, fun _ => rfl, fun _ => rfl⟩

open Classical in
/-- A routine as in `C140_sv_rounded`. -/
theorem exists_topSv_strict : ∃ topSv, TopSvOk topSv ∧
    ∀ M, (∀ m n, M.shape = [m, n] → m = 0 ∨ n = 0) → ∃ e, topSv M = .error e := by
  obtain ⟨topSv, h⟩ := exists_topSvOk
  refine ⟨fun M => if ∃ m n, M.shape = [m, n] ∧ 0 < m ∧ 0 < n then topSv M else .error .nonFinite, fun M m n hs hm hn => ?_,
    fun M hM => ⟨.nonFinite, if_neg ?_⟩⟩
  · simp only [if_pos (⟨m, n, hs, hm, hn⟩ : ∃ m n, M.shape = [m, n] ∧ 0 < m ∧ 0 < n)]
    exact h M m n hs hm hn
  · rintro ⟨m, n, hs, hm, hn⟩
    rcases hM m n hs with h | h <;> omega

theorem noTies_exact (X : Tensor ℝ) (l : ℝ) : NoTies (exactArith ℝ) true X 1 [(l, 0)] := by
  intro k hk
  obtain rfl : k = 0 := by simpa using hk
  have h0 : histObj X [(l, 0)] 0 = 0 := by simp [histObj, histRel]
  have h1 : refObj (exactArith ℝ) true (histObj X [(l, 0)]) 0 = 1 := by
    show histObj X [(l, 0)] 0 + 1 = 1
    rw [h0, zero_add]
  rw [h0, h1]
  refine ⟨by simp [histRel], by norm_num, by norm_num⟩

/-- `C140_ncp`: a 2 × 2 tensor of ones. -/
example : ∃ topSvs topSv draws self' ev hist, SvTends (F := fmts) topSvs topSv ∧
    train (exactArith ℝ) (bcu.NCP.cls topSv onesX 1) { tol := 1 } 1 (bcu.init onesX onesX.order draws) {} = (self', ev, .ok hist) ∧
    NoTies (exactArith ℝ) true onesX 1 hist := by
  obtain ⟨topSv, ht, he⟩ := exists_topSv_strict
  obtain ⟨draws, hd, hi⟩ := ones_init
  have hst : bcu.FactorsOk (onesX.shape.map fun d => [d, 1]) onesState := by
    have := (bcu.init_inv hi).1
    rwa [show draws.map Tensor.shape = onesX.shape.map fun d => [d, 1] from hd] at this
  obtain ⟨s, o, hm, hrel⟩ := bcu.NCP.main_exact ht (X := onesX) (R := 1) (le_refl 2) (by show 2 ≤ 25; omega) Nat.one_pos
    (by intro d hd; have : d ∈ [2, 2] := hd; simp at this; omega)
    ⟨[0, 0], by simp [onesX, InB], by simp [onesX, at_, ravel]⟩ hst rfl ones_exact
  have hh := train_one (A := exactArith ℝ) (c := bcu.NCP.cls topSv onesX 1) (args := { tol := 1 }) {} rfl hm
    (decide_eq_true (by rw [hrel]; norm_num))
  generalize hr : train (exactArith ℝ) (bcu.NCP.cls topSv onesX 1) { tol := 1 } 1 (.ok onesState) {} = r at hh
  obtain ⟨self', ev, h⟩ := r
  simp only at hh
  subst hh
  refine ⟨_, topSv, draws, self', ev, _, C140_sv_rounded fmts fmts_refining topSv ht he, by rw [hi]; exact hr, ?_⟩
  rw [hrel]
  exact noTies_exact _ _

/-- `C140_ntucker`: the same tensor. -/
example : ∃ topSvs topSv draws gdraw self' ev hist, SvTends (F := fmts) topSvs topSv ∧
    train (exactArith ℝ) (bcu.NTUCKER.cls topSv onesX) { tol := 1 } 1 (bcu.NTUCKER.init onesX draws gdraw) {} = (self', ev, .ok hist) ∧
    NoTies (exactArith ℝ) true onesX 1 hist := by
  obtain ⟨topSv, ht, he⟩ := exists_topSv_strict
  obtain ⟨draws, gdraw, hd, hg, hi⟩ := onesT_init
  obtain ⟨i1, -⟩ := bcu.NTUCKER.init_inv hi (tuckerShapes_iff.2 hd) hg
  obtain ⟨s, k, st', o, e1, e2, e3⟩ := bcu.NTUCKER.step_exact ht (X := onesX) (ranks := [1, 1]) rfl (le_refl 2)
    (by show 2 ≤ 13; omega) (by simp) (by intro d hd; have : d ∈ [2, 2] := hd; simp at this; omega)
    ⟨[0, 0], by simp [onesX, InB], by simp [onesX, at_, ravel]⟩ i1 rfl rfl onesT_exact
  have hh := train_first (A := exactArith ℝ) (c := bcu.NTUCKER.cls topSv onesX) (args := { tol := 1 }) (steps := 1) {} (le_refl 1)
    (Or.inr ⟨_, k, rfl, e1⟩) e2 (decide_eq_true (by rw [e3]; norm_num))
  generalize hr : train (exactArith ℝ) (bcu.NTUCKER.cls topSv onesX) { tol := 1 } 1 (.ok onesTState) {} = r at hh
  obtain ⟨self', ev, h⟩ := r
  simp only at hh
  subst hh
  refine ⟨_, topSv, draws, gdraw, self', ev, _, C140_sv_rounded fmts fmts_refining topSv ht he, by rw [hi]; exact hr, ?_⟩
  rw [e3]
  exact noTies_exact _ _

/-- `C140_cp_rank_one`: seven steps on a positive tensor, with a positive tolerance. -/
example (X : Tensor ℝ) (A : List (Tensor ℝ)) (hA : FactorsFor X.shape 1 A) (hA0 : ∀ M ∈ A, ∀ i < M.shape.getD 0 0, 0 < M.at_ [i, 0])
    (h2 : 2 ≤ X.order) (h25 : X.order ≤ 25) (hpos : ∀ d ∈ X.shape, 0 < d) (hX0 : ∀ i, InB X.shape i → 0 < X.at_ i) :
    ∃ pinv, PinvOk pinv ∧ ∃ (tol : ℝ) (self' : Self (List (Tensor ℝ)) (Tensor ℝ) (Tensor ℝ)) (ev : List Int) (hist : List (ℝ × ℝ)),
      0 < tol ∧ train (exactArith ℝ) (CP_ALS.cls (cp.main pinv X 1)) { tol := tol } 7 (.ok A) {} = (self', ev, .ok hist) ∧
      NoTies (exactArith ℝ) false X tol hist := by
  obtain ⟨pinv, hp⟩ := exists_pinvOk
  have hfin := C140_few_ties (CP_ALS.cls (cp.main pinv X 1)) X false { tol := 0 } 7 (.ok A) {}
  obtain ⟨tol, h0, hne⟩ := (Set.Ioi_infinite (0 : ℝ)).exists_notMem_finite hfin
  obtain ⟨hist, hh⟩ := C73_rank_one_positive pinv hp X A hA hA0 h2 h25 hpos hX0 (exactArith ℝ) { tol := tol } (by show (-1 : Int) ≠ 0; decide) 7
    (by norm_num) {}
  generalize hr : train (exactArith ℝ) (CP_ALS.cls (cp.main pinv X 1)) { tol := tol } 7 (.ok A) {} = r at hh
  obtain ⟨self', ev, h⟩ := r
  simp only at hh
  subst hh
  refine ⟨pinv, hp, tol, self', ev, hist, h0, hr, fun k hk => ⟨fun e => hne ?_, fun e => hne ?_, by simp⟩⟩
  · exact ⟨self', ev, hist, hr, k, hk, Or.inl e⟩
  · exact ⟨self', ev, hist, hr, k, hk, Or.inr e⟩

/-- A column. -/
def colX : Tensor ℝ := ⟨[2, 1], [3, 4], rfl⟩

noncomputable def colU : Tensor ℝ := ⟨[2, 1], [3 / 5, 4 / 5], rfl⟩

def colV : Tensor ℝ := ⟨[1, 1], [1], rfl⟩

def colG : Tensor ℝ := ⟨[1, 1], [5], rfl⟩

/-- The singular value decomposition `(s, U, V)` of nonzero columns and of rows; it raises on other matrices. -/
noncomputable def colSvd (M : Tensor ℝ) : Res (Tensor ℝ × Tensor ℝ × Tensor ℝ) :=
  match M.shape with
  | [_, 1] => if tf.norm M = 0 then .error .nonFinite else
      .ok (ofFn [1] fun _ => tf.norm M, tf.map (fun x => x / tf.norm M) M, mat 1 1 fun _ _ => 1)
  | [1, n] => if tf.norm M = 0 then .error .nonFinite else
      .ok (ofFn [1] fun _ => tf.norm M, mat 1 1 fun _ _ => 1, mat n 1 fun i _ => M.at_ [0, i] / tf.norm M)
  | _ => .error .nonFinite

theorem mk_congr {s : List Nat} {d d' : List ℝ} {w : d.length = s.prod} {w' : d'.length = s.prod} (h : d = d') :
    (⟨s, d, w⟩ : Tensor ℝ) = ⟨s, d', w'⟩ := by subst h; rfl

theorem colX_norm : tf.norm colX = 5 := by
  rw [tf.norm, show tf.reduceSum (tf.map (fun x => x ^ 2) colX) = (3 : ℝ) ^ 2 + (4 ^ 2 + 0) from rfl,
    show (3 : ℝ) ^ 2 + (4 ^ 2 + 0) = 5 ^ 2 by norm_num]
  exact Real.sqrt_sq (by norm_num)

theorem col_svd : ∃ s V, colSvd colX = .ok (s, colU, V) := by
  unfold colSvd
  simp only [show colX.shape = [2, 1] from rfl, colX_norm]
  rw [if_neg (by norm_num)]
  exact ⟨_, _, rfl⟩

theorem row_svd : ∃ s V, colSvd ⟨[1, 2], [3, 4], rfl⟩ = .ok (s, colV, V) := by
  have h : tf.norm (⟨[1, 2], [3, 4], rfl⟩ : Tensor ℝ) = 5 := colX_norm
  unfold colSvd
  simp only [h]
  rw [if_neg (by norm_num)]
  exact ⟨_, _, rfl⟩

theorem one_svd : ∃ s V, colSvd colG = .ok (s, colV, V) := by
  have h : tf.norm colG = 5 := by
    rw [tf.norm, show tf.reduceSum (tf.map (fun x => x ^ 2) colG) = (5 : ℝ) ^ 2 + 0 from rfl, add_zero]
    exact Real.sqrt_sq (by norm_num)
  unfold colSvd
  simp only [show colG.shape = [1, 1] from rfl, h]
  rw [if_neg (by norm_num)]
  have : tf.map (fun x => x / 5) colG = colV := mk_congr (show [(5 : ℝ) / 5] = [1] by norm_num)
  rw [this]
  exact ⟨_, _, rfl⟩

theorem col_lead0 : tucker.leading colSvd colX [1, 1] 0 = .ok colU := by
  obtain ⟨s, V, h⟩ := col_svd
  unfold tucker.leading
  rw [show ops.unfold colX ((0 : Nat) : Int) = .ok colX from rfl, ok_bind, h]
  rfl

theorem col_lead1 : tucker.leading colSvd colX [1, 1] 1 = .ok colV := by
  obtain ⟨s, V, h⟩ := row_svd
  unfold tucker.leading
  rw [show ops.unfold colX ((1 : Nat) : Int) = .ok ⟨[1, 2], [3, 4], rfl⟩ from rfl, ok_bind, h]
  rfl

theorem col_init : tucker.HOOI.init colSvd colX [1, 1] = .ok [colU, colV] := by
  unfold tucker.HOOI.init
  rw [show List.range colX.order = [0, 1] from rfl, List.mapM_cons, List.mapM_cons, List.mapM_nil, col_lead0, ok_bind, col_lead1]
  rfl

theorem col_ttm : ops.ttm colX [colU, colV] none true = .ok colG := by
  have : ∃ d w, ops.ttm colX [colU, colV] none true = .ok ⟨[1, 1], d, w⟩ ∧ d = [5] := by
    refine ⟨_, _, rfl, ?_⟩
    show [(3 : ℝ) * (3 / 5 * (1 * 1)) + (4 * (4 / 5 * (1 * 1)) + 0)] = [5]
    norm_num
  obtain ⟨d, w, h, rfl⟩ := this
  exact h

theorem col_ttm0 : ops.ttm colX [colU, colV] none true (.int ((0 : Nat) : Int)) = .ok colX := by
  have : ∃ d w, ops.ttm colX [colU, colV] none true (.int ((0 : Nat) : Int)) = .ok ⟨[2, 1], d, w⟩ ∧ d = [3, 4] := by
    refine ⟨_, _, rfl, ?_⟩
    show [(3 : ℝ) * (1 * 1) + 0, 4 * (1 * 1) + 0] = [3, 4]
    norm_num
  obtain ⟨d, w, h, rfl⟩ := this
  exact h

theorem col_ttm1 : ops.ttm colX [colU, colV] none true (.int ((1 : Nat) : Int)) = .ok colG := by
  have : ∃ d w, ops.ttm colX [colU, colV] none true (.int ((1 : Nat) : Int)) = .ok ⟨[1, 1], d, w⟩ ∧ d = [5] := by
    refine ⟨_, _, rfl, ?_⟩
    show [(3 : ℝ) * (3 / 5 * 1) + (4 * (4 / 5 * 1) + 0)] = [5]
    norm_num
  obtain ⟨d, w, h, rfl⟩ := this
  exact h

theorem col_full : tucker.fullOf colG [colU, colV] = .ok colX := by
  have : ∃ d w, tucker.fullOf colG [colU, colV] = .ok ⟨[2, 1], d, w⟩ ∧ d = [3, 4] := by
    refine ⟨_, _, rfl, ?_⟩
    show [(5 : ℝ) * (3 / 5 * (1 * 1)) + 0, 5 * (4 / 5 * (1 * 1)) + 0] = [3, 4]
    norm_num
  obtain ⟨d, w, h, rfl⟩ := this
  exact h

theorem col_sweep : tucker.HOOI.sweep colSvd colX [1, 1] [colU, colV] = .ok [colU, colV] := by
  obtain ⟨s, V, h⟩ := one_svd
  have h0 : tucker.HOOI.modeUpdate colSvd colX [1, 1] [colU, colV] 0 = .ok [colU, colV] := by
    unfold tucker.HOOI.modeUpdate
    rw [col_ttm0, ok_bind, col_lead0]
    rfl
  have h1 : tucker.HOOI.modeUpdate colSvd colX [1, 1] [colU, colV] 1 = .ok [colU, colV] := by
    unfold tucker.HOOI.modeUpdate tucker.leading
    rw [col_ttm1, ok_bind, show ops.unfold colG ((1 : Nat) : Int) = .ok colG from rfl, ok_bind, h]
    rfl
  unfold tucker.HOOI.sweep
  rw [show List.range colX.order = [0, 1] from rfl, List.foldlM_cons, h0, ok_bind, List.foldlM_cons, h1]
  rfl

theorem col_main : ∃ o, tucker.HOOI.main colSvd colX [1, 1] [colU, colV] = .ok ([colU, colV], o) ∧ o.rel = 0 := by
  obtain ⟨⟨l, obj, rel⟩, hq⟩ := cp.scalars_total (X := colX) (Y := colX) rfl ⟨[0, 0], by simp [colX, InB], by simp [colX, at_, ravel]⟩
  refine ⟨⟨[colU, colV], some colG, colX, l, obj, rel⟩, ?_, ?_⟩
  · unfold tucker.HOOI.main
    rw [col_sweep, ok_bind, col_ttm, ok_bind, col_full, ok_bind, hq]
    rfl
  · obtain ⟨-, h, -⟩ := cp.scalars_ok rfl hq
    have h0 : distSqT colX colX = 0 := by
      unfold distSqT
      rw [boxSum_eq_sum_range]
      exact Finset.sum_eq_zero fun _ _ => by rw [sub_self]; norm_num
    rw [show (⟨[colU, colV], some colG, colX, l, obj, rel⟩ : Out (List (Tensor ℝ)) (Tensor ℝ) (Tensor ℝ) ℝ).rel = rel from rfl, h, h0,
      Real.sqrt_zero, zero_div]

/-- Correctly rounded, this decomposition tends to the exact one. -/
theorem colSvd_tends (F : ℕ → Fmt) (hF : Refining F) :
    SvdTends (F := F) (fun j M => (colSvd (reals M)).map fun p => (rounded (F j) p.1, rounded (F j) p.2.1, rounded (F j) p.2.2)) colSvd := by
  intro A B hAB b hb
  have hn : Tendsto (fun j => tf.norm (reals (A j))) atTop (𝓝 (tf.norm B)) := by
    have e : ∀ M : Tensor ℝ, tf.norm M = Real.sqrt (boxSum M.shape fun i => M.at_ i ^ 2) := fun M => by rw [tf.norm, reduceSum_sq]; rfl
    simp only [e]
    refine (Real.continuous_sqrt.tendsto _).comp ?_
    simp only [show ∀ j, (reals (A j)).shape = B.shape from hAB.1, boxSum_eq_sum_range]
    refine tendsto_finsetSum _ fun k hk => ?_
    have hi := unravel_inB (Finset.mem_range.1 hk)
    refine ((hAB.2 _ hi).2.pow 2).congr fun j => ?_
    rw [reals_at _ (by rw [hAB.1 j]; exact hi)]
  have hU : tf.norm B ≠ 0 → TendsT (fun j => rounded (F j) (tf.map (fun x => x / tf.norm (reals (A j))) (reals (A j))))
      (tf.map (fun x => x / tf.norm B) B) := by
    intro h0
    refine ⟨fun j => hAB.1 j, fun i hi => ?_⟩
    have hi' : InB B.shape i := hi
    rw [at_map _ _ hi']
    refine (tends_round hF ((hAB.2 i hi').2.div hn h0)).congr (Eventually.of_forall fun j => ?_)
    have hj : InB (reals (A j)).shape i := by rw [show (reals (A j)).shape = B.shape from hAB.1 j]; exact hi'
    show _ = (tf.map (Num.round (F j)) (tf.map (fun x => x / tf.norm (reals (A j))) (reals (A j)))).at_ i
    rw [at_map _ _ (show InB (tf.map (fun x => x / tf.norm (reals (A j))) (reals (A j))).shape i from hj), at_map _ _ hj,
      reals_at _ (by rw [hAB.1 j]; exact hi')]
    rfl
  have hne : tf.norm B ≠ 0 → ∀ᶠ j in atTop, tf.norm (reals (A j)) ≠ 0 := fun h0 => hn.eventually_ne h0
  unfold colSvd at hb ⊢
  simp only [show ∀ j, (reals (A j)).shape = B.shape from hAB.1]
  split at hb
  · by_cases h0 : tf.norm B = 0
    · rw [if_pos h0] at hb; cases hb
    rw [if_neg h0] at hb
    cases hb
    refine ⟨fun j => (rounded (F j) (ofFn [1] fun _ => tf.norm (reals (A j))),
      rounded (F j) (tf.map (fun x => x / tf.norm (reals (A j))) (reals (A j))), rounded (F j) (mat 1 1 fun _ _ => 1)), ?_, hU h0⟩
    filter_upwards [hne h0] with j hj
    rw [if_neg hj]
    rfl
  · rename_i nn _ _
    by_cases h0 : tf.norm B = 0
    · rw [if_pos h0] at hb; cases hb
    rw [if_neg h0] at hb
    cases hb
    refine ⟨fun j => (rounded (F j) (ofFn [1] fun _ => tf.norm (reals (A j))), rounded (F j) (mat 1 1 fun _ _ => 1),
        rounded (F j) (mat nn 1 fun i _ => (reals (A j)).at_ [0, i] / tf.norm (reals (A j)))), ?_, rounded_tends hF _⟩
    filter_upwards [hne h0] with j hj
    rw [if_neg hj]
    rfl
  · cases hb

/-- `C140_hooi` and `C140_hosvd`: a column of length two. -/
example : SvdTends (F := fmts) (fun j M => (colSvd (reals M)).map fun p => (rounded (fmts j) p.1, rounded (fmts j) p.2.1, rounded (fmts j) p.2.2))
      colSvd ∧
    (∃ self' ev hist, train (exactArith ℝ) (fact.HOOI.cls (tucker.HOOI.main colSvd colX [1, 1])) { tol := 1 } 1
      (tucker.HOOI.init colSvd colX [1, 1]) {} = (self', ev, .ok hist) ∧ NoTies (exactArith ℝ) false colX 1 hist) ∧
    ∃ self', HOSVD.train (fun _ : Unit => tucker.HOSVD.run colSvd colX [1, 1]) (.ok ()) {} = (self', .ok ()) := by
  refine ⟨colSvd_tends fmts fmts_refining, ?_, ?_⟩
  · obtain ⟨o, hm, hrel⟩ := col_main
    have hh := train_one (A := exactArith ℝ) (c := fact.HOOI.cls (tucker.HOOI.main colSvd colX [1, 1])) (args := { tol := 1 }) {} rfl hm
      (decide_eq_true (by rw [hrel]; norm_num))
    rw [col_init]
    generalize hr : train (exactArith ℝ) (fact.HOOI.cls (tucker.HOOI.main colSvd colX [1, 1])) { tol := 1 } 1 (.ok [colU, colV]) {} = r at hh
    obtain ⟨self', ev, h⟩ := r
    simp only at hh
    subst hh
    refine ⟨self', ev, _, rfl, ?_⟩
    rw [hrel]
    have := noTies_exact colX o.loss
    exact fun k hk => ⟨(this k hk).1, by
      obtain rfl : k = 0 := by simpa using hk
      exact (this 0 hk).2.1, by simp⟩
  · unfold HOSVD.train tucker.HOSVD.run
    have h : (List.range colX.order).mapM (fun n => tucker.leading colSvd colX [1, 1] n) = .ok [colU, colV] := by
      rw [show List.range colX.order = [0, 1] from rfl, List.mapM_cons, List.mapM_cons, List.mapM_nil, col_lead0, ok_bind, col_lead1]
      rfl
    rw [h, ok_bind, col_ttm, ok_bind, col_full]
    exact ⟨_, rfl⟩

end TD.Props
