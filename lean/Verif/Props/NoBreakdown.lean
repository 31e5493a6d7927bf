import Verif.Lemmas.Alive
import Verif.Lemmas.AlsOneCp

/-!
# C154 : on positive data `NCP_BCU` and `NTUCKER_BCU` never break down, whatever the rank
-/
namespace TD.Props
open TD Spec Tensor tf ops fact bcu

/-- What the initialisation makes of a draw with a positive entry: the negative entries become zero, the others are multiplied by a
positive number. -/
theorem normInit_draw {X d : Tensor ℝ} (p : Nat) (hX : 0 < normSqT X) {j : List Nat} (hj : InB d.shape j) (hd : 0 < d.at_ j) :
    ∃ u c, normInit X p (relu d) = .ok u ∧ 0 < c ∧ u.shape = d.shape ∧ Nonneg u ∧
      ∀ i, InB d.shape i → u.at_ i = max (d.at_ i) 0 * c := by
  have hn : 0 < tf.norm (relu d) := by
    rw [tf.norm, reduceSum_sq]
    refine Real.sqrt_pos.2 (lt_of_le_of_ne (normSqT_nonneg _) fun e => ?_)
    have hz := (loss.boxSum_eq_zero (relu d).shape (fun i _ => sq_nonneg ((relu d).at_ i))).1 e.symm j hj
    have := pow_eq_zero_iff (by norm_num) |>.1 hz
    rw [relu, at_map _ _ hj, max_eq_left hd.le] at this
    exact hd.ne' this
  have hXn : 0 < tf.norm X := by rw [tf.norm, reduceSum_sq]; exact Real.sqrt_pos.2 hX
  have hc := Real.rpow_pos_of_pos hXn (1 / (p : ℝ))
  have h : normInit X p (relu d) = .ok (tf.map (fun x => x / tf.norm (relu d) * Real.rpow (tf.norm X) (1 / (p : ℝ))) (relu d)) := by
    unfold normInit; rw [if_neg hn.ne']
  refine ⟨_, _, h, div_pos hc hn, rfl, (normInit_inv h).2 (relu_nonneg d), fun i hi => ?_⟩
  rw [at_map _ _ (show InB (relu d).shape i from hi), relu, at_map _ _ hi]
  show _ / _ * Real.rpow _ _ = _ * (Real.rpow _ _ / _)
  ring

theorem mapM_forall₂ {β γ : Type} {f : β → Res γ} {P : β → γ → Prop} : ∀ {l : List β}, (∀ b ∈ l, ∃ c, f b = .ok c ∧ P b c) →
    ∃ l', l.mapM f = .ok l' ∧ List.Forall₂ P l l'
  | [], _ => ⟨[], rfl, .nil⟩
  | b :: l, h => by
      obtain ⟨c, hc, hP⟩ := h b (by simp)
      obtain ⟨l', hl, hF⟩ := mapM_forall₂ (l := l) fun b hb => h b (by simp [hb])
      exact ⟨c :: l', by rw [List.mapM_cons, hc, ok_bind, hl, ok_bind]; rfl, .cons hP hF⟩

/-- The factors after an initialisation from draws in which no factor is without positive entries. -/
theorem init_draws {X : Tensor ℝ} (p : Nat) (hX : 0 < normSqT X) {draws : List (Tensor ℝ)}
    (hd : ∀ d ∈ draws, ∃ j, InB d.shape j ∧ 0 < d.at_ j) :
    ∃ A, bcu.init X p draws = .ok ⟨A, A, A, fun _ => 1, fun _ => 1, fun _ => 1, 1, 1⟩ ∧
      List.Forall₂ (fun d u => ∃ c, 0 < c ∧ u.shape = d.shape ∧ Nonneg u ∧ ∀ i, InB d.shape i → u.at_ i = max (d.at_ i) 0 * c) draws A := by
  obtain ⟨A, hA, hF⟩ := mapM_forall₂ (f := fun d => normInit X p (relu d)) (P := fun d u => ∃ c, 0 < c ∧ u.shape = d.shape ∧ Nonneg u ∧
    ∀ i, InB d.shape i → u.at_ i = max (d.at_ i) 0 * c) (l := draws) (fun d h => by
      obtain ⟨j, hj, hp⟩ := hd d h
      obtain ⟨u, c, h1, h2⟩ := normInit_draw p hX hj hp
      exact ⟨u, h1, c, h2⟩)
  exact ⟨A, by unfold bcu.init; rw [hA]; rfl, hF⟩

theorem khatriEntry_pos_of {A : List (Tensor ℝ)} {r : Nat} (hn : ∀ M ∈ A, Nonneg M) (h : ∀ M ∈ A, ∃ a < M.shape.getD 0 0, 0 < M.at_ [a, r]) :
    ∃ i, InB (rowDims A) i ∧ 0 < khatriEntry r A i := by
  obtain ⟨i, hi, hne⟩ := khatriEntry_ne_zero.2 fun M hM => by
    obtain ⟨a, ha, hp⟩ := h M hM
    exact ⟨a, ha, hp.ne'⟩
  exact ⟨i, hi, lt_of_le_of_ne (nonneg_khatriEntry hn r i) (Ne.symm hne)⟩

theorem kronEntry_pos_of : ∀ {A : List (Tensor ℝ)} {j : List Nat}, j.length = A.length →
    (∀ (k : Nat) (M : Tensor ℝ), A[k]? = some M → ∃ a < M.shape.getD 0 0, 0 < M.at_ [a, j.getD k 0]) → ∃ i, InB (rowDims A) i ∧ 0 < kronEntry A i j
  | [], [], _, _ => ⟨[], (InB_nil _).2 rfl, by simp [kronEntry]⟩
  | [], _ :: _, h, _ => by simp at h
  | _ :: _, [], h, _ => by simp at h
  | M :: A, b :: j, hl, h => by
      obtain ⟨a, ha, hp⟩ := h 0 M rfl
      obtain ⟨i, hi, hq⟩ := kronEntry_pos_of (A := A) (j := j) (by simpa using hl) fun k N hN => h (k + 1) N hN
      exact ⟨a :: i, (InB_cons _ _ _ _).2 ⟨ha, hi⟩, mul_pos hp hq⟩

theorem normSqT_pos_of {X : Tensor ℝ} (hpos : ∀ d ∈ X.shape, 0 < d) (hX : ∀ i, InB X.shape i → 0 < X.at_ i) : 0 < normSqT X := by
  have h0 : InB X.shape (unravel X.shape 0) := unravel_inB (List.prod_pos hpos)
  refine lt_of_le_of_ne (normSqT_nonneg X) fun e => ?_
  have := (loss.boxSum_eq_zero X.shape (fun i _ => sq_nonneg (X.at_ i))).1 e.symm _ h0
  exact (hX _ h0).ne' (by simpa using this)

/-- **C154** for `NCP_BCU`: the tensor has positive entries, and some component has a positive entry in the draw of every mode.  Then the
initialisation and every training return, for every rank and number of steps; the exposed model is not zero, and every row of every
exposed factor has a positive entry. -/
theorem C154_ncp (topSv : Tensor ℝ → Res ℝ) (ht : TopSvOk topSv) (X : Tensor ℝ) (R : Nat) (h2 : 2 ≤ X.order) (h25 : X.order ≤ 25)
    (hpos : ∀ d ∈ X.shape, 0 < d) (hX : ∀ i, InB X.shape i → 0 < X.at_ i)
    (draws : List (Tensor ℝ)) (hd : FactorsFor X.shape R draws) (r : Nat) (hr : r < R)
    (hdr : ∀ M ∈ draws, ∃ a < M.shape.getD 0 0, 0 < M.at_ [a, r])
    (args : Args ℝ) (hv : args.validationInternal ≠ 0) (steps : Int) (h1 : 1 ≤ steps)
    (self : Self (List (Tensor ℝ)) (Tensor ℝ) (Tensor ℝ)) :
    ∃ s0 self' ev hist F, bcu.init X X.order draws = .ok s0 ∧
      train (exactArith ℝ) (NCP.cls topSv X R) args steps (.ok s0) self = (self', ev, .ok hist) ∧ self'.factors = some F ∧
      (∃ i, InB X.shape i ∧ 0 < ∑ r ∈ Finset.range R, khatriEntry r F i) ∧
      ∀ M ∈ F, ∀ i < M.shape.getD 0 0, ∃ r < M.shape.getD 1 0, 0 < M.at_ [i, r] := by
  have hne : X.shape ≠ [] := by intro e; unfold order at h2; rw [e] at h2; simp at h2
  have hR : 0 < R := by omega
  have hsh : ∀ M ∈ draws, ∃ I, M.shape = [I, R] := fun M hM => by
    obtain ⟨k, hk⟩ := List.getElem?_of_mem hM
    exact ⟨_, hd.get hk⟩
  obtain ⟨A, hA, hF⟩ := init_draws X.order (normSqT_pos_of hpos hX) (draws := draws) fun M hM => by
    obtain ⟨a, ha, hp⟩ := hdr M hM
    obtain ⟨I, hI⟩ := hsh M hM
    rw [hI] at ha
    exact ⟨_, by rw [hI]; exact InB_pair.2 ⟨a, r, rfl, ha, hr⟩, hp⟩
  obtain ⟨i1, i2, -⟩ := init_inv hA
  rw [show draws.map Tensor.shape = X.shape.map fun d => [d, R] from hd] at i1
  have hlive : cpErr (zeroT X.shape) R A (fun _ => 1) ≠ 0 := by
    refine cp_zero_iff.2 ?_
    obtain ⟨i, hi, hp⟩ := khatriEntry_pos_of (A := A) (r := r) i1.nonneg fun M hM => by
      obtain ⟨k, hk⟩ := List.getElem?_of_mem hM
      have hkl := (List.getElem?_eq_some_iff.1 hk).1
      have hk' : k < draws.length := by rw [hF.length_eq]; exact hkl
      obtain ⟨c, c0, c1, -, c2⟩ := List.forall₂_iff_get.1 hF |>.2 k hk' hkl
      have hMk : A.get ⟨k, hkl⟩ = M := by
        rw [List.getElem?_eq_getElem hkl] at hk
        exact Option.some.inj hk
      rw [hMk] at c1 c2
      obtain ⟨a, ha, hp⟩ := hdr _ (List.get_mem draws ⟨k, hk'⟩)
      obtain ⟨I, hI⟩ := hsh _ (List.get_mem draws ⟨k, hk'⟩)
      refine ⟨a, by rw [c1]; exact ha, ?_⟩
      rw [c2 _ (by rw [hI] at ha ⊢; exact InB_pair.2 ⟨a, r, rfl, ha, hr⟩), max_eq_left hp.le]
      exact mul_pos hp c0
    rw [show rowDims A = X.shape from i1.factorsFor.1.rowDims] at hi
    refine ⟨i, hi, ne_of_gt (lt_of_lt_of_le hp ?_)⟩
    exact Finset.single_le_sum (f := fun r => khatriEntry r A i) (fun s _ => nonneg_khatriEntry i1.nonneg s i) (Finset.mem_range.2 hr)
  obtain ⟨hist, hh⟩ := train_safe (A := exactArith ℝ) (c := NCP.cls topSv X R) (I := Alive X R)
    ⟨fun s hI => hI.main ht h2 h25 hR hpos hX, by rintro f ⟨⟩, by
      rintro p hp s hI
      cases hp
      exact ⟨hI.op1, hI.op2⟩⟩ ⟨i1, i2, hlive, fun k _ => one_ne_zero⟩ (Or.inl hv) h1 self
  have hh' : train (exactArith ℝ) (NCP.cls topSv X R) args steps (.ok ⟨A, A, A, fun _ => 1, fun _ => 1, fun _ => 1, 1, 1⟩) self =
    (_, _, .ok hist) := Prod.ext rfl (Prod.ext rfl hh)
  obtain ⟨F, M, lip, f0, -, -, ff, hst⟩ := ncp_iterates topSv X R hne h25 _ ⟨draws, hd, hA⟩ args steps self _ _ hist hh'
  have hlen : 1 ≤ hist.length := (C43_history _ _ args steps _ self _ _ hist hh').choose_spec.choose_spec.choose_spec.2.1
  have key : ∀ j ≤ hist.length, cpErr (zeroT X.shape) R (F j) (fun _ => 1) ≠ 0 ∧ (1 ≤ j → RowsPos (F j) ∧ ∀ M ∈ F j, Nonneg M) := by
    intro j
    induction j with
    | zero => intro _; exact ⟨by rw [f0]; exact hlive, fun h => by omega⟩
    | succ j ih =>
        intro hj
        obtain ⟨-, ⟨s, s', o, a1, a2, a3, -, a5, -⟩, -⟩ := hst j hj
        obtain ⟨s'', o', e, l, hp⟩ := NCP.main_alive ht a1 h2 h25 hR hpos hX (by rw [a3]; exact (ih (by omega)).1)
        rw [a2] at e
        obtain ⟨rfl, rfl⟩ := Prod.mk.inj (Except.ok.inj e)
        obtain ⟨b1, -⟩ := NCP.main_ok a1 hne h25 a2
        rw [a5] at l hp
        exact ⟨l, fun _ => ⟨hp, by rw [← a5]; exact b1.nonneg⟩⟩
  obtain ⟨l, hp⟩ := key _ (le_refl _)
  obtain ⟨i, hi, hni⟩ := cp_zero_iff.1 l
  exact ⟨_, _, _, hist, F hist.length, hA, hh', ff, ⟨i, hi, lt_of_le_of_ne (Finset.sum_nonneg fun r _ =>
    nonneg_khatriEntry (hp hlen).2 r i) (Ne.symm hni)⟩, (hp hlen).1⟩

/-- **C154** for `NTUCKER_BCU`: the tensor has positive entries, and there is an entry of the core at which its draw is positive and whose
column has a positive entry in the draw of every mode. -/
theorem C154_ntucker (topSv : Tensor ℝ → Res ℝ) (ht : TopSvOk topSv) (X : Tensor ℝ) (ranks : List Nat)
    (hr : ranks.length = X.shape.length) (h2 : 2 ≤ X.order) (h13 : X.order ≤ 13)
    (hpos : ∀ d ∈ X.shape, 0 < d) (hX : ∀ i, InB X.shape i → 0 < X.at_ i)
    (draws : List (Tensor ℝ)) (gdraw : Tensor ℝ) (hd : TuckerShapes X.shape ranks draws) (hg : gdraw.shape = ranks)
    (j : List Nat) (hj : InB ranks j) (hgj : 0 < gdraw.at_ j)
    (hdr : ∀ (k : Nat) (M : Tensor ℝ), draws[k]? = some M → ∃ a < M.shape.getD 0 0, 0 < M.at_ [a, j.getD k 0])
    (args : Args ℝ) (hv : args.validationInternal ≠ 0) (steps : Int) (h1 : 1 ≤ steps)
    (self : Self (List (Tensor ℝ)) (Tensor ℝ) (Tensor ℝ)) :
    ∃ s0 self' ev hist F G, NTUCKER.init X draws gdraw = .ok s0 ∧
      train (exactArith ℝ) (NTUCKER.cls topSv X) args steps (.ok s0) self = (self', ev, .ok hist) ∧
      self'.factors = some F ∧ self'.aux = some G ∧
      (∃ i, InB X.shape i ∧ 0 < boxSum ranks fun j => G.at_ j * kronEntry F i j) ∧
      ∀ M ∈ F, ∀ i < M.shape.getD 0 0, ∃ r < M.shape.getD 1 0, 0 < M.at_ [i, r] := by
  have hrp : ∀ d ∈ ranks, 0 < d := fun d hd => by
    obtain ⟨k, hk, rfl⟩ := List.getElem_of_mem hd
    have := (InB_iff_getD.1 hj).2 k hk
    rw [List.getD_eq_getElem (l := ranks) 0 hk] at this
    omega
  have hjl : j.length = draws.length := by rw [hj.length, hd.1, hr]
  obtain ⟨A, hA, hF⟩ := init_draws (X.order + 1) (normSqT_pos_of hpos hX) (draws := draws) fun M hM => by
    obtain ⟨k, hk⟩ := List.getElem?_of_mem hM
    have hk' := (List.getElem?_eq_some_iff.1 hk).1
    obtain ⟨a, ha, hp⟩ := hdr k M hk
    have hs := hd.2 k M hk
    rw [hs] at ha
    exact ⟨_, by rw [hs]; exact InB_pair.2 ⟨a, _, rfl, ha, (InB_iff_getD.1 hj).2 k (by rw [← hj.length, hjl]; exact hk')⟩, hp⟩
  obtain ⟨G0, c, g1, c0, g2, g3, g4⟩ := normInit_draw (X := X) (X.order + 1) (normSqT_pos_of hpos hX) (d := gdraw) (j := j)
    (by rw [hg]; exact hj) hgj
  set s0 : TState := { toState := ⟨A, A, A, fun _ => 1, fun _ => 1, fun _ => 1, 1, 1⟩, g := G0, g0 := G0, gm := G0 } with hs0
  have hinit : NTUCKER.init X draws gdraw = .ok s0 := by
    unfold NTUCKER.init
    rw [hA, ok_bind, g1, ok_bind]; rfl
  obtain ⟨i1, i2, -⟩ := NTUCKER.init_inv hinit (tuckerShapes_iff.2 hd) hg
  have hlive : tkErr (zeroT X.shape) G0 A ≠ 0 := by
    refine tk_zero_iff.2 ?_
    obtain ⟨i, hi, hp⟩ := kronEntry_pos_of (A := A) (j := j) (by rw [hjl, hF.length_eq]) fun k M hk => by
      have hkl := (List.getElem?_eq_some_iff.1 hk).1
      have hk' : k < draws.length := by rw [hF.length_eq]; exact hkl
      obtain ⟨c, c0, c1, -, c2⟩ := List.forall₂_iff_get.1 hF |>.2 k hk' hkl
      have hMk : A.get ⟨k, hkl⟩ = M := by
        rw [List.getElem?_eq_getElem hkl] at hk
        exact Option.some.inj hk
      rw [hMk] at c1 c2
      have hdk : draws[k]? = some (draws.get ⟨k, hk'⟩) := List.getElem?_eq_getElem hk'
      obtain ⟨a, ha, hp⟩ := hdr k _ hdk
      have hs := hd.2 k _ hdk
      refine ⟨a, by rw [c1]; exact ha, ?_⟩
      rw [c2 _ (by
        rw [hs] at ha ⊢
        exact InB_pair.2 ⟨a, _, rfl, ha, (InB_iff_getD.1 hj).2 k (by rw [← hj.length, hjl]; exact hk')⟩), max_eq_left hp.le]
      exact mul_pos hp c0
    rw [show rowDims A = X.shape from i1.shapes.rowDims] at hi
    refine ⟨i, hi, fun hz => ?_⟩
    have hz' := (loss.boxSum_eq_zero G0.shape (fun j _ => mul_nonneg (g3.at j) (nonneg_kronEntry i1.factors.nonneg i j))).1 hz j
      (by rw [g2, hg]; exact hj)
    rw [g4 j (by rw [hg]; exact hj), max_eq_left hgj.le] at hz'
    exact (mul_pos (mul_pos hgj c0) hp).ne' hz'
  obtain ⟨hist, hh⟩ := train_safe (A := exactArith ℝ) (c := NTUCKER.cls topSv X) (I := TAlive X ranks) (s := s0)
    ⟨fun s hI => hI.main ht hr h2 h13 hrp hpos hX, by
      rintro f hf s hI
      cases hf
      exact hI.core ht hr (by omega) h13 hrp hX, by
      rintro p hp s hI
      cases hp
      exact ⟨hI.op1, hI.op2⟩⟩ ⟨i1, i2, hlive, fun k _ => one_ne_zero⟩ (Or.inl hv) h1 self
  have hh' : train (exactArith ℝ) (NTUCKER.cls topSv X) args steps (.ok s0) self = (_, _, .ok hist) := Prod.ext rfl (Prod.ext rfl hh)
  obtain ⟨F, M, G, N, lip, f0, -, e0, -, -, ff, fg, hst⟩ := ntucker_iterates topSv X ranks hr (by omega) h13 _ ⟨draws, gdraw, hd, hg, hinit⟩
    args steps self _ _ hist hh'
  have hlen : 1 ≤ hist.length := (C43_history _ _ args steps _ self _ _ hist hh').choose_spec.choose_spec.choose_spec.2.1
  have key : ∀ j ≤ hist.length, tkErr (zeroT X.shape) (G j) (F j) ≠ 0 ∧
      (1 ≤ j → RowsPos (F j) ∧ (∀ M ∈ F j, Nonneg M) ∧ Nonneg (G j) ∧ (G j).shape = ranks) := by
    intro j
    induction j with
    | zero => intro _; exact ⟨by rw [f0, e0]; exact hlive, fun h => by omega⟩
    | succ j ih =>
        intro hj
        obtain ⟨-, ⟨s, s1, s', o, a1, a2, a3, a4, -, a6, -, a8, a9, -⟩, -⟩ := hst j hj
        obtain ⟨t1, k, e1, l1, -⟩ := NTUCKER.core_alive ht a1 hr (by omega) h13 hrp hX (by rw [a4, a6]; exact (ih (by omega)).1)
        rw [a2] at e1
        obtain ⟨rfl, rfl⟩ := Prod.mk.inj (Except.ok.inj e1)
        obtain ⟨b1, -⟩ := NTUCKER.core_ok a1 a2
        obtain ⟨s'', o', e, l, hp⟩ := NTUCKER.main_alive ht b1 hr h2 h13 hrp hpos hX l1
        rw [a3] at e
        obtain ⟨rfl, rfl⟩ := Prod.mk.inj (Except.ok.inj e)
        obtain ⟨b2, -⟩ := NTUCKER.main_ok b1 hr (by omega) h13 a3
        rw [a8, a9] at l
        rw [a8] at hp
        exact ⟨l, fun _ => ⟨hp, by rw [← a8]; exact b2.factors.nonneg, by rw [← a9]; exact b2.nonneg, by rw [← a9]; exact b2.g⟩⟩
  obtain ⟨l, hp⟩ := key _ (le_refl _)
  obtain ⟨i, hi, hni⟩ := tk_zero_iff.1 l
  obtain ⟨p1, p2, p3, p4⟩ := hp hlen
  rw [p4] at hni
  exact ⟨_, _, _, hist, F hist.length, G hist.length, hinit, hh', ff, fg, ⟨i, hi, lt_of_le_of_ne (loss.boxSum_nonneg _ fun j _ =>
    mul_nonneg (p3.at j) (nonneg_kronEntry p2 i j)) (Ne.symm hni)⟩, p1⟩

/-- The hypotheses of `C154_ncp` and `C154_ntucker` are met by a 2 × 3 tensor with entries `1 + i + j`, rank 2 (more than rank one), ranks
2 and 2, and draws that are partly negative. -/
example : let X : Tensor ℝ := mat 2 3 fun i j => (i : ℝ) + j + 1
    let draws : List (Tensor ℝ) := [mat 2 2 fun i r => if i = r then 1 else -1, mat 3 2 fun i r => if i = r then 1 else -1]
    FactorsFor X.shape 2 draws ∧ (∀ M ∈ draws, ∃ a < M.shape.getD 0 0, 0 < M.at_ [a, 1]) ∧ 2 ≤ X.order ∧
      X.order ≤ 13 ∧ (∀ d ∈ X.shape, 0 < d) ∧ (∀ i, InB X.shape i → 0 < X.at_ i) ∧ TuckerShapes X.shape [2, 2] draws ∧
      InB [2, 2] [1, 1] ∧ (0 : ℝ) < (mat 2 2 fun i r => if i = r then (1 : ℝ) else -1).at_ [1, 1] ∧
      ∀ (k : Nat) (M : Tensor ℝ), draws[k]? = some M → ∃ a < M.shape.getD 0 0, 0 < M.at_ [a, [1, 1].getD k 0] := by
  have h : ∀ m > 1, (0 : ℝ) < (mat m 2 fun i r => if i = r then (1 : ℝ) else -1).at_ [1, 1] := fun m hm => by
    rw [at_mat _ hm (by decide), if_pos rfl]; norm_num
  refine ⟨rfl, ?_, by decide, by decide, by decide, ?_, ?_, by decide, h 2 (by decide), ?_⟩
  · intro M hM
    simp only [List.mem_cons, List.not_mem_nil, or_false] at hM
    rcases hM with rfl | rfl
    · exact ⟨1, show 1 < 2 by decide, h 2 (by decide)⟩
    · exact ⟨1, show 1 < 3 by decide, h 3 (by decide)⟩
  · intro i hi
    obtain ⟨a, b, rfl, ha, hb⟩ := InB_pair.1 hi
    rw [at_mat _ ha hb]
    positivity
  · refine ⟨rfl, fun k M hM => ?_⟩
    match k, hM with
    | 0, hM => cases hM; rfl
    | 1, hM => cases hM; rfl
  · intro k M hM
    match k, hM with
    | 0, hM => cases hM; exact ⟨1, show 1 < 2 by decide, h 2 (by decide)⟩
    | 1, hM => cases hM; exact ⟨1, show 1 < 3 by decide, h 3 (by decide)⟩

/-- A nonnegative tensor with a positive entry, and a draw that is zero where that entry is. -/
def cornerX : Tensor ℝ := ⟨[2, 2], [0, 0, 0, 1], rfl⟩
@[inherit_doc cornerX] def cornerDraw : Tensor ℝ := ⟨[2, 1], [1, 0], rfl⟩
@[inherit_doc cornerX] def cornerState : State :=
  ⟨[cornerDraw, cornerDraw], [cornerDraw, cornerDraw], [cornerDraw, cornerDraw], fun _ => 1, fun _ => 1, fun _ => 1, 1, 1⟩

theorem corner_init : bcu.init cornerX cornerX.order [cornerDraw, cornerDraw] = .ok cornerState := by
  have h : normInit cornerX cornerX.order (relu cornerDraw) = .ok cornerDraw := by
    have h1 : relu cornerDraw = cornerDraw := by simp [relu, tf.map, cornerDraw]
    have h2 : tf.norm cornerDraw = 1 := by simp [tf.norm, tf.reduceSum, tf.total_eq, tf.map, cornerDraw]
    have h3 : tf.norm cornerX = 1 := by simp [tf.norm, tf.reduceSum, tf.total_eq, tf.map, cornerX]
    unfold normInit
    rw [h1, h2, if_neg one_ne_zero, h3, show ∀ y : ℝ, Real.rpow 1 y = 1 from Real.one_rpow]
    congr 1
    unfold cornerDraw tf.map
    simp
  have h : [cornerDraw, cornerDraw].mapM (fun d => normInit cornerX cornerX.order (relu d)) = .ok [cornerDraw, cornerDraw] := by
    rw [List.mapM_cons, List.mapM_cons, List.mapM_nil, h]; rfl
  unfold bcu.init
  rw [h]; rfl

theorem corner_main {topSv : Tensor ℝ → Res ℝ} (ht : TopSvOk topSv) : NCP.main topSv cornerX cornerState = .error .nonFinite := by
  obtain ⟨i1, -, -⟩ := init_inv corner_init
  have hs : FactorsOk (cornerX.shape.map fun d => [d, 1]) cornerState := i1
  obtain ⟨f1, -, f3⟩ := hs.factorsFor
  have key : (List.range 2).foldlM (NCP.modeUpdate topSv cornerX) cornerState = .error .nonFinite := by
    show (NCP.modeUpdate topSv cornerX cornerState 0 >>= fun s => NCP.modeUpdate topSv cornerX s 1 >>= pure) = _
    rcases NCP.modeUpdate_total ht f1 f3 (n := 0) (le_refl 2) (by decide) (by decide) Nat.one_pos (by decide) with ⟨s, h⟩ | h
    · rw [h, ok_bind]
      obtain ⟨g1, -⟩ := NCP.sweep_inv (l := [0]) hs (by rw [List.foldlM_cons, h]; rfl)
      obtain ⟨g1, -, g3⟩ := g1.factorsFor
      obtain ⟨l, e⟩ := NCP.modeUpdate_one ht f1 (le_refl 2) (by decide) (by decide) (by decide) (m := cornerDraw) rfl rfl h
      rcases NCP.modeUpdate_total ht g1 g3 (n := 1) (le_refl 2) (by decide) (by decide) Nat.one_pos (by decide) with h' | h'
      · obtain ⟨r, hr, hz⟩ := (NCP.modeUpdate_defined ht g1 g3 (n := 1) (le_refl 2) (by decide) (by decide) Nat.one_pos (by decide)).1 h'
        exfalso
        rw [e] at hz
        obtain ⟨a, ha, hne⟩ := hz _ (List.mem_singleton.2 rfl)
        have ha : a < 2 := ha
        rw [at_mat (m := cornerX.shape.getD 0 0) _ ha hr] at hne
        apply hne
        have : bestVec cornerX (firstCol cornerState.A) 0 a = 0 := by
          interval_cases a <;>
          simp [bestVec, cornerX, cornerState, cornerDraw, firstCol, sliceSum, restEntry, order, boxSum, at_, ravel, Finset.sum_range_succ, show (Finset.range 2).erase 0 = {1} by decide]
        rw [this]; simp
      · rw [h']; rfl
    · rw [h]; rfl
  unfold NCP.main
  rw [show cornerX.order = 2 from rfl, key]; rfl

/-- Positive entries are needed: on a nonnegative tensor all else may hold and the first step divides by zero. -/
theorem C154_positive_needed {topSv : Tensor ℝ → Res ℝ} (ht : TopSvOk topSv) (args : Args ℝ) (steps : Int) (h1 : 1 ≤ steps)
    (self : Self (List (Tensor ℝ)) (Tensor ℝ) (Tensor ℝ)) :
    ∃ (X : Tensor ℝ) (draws : List (Tensor ℝ)) (s0 : State), X.order = 2 ∧ (∀ d ∈ X.shape, 0 < d) ∧ Nonneg X ∧ (∃ i, InB X.shape i ∧ 0 < X.at_ i) ∧
      FactorsFor X.shape 1 draws ∧ (∀ M ∈ draws, ∃ a < M.shape.getD 0 0, 0 < M.at_ [a, 0]) ∧ bcu.init X X.order draws = .ok s0 ∧
      (train (exactArith ℝ) (NCP.cls topSv X 1) args steps (.ok s0) self).2.2 = .error .nonFinite := by
  refine ⟨cornerX, [cornerDraw, cornerDraw], cornerState, rfl, by decide, by simp [Nonneg, cornerX],
    ⟨[1, 1], by simp [InB, cornerX], by simp [cornerX, at_, ravel]⟩, rfl, ?_, corner_init, ?_⟩
  · intro M hM
    simp only [List.mem_cons, List.not_mem_nil, or_false, or_self] at hM
    subst hM
    exact ⟨0, by decide, by simp [cornerDraw, at_, ravel]⟩
  · obtain ⟨n, hn⟩ : ∃ n, steps.toNat = n + 1 := ⟨steps.toNat - 1, by omega⟩
    unfold train
    rw [hn]
    have hr : ∃ b, reported args steps 1 = .ok b := by
      unfold reported; split_ifs <;> simp_all
    obtain ⟨b, hr⟩ := hr
    simp only [loop, body, coreRun, mainRun, hr, NCP.cls, NCP_BCU.cls, corner_main ht]
end TD.Props
