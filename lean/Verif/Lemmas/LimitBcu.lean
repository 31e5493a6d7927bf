import Verif.Lemmas.LimitOps

/-! # The graphs of the nonnegative models tend to the exact ones -/
namespace TD
open Tensor fl Spec sp Num Filter Topology
variable {F : ℕ → Fmt}

theorem _root_.TD.Spec.TendsR.left {X' : ℕ → Type} {Y Y' : Type} {Q : (∀ j, X' j) → Y' → Prop} {x : ∀ j, Res (X' j)} {y : Res Y}
    {g : Y → Res Y'} (h : ∀ b, y = .ok b → TendsR Q x (g b)) : TendsR Q x (y >>= g) := by
  cases hy : y with
  | error e => exact TendsR.error
  | ok b => exact h b hy

namespace Lim

theorem tends_relu {x : ∀ j, Num (F j)} {y : ℝ} (h : Tends x y) : Tends (fun j => relu1 (x j)) (max y 0) := by
  have hv : Tendsto (fun j => max (real (x j)) 0) atTop (𝓝 (max y 0)) := h.2.max tendsto_const_nhds
  refine tends_of hv ?_
  filter_upwards [h.fin] with j ⟨a, e⟩
  unfold relu1
  have hl : (x j).lt 0 = decide (real (x j) < 0) := by
    conv_lhs => rw [e, zero_def, lt_fin]
  rw [hl]
  by_cases hn : real (x j) < 0
  · rw [if_pos (by simpa using hn)]
    simp only [max_eq_right hn.le]
    exact ⟨⟨(F j).arith.rnd_zero, by rw [abs_zero]; exact zero_le_one.trans (F j).one_le_big⟩, zero_def⟩
  · rw [if_neg (by simpa using hn)]
    simp only [max_eq_left (not_lt.1 hn)]
    exact ⟨a, e⟩

theorem tends_min {x x' : ∀ j, Num (F j)} {y y' : ℝ} (h : Tends x y) (h' : Tends x' y') :
    Tends (fun j => minimum (x j) (x' j)) (min y y') := by
  have hv := h.2.min h'.2
  refine tends_of hv ?_
  filter_upwards [h.fin, h'.fin] with j ⟨a, e⟩ ⟨b, e'⟩
  unfold minimum
  have hl : (x' j).lt (x j) = decide (real (x' j) < real (x j)) := by
    conv_lhs => rw [e, e', lt_fin]
  rw [hl]
  by_cases hn : real (x' j) < real (x j)
  · rw [if_pos (by simpa using hn)]
    simp only [min_eq_right hn.le]
    exact ⟨b, e'⟩
  · rw [if_neg (by simpa using hn)]
    simp only [min_eq_left (not_lt.1 hn)]
    exact ⟨a, e⟩

theorem tends_root (hF : Refining F) {x : ∀ j, Num (F j)} {y : ℝ} (p : Nat) (h : Tends x y)
    (hn : ∀ᶠ j in atTop, 0 ≤ real (x j)) : Tends (fun j => root p (x j)) (Real.rpow y (1 / (p : ℝ))) := by
  have hc : Tendsto (fun j => Real.rpow (real (x j)) (1 / (p : ℝ))) atTop (𝓝 (Real.rpow y (1 / (p : ℝ)))) :=
    (Real.continuousAt_rpow_const y (1 / (p : ℝ)) (.inr (by positivity))).tendsto.comp h.2
  refine (tends_round hF hc).congr ?_
  filter_upwards [h.fin, hn] with j ⟨a, e⟩ hj
  rw [e]
  show _ = if _ then _ else _
  rw [if_neg (not_lt.2 hj)]
  rfl

theorem relu_tends {A : ∀ j, Tensor (Num (F j))} {B : Tensor ℝ} (h : TendsT A B) :
    TendsT (fun j => sp.relu (A j)) (bcu.relu B) :=
  tendsT_map (f := fun _ => relu1) h fun i hi => tends_relu (h.2 i hi)

theorem nn_norm {F : Fmt} (A : Tensor (Num F)) : NN (sp.norm A) := nn_sqrt _

theorem proxStep (hF : Refining F) {m G : ∀ j, Tensor (Num (F j))} {m0 G0 : Tensor ℝ} {l : ∀ j, Num (F j)} {l0 : ℝ}
    (hm : TendsT m m0) (hG : TendsT G G0) (hl : Tends l l0) :
    TendsR TendsT (fun j => sp.proxStep (m j) (G j) (l j)) (bcu.proxStep m0 G0 l0) := by
  unfold bcu.proxStep sp.proxStep
  split
  · exact TendsR.error
  · rename_i h0
    refine TendsR.bind (ewise_sub hF hm (tendsT_map (f := fun j => (· / l j)) hG fun i hi => tends_div hF (hG.2 i hi) hl h0))
      fun a b hab => TendsR.ok (relu_tends hab)

theorem normInit (hF : Refining F) {X v : ∀ j, Tensor (Num (F j))} {X0 v0 w : Tensor ℝ} {p : Nat} (hX : TendsT X X0)
    (hv : TendsT v v0) (hw : bcu.normInit X0 p v0 = .ok w) : TendsT (fun j => sp.normInit (X j) p (v j)) w := by
  unfold bcu.normInit at hw
  by_cases h0 : tf.norm v0 = 0
  · rw [if_pos h0] at hw; cases hw
  · rw [if_neg h0] at hw
    cases hw
    refine tendsT_map (f := fun j x => x / sp.norm (v j) * root p (sp.norm (X j))) hv fun i hi => ?_
    exact tends_mul hF (tends_div hF (hv.2 i hi) (norm hF hv) h0)
      (tends_root hF p (norm hF hX) (Eventually.of_forall fun j => real_nonneg (nn_norm _)))

/-- Sequences of variables that tend to the variables of the exact run. -/
structure St (a : ∀ j, sp.State (F j)) (b : bcu.State) : Prop where
  A : TendsL (fun j => (a j).A) b.A
  A0 : TendsL (fun j => (a j).A0) b.A0
  Am : TendsL (fun j => (a j).Am) b.Am
  L : ∀ k, Tends (fun j => (a j).L k) (b.L k)
  L0 : ∀ k, Tends (fun j => (a j).L0 k) (b.L0 k)
  wA : ∀ k, Tends (fun j => (a j).wA k) (b.wA k)
  t : Tends (fun j => (a j).t) b.t
  t0 : Tends (fun j => (a j).t0) b.t0
  nL : ∀ k, ∀ᶠ j in atTop, NN ((a j).L k)
  nL0 : ∀ k, ∀ᶠ j in atTop, NN ((a j).L0 k)

theorem tends_update {f : ∀ j, Nat → Num (F j)} {g : Nat → ℝ} {x : ∀ j, Num (F j)} {y : ℝ} (h : ∀ k, Tends (fun j => f j k) (g k))
    (hx : Tends x y) (m k : Nat) : Tends (fun j => Function.update (f j) m (x j) k) (Function.update g m y k) := by
  by_cases e : k = m
  · subst e; simpa using hx
  · simp only [Function.update_of_ne e]; exact h k

theorem nn_update {f : ∀ j, Nat → Num (F j)} {x : ∀ j, Num (F j)} (h : ∀ k, ∀ᶠ j in atTop, NN (f j k))
    (hx : ∀ᶠ j in atTop, NN (x j)) (m k : Nat) : ∀ᶠ j in atTop, NN (Function.update (f j) m (x j) k) := by
  by_cases e : k = m
  · subst e; simpa using hx
  · simp only [Function.update_of_ne e]; exact h k

theorem getVar {A : ∀ j, List (Tensor (Num (F j)))} {B : List (Tensor ℝ)} (h : TendsL A B) (k : Nat) :
    TendsR TendsT (fun j => sp.getVar (A j) k) (bcu.getVar B k) := by
  unfold sp.getVar bcu.getVar
  rcases tendsL_get h k with ⟨a, b, h1, h2, h3⟩ | ⟨h1, h2⟩
  · simp only [h1, h2]; exact TendsR.ok h3
  · simp only [h2]; exact TendsR.error

theorem init (hF : Refining F) {X : ∀ j, Tensor (Num (F j))} {X0 : Tensor ℝ} (hX : TendsT X X0) {p : Nat}
    {D : ∀ j, List (Tensor (Num (F j)))} {D0 : List (Tensor ℝ)} (hD : TendsL D D0) {b : bcu.State} (hb : bcu.init X0 p D0 = .ok b) :
    St (fun j => sp.init (X j) p (D j)) b := by
  unfold bcu.init at hb
  cases hm : D0.mapM fun d => bcu.normInit X0 p (bcu.relu d) with
  | error e => rw [hm] at hb; cases hb
  | ok B =>
      rw [hm, ok_bind] at hb
      cases hb
      have h : TendsL (fun j => (D j).map fun d => sp.normInit (X j) p (sp.relu d)) B := by
        obtain ⟨L, hD, rfl, hL⟩ := hD
        simp only [hD]
        clear hD
        induction L generalizing B with
        | nil => cases hm; exact tendsL_nil
        | cons q L ih =>
            simp only [List.map_cons, List.mapM_cons] at hm ⊢
            cases h1 : bcu.normInit X0 p (bcu.relu q.2) with
            | error e => rw [h1] at hm; cases hm
            | ok w =>
                rw [h1, ok_bind] at hm
                cases h2 : (L.map fun q => q.2).mapM fun d => bcu.normInit X0 p (bcu.relu d) with
                | error e => rw [h2] at hm; cases hm
                | ok B' =>
                    rw [h2, ok_bind] at hm
                    cases hm
                    exact tendsL_cons (normInit hF hX (relu_tends (hL q (by simp))) h1) (ih B' (fun r hr => hL r (by simp [hr])) h2)
      exact ⟨h, h, h, fun _ => tends_one, fun _ => tends_one, fun _ => tends_one, tends_one, tends_one,
        fun _ => Eventually.of_forall fun _ => nn_one, fun _ => Eventually.of_forall fun _ => nn_one⟩

section
variable {svs : ∀ j, Tensor (Num (F j)) → Res (Num (F j))} {sv : Tensor ℝ → Res ℝ} {a : ∀ j, sp.State (F j)} {b : bcu.State}

theorem factorStep (hF : Refining F) (hsv : SvTends svs sv) (h : St a b) (mode : Nat) {V XA : ∀ j, Tensor (Num (F j))}
    {V0 XA0 : Tensor ℝ} (hV : TendsT V V0) (hXA : TendsT XA XA0) :
    TendsR St (fun j => sp.factorStep (svs j) (a j) mode (V j) (XA j)) (bcu.factorStep sv b mode V0 XA0) := by
  unfold sp.factorStep bcu.factorStep
  refine TendsR.bind (hsv _ _ hV) fun l l0 hl => ?_
  refine TendsR.bind (getVar h.Am mode) fun m m0 hm => ?_
  refine TendsR.bind (matmul hF hm hV _ _) fun mV mV0 hmV => ?_
  refine TendsR.bind (ewise_sub hF hmV hXA) fun G G0 hG => ?_
  refine TendsR.bind (proxStep hF hm hG hl.1) fun v v0 hv => ?_
  refine TendsR.bind (assign h.A mode hv) fun A A0 hA => ?_
  exact TendsR.ok ⟨hA, h.A0, h.Am, tends_update h.L hl.1 mode, tends_update h.L0 (h.L mode) mode, h.wA, h.t, h.t0,
    nn_update h.nL hl.2 mode, nn_update h.nL0 (h.nL mode) mode⟩

theorem tUpdate (hF : Refining F) (h : St a b) : St (fun j => sp.tUpdate (a j)) (bcu.tUpdate b) := by
  refine ⟨h.A, h.A0, h.Am, h.L, h.L0, h.wA, ?_, h.t0, h.nL, h.nL0⟩
  show Tends (fun j => (1 + (1 + const (F j) 4 * ((a j).t0 * (a j).t0)).sqrt) / const (F j) 2) ((1 + Real.sqrt (1 + 4 * b.t0 ^ 2)) / 2)
  refine tends_div hF (tends_add hF tends_one (tends_sqrt hF (tends_add hF tends_one (tends_mul hF (tends_const hF 4) ?_)) ?_))
    (tends_const hF 2) two_ne_zero
  · rw [pow_two]; exact tends_mul hF h.t0 h.t0
  · exact Eventually.of_forall fun j => real_nonneg (nn_add nn_one (nn_mul (nn_round (by norm_num)) (nn_square _)))

theorem weight (hF : Refining F) (h : St a b) {w : ℝ} (hw : bcu.weight b = .ok w) : Tends (fun j => sp.weight (a j)) w := by
  unfold bcu.weight loss.fdiv at hw
  by_cases h0 : b.t = 0
  · rw [if_pos h0] at hw; cases hw
  · rw [if_neg h0] at hw
    cases hw
    exact tends_div hF (tends_sub hF h.t0 tends_one) h.t h0

theorem cappedWeight (hF : Refining F) (h : St a b) {w : ∀ j, Num (F j)} {w0 : ℝ} (hw : Tends w w0) {k : Nat} {r : ℝ}
    (hr : bcu.cappedWeight b w0 k = .ok r) : Tends (fun j => sp.cappedWeight (a j) (w j) k) r := by
  unfold bcu.cappedWeight loss.fdiv loss.fsqrt at hr
  by_cases h0 : b.L k = 0
  · rw [if_pos h0] at hr; cases hr
  · rw [if_neg h0] at hr
    cases hr
    refine tends_min hw (tends_sqrt hF (tends_div hF (h.L0 k) (h.L k) h0) ?_)
    filter_upwards [h.nL0 k, h.nL k] with j h1 h2
    exact real_nonneg (nn_div h1 h2)

theorem extrapolate (hF : Refining F) {w : ∀ j, Num (F j)} {w0 : ℝ} (hw : Tends w w0) {v v' : ∀ j, Tensor (Num (F j))}
    {v0 v0' : Tensor ℝ} (hv : TendsT v v0) (hv' : TendsT v' v0') :
    TendsR TendsT (fun j => sp.extrapolate (w j) (v j) (v' j)) (bcu.extrapolate w0 v0 v0') := by
  unfold sp.extrapolate bcu.extrapolate
  refine TendsR.bind (ewise_sub hF hv hv') fun d d0 hd => ?_
  exact ewise_add hF hv (tendsT_map (f := fun j => (w j * ·)) hd fun i hi => tends_mul hF hw (hd.2 i hi))

theorem extrapolateMode (hF : Refining F) (h : St a b) {w : ∀ j, Num (F j)} {w0 : ℝ} (hw : Tends w w0) (k : Nat) :
    TendsR St (fun j => sp.extrapolateMode (w j) (a j) k) (bcu.extrapolateMode w0 b k) := by
  unfold sp.extrapolateMode bcu.extrapolateMode
  refine TendsR.left fun wk hwk => ?_
  have hwk := cappedWeight hF h hw hwk
  refine TendsR.bind (getVar h.A k) fun x x0 hx => ?_
  refine TendsR.bind (getVar h.A0 k) fun y y0 hy => ?_
  refine TendsR.bind (extrapolate hF hwk hx hy) fun m m0 hm => ?_
  refine TendsR.bind (assign h.Am k hm) fun Am Am0 hAm => ?_
  refine TendsR.bind (assign h.A0 k hx) fun A0 A00 hA0 => ?_
  exact TendsR.ok ⟨h.A, hA0, hAm, h.L, h.L0, tends_update h.wA hwk k, h.t, h.t0, h.nL, h.nL0⟩

theorem ncp_op1 (hF : Refining F) (h : St a b) (n : Nat) : TendsR St (fun j => sp.NCP.op1 n (a j)) (bcu.NCP.op1 n b) := by
  unfold sp.NCP.op1 bcu.NCP.op1
  refine TendsR.left fun w hw => ?_
  refine TendsR.bind (foldlM (f := fun j => sp.extrapolateMode (sp.weight (a j)))
    (fun k a b hab => extrapolateMode hF hab (weight hF h hw) k) (List.range n) h) fun a b h => ?_
  exact TendsR.ok ⟨h.A, h.A0, h.Am, h.L, h.L0, h.wA, h.t, h.t, h.nL, h.nL0⟩

theorem ncp_op2 (h : St a b) : TendsR St (fun j => sp.NCP.op2 (a j)) (bcu.NCP.op2 b) :=
  TendsR.ok ⟨h.A, h.A0, h.A0, h.L, h.L0, h.wA, h.t, h.t0, h.nL, h.nL0⟩

theorem ncp_mode (hF : Refining F) (hsv : SvTends svs sv) {X : ∀ j, Tensor (Num (F j))} {X0 : Tensor ℝ} (hX : TendsT X X0)
    (h : St a b) (n : Nat) : TendsR St (fun j => sp.NCP.modeUpdate (svs j) (X j) (a j) n) (bcu.NCP.modeUpdate sv X0 b n) := by
  unfold sp.NCP.modeUpdate bcu.NCP.modeUpdate
  refine TendsR.bind (unfold hX n) fun M M0 hM => ?_
  refine TendsR.bind (mapM_list (f := fun j a => tf.matmul a a true false) h.A fun a b hab => matmul hF hab hab _ _) fun AtA AtA0 hAtA => ?_
  refine TendsR.bind (khatri hF h.A _ _) fun K K0 hK => ?_
  refine TendsR.bind (matmul hF hM hK _ _) fun XA XA0 hXA => ?_
  refine TendsR.bind (hadamard hF hAtA _) fun V V0 hV => ?_
  exact factorStep hF hsv h n hV hXA

/-- Values fetched by the main run that tend to those of the exact run. -/
structure Ou (a : ∀ j, fact.Out (List (Tensor (Num (F j)))) (Tensor (Num (F j))) (Tensor (Num (F j))) (Num (F j)))
    (b : fact.Out (List (Tensor ℝ)) (Tensor ℝ) (Tensor ℝ) ℝ) : Prop where
  factors : TendsL (fun j => (a j).factors) b.factors
  aux : TendsOpt TendsT (fun j => (a j).aux) b.aux
  full : TendsT (fun j => (a j).full) b.full
  loss : Tends (fun j => (a j).loss) b.loss
  obj : Tends (fun j => (a j).obj) b.obj
  rel : Tends (fun j => (a j).rel) b.rel

theorem order_eq {X : ∀ j, Tensor (Num (F j))} {X0 : Tensor ℝ} (hX : TendsT X X0) (j : ℕ) : (X j).order = X0.order := by
  unfold Tensor.order; rw [hX.1 j]

theorem ncp_main (hF : Refining F) (hsv : SvTends svs sv) {X : ∀ j, Tensor (Num (F j))} {X0 : Tensor ℝ} (hX : TendsT X X0)
    (hz : Zeros X X0) (h : St a b) :
    TendsR (fun x y => St (fun j => (x j).1) y.1 ∧ Ou (fun j => (x j).2) y.2)
      (fun j => sp.NCP.main (svs j) (X j) (a j)) (bcu.NCP.main sv X0 b) := by
  unfold sp.NCP.main bcu.NCP.main
  simp only [order_eq hX]
  refine TendsR.bind (foldlM (f := fun j => sp.NCP.modeUpdate (svs j) (X j)) (fun n a b hab => ncp_mode hF hsv hX hab n) _ h)
    fun a b h => ?_
  refine TendsR.bind (ncp_full hF h.A) fun Y Y0 hY => ?_
  refine TendsR.bind (scalars hF hX hz hY) fun s s0 hs => ?_
  exact TendsR.ok ⟨tUpdate hF h, h.A, fun _ => rfl, hY, hs.1, hs.2.1, hs.2.2⟩

/-! ### NTUCKER -/

/-- The variables of NTUCKER. -/
structure Tt (a : ∀ j, sp.TState (F j)) (b : bcu.TState) : Prop where
  st : St (fun j => (a j).toState) b.toState
  g : TendsT (fun j => (a j).g) b.g
  g0 : TendsT (fun j => (a j).g0) b.g0
  gm : TendsT (fun j => (a j).gm) b.gm

theorem assignCore {x y : ∀ j, Tensor (Num (F j))} {x0 y0 : Tensor ℝ} (hx : TendsT x x0) (hy : TendsT y y0) :
    TendsR TendsT (fun j => sp.assignCore (x j) (y j)) (bcu.assignCore x0 y0) := by
  unfold sp.assignCore bcu.assignCore
  simp only [hx.1, hy.1]
  split
  · exact TendsR.ok hy
  · exact TendsR.error

theorem ntucker_init (hF : Refining F) {X : ∀ j, Tensor (Num (F j))} {X0 : Tensor ℝ} (hX : TendsT X X0)
    {D : ∀ j, List (Tensor (Num (F j)))} {D0 : List (Tensor ℝ)} (hD : TendsL D D0) {G : ∀ j, Tensor (Num (F j))} {G0 : Tensor ℝ}
    (hG : TendsT G G0) {b : bcu.TState} (hb : bcu.NTUCKER.init X0 D0 G0 = .ok b) :
    Tt (fun j => sp.NTUCKER.init (X j) (D j) (G j)) b := by
  unfold bcu.NTUCKER.init at hb
  cases h1 : bcu.init X0 (X0.order + 1) D0 with
  | error e => rw [h1] at hb; cases hb
  | ok st =>
      rw [h1, ok_bind] at hb
      cases h2 : bcu.normInit X0 (X0.order + 1) (bcu.relu G0) with
      | error e => rw [h2] at hb; cases hb
      | ok g =>
          rw [h2, ok_bind] at hb
          cases hb
          have hg := normInit hF hX (relu_tends hG) h2
          have hs := init hF hX hD h1
          unfold sp.NTUCKER.init
          simp only [order_eq hX]
          exact ⟨hs, hg, hg, hg⟩

/-- The product of the values of a routine, step by step. -/
theorem foldl_mul (hF : Refining F) (hsv : SvTends svs sv) : ∀ (L : List ((∀ j, Tensor (Num (F j))) × Tensor ℝ)),
    (∀ p ∈ L, TendsT p.1 p.2) → TendsR (fun (a : ∀ j, List (Num (F j))) (b : List ℝ) => ∃ M : List ((∀ j, Num (F j)) × ℝ),
      (∀ j, a j = M.map fun p => p.1 j) ∧ b = (M.map fun p => p.2) ∧ ∀ p ∈ M, Tends p.1 p.2 ∧ ∀ᶠ j in atTop, NN (p.1 j))
      (fun j => (L.map fun p => p.1 j).mapM (svs j)) ((L.map fun p => p.2).mapM sv)
  | [], _ => TendsR.ok ⟨[], fun _ => rfl, rfl, by simp⟩
  | p :: L, h => by
      simp only [List.map_cons, List.mapM_cons]
      refine TendsR.bind (hsv _ _ (h p (by simp))) fun l l0 hl => ?_
      refine TendsR.bind (foldl_mul hF hsv L fun q hq => h q (by simp [hq])) fun a b hab => ?_
      obtain ⟨M, h1, h2, h3⟩ := hab
      refine TendsR.ok ⟨(l, l0) :: M, fun j => by simp only [h1, List.map_cons], by rw [h2]; rfl, ?_⟩
      rintro q (_ | ⟨_, hq⟩)
      · exact hl
      · exact h3 q hq

theorem maxSv (hF : Refining F) (hsv : SvTends svs sv) {A : ∀ j, List (Tensor (Num (F j)))} {B : List (Tensor ℝ)} (h : TendsL A B) :
    TendsR (fun a b => Tends a b ∧ ∀ᶠ j in atTop, NN (a j)) (fun j => ops.maxSingleValueMul (svs j) (A j)) (ops.maxSingleValueMul sv B) := by
  obtain ⟨L, hA, rfl, hL⟩ := h
  unfold ops.maxSingleValueMul
  simp only [hA, Par.skip_map]
  refine TendsR.bind (foldl_mul hF hsv _ fun p hp => hL p ?_) fun a b hab => ?_
  · rw [skip_eq_kept] at hp; exact kept_sub hp
  · obtain ⟨M, h1, rfl, h3⟩ := hab
    simp only [h1]
    cases M with
    | nil => exact TendsR.error
    | cons q M =>
        have key : ∀ (M : List ((∀ j, Num (F j)) × ℝ)) (x : ∀ j, Num (F j)) (y : ℝ), Tends x y → (∀ᶠ j in atTop, NN (x j)) →
            (∀ p ∈ M, Tends p.1 p.2 ∧ ∀ᶠ j in atTop, NN (p.1 j)) →
            TendsR (fun (a : ∀ j, Num (F j)) b => Tends a b ∧ ∀ᶠ j in atTop, NN (a j))
              (fun j => (M.map fun p => p.1 j).foldlM (fun a b => (Except.ok (a * b) : Res _)) (x j))
              ((M.map fun p => p.2).foldlM (fun a b => (Except.ok (a * b) : Res _)) y) := by
          intro M
          induction M with
          | nil => exact fun x y h h' _ => TendsR.ok ⟨h, h'⟩
          | cons r M ih =>
              intro x y h h' hM
              simp only [List.map_cons, List.foldlM_cons, ok_bind]
              refine ih _ _ (tends_mul hF h (hM r (by simp)).1) ?_ fun p hp => hM p (by simp [hp])
              filter_upwards [h', (hM r (by simp)).2] with j a b
              exact nn_mul a b
        exact key M q.1 q.2 (h3 q (by simp)).1 (h3 q (by simp)).2 fun p hp => h3 p (by simp [hp])

variable {c : ∀ j, sp.TState (F j)} {d : bcu.TState}

theorem ntucker_core (hF : Refining F) (hsv : SvTends svs sv) {X : ∀ j, Tensor (Num (F j))} {X0 : Tensor ℝ} (hX : TendsT X X0)
    (h : Tt c d) : TendsR (fun x y => Tt (fun j => (x j).1) y.1 ∧ TendsT (fun j => (x j).2) y.2)
      (fun j => sp.NTUCKER.core (svs j) (X j) (c j)) (bcu.NTUCKER.core sv X0 d) := by
  unfold sp.NTUCKER.core bcu.NTUCKER.core
  simp only [order_eq hX]
  refine TendsR.bind (mapM_list (f := fun j a => tf.matmul a a true false) h.st.A fun a b hab => matmul hF hab hab _ _) fun AtA AtA0 hAtA => ?_
  refine TendsR.bind (maxSv hF hsv hAtA) fun l l0 hl => ?_
  refine TendsR.bind (ttm hF h.gm hAtA _ _ _) fun B B0 hB => ?_
  refine TendsR.bind (assignCore h.g hB) fun B B0 hB => ?_
  refine TendsR.bind (ttm hF hX h.st.A _ _ _) fun XA XA0 hXA => ?_
  refine TendsR.bind (ewise_sub hF hB hXA) fun G G0 hG => ?_
  refine TendsR.bind (assignCore h.g hG) fun G G0 hG => ?_
  refine TendsR.bind (proxStep hF h.gm hG hl.1) fun v v0 hv => ?_
  refine TendsR.bind (assignCore h.g hv) fun g g0 hg => ?_
  refine TendsR.ok ⟨⟨⟨h.st.A, h.st.A0, h.st.Am, ?_, ?_, h.st.wA, h.st.t, h.st.t0, ?_, ?_⟩, hg, h.g0, h.gm⟩, hg⟩
  · exact tends_update h.st.L hl.1 X0.order
  · exact tends_update h.st.L0 (h.st.L _) X0.order
  · exact nn_update h.st.nL hl.2 X0.order
  · exact nn_update h.st.nL0 (h.st.nL _) X0.order

theorem ntucker_mode (hF : Refining F) (hsv : SvTends svs sv) {X g : ∀ j, Tensor (Num (F j))} {X0 g0 : Tensor ℝ} (hX : TendsT X X0)
    (hg : TendsT g g0) (h : St a b) (n : Nat) :
    TendsR St (fun j => sp.NTUCKER.modeUpdate (svs j) (X j) (g j) (a j) n) (bcu.NTUCKER.modeUpdate sv X0 g0 b n) := by
  unfold sp.NTUCKER.modeUpdate bcu.NTUCKER.modeUpdate
  refine TendsR.bind (unfold hX n) fun M M0 hM => ?_
  refine TendsR.bind (ttm hF hg h.A _ _ _) fun Y Y0 hY => ?_
  refine TendsR.bind (unfold hY n) fun B B0 hB => ?_
  refine TendsR.bind (matmul hF hM hB _ _) fun XB XB0 hXB => ?_
  refine TendsR.bind (matmul hF hB hB _ _) fun V V0 hV => ?_
  exact factorStep hF hsv h n hV hXB

theorem ntucker_main (hF : Refining F) (hsv : SvTends svs sv) {X : ∀ j, Tensor (Num (F j))} {X0 : Tensor ℝ} (hX : TendsT X X0)
    (hz : Zeros X X0) (h : Tt c d) :
    TendsR (fun x y => Tt (fun j => (x j).1) y.1 ∧ Ou (fun j => (x j).2) y.2)
      (fun j => sp.NTUCKER.main (svs j) (X j) (c j)) (bcu.NTUCKER.main sv X0 d) := by
  unfold sp.NTUCKER.main bcu.NTUCKER.main
  simp only [order_eq hX]
  refine TendsR.bind (foldlM (f := fun j => sp.NTUCKER.modeUpdate (svs j) (X j) (c j).g)
    (fun n a b hab => ntucker_mode hF hsv hX h.g hab n) _ h.st) fun a b hs => ?_
  refine TendsR.bind (tucker_full hF h.g hs.A) fun Y Y0 hY => ?_
  refine TendsR.bind (scalars hF hX hz hY) fun s s0 hs' => ?_
  exact TendsR.ok ⟨⟨tUpdate hF hs, h.g, h.g0, h.gm⟩, hs.A, fun _ => rfl, hY, hs'.1, hs'.2.1, hs'.2.2⟩

theorem ntucker_op1 (hF : Refining F) (h : Tt c d) (n : Nat) : TendsR Tt (fun j => sp.NTUCKER.op1 n (c j)) (bcu.NTUCKER.op1 n d) := by
  unfold sp.NTUCKER.op1 bcu.NTUCKER.op1
  refine TendsR.left fun w hw => ?_
  have hw := weight hF h.st hw
  refine TendsR.bind (foldlM (f := fun j => sp.extrapolateMode (sp.weight (c j).toState))
    (fun k a b hab => extrapolateMode hF hab hw k) (List.range n) h.st) fun a b hs => ?_
  refine TendsR.left fun wk hwk => ?_
  have hwk := cappedWeight hF hs hw hwk
  refine TendsR.bind (extrapolate hF hwk h.g h.g0) fun m m0 hm => ?_
  refine TendsR.bind (assignCore h.gm hm) fun gm gm0 hgm => ?_
  exact TendsR.ok ⟨⟨hs.A, hs.A0, hs.Am, hs.L, hs.L0, tends_update hs.wA hwk n, hs.t, hs.t, hs.nL, hs.nL0⟩, h.g, h.g, hgm⟩

theorem ntucker_op2 (h : Tt c d) : TendsR Tt (fun j => sp.NTUCKER.op2 (c j)) (bcu.NTUCKER.op2 d) :=
  TendsR.ok ⟨⟨h.st.A, h.st.A0, h.st.A0, h.st.L, h.st.L0, h.st.wA, h.st.t, h.st.t0, h.st.nL, h.st.nL0⟩, h.g, h.g0, h.g0⟩

end
end Lim
end TD
