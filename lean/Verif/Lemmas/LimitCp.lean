import Verif.Lemmas.LimitBcu
import Verif.Lemmas.Cp
import Verif.Lemmas.SpecialTucker

/-! # The graphs of CP_ALS, HOSVD and HOOI tend to the exact ones -/
namespace TD
open Tensor fl Spec sp Num Filter Topology
variable {F : ℕ → Fmt}

namespace Lim

theorem tends_max {x x' : ∀ j, Num (F j)} {y y' : ℝ} (h : Tends x y) (h' : Tends x' y') :
    Tends (fun j => maximum (x j) (x' j)) (max y y') := by
  have hv := h.2.max h'.2
  refine tends_of hv ?_
  filter_upwards [h.fin, h'.fin] with j ⟨a, e⟩ ⟨b, e'⟩
  unfold maximum
  have hl : (x j).lt (x' j) = decide (real (x j) < real (x' j)) := by
    conv_lhs => rw [e, e', lt_fin]
  rw [hl]
  by_cases hn : real (x j) < real (x' j)
  · rw [if_pos (by simpa using hn)]
    simp only [max_eq_right hn.le]
    exact ⟨b, e'⟩
  · rw [if_neg (by simpa using hn)]
    simp only [max_eq_left (not_lt.1 hn)]
    exact ⟨a, e⟩

theorem maximum_inf {F : Fmt} {x : Num F} (h : x.Finite) : maximum (.inf true) x = x := by
  obtain ⟨v, hv, rfl⟩ := finite_elim h
  unfold maximum
  rw [if_pos]
  simp [Num.lt, Num.val, EReal.bot_lt_coe]

theorem tends_foldl_max {x : ∀ j, Nat → Num (F j)} {y : Nat → ℝ} : ∀ (l : List Nat) (a : ∀ j, Num (F j)) (b : ℝ), Tends a b →
    (∀ i ∈ l, Tends (fun j => x j i) (y i)) →
    Tends (fun j => l.foldl (fun acc i => maximum acc (x j i)) (a j)) (l.foldl (fun acc i => max acc (y i)) b)
  | [], _, _, h, _ => h
  | i :: l, _, _, h, hl => tends_foldl_max l _ _ (tends_max h (hl i (by simp))) fun k hk => hl k (by simp [hk])

theorem reduceMax0 {A : ∀ j, Tensor (Num (F j))} {B : Tensor ℝ} (h : TendsT A B) :
    TendsR TendsT (fun j => sp.reduceMax0 (A j)) (tf.reduceMax0 B) := by
  unfold sp.reduceMax0 tf.reduceMax0
  simp only [h.1]
  rcases hs : B.shape with _ | ⟨m, _ | ⟨n, _ | ⟨p, q⟩⟩⟩
  · exact TendsR.error
  · exact TendsR.error
  · cases m with
    | zero => exact TendsR.error
    | succ m =>
        refine TendsR.ok (tendsT_ofFn _ fun idx hi => ?_)
        obtain ⟨k, rfl, hk⟩ : ∃ k, idx = [k] ∧ k < n := by
          match idx, hi with
          | [], hi => simp at hi
          | [k], hi => exact ⟨k, rfl, by simpa using hi⟩
          | _ :: _ :: _, hi => simp at hi
        have hE : ∀ i < m + 1, Tends (fun j => (A j).at_ [i, k]) (B.at_ [i, k]) := fun i hi =>
          h.2 _ (by rw [hs]; exact InB_pair.2 ⟨i, k, rfl, hi, hk⟩)
        simp only [List.range_succ_eq_map, List.foldl_cons, List.foldl_map]
        refine tends_foldl_max (x := fun j i => (A j).at_ [i + 1, k]) (y := fun i => B.at_ [i + 1, k]) _ _ _ ?_ fun i hi => ?_
        · exact (hE 0 (by omega)).congr ((hE 0 (by omega)).1.mono fun j hj => (maximum_inf hj).symm)
        · exact hE (i + 1) (by have := List.mem_range.1 hi; omega)
  · exact TendsR.error

theorem div (hF : Refining F) {A A' : ∀ j, Tensor (Num (F j))} {B B' : Tensor ℝ} (h : TendsT A B) (h' : TendsT A' B') :
    TendsR TendsT (fun j => tf.ewise (· / ·) (A j) (A' j)) (tf.div B B') := by
  unfold tf.div
  split
  · exact TendsR.error
  · rename_i h0
    exact tendsT_ewise (f := fun _ => (· / ·)) h h' fun _ _ hi hi' => tends_div hF (h.2 _ hi) (h'.2 _ hi') (cp.at_ne_zero h0 hi')

section
variable {pinvs : ∀ j, Tensor (Num (F j)) → Res (Tensor (Num (F j)))} {pinv : Tensor ℝ → Res (Tensor ℝ)}
  {A : ∀ j, List (Tensor (Num (F j)))} {B : List (Tensor ℝ)} {X : ∀ j, Tensor (Num (F j))} {X0 : Tensor ℝ}

theorem cp_mode (hF : Refining F) (hp : PinvTends pinvs pinv) (hX : TendsT X X0) (R : Nat) (h : TendsL A B) (n : Nat) :
    TendsR (fun (a : ∀ j, cp.Upd (Num (F j))) (b : cp.Upd ℝ) => TendsL (fun j => (a j).A) b.A ∧ TendsT (fun j => (a j).lam) b.lam)
      (fun j => sp.CP.modeUpdate (pinvs j) (X j) R (A j) n) (cp.modeUpdate pinv X0 R B n) := by
  unfold sp.CP.modeUpdate cp.modeUpdate
  simp only [hX.1]
  refine TendsR.bind (unfold hX n) fun M M0 hM => ?_
  refine TendsR.bind (mapM_list (f := fun j a => tf.matmul a a true false) h fun a b hab => matmul hF hab hab _ _) fun AtA AtA0 hAtA => ?_
  refine TendsR.bind (khatri hF h _ _) fun K K0 hK => ?_
  refine TendsR.bind (matmul hF hM hK _ _) fun XA XA0 hXA => ?_
  refine TendsR.bind (hadamard hF hAtA _) fun V V0 hV => ?_
  refine TendsR.bind (hp _ _ hV) fun P P0 hP => ?_
  refine TendsR.bind (matmul hF hXA hP _ _) fun N N0 hN => ?_
  refine TendsR.bind (reshape hN _) fun N' N0' hN' => ?_
  refine TendsR.bind (reduceMax0 hN') fun l l0 hl => ?_
  refine TendsR.bind (div hF hN hl) fun v v0 hv => ?_
  refine TendsR.bind (assign h n hv) fun A A0 hA => ?_
  exact TendsR.ok ⟨hA, hl⟩

theorem cp_sweep (hF : Refining F) (hp : PinvTends pinvs pinv) (hX : TendsT X X0) (R : Nat) (h : TendsL A B) :
    TendsR (fun (a : ∀ j, List (Tensor (Num (F j))) × Tensor (Num (F j))) (b : List (Tensor ℝ) × Tensor ℝ) =>
        TendsL (fun j => (a j).1) b.1 ∧ TendsT (fun j => (a j).2) b.2)
      (fun j => sp.CP.sweep (pinvs j) (X j) R (A j)) (cp.sweep pinv X0 R B) := by
  unfold sp.CP.sweep cp.sweep
  simp only [order_eq hX]
  refine TendsR.bind (foldlM (P := fun (a : ∀ j, List (Tensor (Num (F j))) × Option (Tensor (Num (F j)))) (b : List (Tensor ℝ) × Option (Tensor ℝ)) =>
      TendsL (fun j => (a j).1) b.1 ∧ TendsOpt TendsT (fun j => (a j).2) b.2)
    (f := fun j st mode => (sp.CP.modeUpdate (pinvs j) (X j) R st.1 mode >>= fun u => pure (u.A, some u.lam)))
    (fun n a b hab => ?_) _ (a := fun j => (A j, none)) (b := (B, none)) ⟨h, fun _ => rfl⟩) fun a b hab => ?_
  · refine TendsR.bind (cp_mode hF hp hX R hab.1 n) fun u u0 hu => ?_
    exact TendsR.ok ⟨hu.1, _, fun _ => rfl, hu.2⟩
  · obtain ⟨B', o⟩ := b
    cases o with
    | none => exact TendsR.error
    | some lam =>
        obtain ⟨h1, l, h2, h3⟩ := hab
        simp only [h2]
        exact TendsR.ok ⟨h1, h3⟩

theorem cp_main (hF : Refining F) (hp : PinvTends pinvs pinv) (hX : TendsT X X0) (hz : Zeros X X0) (R : Nat) (h : TendsL A B) :
    TendsR (fun x y => TendsL (fun j => (x j).1) y.1 ∧ Ou (fun j => (x j).2) y.2)
      (fun j => sp.CP.main (pinvs j) (X j) R (A j)) (cp.main pinv X0 R B) := by
  unfold sp.CP.main cp.main
  refine TendsR.bind (cp_sweep hF hp hX R h) fun a b hab => ?_
  refine TendsR.bind (cp_full hF hab.1 hab.2) fun Y Y0 hY => ?_
  refine TendsR.bind (scalars hF hX hz hY) fun s s0 hs => ?_
  exact TendsR.ok ⟨hab.1, hab.1, ⟨_, fun _ => rfl, hab.2⟩, hY, hs.1, hs.2.1, hs.2.2⟩

/-! ### HOSVD and HOOI -/

variable {svds : ∀ j, Svd (F j)} {svd : Tensor ℝ → Res (Tensor ℝ × Tensor ℝ × Tensor ℝ)}

theorem firstCols {U : ∀ j, Tensor (Num (F j))} {U0 : Tensor ℝ} (h : TendsT U U0) (r : Nat) :
    TendsR TendsT (fun j => tucker.firstCols (U j) r) (tucker.firstCols U0 r) := by
  unfold tucker.firstCols
  simp only [h.1]
  split
  · rename_i m p hs
    exact TendsR.ok (tendsT_mat _ _ fun a ha b hb => h.2 _ (by
      rw [hs]; exact InB_pair.2 ⟨a, b, rfl, ha, lt_of_lt_of_le hb (min_le_right _ _)⟩))
  · exact TendsR.error

theorem leading (hs : SvdTends svds svd) (hX : TendsT X X0) (ranks : List Nat) (n : Nat) :
    TendsR TendsT (fun j => tucker.leading (svds j) (X j) ranks n) (tucker.leading svd X0 ranks n) := by
  unfold tucker.leading
  refine TendsR.bind (unfold hX n) fun M M0 hM => ?_
  refine TendsR.bind (hs _ _ hM) fun u u0 hu => ?_
  cases hr : tucker.rankAt ranks n with
  | error e => exact TendsR.error
  | ok r => exact firstCols hu r

theorem hosvd_run (hF : Refining F) (hs : SvdTends svds svd) (hX : TendsT X X0) (ranks : List Nat) :
    TendsR (fun (a : ∀ j, List (Tensor (Num (F j))) × Tensor (Num (F j)) × Tensor (Num (F j))) (b : List (Tensor ℝ) × Tensor ℝ × Tensor ℝ) =>
        TendsL (fun j => (a j).1) b.1 ∧ TendsT (fun j => (a j).2.1) b.2.1 ∧ TendsT (fun j => (a j).2.2) b.2.2)
      (fun j => sp.HOSVD.run (svds j) (X j) ranks) (tucker.HOSVD.run svd X0 ranks) := by
  unfold sp.HOSVD.run tucker.HOSVD.run
  simp only [order_eq hX]
  refine TendsR.bind (mapM_range (f := fun j n => tucker.leading (svds j) (X j) ranks n) _ fun n => leading hs hX ranks n) fun A A0 hA => ?_
  refine TendsR.bind (ttm hF hX hA _ _ _) fun g g0 hg => ?_
  refine TendsR.bind (tucker_full hF hg hA) fun Y Y0 hY => ?_
  exact TendsR.ok ⟨hA, hg, hY⟩

theorem hooi_init (hs : SvdTends svds svd) (hX : TendsT X X0) (ranks : List Nat) :
    TendsR TendsL (fun j => tucker.HOOI.init (svds j) (X j) ranks) (tucker.HOOI.init svd X0 ranks) := by
  unfold tucker.HOOI.init
  simp only [order_eq hX, hX.1]
  refine mapM_range (f := fun j n => (tucker.leading (svds j) (X j) ranks n >>= fun v => tucker.rankAt ranks n >>= fun r =>
    if v.shape = [X0.shape.getD n 0, r] then .ok v else .error .invalidArgument)) _ fun n => ?_
  refine TendsR.bind (leading hs hX ranks n) fun v v0 hv => ?_
  cases hr : tucker.rankAt ranks n with
  | error e => exact TendsR.error
  | ok r =>
      simp only [ok_bind, hv.1]
      split
      · exact TendsR.ok hv
      · exact TendsR.error

theorem hooi_mode (hF : Refining F) (hs : SvdTends svds svd) (hX : TendsT X X0) (ranks : List Nat) (h : TendsL A B) (n : Nat) :
    TendsR TendsL (fun j => sp.HOOI.modeUpdate (svds j) (X j) ranks (A j) n) (tucker.HOOI.modeUpdate svd X0 ranks B n) := by
  unfold sp.HOOI.modeUpdate tucker.HOOI.modeUpdate
  refine TendsR.bind (ttm hF hX h _ _ _) fun Y Y0 hY => ?_
  refine TendsR.bind (leading hs hY ranks n) fun v v0 hv => ?_
  exact assign h n hv

theorem hooi_main (hF : Refining F) (hs : SvdTends svds svd) (hX : TendsT X X0) (hz : Zeros X X0) (ranks : List Nat) (h : TendsL A B) :
    TendsR (fun x y => TendsL (fun j => (x j).1) y.1 ∧ Ou (fun j => (x j).2) y.2)
      (fun j => sp.HOOI.main (svds j) (X j) ranks (A j)) (tucker.HOOI.main svd X0 ranks B) := by
  unfold sp.HOOI.main tucker.HOOI.main tucker.HOOI.sweep
  simp only [order_eq hX]
  refine TendsR.bind (foldlM (f := fun j => sp.HOOI.modeUpdate (svds j) (X j) ranks) (fun n a b hab => hooi_mode hF hs hX ranks hab n) _ h)
    fun A B h => ?_
  refine TendsR.bind (ttm hF hX h _ _ _) fun g g0 hg => ?_
  refine TendsR.bind (tucker_full hF hg h) fun Y Y0 hY => ?_
  refine TendsR.bind (scalars hF hX hz hY) fun s s0 hs => ?_
  exact TendsR.ok ⟨h, h, ⟨_, fun _ => rfl, hg⟩, hY, hs.1, hs.2.1, hs.2.2⟩

end
end Lim
end TD
