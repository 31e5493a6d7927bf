import Verif.Lemmas.Limit
import Verif.Lemmas.Bcast
import Verif.Lemmas.Xcb
import Verif.Lemmas.SpecialBcu
import Verif.Model.SpecialTucker
import Verif.Model.SpecialCp

/-! # The operators on tensors tend to the exact ones -/
namespace TD
open Tensor fl Spec sp Num Filter Topology
variable {F : ℕ → Fmt}

namespace Lim

/-! ### Tensors and lists of tensors -/

theorem _root_.TD.Spec.TendsT.data {A : ∀ j, Tensor (Num (F j))} {B : Tensor ℝ} (h : TendsT A B) {k : ℕ} (hk : k < B.shape.prod) :
    Tends (fun j => (A j).data.getD k 0) (B.data.getD k 0) := by
  have := h.2 _ (unravel_inB hk)
  simp only [Tensor.at_, h.1, ravel_unravel hk] at this
  exact this

/-- One tensor of sequences for a sequence of tensors. -/
def pack (s : List Nat) (A : ∀ j, Tensor (Num (F j))) : Tensor (Sq F) :=
  ⟨s, (List.range s.prod).map fun k => (fun j => (A j).data.getD k 0 : Sq F), (List.length_map ..).trans List.length_range⟩

theorem pack_rel {A : ∀ j, Tensor (Num (F j))} {B : Tensor ℝ} (h : TendsT A B) (j : ℕ) :
    TRel (Rl F j) (pack B.shape A) B (A j) := by
  refine ⟨rfl, (h.1 j).symm, fun k => ?_⟩
  by_cases hk : k < B.shape.prod
  · have e : (pack B.shape A).data.getD k 0 = (fun j => (A j).data.getD k 0 : Sq F) := by
      show ((List.range B.shape.prod).map fun k => (fun j => (A j).data.getD k 0 : Sq F)).getD k 0 = _
      rw [List.getD_eq_getElem _ _ (by simpa using hk)]
      simp
    rw [e]
    exact ⟨h.data hk, rfl⟩
  · have e : (pack B.shape A).data.getD k 0 = 0 := List.getD_eq_default _ _ (by rw [(pack B.shape A).wf]; exact not_lt.1 hk)
    rw [e, List.getD_eq_default _ _ (by rw [B.wf]; exact not_lt.1 hk),
      List.getD_eq_default _ _ (by rw [(A j).wf, h.1 j]; exact not_lt.1 hk)]
    exact ⟨tends_zero, rfl⟩

theorem unpack {a : Tensor (Sq F)} {b : Tensor ℝ} {c : ∀ j, Tensor (Num (F j))} (h : ∀ j, TRel (Rl F j) a b (c j)) :
    TendsT c b := by
  refine ⟨fun j => (h j).2.1.symm.trans (h j).1, fun i _ => ?_⟩
  exact ((h 0).at_ i).1.congr (Eventually.of_forall fun j => ((h j).at_ i).2)

section
variable {X : ℕ → Type} {Y : Type} {X' : ℕ → Type} {Y' : Type}

theorem _root_.TD.Spec.TendsR.ok {P : (∀ j, X j) → Y → Prop} {a : ∀ j, X j} {b : Y} (h : P a b) :
    TendsR P (fun j => .ok (a j)) (.ok b) := by
  rintro _ ⟨⟩
  exact ⟨a, Eventually.of_forall fun _ => rfl, h⟩

theorem _root_.TD.Spec.TendsR.error {P : (∀ j, X j) → Y → Prop} {x : ∀ j, Res (X j)} {e : PyErr} : TendsR P x (.error e) := by
  rintro _ ⟨⟩

theorem _root_.TD.Spec.TendsR.congr {P : (∀ j, X j) → Y → Prop} {x x' : ∀ j, Res (X j)} {y : Res Y} (h : TendsR P x y)
    (e : ∀ᶠ j in atTop, x j = x' j) : TendsR P x' y := by
  intro b hb
  obtain ⟨a, ha, hP⟩ := h b hb
  refine ⟨a, ?_, hP⟩
  filter_upwards [ha, e] with j h1 h2
  rw [← h2, h1]

theorem _root_.TD.Spec.TendsR.bind_eq {P : (∀ j, X j) → Y → Prop} {Q : (∀ j, X' j) → Y' → Prop} {x : ∀ j, Res (X j)} {y : Res Y}
    {f : ∀ j, X j → Res (X' j)} {g : Y → Res Y'} (h : TendsR P x y)
    (K : ∀ a b, y = .ok b → P a b → TendsR Q (fun j => f j (a j)) (g b)) :
    TendsR Q (fun j => x j >>= f j) (y >>= g) := by
  cases hy : y with
  | error e => exact TendsR.error
  | ok b =>
      obtain ⟨a, ha, hP⟩ := h b hy
      refine TendsR.congr (K a b hy hP) (ha.mono fun j hj => ?_)
      rw [hj]; rfl

theorem _root_.TD.Spec.TendsR.bind {P : (∀ j, X j) → Y → Prop} {Q : (∀ j, X' j) → Y' → Prop} {x : ∀ j, Res (X j)} {y : Res Y}
    {f : ∀ j, X j → Res (X' j)} {g : Y → Res Y'} (h : TendsR P x y)
    (K : ∀ a b, P a b → TendsR Q (fun j => f j (a j)) (g b)) : TendsR Q (fun j => x j >>= f j) (y >>= g) :=
  h.bind_eq fun a b _ => K a b

theorem _root_.TD.Spec.TendsR.mono {P Q : (∀ j, X j) → Y → Prop} {x : ∀ j, Res (X j)} {y : Res Y} (h : TendsR P x y)
    (K : ∀ a b, P a b → Q a b) : TendsR Q x y := by
  intro b hb
  obtain ⟨a, ha, hP⟩ := h b hb
  exact ⟨a, ha, K a b hP⟩

end

theorem unpackR {x : Res (Tensor (Sq F))} {y : Res (Tensor ℝ)} {z : ∀ j, Res (Tensor (Num (F j)))}
    (h : ∀ j, RelR (TRel (Rl F j)) x y (z j)) : TendsR TendsT z y := by
  intro b hb
  have h1 : ∀ j, ∃ a c, x = .ok a ∧ z j = .ok c ∧ TRel (Rl F j) a b c := fun j => (h j).of_ok hb
  choose a c ha hc hr using h1
  refine ⟨c, Eventually.of_forall hc, unpack (a := a 0) fun j => ?_⟩
  have : a j = a 0 := by
    have := (ha j).symm.trans (ha 0)
    injection this
  rw [← this]; exact hr j

theorem unpackN {x : Res (Sq F)} {y : Res ℝ} {z : ∀ j, Res (Num (F j))}
    (h : ∀ j, RelR (Rl F j) x y (z j)) : TendsR Tends z y := by
  intro b hb
  have h1 : ∀ j, ∃ a c, x = .ok a ∧ z j = .ok c ∧ Rl F j a b c := fun j => (h j).of_ok hb
  choose a c ha hc hr using h1
  refine ⟨c, Eventually.of_forall hc, (hr 0).1.congr (Eventually.of_forall fun j => ?_)⟩
  have : a j = a 0 := by
    have := (ha j).symm.trans (ha 0)
    injection this
  rw [← this]; exact (hr j).2

/-- The lists of triples the lemmas on three runs speak about. -/
def trips (L : List ((∀ j, Tensor (Num (F j))) × Tensor ℝ)) (j : ℕ) : List (Tensor (Sq F) × Tensor ℝ × Tensor (Num (F j))) :=
  L.map fun p => (pack p.2.shape p.1, p.2, p.1 j)

theorem trips_rel {L : List ((∀ j, Tensor (Num (F j))) × Tensor ℝ)} (h : ∀ p ∈ L, TendsT p.1 p.2) (j : ℕ) :
    ∀ p ∈ trips L j, TRel (Rl F j) p.1 p.2.1 p.2.2 := by
  intro p hp
  obtain ⟨q, hq, rfl⟩ := List.mem_map.1 hp
  exact pack_rel (h q hq) j

theorem trips_maps (L : List ((∀ j, Tensor (Num (F j))) × Tensor ℝ)) (j : ℕ) :
    ((trips L j).map fun p => p.1) = (L.map fun p => pack p.2.shape p.1) ∧ ((trips L j).map fun p => p.2.1) = (L.map fun p => p.2) ∧
      ((trips L j).map fun p => p.2.2) = L.map fun p => p.1 j := by
  unfold trips
  simp [Function.comp_def]

theorem tendsT_ofFn (s : List Nat) {f : ∀ j, List Nat → Num (F j)} {g : List Nat → ℝ}
    (h : ∀ i, InB s i → Tends (fun j => f j i) (g i)) : TendsT (fun j => ofFn s (f j)) (ofFn s g) := by
  refine ⟨fun _ => rfl, fun i hi => ?_⟩
  have hi : InB s i := hi
  simp only [at_ofFn _ hi]
  exact h i hi

theorem tendsT_mat (m n : Nat) {f : ∀ j, Nat → Nat → Num (F j)} {g : Nat → Nat → ℝ}
    (h : ∀ a < m, ∀ b < n, Tends (fun j => f j a b) (g a b)) : TendsT (fun j => mat m n (f j)) (mat m n g) := by
  refine ⟨fun _ => rfl, fun i hi => ?_⟩
  obtain ⟨a, b, rfl, ha, hb⟩ := InB_pair.1 hi
  simp only [at_mat _ ha hb]
  exact h a ha b hb

theorem tendsT_map {A : ∀ j, Tensor (Num (F j))} {B : Tensor ℝ} (h : TendsT A B) {f : ∀ j, Num (F j) → Num (F j)} {g : ℝ → ℝ}
    (H : ∀ i, InB B.shape i → Tends (fun j => f j ((A j).at_ i)) (g (B.at_ i))) :
    TendsT (fun j => tf.map (f j) (A j)) (tf.map g B) := by
  refine ⟨h.1, fun i hi => ?_⟩
  have hi : InB B.shape i := hi
  rw [at_map _ _ hi]
  refine (H i hi).congr (Eventually.of_forall fun j => ?_)
  rw [at_map _ _ (by rw [h.1 j]; exact hi)]

/-! ### Broadcasting operations -/

theorem bcastIdx_inB {a b s i : List Nat} (h : Bcast a b s) (hi : InB s i) : InB a (tf.bcastIdx a i) := by
  have hl := hi.length
  have h1 := h.1
  have ha : a.length ≤ i.length := by rw [hl, h1]; exact le_max_left _ _
  rw [tf.bcastIdx_eq ha]
  unfold alignIdx
  have e : a = (List.range a.length).map fun k => a.getD k 0 := by
    apply List.ext_getElem
    · simp
    · intro k h1 h2
      simp [List.getD_eq_getElem, h1]
  conv => arg 1; rw [e]
  rw [InB_map]
  intro k hk
  have hk : k < a.length := by simpa using hk
  have hks : a.length - 1 - k < s.length := by omega
  have hd := h.2 _ hks
  have e1 : a.reverse.getD (a.length - 1 - k) 1 = a.getD k 0 := by
    rw [List.getD_eq_getElem _ _ (by simp; omega), List.getElem_reverse, List.getD_eq_getElem _ _ hk]
    congr 1; omega
  have e2 : s.reverse.getD (a.length - 1 - k) 1 = s.getD (i.length - a.length + k) 0 := by
    rw [List.getD_eq_getElem _ _ (by simp; omega), List.getElem_reverse, List.getD_eq_getElem _ _ (by omega)]
    congr 1; omega
  have hlt : i.getD (i.length - a.length + k) 0 < s.getD (i.length - a.length + k) 0 := by
    have hp : i.length - a.length + k < i.length := by omega
    rw [List.getD_eq_getElem _ _ hp, List.getD_eq_getElem _ _ (by omega)]
    exact (List.forall₂_iff_get.1 hi).2 _ hp (by omega)
  rw [e1, e2] at hd
  unfold BcastDim at hd
  split
  · omega
  · omega

theorem tendsT_ewise {A A' : ∀ j, Tensor (Num (F j))} {B B' : Tensor ℝ} (h : TendsT A B) (h' : TendsT A' B')
    {f : ∀ j, Num (F j) → Num (F j) → Num (F j)} {g : ℝ → ℝ → ℝ}
    (H : ∀ i i', InB B.shape i → InB B'.shape i' → Tends (fun j => f j ((A j).at_ i) ((A' j).at_ i')) (g (B.at_ i) (B'.at_ i'))) :
    TendsR TendsT (fun j => tf.ewise (f j) (A j) (A' j)) (tf.ewise g B B') := by
  unfold tf.ewise
  simp only [h.1, h'.1]
  cases hs : tf.bcastShape B.shape B'.shape with
  | none => exact TendsR.error
  | some s =>
      have hb := (tf.bcastShape_spec _ _ _).1 hs
      exact TendsR.ok (tendsT_ofFn s fun i hi => H _ _ (bcastIdx_inB hb hi) (bcastIdx_inB (tf.Bcast_comm.1 hb) hi))

theorem ewise_sub (hF : Refining F) {A A' : ∀ j, Tensor (Num (F j))} {B B' : Tensor ℝ} (h : TendsT A B) (h' : TendsT A' B') :
    TendsR TendsT (fun j => tf.ewise (· - ·) (A j) (A' j)) (tf.ewise (· - ·) B B') :=
  tendsT_ewise (f := fun _ => (· - ·)) h h' fun _ _ hi hi' => tends_sub hF (h.2 _ hi) (h'.2 _ hi')

theorem ewise_add (hF : Refining F) {A A' : ∀ j, Tensor (Num (F j))} {B B' : Tensor ℝ} (h : TendsT A B) (h' : TendsT A' B') :
    TendsR TendsT (fun j => tf.ewise (· + ·) (A j) (A' j)) (tf.ewise (· + ·) B B') :=
  tendsT_ewise (f := fun _ => (· + ·)) h h' fun _ _ hi hi' => tends_add hF (h.2 _ hi) (h'.2 _ hi')

theorem ewise_mul (hF : Refining F) {A A' : ∀ j, Tensor (Num (F j))} {B B' : Tensor ℝ} (h : TendsT A B) (h' : TendsT A' B') :
    TendsR TendsT (fun j => tf.ewise (· * ·) (A j) (A' j)) (tf.ewise (· * ·) B B') :=
  tendsT_ewise (f := fun _ => (· * ·)) h h' fun _ _ hi hi' => tends_mul hF (h.2 _ hi) (h'.2 _ hi')

/-! ### The operators -/

theorem matmul (hF : Refining F) {A A' : ∀ j, Tensor (Num (F j))} {B B' : Tensor ℝ} (h : TendsT A B) (h' : TendsT A' B')
    (ta tb : Bool) : TendsR TendsT (fun j => tf.matmul (A j) (A' j) ta tb) (tf.matmul B B' ta tb) :=
  unpackR fun j => (par hF j).matmul (pack_rel h j) (pack_rel h' j) ta tb

theorem unfold {A : ∀ j, Tensor (Num (F j))} {B : Tensor ℝ} (h : TendsT A B) (m : Int) :
    TendsR TendsT (fun j => ops.unfold (A j) m) (ops.unfold B m) :=
  unpackR fun j => ops.unfold_rel (pack_rel h j) m

theorem reshape {A : ∀ j, Tensor (Num (F j))} {B : Tensor ℝ} (h : TendsT A B) (d : List Int) :
    TendsR TendsT (fun j => tf.reshape (A j) d) (tf.reshape B d) :=
  unpackR fun j => tf.reshape_rel (pack_rel h j) d

theorem reduceSum (hF : Refining F) {A : ∀ j, Tensor (Num (F j))} {B : Tensor ℝ} (h : TendsT A B) :
    Tends (fun j => tf.reduceSum (A j)) (tf.reduceSum B) :=
  ((par hF 0).reduceSum (pack_rel h 0)).1.congr (Eventually.of_forall fun j => ((par hF j).reduceSum (pack_rel h j)).2)

section
variable {A : ∀ j, List (Tensor (Num (F j)))} {B : List (Tensor ℝ)}

theorem khatri (hF : Refining F) (h : TendsL A B) (s : ops.Skip) (rev : Bool) :
    TendsR TendsT (fun j => ops.khatri (A j) s rev) (ops.khatri B s rev) := by
  obtain ⟨L, hA, rfl, hL⟩ := h
  refine unpackR (x := ops.khatri (L.map fun p => pack p.2.shape p.1) s rev) fun j => ?_
  have := (par hF j).ops_khatri (trips_rel hL j) s rev
  rwa [(trips_maps L j).1, (trips_maps L j).2.1, (trips_maps L j).2.2, ← hA j] at this

theorem hadamard (hF : Refining F) (h : TendsL A B) (s : ops.Skip) :
    TendsR TendsT (fun j => ops.hadamard (A j) s) (ops.hadamard B s) := by
  obtain ⟨L, hA, rfl, hL⟩ := h
  refine unpackR (x := ops.hadamard (L.map fun p => pack p.2.shape p.1) s) fun j => ?_
  have := (par hF j).ops_hadamard (trips_rel hL j) s
  rwa [(trips_maps L j).1, (trips_maps L j).2.1, (trips_maps L j).2.2, ← hA j] at this

theorem ttm (hF : Refining F) {C : ∀ j, Tensor (Num (F j))} {D : Tensor ℝ} (hC : TendsT C D) (h : TendsL A B)
    (axis : Option (List Nat)) (tr : Bool) (s : ops.Skip) :
    TendsR TendsT (fun j => ops.ttm (C j) (A j) axis tr s) (ops.ttm D B axis tr s) := by
  obtain ⟨L, hA, rfl, hL⟩ := h
  refine unpackR (x := ops.ttm (pack D.shape C) (L.map fun p => pack p.2.shape p.1) axis tr s) fun j => ?_
  have := (par hF j).ops_ttm (pack_rel hC j) (trips_rel hL j) axis tr s
  rwa [(trips_maps L j).1, (trips_maps L j).2.1, (trips_maps L j).2.2, ← hA j] at this

theorem kextract (hF : Refining F) (h : TendsL A B) {C : ∀ j, Tensor (Num (F j))} {D : Tensor ℝ} (hC : TendsT C D) (ud ld : DType) :
    TendsR TendsT (fun j => KTensor.extract ⟨A j, ud, C j, ld⟩) (KTensor.extract ⟨B, ud, D, ld⟩) := by
  obtain ⟨L, hA, rfl, hL⟩ := h
  refine unpackR (x := KTensor.extract ⟨L.map fun p => pack p.2.shape p.1, ud, pack D.shape C, ld⟩) fun j => ?_
  have := (par hF j).kextract (trips_rel hL j) (pack_rel hC j) ud ld
  rwa [(trips_maps L j).1, (trips_maps L j).2.1, (trips_maps L j).2.2, ← hA j] at this

theorem ncp_full (hF : Refining F) (h : TendsL A B) : TendsR TendsT (fun j => sp.NCP.fullOf (A j)) (bcu.NCP.fullOf B) := by
  obtain ⟨L, hA, rfl, hL⟩ := h
  unfold sp.NCP.fullOf bcu.NCP.fullOf
  cases L with
  | nil => exact TendsR.error
  | cons p L =>
      have hp := hL p (by simp)
      unfold KTensor.init
      simp only [hA, List.map_cons]
      have hd : ∀ j, ops.dimOf (p.1 j) 1 = ops.dimOf p.2 1 := fun j => by unfold ops.dimOf; rw [hp.1 j]
      simp only [hd]
      cases hd1 : ops.dimOf p.2 1 with
      | error e => exact TendsR.error
      | ok r =>
          have h1 : TendsT (fun j => (tf.ones [r, 1] : Tensor (Num (F j)))) (tf.ones [r, 1] : Tensor ℝ) :=
            tendsT_ofFn _ fun _ _ => tends_one
          simp only [ok_bind]
          have hL' : TendsL (fun j => p.1 j :: L.map fun p => p.1 j) (p.2 :: L.map fun p => p.2) := ⟨p :: L, fun j => rfl, rfl, hL⟩
          have := kextract hF hL' h1 .float32 .float32
          exact this

theorem expandLast_tends {C : ∀ j, Tensor (Num (F j))} {D : Tensor ℝ} (hC : TendsT C D) :
    TendsT (fun j => if (C j).order = 1 then KTensor.expandLast (C j) else C j)
      (if D.order = 1 then KTensor.expandLast D else D) := by
  have ho : ∀ j, (C j).order = D.order := fun j => by unfold Tensor.order; rw [hC.1 j]
  simp only [ho]
  split
  · refine ⟨fun j => by unfold KTensor.expandLast; simp only [hC.1 j], fun i hi => ?_⟩
    have hk := ravel_lt hi
    have hs : (KTensor.expandLast D).shape.prod = D.shape.prod := by unfold KTensor.expandLast; simp
    refine (hC.data (hs ▸ hk)).congr (Eventually.of_forall fun j => ?_)
    unfold KTensor.expandLast Tensor.at_
    simp only [hC.1 j]
  · exact hC

theorem cp_full (hF : Refining F) (h : TendsL A B) {C : ∀ j, Tensor (Num (F j))} {D : Tensor ℝ} (hC : TendsT C D) :
    TendsR TendsT (fun j => sp.CP.fullOf (A j) (C j)) (cp.fullOf B D) := by
  have h' := h
  obtain ⟨L, hA, rfl, hL⟩ := h
  unfold sp.CP.fullOf cp.fullOf
  cases L with
  | nil => exact TendsR.error
  | cons p L =>
      unfold KTensor.init
      simp only [hA, List.map_cons]
      simp only [ok_bind]
      have hL' : TendsL (fun j => p.1 j :: L.map fun p => p.1 j) (p.2 :: L.map fun p => p.2) := ⟨p :: L, fun j => rfl, rfl, hL⟩
      have := kextract hF hL' (expandLast_tends hC) .float32 .float32
      exact this

theorem tucker_full (hF : Refining F) {C : ∀ j, Tensor (Num (F j))} {D : Tensor ℝ} (hC : TendsT C D) (h : TendsL A B) :
    TendsR TendsT (fun j => sp.NTUCKER.fullOf (C j) (A j)) (bcu.NTUCKER.fullOf D B) := by
  obtain ⟨L, hA, rfl, hL⟩ := h
  unfold sp.NTUCKER.fullOf bcu.NTUCKER.fullOf
  cases L with
  | nil => exact TendsR.error
  | cons p L =>
      unfold TTensor.init
      simp only [hA, List.map_cons]
      simp only [ok_bind]
      have hL' : TendsL (fun j => p.1 j :: L.map fun p => p.1 j) (p.2 :: L.map fun p => p.2) := ⟨p :: L, fun j => rfl, rfl, hL⟩
      have := ttm hF hC hL' none false .none
      exact this

theorem tendsL_nil : TendsL (F := F) (fun _ => []) [] := ⟨[], fun _ => rfl, rfl, by simp⟩

theorem tendsL_cons {a : ∀ j, Tensor (Num (F j))} {b : Tensor ℝ} (h : TendsT a b) (hL : TendsL A B) :
    TendsL (fun j => a j :: A j) (b :: B) := by
  obtain ⟨L, hA, rfl, hL⟩ := hL
  refine ⟨(a, b) :: L, fun j => by simp only [hA, List.map_cons], rfl, ?_⟩
  rintro p (_ | ⟨_, hp⟩)
  · exact h
  · exact hL p hp

theorem tendsL_get (h : TendsL A B) (k : Nat) :
    (∃ a b, (∀ j, (A j)[k]? = some (a j)) ∧ B[k]? = some b ∧ TendsT a b) ∨ ((∀ j, (A j)[k]? = none) ∧ B[k]? = none) := by
  obtain ⟨L, hA, rfl, hL⟩ := h
  cases hk : L[k]? with
  | none => exact .inr ⟨fun j => by rw [hA, List.getElem?_map, hk]; rfl, by rw [List.getElem?_map, hk]; rfl⟩
  | some p => exact .inl ⟨p.1, p.2, fun j => by rw [hA, List.getElem?_map, hk]; rfl, by rw [List.getElem?_map, hk]; rfl,
      hL p (List.mem_of_getElem? hk)⟩

theorem assign {a : ∀ j, Tensor (Num (F j))} {b : Tensor ℝ} (h : TendsL A B) (k : Nat) (ha : TendsT a b) :
    TendsR TendsL (fun j => tf.assign (A j) k (a j)) (tf.assign B k b) := by
  unfold tf.assign
  rcases tendsL_get h k with ⟨a', b', h1, h2, h3⟩ | ⟨h1, h2⟩
  · simp only [h1, h2, ha.1, h3.1]
    by_cases hs : b.shape = b'.shape
    · simp only [if_pos hs]
      refine TendsR.ok ?_
      obtain ⟨L, hA, rfl, hL⟩ := h
      refine ⟨L.set k (a, b), fun j => ?_, ?_, fun p hp => ?_⟩
      · simp only [hA, List.map_set]
      · rw [List.map_set]
      · rcases List.mem_or_eq_of_mem_set hp with hp | rfl
        · exact hL p hp
        · exact ha
    · simp only [if_neg hs]
      exact TendsR.error
  · simp only [h1, h2]
    exact TendsR.error

theorem mapM_list {f : ∀ j, Tensor (Num (F j)) → Res (Tensor (Num (F j)))} {g : Tensor ℝ → Res (Tensor ℝ)}
    (h : TendsL A B) (H : ∀ a b, TendsT a b → TendsR TendsT (fun j => f j (a j)) (g b)) :
    TendsR TendsL (fun j => (A j).mapM (f j)) (B.mapM g) := by
  obtain ⟨L, hA, rfl, hL⟩ := h
  simp only [hA]
  clear hA
  induction L with
  | nil => exact TendsR.ok tendsL_nil
  | cons p L ih =>
      simp only [List.map_cons, List.mapM_cons]
      refine TendsR.bind (H _ _ (hL p (by simp))) fun a b hab => ?_
      refine TendsR.bind (ih fun q hq => hL q (by simp [hq])) fun a' b' hab' => ?_
      exact TendsR.ok (tendsL_cons hab hab')

theorem mapM_range {ι : Type} {f : ∀ j, ι → Res (Tensor (Num (F j)))} {g : ι → Res (Tensor ℝ)} (l : List ι)
    (H : ∀ n, TendsR TendsT (fun j => f j n) (g n)) : TendsR TendsL (fun j => l.mapM (f j)) (l.mapM g) := by
  induction l with
  | nil => exact TendsR.ok tendsL_nil
  | cons n l ih =>
      simp only [List.mapM_cons]
      refine TendsR.bind (H n) fun a b hab => ?_
      refine TendsR.bind ih fun a' b' hab' => ?_
      exact TendsR.ok (tendsL_cons hab hab')

theorem foldlM {X : ℕ → Type} {Y ι : Type} {P : (∀ j, X j) → Y → Prop} {f : ∀ j, X j → ι → Res (X j)} {g : Y → ι → Res Y}
    (H : ∀ n a b, P a b → TendsR P (fun j => f j (a j) n) (g b n)) (l : List ι) : ∀ {a : ∀ j, X j} {b : Y}, P a b →
    TendsR P (fun j => l.foldlM (f j) (a j)) (l.foldlM g b) := by
  induction l with
  | nil => exact fun h => TendsR.ok h
  | cons n l ih =>
      intro a b h
      simp only [List.foldlM_cons]
      exact TendsR.bind (H n a b h) fun a b h => ih h

end

/-! ### Norms and the errors reported by the trainings -/

theorem real_nonneg {F : Fmt} {x : Num F} (h : NN x) : 0 ≤ real x := by
  cases x with
  | fin x hx => exact nn_fin.1 h
  | inf s => exact le_rfl
  | nan => exact le_rfl

theorem sumSq (hF : Refining F) {A : ∀ j, Tensor (Num (F j))} {B : Tensor ℝ} (h : TendsT A B) :
    Tends (fun j => sp.sumSq (A j)) (tf.reduceSum (tf.map (fun x => x ^ 2) B)) := by
  refine reduceSum hF (tendsT_map (f := fun _ x => x * x) h fun i hi => ?_)
  rw [pow_two]
  exact tends_mul hF (h.2 i hi) (h.2 i hi)

theorem nn_sumSq {F : Fmt} (A : Tensor (Num F)) : NN (sp.sumSq A) := by
  unfold sp.sumSq tf.reduceSum
  refine kept_nn.eval (fun i => ?_) _
  exact (allQ_map A fun x _ => nn_square x).getD nn_zero i

theorem norm (hF : Refining F) {A : ∀ j, Tensor (Num (F j))} {B : Tensor ℝ} (h : TendsT A B) :
    Tends (fun j => sp.norm (A j)) (tf.norm B) :=
  tends_sqrt hF (sumSq hF h) (Eventually.of_forall fun _ => real_nonneg (nn_sumSq _))

/-- The zeros of the exact data are zeros of the rounded data. -/
def Zeros (A : ∀ j, Tensor (Num (F j))) (B : Tensor ℝ) : Prop :=
  ∀ i, InB B.shape i → B.at_ i = 0 → ∀ᶠ j in atTop, (A j).at_ i = 0

theorem nonzero {A : ∀ j, Tensor (Num (F j))} {B : Tensor ℝ} (h : TendsT A B) (hz : Zeros A B) :
    TendsT (fun j => sp.nonzero (A j)) (loss.nonzero B) := by
  classical
  refine tendsT_map (f := fun _ x => if x ≠ 0 then 1 else 0) h fun i hi => ?_
  by_cases h0 : B.at_ i = 0
  · rw [if_neg (not_not.2 h0)]
    refine tends_zero.congr ((hz i hi h0).mono fun j hj => ?_)
    rw [if_neg (not_not.2 hj)]
  · rw [if_pos h0]
    refine tends_one.congr (((h.2 i hi).2.eventually_ne h0).mono fun j hj => ?_)
    rw [if_pos fun e => hj (show real ((A j).at_ i) = 0 by rw [e]; rfl)]

theorem reduceSum_sq_nonneg (A : Tensor ℝ) : 0 ≤ tf.reduceSum (tf.map (fun x => x ^ 2) A) := by
  show 0 ≤ (A.data.map fun x => x ^ 2).sum
  exact List.sum_nonneg fun x hx => by obtain ⟨y, -, rfl⟩ := List.mem_map.1 hx; positivity

/-- The three scalars, related one by one. -/
def Scal (a : ∀ j, Num (F j) × Num (F j) × Num (F j)) (b : ℝ × ℝ × ℝ) : Prop :=
  Tends (fun j => (a j).1) b.1 ∧ Tends (fun j => (a j).2.1) b.2.1 ∧ Tends (fun j => (a j).2.2) b.2.2

theorem scalars (hF : Refining F) {X Y : ∀ j, Tensor (Num (F j))} {X0 Y0 : Tensor ℝ} (hX : TendsT X X0) (hz : Zeros X X0)
    (hY : TendsT Y Y0) : TendsR Scal (fun j => sp.scalars (X j) (Y j)) (cp.scalars X0 Y0) := by
  intro b hb
  unfold cp.scalars at hb
  cases e1 : loss.rmseIgnoreZero X0 Y0 with
  | error e => rw [e1] at hb; cases hb
  | ok ls =>
      rw [e1, ok_bind] at hb
      cases e2 : tf.ewise (· - ·) Y0 X0 with
      | error e => rw [e2] at hb; cases hb
      | ok d =>
          rw [e2, ok_bind] at hb
          obtain ⟨d', hd', hdt⟩ := ewise_sub hF hY hX d e2
          unfold loss.rmseIgnoreZero at e1
          by_cases hs : X0.shape ≠ Y0.shape
          · rw [if_pos hs] at e1; cases e1
          rw [if_neg hs] at e1
          cases e3 : tf.ewise (· * ·) Y0 (loss.nonzero X0) with
          | error e => rw [e3] at e1; cases e1
          | ok p =>
              rw [e3, ok_bind] at e1
              obtain ⟨p', hp', hpt⟩ := ewise_mul hF hY (nonzero hX hz) p e3
              cases e4 : tf.ewise (· - ·) X0 p with
              | error e => rw [e4] at e1; cases e1
              | ok q =>
                  rw [e4, ok_bind] at e1
                  obtain ⟨q', hq', hqt⟩ := ewise_sub hF hX hpt q e4
                  injection e1 with e1
                  subst e1
                  unfold loss.fdiv loss.fsqrt at hb
                  by_cases hn : tf.reduceSum (loss.nonzero X0) = 0
                  · rw [if_pos hn] at hb; cases hb
                  rw [if_neg hn] at hb
                  by_cases hn' : tf.norm X0 = 0
                  · rw [if_pos hn'] at hb; cases hb
                  rw [if_neg hn'] at hb
                  injection hb with hb
                  subst hb
                  refine ⟨fun j => ((sp.sumSq (q' j) / tf.reduceSum (sp.nonzero (X j))).sqrt,
                    sp.const (F j) (1 / 2) * (sp.norm (d' j) * sp.norm (d' j)), sp.norm (d' j) / sp.norm (X j)), ?_, ?_, ?_, ?_⟩
                  · filter_upwards [hd', hp', hq'] with j h1 h2 h3
                    unfold sp.scalars sp.rmseIgnoreZero sp.objective sp.relResidual
                    rw [if_neg (by rw [hX.1, hY.1]; exact hs), h1, h2, ok_bind, h3]
                    rfl
                  · refine tends_sqrt hF (tends_div hF (sumSq hF hqt) (reduceSum hF (nonzero hX hz)) hn) (Eventually.of_forall fun j => ?_)
                    refine real_nonneg (nn_div (nn_sumSq _) ?_)
                    refine kept_nn.eval (fun i => ?_) _
                    refine (allQ_map (X j) fun x _ => ?_).getD nn_zero i
                    split
                    · exact nn_one
                    · exact nn_zero
                  · have := tends_mul hF (tends_const hF (1 / 2)) (tends_mul hF (norm hF hdt) (norm hF hdt))
                    rwa [← pow_two] at this
                  · exact tends_div hF (norm hF hdt) (norm hF hX) hn'

end Lim
end TD
