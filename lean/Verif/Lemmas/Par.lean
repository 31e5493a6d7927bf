import Verif.Lemmas.Sim
import Verif.Lemmas.Skip
import Verif.Model.Type

/-! # Three runs of the same operator on related numbers give related tensors -/
namespace TD
open Tensor ops
variable {α β γ : Type} [Zero α] [Zero β] [Zero γ] [Mul α] [Mul β] [Mul γ] [tf.Red α] [tf.Red β] [tf.Red γ]
  [tf.Ein α] [tf.Ein β] [tf.Ein γ]

/-- A relation kept by products and by the evaluation of sums. -/
structure Par (r : α → β → γ → Prop) : Prop where
  zero : r 0 0 0
  mul : ∀ {x y a x' y' a'}, r x y a → r x' y' a' → r (x * x') (y * y') (a * a')
  total : ∀ {l : List α} {m : List β} {a : List γ}, l.length = m.length → l.length = a.length →
    (∀ i, r (l.getD i 0) (m.getD i 0) (a.getD i 0)) → r (tf.Red.total l) (tf.Red.total m) (tf.Red.total a)
  dot : ∀ {l : List (α × α)} {m : List (β × β)} {a : List (γ × γ)}, l.length = m.length → l.length = a.length →
    (∀ i, r (l.getD i (0, 0)).1 (m.getD i (0, 0)).1 (a.getD i (0, 0)).1 ∧
      r (l.getD i (0, 0)).2 (m.getD i (0, 0)).2 (a.getD i (0, 0)).2) → r (tf.Red.dot l) (tf.Red.dot m) (tf.Red.dot a)
  contract : ∀ {n : Nat} (dims : List Nat) {f : List Nat → List α} {g : List Nat → List β} {a : List Nat → List γ},
    (∀ v, (f v).length = n) → (∀ v, (g v).length = n) → (∀ v, (a v).length = n) →
    (∀ v k, r ((f v).getD k 0) ((g v).getD k 0) ((a v).getD k 0)) →
    r (tf.Ein.contract n dims f) (tf.Ein.contract n dims g) (tf.Ein.contract n dims a)

namespace Par
variable {r : α → β → γ → Prop} (hG : Par r)
include hG

theorem matmul {A A' : Tensor α} {B B' : Tensor β} {C C' : Tensor γ} (h : TRel r A B C) (h' : TRel r A' B' C') (ta tb : Bool) :
    RelR (TRel r) (tf.matmul A A' ta tb) (tf.matmul B B' ta tb) (tf.matmul C C' ta tb) := by
  unfold tf.matmul
  rw [← h.1, ← h.2.1, ← h'.1, ← h'.2.1]
  split
  · rename_i a0 a1 b0 b1 hA hB
    dsimp only
    by_cases hk : (if ta = true then a0 else a1) = if tb = true then b1 else b0
    · rw [if_pos hk, if_pos hk, if_pos hk]
      refine TRel.mat hG.zero _ _ fun i j => ?_
      generalize (if ta = true then a0 else a1) = k
      refine hG.dot (by simp) (by simp) fun l => ?_
      simp only [List.getD_eq_getElem?_getD, List.getElem?_map]
      cases (List.range k)[l]? with
      | none => exact ⟨hG.zero, hG.zero⟩
      | some l => exact ⟨h.at_ _, h'.at_ _⟩
    · rw [if_neg hk, if_neg hk, if_neg hk]; exact ⟨rfl, rfl⟩
  · exact ⟨rfl, rfl⟩

omit hG [Mul α] [Mul β] [Mul γ] [tf.Red α] [tf.Red β] [tf.Red γ] [tf.Ein α] [tf.Ein β] [tf.Ein γ] in
theorem shapes_eq {L : List (Tensor α × Tensor β × Tensor γ)} (h : ∀ p ∈ L, TRel r p.1 p.2.1 p.2.2) :
    (L.map fun p => p.2.1).map Tensor.shape = (L.map fun p => p.1).map Tensor.shape ∧
      (L.map fun p => p.2.2).map Tensor.shape = (L.map fun p => p.1).map Tensor.shape := by
  constructor
  · simp only [List.map_map]; exact List.map_congr_left fun p hp => (h p hp).1.symm
  · simp only [List.map_map]; exact List.map_congr_left fun p hp => (h p hp).2.1.symm

theorem einsumL {ins : List (List Char)} {out : List Char} {L : List (Tensor α × Tensor β × Tensor γ)}
    (h : ∀ p ∈ L, TRel r p.1 p.2.1 p.2.2) :
    RelR (TRel r) (tf.einsumL ins out (L.map fun p => p.1)) (tf.einsumL ins out (L.map fun p => p.2.1))
      (tf.einsumL ins out (L.map fun p => p.2.2)) := by
  unfold tf.einsumL
  rw [(shapes_eq h).1, (shapes_eq h).2]
  dsimp only
  by_cases hok : tf.einsumOk ins out ((L.map fun p => p.1).map Tensor.shape)
  · rw [if_pos hok, if_pos hok, if_pos hok]
    have hlen : ins.length = L.length := by simpa using hok.1
    refine TRel.ofFn hG.zero _ fun i _ => ?_
    simp only [List.length_map]
    refine hG.contract _ (fun v => by simp [hlen]) (fun v => by simp [hlen]) (fun v => by simp [hlen]) fun v k => ?_
    simp only [List.getD_eq_getElem?_getD, List.getElem?_zipWith, List.getElem?_map]
    cases ins[k]? with
    | none => exact hG.zero
    | some w =>
        cases hk : L[k]? with
        | none => exact hG.zero
        | some p => exact (h p (List.mem_of_getElem? hk)).at_ _
  · rw [if_neg hok, if_neg hok, if_neg hok]; exact ⟨rfl, rfl⟩

theorem einsum {eqn : List Char} {L : List (Tensor α × Tensor β × Tensor γ)} (h : ∀ p ∈ L, TRel r p.1 p.2.1 p.2.2) :
    RelR (TRel r) (tf.einsum eqn (L.map fun p => p.1)) (tf.einsum eqn (L.map fun p => p.2.1))
      (tf.einsum eqn (L.map fun p => p.2.2)) := by
  unfold tf.einsum
  split
  · exact ⟨rfl, rfl⟩
  · exact hG.einsumL h

theorem ops_mul {A A' : Tensor α} {B B' : Tensor β} {C C' : Tensor γ} (h : TRel r A B C) (h' : TRel r A' B' C') (a b : Axis) :
    RelR (TRel r) (ops.mul A A' a b) (ops.mul B B' a b) (ops.mul C C' a b) := by
  unfold ops.mul
  rw [← h.order.1, ← h.order.2, ← h'.order.1, ← h'.order.2, ← h.1, ← h.2.1, ← h'.1, ← h'.2.1]
  dsimp only
  refine RelR.bind (t2mat_rel h _ _) fun M M1 M2 hMr => ?_
  refine RelR.bind (t2mat_rel h' _ _) fun N N1 N2 hNr => ?_
  exact RelR.bind (hG.matmul hMr hNr _ _) fun _ _ _ hr => tf.reshape_rel hr _

theorem reduceSum {A : Tensor α} {B : Tensor β} {C : Tensor γ} (h : TRel r A B C) :
    r (tf.reduceSum A) (tf.reduceSum B) (tf.reduceSum C) :=
  hG.total (by rw [A.wf, B.wf, h.1]) (by rw [A.wf, C.wf, h.2.1]) h.2.2

theorem ops_inner {A A' : Tensor α} {B B' : Tensor β} {C C' : Tensor γ} (h : TRel r A B C) (h' : TRel r A' B' C') :
    RelR r (ops.inner A A') (ops.inner B B') (ops.inner C C') := by
  unfold ops.inner
  rw [← h.1, ← h.2.1, ← h'.1, ← h'.2.1]
  by_cases hs : A.shape ≠ A'.shape
  · rw [if_pos hs, if_pos hs, if_pos hs]; exact ⟨rfl, rfl⟩
  · rw [if_neg hs, if_neg hs, if_neg hs]
    refine RelR.bind (vectorize_rel h) fun _ _ _ h1 => RelR.bind (vectorize_rel h') fun _ _ _ h2 => ?_
    exact RelR.bind (tf.ewise_rel h1 h2 hG.zero fun _ _ _ _ _ _ => hG.mul) fun _ _ _ hr => hG.reduceSum hr

omit hG [Zero α] [Zero β] [Zero γ] [Mul α] [Mul β] [Mul γ] [tf.Red α] [tf.Red β] [tf.Red γ] [tf.Ein α] [tf.Ein β] [tf.Ein γ] in
theorem skip_mem {L : List (Tensor α × Tensor β × Tensor γ)} {s : Skip} {p} (h : p ∈ ops.skip L s) : p ∈ L := by
  rw [skip_eq_kept] at h; exact kept_sub h

omit hG [Zero α] [Zero β] [Zero γ] [Mul α] [Mul β] [Mul γ] [tf.Red α] [tf.Red β] [tf.Red γ] [tf.Ein α] [tf.Ein β] [tf.Ein γ] in
theorem skip_map {δ ε : Type} (f : δ → ε) (ms : List δ) (s : Skip) : ops.skip (ms.map f) s = (ops.skip ms s).map f := by
  rw [skip_eq_kept, skip_eq_kept, kept_map]

theorem ops_hadamard {L : List (Tensor α × Tensor β × Tensor γ)} (h : ∀ p ∈ L, TRel r p.1 p.2.1 p.2.2) (s : Skip) :
    RelR (TRel r) (ops.hadamard (L.map fun p => p.1) s) (ops.hadamard (L.map fun p => p.2.1) s)
      (ops.hadamard (L.map fun p => p.2.2) s) := by
  unfold ops.hadamard
  rw [skip_map, skip_map, skip_map]
  replace h : ∀ p ∈ ops.skip L s, TRel r p.1 p.2.1 p.2.2 := fun p hp => h p (skip_mem hp)
  generalize ops.skip L s = L at h
  cases L with
  | nil => exact ⟨rfl, rfl⟩
  | cons p L =>
      have key : ∀ (L : List (Tensor α × Tensor β × Tensor γ)) (A : Tensor α) (B : Tensor β) (C : Tensor γ), TRel r A B C →
          (∀ p ∈ L, TRel r p.1 p.2.1 p.2.2) →
          RelR (TRel r) ((L.map fun p => p.1).foldlM (tf.ewise (· * ·)) A)
            ((L.map fun p => p.2.1).foldlM (tf.ewise (· * ·)) B) ((L.map fun p => p.2.2).foldlM (tf.ewise (· * ·)) C) := by
        intro L
        induction L with
        | nil => intro A B C h _; exact h
        | cons q L ih =>
            intro A B C hA hL
            simp only [List.map_cons, List.foldlM_cons]
            exact RelR.bind (tf.ewise_rel hA (hL q (by simp)) hG.zero fun _ _ _ _ _ _ => hG.mul)
              fun A1 B1 C1 h1 => ih _ _ _ h1 fun p hp => hL p (by simp [hp])
      exact key L p.1 p.2.1 p.2.2 (h p (by simp)) fun q hq => h q (by simp [hq])

omit hG [Mul α] [Mul β] [Mul γ] [tf.Red α] [tf.Red β] [tf.Red γ] [tf.Ein α] [tf.Ein β] [tf.Ein γ] in
theorem dims_eq {L : List (Tensor α × Tensor β × Tensor γ)} (h : ∀ p ∈ L, TRel r p.1 p.2.1 p.2.2) (i : Nat) :
    dimOfEach (L.map fun p => p.2.1) i = dimOfEach (L.map fun p => p.1) i ∧
      dimOfEach (L.map fun p => p.2.2) i = dimOfEach (L.map fun p => p.1) i := by
  induction L with
  | nil => exact ⟨rfl, rfl⟩
  | cons p L ih =>
      have hp := h p (by simp)
      obtain ⟨h1, h2⟩ := ih fun q hq => h q (by simp [hq])
      unfold dimOfEach at h1 h2 ⊢
      simp only [List.map_cons, List.mapM_cons]
      rw [h1, h2, ← hp.1, ← hp.2.1]
      exact ⟨rfl, rfl⟩

omit hG [Mul α] [Mul β] [Mul γ] [tf.Red α] [tf.Red β] [tf.Red γ] [tf.Ein α] [tf.Ein β] [tf.Ein γ] in
/-- The matrices `kron` and `khatri` keep, in the order they use. -/
theorem arrange {L : List (Tensor α × Tensor β × Tensor γ)} (h : ∀ p ∈ L, TRel r p.1 p.2.1 p.2.2) (s : Skip) (rev : Bool) :
    ∃ L' : List (Tensor α × Tensor β × Tensor γ), (∀ p ∈ L', TRel r p.1 p.2.1 p.2.2) ∧
      ∀ {δ : Type} (f : Tensor α × Tensor β × Tensor γ → δ),
        (if rev = true then (ops.skip (L.map f) s).reverse else ops.skip (L.map f) s) = L'.map f := by
  refine ⟨if rev then (ops.skip L s).reverse else ops.skip L s, fun p hp => h p (skip_mem (s := s) ?_), fun f => ?_⟩
  · cases rev <;> simpa using hp
  · rw [skip_map]; cases rev <;> simp

theorem ops_kron {L : List (Tensor α × Tensor β × Tensor γ)} (h : ∀ p ∈ L, TRel r p.1 p.2.1 p.2.2) (s : Skip) (rev : Bool) :
    RelR (TRel r) (ops.kron (L.map fun p => p.1) s rev) (ops.kron (L.map fun p => p.2.1) s rev)
      (ops.kron (L.map fun p => p.2.2) s rev) := by
  unfold ops.kron
  dsimp only
  obtain ⟨L', h', hf⟩ := arrange h s rev
  rw [hf, hf, hf]
  simp only [List.length_map]
  refine RelR.bind (hG.einsum h') fun A B C hA => ?_
  rw [(dims_eq h' 0).1, (dims_eq h' 0).2, (dims_eq h' 1).1, (dims_eq h' 1).2]
  refine RelR.bind (RelR.const (p := fun a b c => a = b ∧ a = c) fun a _ => ⟨rfl, rfl⟩) ?_
  rintro a _ _ ⟨rfl, rfl⟩
  refine RelR.bind (RelR.const (p := fun a b c => a = b ∧ a = c) fun a _ => ⟨rfl, rfl⟩) ?_
  rintro b _ _ ⟨rfl, rfl⟩
  exact tf.reshape_rel hA _

theorem ops_khatri {L : List (Tensor α × Tensor β × Tensor γ)} (h : ∀ p ∈ L, TRel r p.1 p.2.1 p.2.2) (s : Skip) (rev : Bool) :
    RelR (TRel r) (ops.khatri (L.map fun p => p.1) s rev) (ops.khatri (L.map fun p => p.2.1) s rev)
      (ops.khatri (L.map fun p => p.2.2) s rev) := by
  unfold ops.khatri
  dsimp only
  obtain ⟨L', h', hf⟩ := arrange h s rev
  rw [hf, hf, hf]
  simp only [List.length_map]
  refine RelR.bind (hG.einsum h') fun A B C hA => ?_
  rw [(dims_eq h' 0).1, (dims_eq h' 0).2]
  refine RelR.bind (RelR.const (p := fun a b c => a = b ∧ a = c) fun a _ => ⟨rfl, rfl⟩) ?_
  rintro a _ _ ⟨rfl, rfl⟩
  cases L' with
  | nil => exact ⟨rfl, rfl⟩
  | cons p L' =>
      have hp := h' p (by simp)
      simp only [List.map_cons]
      rw [← hp.1, ← hp.2.1]
      cases p.1.shape[(1 : Nat)]? with
      | none => exact ⟨rfl, rfl⟩
      | some c => exact tf.reshape_rel hA _

theorem ops_ttm {A : Tensor α} {B : Tensor β} {C : Tensor γ} (hA : TRel r A B C) {L : List (Tensor α × Tensor β × Tensor γ)}
    (h : ∀ p ∈ L, TRel r p.1 p.2.1 p.2.2) (axis : Option (List Nat)) (tr : Bool) (s : Skip) :
    RelR (TRel r) (ops.ttm A (L.map fun p => p.1) axis tr s) (ops.ttm B (L.map fun p => p.2.1) axis tr s)
      (ops.ttm C (L.map fun p => p.2.2) axis tr s) := by
  have key : ∀ (L : List (Tensor α × Tensor β × Tensor γ)) (ax : List Nat), (∀ p ∈ L, TRel r p.1 p.2.1 p.2.2) →
      RelR (TRel r) (ttmEq A.order ax tr >>= fun eqn => tf.einsum eqn (A :: L.map fun p => p.1))
        (ttmEq A.order ax tr >>= fun eqn => tf.einsum eqn (B :: L.map fun p => p.2.1))
        (ttmEq A.order ax tr >>= fun eqn => tf.einsum eqn (C :: L.map fun p => p.2.2)) := by
    intro L ax h
    refine RelR.bind (RelR.const (p := fun a b c => a = b ∧ a = c) fun a _ => ⟨rfl, rfl⟩) ?_
    rintro eqn _ _ ⟨rfl, rfl⟩
    exact hG.einsum (L := (A, B, C) :: L) (by
      intro p hp
      rcases List.mem_cons.1 hp with rfl | hp
      · exact hA
      · exact h p hp)
  unfold ops.ttm
  rw [← hA.order.1, ← hA.order.2]
  by_cases hc : axis.isSome ∧ s ≠ .none
  · rw [if_pos hc, if_pos hc, if_pos hc]; exact ⟨rfl, rfl⟩
  · rw [if_neg hc, if_neg hc, if_neg hc]
    have hk : ∀ p ∈ ops.skip L s, TRel r p.1 p.2.1 p.2.2 := fun p hp => h p (skip_mem hp)
    cases s with
    | none => simp only [List.length_map]; exact key L _ h
    | int i => simp only [List.length_map, skip_map]; exact key _ _ hk
    | list l => simp only [List.length_map, skip_map]; exact key _ _ hk

theorem kextract {L : List (Tensor α × Tensor β × Tensor γ)} (h : ∀ p ∈ L, TRel r p.1 p.2.1 p.2.2) {A : Tensor α} {B : Tensor β}
    {C : Tensor γ} (hA : TRel r A B C) (ud ld : DType) :
    RelR (TRel r) (KTensor.extract ⟨L.map fun p => p.1, ud, A, ld⟩) (KTensor.extract ⟨L.map fun p => p.2.1, ud, B, ld⟩)
      (KTensor.extract ⟨L.map fun p => p.2.2, ud, C, ld⟩) := by
  unfold KTensor.extract
  refine RelR.bind (hG.ops_khatri h .none false) fun K K1 K2 hr => ?_
  dsimp only
  rw [(dims_eq h 0).1, (dims_eq h 0).2]
  refine RelR.bind (RelR.const (p := fun a b c => a = b ∧ a = c) fun a _ => ⟨rfl, rfl⟩) ?_
  rintro a _ _ ⟨rfl, rfl⟩
  by_cases hd : ud = ld
  · rw [if_pos hd, if_pos hd, if_pos hd]
    exact RelR.bind (hG.matmul hr hA _ _) fun _ _ _ hh => tf.reshape_rel hh _
  · rw [if_neg hd, if_neg hd, if_neg hd]; exact ⟨rfl, rfl⟩

theorem textract {A : Tensor α} {B : Tensor β} {C : Tensor γ} (hA : TRel r A B C) {L : List (Tensor α × Tensor β × Tensor γ)}
    (h : ∀ p ∈ L, TRel r p.1 p.2.1 p.2.2) (gd ud : DType) :
    RelR (TRel r) (TTensor.extract ⟨A, gd, L.map fun p => p.1, ud⟩) (TTensor.extract ⟨B, gd, L.map fun p => p.2.1, ud⟩)
      (TTensor.extract ⟨C, gd, L.map fun p => p.2.2, ud⟩) := by
  unfold TTensor.extract
  dsimp only
  by_cases hd : gd = ud
  · rw [if_pos hd, if_pos hd, if_pos hd]; exact hG.ops_ttm hA h _ _ _
  · rw [if_neg hd, if_neg hd, if_neg hd]; exact ⟨rfl, rfl⟩

end Par
end TD
