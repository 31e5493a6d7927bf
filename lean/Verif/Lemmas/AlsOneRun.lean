import Verif.Lemmas.AlsOneCp
import Verif.Props.Ncp

/-! # One component: whole trainings -/
namespace TD
open Spec Tensor tf ops fact

/-- What holds at every step of a run. -/
theorem run_stages {S F K Y R : Type} {A : Arith R} {c : Cls S F K Y R} {tol : R} {s0 : S} {n : Nat}
    {o : Nat → Out F K Y R} {k : Nat → Option K} {good : Nat → Out F K Y R → Prop} {Q : Nat → S → Prop} (h0 : Q 0 s0)
    (hmain : ∀ j < n, ∀ s k o s', Q j s → Runs c s k o s' → good j o ∧ Q (j + 1) s')
    (hup : ∀ j s s' a b, Q j s → Updates A c a b s s' → Q j s') (h : Run A c tol s0 n o k) : ∀ j < n, good j (o j) := by
  obtain ⟨⟨σ, e0, hs⟩, -⟩ := h
  have key : ∀ j < n, Q j (σ j) := by
    intro j
    induction j with
    | zero => intro _; rw [e0]; exact h0
    | succ j ih =>
        intro hj
        obtain ⟨s, h1, h2⟩ := hs j (by omega)
        exact hup _ _ _ _ _ (hmain j (by omega) _ _ _ _ (ih (by omega)) h1).2 (h2 hj)
  intro j hj
  obtain ⟨s, h1, -⟩ := hs j hj
  exact (hmain j hj _ _ _ _ (key j hj) h1).1

theorem alsOne_shape (X : Tensor ℝ) (v : Nat → Nat → ℝ) (j : Nat) : (alsOne X v j).shape = X.shape := rfl

theorem alsOne_eq {X Y : Tensor ℝ} {v : Nat → Nat → ℝ} {j : Nat} (hs : Y.shape = X.shape)
    (h : ∀ i, InB X.shape i → Y.at_ i = outerEntry X.order (refitAll X ((refitAll X)^[j] v)) i) : Y = alsOne X v (j + 1) := by
  refine ext_at hs fun i hi => ?_
  rw [hs] at hi
  unfold alsOne
  rw [h i hi, at_ofFn (s := X.shape) _ hi, Function.iterate_succ_apply']

theorem scalars_entry {X Y : Tensor ℝ} {l obj rel : ℝ} (hs : Y.shape = X.shape) (h : cp.scalars X Y = .ok (l, obj, rel)) :
    EntryOf X Y (l, rel) := by
  refine ⟨?_, (cp.scalars_ok hs h).2.1⟩
  unfold cp.scalars at h
  cases h1 : loss.rmseIgnoreZero X Y with
  | error e => rw [h1] at h; cases h
  | ok ls =>
      rw [h1, ok_bind, ewise_same _ hs, ok_bind] at h
      split at h
      · rename_i a b c d
        cases h
        rfl
      · cases h

/-- Parallel vectors give the same fits. -/
theorem Parallel.refit_both {X : Tensor ℝ} {v w : Nat → Nat → ℝ} (h : Parallel X.shape v w) (n : Nat) :
    Parallel X.shape (Spec.refit X v n) (Spec.refit X w n) :=
  h.refit (d := 1) one_ne_zero (fun a _ => by unfold Spec.refit; rw [Function.update_self, one_mul])
    fun k _ hk a _ => by unfold Spec.refit; rw [Function.update_of_ne hk]

theorem Parallel.foldl {X : Tensor ℝ} : ∀ (l : List Nat) {v w : Nat → Nat → ℝ}, Parallel X.shape v w →
    Parallel X.shape (l.foldl (Spec.refit X) v) (l.foldl (Spec.refit X) w)
  | [], _, _, h => h
  | n :: l, _, _, h => Parallel.foldl l (h.refit_both n)

theorem Parallel.refitAll {X : Tensor ℝ} {v w : Nat → Nat → ℝ} (h : Parallel X.shape v w) :
    Parallel X.shape (Spec.refitAll X v) (Spec.refitAll X w) := Parallel.foldl _ h

theorem Parallel.iterate {X : Tensor ℝ} {v w : Nat → Nat → ℝ} (h : Parallel X.shape v w) :
    ∀ j, Parallel X.shape ((Spec.refitAll X)^[j] v) ((Spec.refitAll X)^[j] w)
  | 0 => h
  | j + 1 => by rw [Function.iterate_succ_apply', Function.iterate_succ_apply']; exact (Parallel.iterate h j).refitAll

/-- The fits only depend on the directions of the starting vectors. -/
theorem alsOne_par {X : Tensor ℝ} (h1 : 1 ≤ X.order) {v w : Nat → Nat → ℝ} (h : Parallel X.shape v w) (j : Nat) :
    alsOne X v (j + 1) = alsOne X w (j + 1) := by
  unfold alsOne
  refine ofFn_congr fun i hi => ?_
  rw [Function.iterate_succ_apply', Function.iterate_succ_apply', refitAll_last h1, refitAll_last h1]
  exact outerEntry_refit_par (Parallel.foldl _ (Parallel.iterate h j)) (by omega) hi

/-- A training whose steps return the given reconstructions. -/
theorem train_reports {S F K : Type} {A : Arith ℝ} {c : Cls S F K (Tensor ℝ) ℝ} {args : Args ℝ} {steps : Int} {fresh : Res S}
    {self self' : Self F K (Tensor ℝ)} {ev : List Int} {hist : List (ℝ × ℝ)} {X : Tensor ℝ} {Y : Nat → Tensor ℝ}
    (h : train A c args steps fresh self = (self', ev, .ok hist))
    (hg : ∀ s0 n o k, fresh = .ok s0 → Run A c args.tol s0 n o k → n = hist.length →
      ∀ j < n, (o j).full = Y (j + 1) ∧ EntryOf X (Y (j + 1)) ((o j).loss, (o j).rel)) :
    (∀ j p, hist[j]? = some p → EntryOf X (Y (j + 1)) p) ∧
    ∃ p < hist.length, Reported args steps p ∧ (∀ q, p < q → q < hist.length → ¬ Reported args steps q) ∧
      self'.full = some (Y (p + 1)) := by
  obtain ⟨s0, n, o, kc, h0, h1, -, hr, -, hh, -, ⟨p, hp, hp1, hp2, hp3⟩, -⟩ := train_ok h
  have hn : n = hist.length := by rw [hh]; simp
  have key := hg s0 n o kc h0 hr hn
  refine ⟨fun j q hq => ?_, p, by rw [← hn]; exact hp, hp1, fun q a b => hp2 q a (by rw [hn]; exact b), by
    rw [hp3, (key p hp).1]⟩
  have hj : j < n := by rw [hn]; exact (List.getElem?_eq_some_iff.1 hq).1
  rw [hh, List.getElem?_map, List.getElem?_range hj, Option.map_some, Option.some.injEq] at hq
  rw [← hq]
  exact (key j hj).2

/-! ### The starting factors of the nonnegative methods -/

theorem relu_of_nonneg {d : Tensor ℝ} (h : Nonneg d) : bcu.relu d = d := by
  cases d with
  | mk s l e =>
      have : l.map (fun x => max x 0) = l := by
        conv_rhs => rw [← List.map_id l]
        exact List.map_congr_left fun x hx => max_eq_left (h x hx)
      unfold bcu.relu tf.map
      simp only [this]

/-- The starting factors are the drawn ones up to positive scalars. -/
theorem init_par_pos {X : Tensor ℝ} {p : Nat} {draws : List (Tensor ℝ)} {A : List (Tensor ℝ)} {shape : List Nat}
    (hX : 0 < normSqT X) (hd : ∀ d ∈ draws, Nonneg d) (hs : FactorsFor shape 1 draws)
    (h : draws.mapM (fun d => bcu.normInit X p (bcu.relu d)) = .ok A) :
    ∃ c : Nat → ℝ, (∀ k < shape.length, 0 < c k) ∧
      ∀ k < shape.length, ∀ a < shape.getD k 0, firstCol A k a = c k * firstCol draws k a := by
  have hf := bcu.mapM_inv h
  have hlen := hf.length_eq
  have hXn : 0 < tf.norm X := by
    rw [tf.norm, reduceSum_sq]
    exact Real.sqrt_pos.2 hX
  refine ⟨fun k => Real.rpow (tf.norm X) (1 / (p : ℝ)) / tf.norm (bcu.relu (draws.getD k X)), fun k hk => ?_,
    fun k hk a ha => ?_⟩
  all_goals
    have hk' : k < draws.length := by rw [hs.length]; exact hk
    have hkA : k < A.length := by rw [← hlen]; exact hk'
    have he := (List.forall₂_iff_get.1 hf).2 k hk' hkA
    rw [List.get_eq_getElem, List.get_eq_getElem] at he
    have hg : draws.getD k X = draws[k] := by simp [hk']
    unfold bcu.normInit at he
    by_cases h0 : tf.norm (bcu.relu draws[k]) = 0
    · rw [if_pos h0] at he; cases he
    rw [if_neg h0] at he
  · beta_reduce
    rw [hg]
    exact div_pos (Real.rpow_pos_of_pos hXn _) (lt_of_le_of_ne (Real.sqrt_nonneg _) (Ne.symm h0))
  · have hsh := hs.get (List.getElem?_eq_getElem hk')
    beta_reduce
    rw [firstCol_get (List.getElem?_eq_getElem hkA), firstCol_get (List.getElem?_eq_getElem hk'), hg, ← Except.ok.inj he,
      relu_of_nonneg (hd _ (List.getElem_mem hk'))]
    have hb : InB draws[k].shape [a, 0] := by rw [hsh]; exact InB_pair.2 ⟨a, 0, rfl, ha, Nat.one_pos⟩
    rw [at_map _ _ hb]
    ring

theorem init_par {X : Tensor ℝ} {p : Nat} {draws : List (Tensor ℝ)} {A : List (Tensor ℝ)} {shape : List Nat}
    (hX : 0 < normSqT X) (hd : ∀ d ∈ draws, Nonneg d) (hs : FactorsFor shape 1 draws)
    (h : draws.mapM (fun d => bcu.normInit X p (bcu.relu d)) = .ok A) :
    Parallel shape (firstCol A) (firstCol draws) := by
  obtain ⟨c, c1, c2⟩ := init_par_pos hX hd hs h
  exact ⟨c, fun k hk => (c1 k hk).ne', c2⟩

end TD
