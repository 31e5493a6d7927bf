import Verif.Model.PitfRaw
import Verif.Props.Objects
import Verif.Props.Pitf
import Verif.Lemmas.Slices
import Verif.Lemmas.Negative
import Verif.Lemmas.HosvdCore

/-!
# C162: the numpy sampling operators on any arguments
-/
namespace TD.Spec

/-- Sample `k` of list `r` is an index of an axis of size `n`, and means `a` there. -/
def SampleMeans (spl : List (List Int)) (r k n : Nat) (a : Fin n) : Prop := ∃ l z, spl[r]? = some l ∧ l[k]? = some z ∧ Means n z a

/-- Sample `k` means position `(a, b)` of a matrix whose rows are numbered by list `r` and whose columns are numbered by list `c`. -/
def PairMeans (spl : List (List Int)) (r c k : Nat) {p q : Nat} (a : Fin p) (b : Fin q) : Prop := SampleMeans spl r k p a ∧ SampleMeans spl c k q b

end TD.Spec

namespace TD.Props
open TD TD.pitf TD.ops Matrix Spec

theorem raw_item_nat {α : Type} (l : List α) (i : Nat) (x : α) : raw.item l (i : Int) = .ok x ↔ l[i]? = some x := by
  unfold raw.item
  rw [wrap_nat]
  by_cases h : i < l.length
  · simp [h]
  · simp [h]

theorem raw_item_error {α : Type} {l : List α} {i : Int} {e : PyErr} (h : raw.item l i = .error e) : e = .indexError := by
  unfold raw.item at h
  split at h
  · cases h
  · cases h; rfl

theorem axisIndex_ok {n : Nat} {z : Int} {a : Fin n} : raw.axisIndex n z = .ok a ↔ Means n z a := by
  unfold raw.axisIndex
  cases h : tf.wrap n z with
  | none =>
      simp only [reduceCtorEq, false_iff]
      intro hm
      rw [wrap_some.2 hm] at h
      cases h
  | some k =>
      have hm := wrap_some.1 h
      simp only [hm.1, dite_true, Except.ok.injEq]
      constructor
      · rintro rfl; exact hm
      · intro ha
        rw [wrap_some.2 ha] at h
        exact Fin.ext (Option.some.inj h).symm

theorem axisIndex_error {n : Nat} {z : Int} {e : PyErr} (h : raw.axisIndex n z = .error e) : e = .indexError := by
  unfold raw.axisIndex at h
  split at h
  · split at h
    · cases h
    · cases h; rfl
  · cases h; rfl

theorem raw_sample_ok {spl : List (List Int)} {r n i : Nat} {a : Fin n} : raw.sample spl (r : Int) n i = .ok a ↔ SampleMeans spl r i n a := by
  unfold raw.sample SampleMeans
  constructor
  · intro h
    cases h1 : raw.item spl (r : Int) with
    | error e => rw [h1] at h; cases h
    | ok l =>
        rw [h1, ok_bind] at h
        cases h2 : raw.item l (i : Int) with
        | error e => rw [h2] at h; cases h
        | ok z =>
            rw [h2, ok_bind] at h
            exact ⟨l, z, (raw_item_nat _ _ _).1 h1, (raw_item_nat _ _ _).1 h2, axisIndex_ok.1 h⟩
  · rintro ⟨l, z, h1, h2, h3⟩
    rw [(raw_item_nat _ _ _).2 h1, ok_bind, (raw_item_nat _ _ _).2 h2, ok_bind, axisIndex_ok.2 h3]

theorem bind_error_index {β γ : Type} {x : Res β} {f : β → Res γ} (hx : ∀ e, x = .error e → e = .indexError)
    (hf : ∀ b e, f b = .error e → e = .indexError) {e : PyErr} (h : (x >>= f) = .error e) : e = .indexError := by
  cases h1 : x with
  | error e' => rw [h1] at h; cases h; exact hx _ h1
  | ok b => rw [h1, ok_bind] at h; exact hf _ _ h

theorem raw_sample_error {spl : List (List Int)} {r : Int} {n i : Nat} {e : PyErr} (h : raw.sample spl r n i = .error e) : e = .indexError :=
  bind_error_index (fun _ => raw_item_error) (fun _ _ => bind_error_index (fun _ => raw_item_error) fun _ _ => axisIndex_error) h

theorem mapM_of_forall₂ {β γ : Type} {f : β → Res γ} {l : List β} {v : List γ} (h : List.Forall₂ (fun a b => f a = .ok b) l v) :
    l.mapM f = .ok v := by
  induction h with
  | nil => rfl
  | cons ha _ ih => rw [List.mapM_cons, ha, ok_bind, ih, ok_bind]; rfl

theorem mapM_range_iff {γ : Type} {f : Nat → Res γ} : ∀ {N : Nat} {v : List γ}, (List.range N).mapM f = .ok v ↔
    v.length = N ∧ ∀ k < N, ∃ x, f k = .ok x ∧ v[k]? = some x := by
  intro N v
  constructor
  · intro h
    have h' := mapM_forall₂_of h
    have hl : v.length = N := by rw [← h'.length_eq, List.length_range]
    refine ⟨hl, fun k hk => ?_⟩
    have hk' : k < v.length := by omega
    refine ⟨v[k], ?_, by simp [hk']⟩
    have := h'.get (by simpa using hk) hk'
    simpa using this
  · rintro ⟨hl, hv⟩
    refine mapM_of_forall₂ (List.forall₂_iff_get.2 ⟨by simp [hl], fun k h1 h2 => ?_⟩)
    obtain ⟨x, hx, hv⟩ := hv k (by simpa using h1)
    rw [List.getElem?_eq_getElem h2] at hv
    simpa [Option.some.inj hv] using hx

theorem mapM_error_index {β γ : Type} {f : β → Res γ} (hf : ∀ b e, f b = .error e → e = .indexError) : ∀ {l : List β} {e : PyErr},
    l.mapM f = .error e → e = .indexError
  | [], e, h => by cases h
  | x :: l, e, h => by
      rw [List.mapM_cons] at h
      exact bind_error_index (hf x) (fun _ _ => bind_error_index (fun _ => mapM_error_index hf) fun _ _ h => by cases h) h

theorem foldlM_error_index {β σ : Type} {f : σ → β → Res σ} (hf : ∀ s b e, f s b = .error e → e = .indexError) : ∀ {l : List β} {s : σ} {e : PyErr},
    l.foldlM f s = .error e → e = .indexError
  | [], s, e, h => by cases h
  | x :: l, s, e, h => by
      rw [List.foldlM_cons] at h
      exact bind_error_index (hf s x) (fun _ _ => foldlM_error_index hf) h

theorem names_unique {spl : List (List Int)} {r k n : Nat} {a a' : Fin n} (h : SampleMeans spl r k n a) (h' : SampleMeans spl r k n a') : a = a' :=
  Except.ok.inj ((raw_sample_ok.2 h).symm.trans (raw_sample_ok.2 h'))

theorem gather_ok {spl : List (List Int)} {p q : Nat} {mat : Mat p q} {r c : Nat} {m : Int} {v : List ℝ} :
    raw.gather spl mat (r : Int) (c : Int) m = .ok v ↔
      v.length = m.toNat ∧ ∀ k < m.toNat, ∃ a b, PairMeans spl r c k a b ∧ v[k]? = some (mat a b) := by
  unfold raw.gather
  rw [mapM_range_iff]
  refine and_congr_right fun _ => forall₂_congr fun k _ => ⟨?_, ?_⟩
  · rintro ⟨x, hx, hv⟩
    cases h1 : raw.sample spl (r : Int) p k with
    | error e => rw [h1] at hx; cases hx
    | ok a =>
        cases h2 : raw.sample spl (c : Int) q k with
        | error e => rw [h1, ok_bind, h2] at hx; cases hx
        | ok b =>
            rw [h1, ok_bind, h2, ok_bind] at hx
            cases hx
            exact ⟨a, b, ⟨raw_sample_ok.1 h1, raw_sample_ok.1 h2⟩, hv⟩
  · rintro ⟨a, b, ⟨h1, h2⟩, hv⟩
    exact ⟨_, by rw [raw_sample_ok.2 h1, ok_bind, raw_sample_ok.2 h2, ok_bind], hv⟩

theorem gather_error {spl : List (List Int)} {p q : Nat} {mat : Mat p q} {r c : Int} {m : Int} {e : PyErr}
    (h : raw.gather spl mat r c m = .error e) : e = .indexError :=
  mapM_error_index (fun _ _ => bind_error_index (fun _ => raw_sample_error) fun _ _ => bind_error_index (fun _ => raw_sample_error)
    fun _ _ h => by cases h) h

/-- The three branches of `Pomega_mat` as one. -/
theorem pomega_branch {p q : Nat} (spl : List (List Int)) (mat : Mat p q) (shape : List Nat) (m : Int) (d : Fin 3) :
    raw.PomegaMat spl mat shape m (some (d.val : Int)) = (do
      let v ← raw.gather spl mat ((d.val : Nat) : Int) (((d + 1).val : Nat) : Int) m
      let s ← raw.item shape (((d + 2).val : Nat) : Int)
      .ok (some (v.map fun x => loss.fdiv x √s))) := by
  fin_cases d <;> rfl

/-- **C162**: with `dim` = 0, 1, 2, `Pomega_mat` returns exactly if the size under the root is given and every sample is a position of the
matrix (negative indices count from the end); its entries are the entries of the matrix there, divided by the root. -/
theorem C162_matrix {p q : Nat} (spl : List (List Int)) (mat : Mat p q) (shape : List Nat) (m : Int) (d : Fin 3) (v : List (Option ℝ)) :
    raw.PomegaMat spl mat shape m (some (d.val : Int)) = .ok (some v) ↔
      ∃ N, shape[(d + 2).val]? = some N ∧ v.length = m.toNat ∧
        ∀ k < m.toNat, ∃ a b, PairMeans spl d.val (d + 1).val k a b ∧ v[k]? = some (if N = 0 then none else some (mat a b / √N)) := by
  have hdiv : ∀ (x : ℝ) (N : Nat), loss.fdiv x √N = if N = 0 then none else some (x / √N) := by
    intro x N
    unfold loss.fdiv
    simp
  rw [pomega_branch]
  constructor
  · intro h
    cases h1 : raw.gather spl mat ((d.val : Nat) : Int) (((d + 1).val : Nat) : Int) m with
    | error e => rw [h1] at h; cases h
    | ok w =>
        cases h2 : raw.item shape (((d + 2).val : Nat) : Int) with
        | error e => rw [h1, ok_bind, h2] at h; cases h
        | ok N =>
            rw [h1, ok_bind, h2, ok_bind] at h
            cases h
            obtain ⟨hl, hw⟩ := gather_ok.1 h1
            refine ⟨N, (raw_item_nat _ _ _).1 h2, by rw [List.length_map, hl], fun k hk => ?_⟩
            obtain ⟨a, b, hab, hv⟩ := hw k hk
            exact ⟨a, b, hab, by rw [List.getElem?_map, hv, Option.map_some, hdiv]⟩
  · rintro ⟨N, hN, hl, hv⟩
    have hg : raw.gather spl mat ((d.val : Nat) : Int) (((d + 1).val : Nat) : Int) m =
        .ok (List.ofFn fun k : Fin m.toNat => mat (hv k k.2).choose (hv k k.2).choose_spec.choose) := by
      refine gather_ok.2 ⟨by simp, fun k hk => ?_⟩
      exact ⟨_, _, (hv k hk).choose_spec.choose_spec.1, by simp [hk]⟩
    rw [hg, ok_bind, (raw_item_nat _ _ _).2 hN, ok_bind]
    congr 2
    refine List.ext_getElem? fun k => ?_
    by_cases hk : k < m.toNat
    · rw [(hv k hk).choose_spec.choose_spec.2]
      simp [hk, hdiv]
    · rw [List.getElem?_eq_none (by simp; omega), List.getElem?_eq_none (by omega)]

/-- **C162**: otherwise `Pomega_mat` raises `IndexError`; with any other `dim` it returns `None` whatever the arguments. -/
theorem C162_matrix_else {p q : Nat} (spl : List (List Int)) (mat : Mat p q) (shape : List Nat) (m : Int) :
    (∀ d : Fin 3, (∃ v, raw.PomegaMat spl mat shape m (some (d.val : Int)) = .ok (some v)) ∨
      raw.PomegaMat spl mat shape m (some (d.val : Int)) = .error .indexError) ∧
    ∀ dim : Option Int, (∀ d : Fin 3, dim ≠ some (d.val : Int)) → raw.PomegaMat spl mat shape m dim = .ok none := by
  constructor
  · intro d
    rw [pomega_branch]
    cases h1 : raw.gather spl mat ((d.val : Nat) : Int) (((d + 1).val : Nat) : Int) m with
    | error e => right; rw [gather_error h1]; rfl
    | ok w =>
        cases h2 : raw.item shape (((d + 2).val : Nat) : Int) with
        | error e => right; rw [ok_bind, raw_item_error h2]; rfl
        | ok N => left; exact ⟨_, rfl⟩
  · intro dim h
    unfold raw.PomegaMat
    rw [if_neg (show dim ≠ some 0 from h 0), if_neg (show dim ≠ some 1 from h 1), if_neg (show dim ≠ some 2 from h 2)]

/-- What `scatter` has written after `N` samples. -/
def Written (spl : List (List Int)) (y : List ℝ) (r c N : Nat) {p q : Nat} (M : Mat p q) : Prop :=
  ∀ a b, (∀ k < N, ∀ x, PairMeans spl r c k a b → (∀ l, k < l → l < N → ¬ PairMeans spl r c l a b) → y[k]? = some x → M a b = x) ∧
    ((∀ k < N, ¬ PairMeans spl r c k a b) → M a b = 0)

theorem scatter_step {spl : List (List Int)} {y : List ℝ} {p q r c i : Nat} {X X' : Mat p q} :
    (do let v ← raw.item y (i : Int)
        let a ← raw.sample spl (r : Int) p i
        let b ← raw.sample spl (c : Int) q i
        (.ok (np.assign X (a, b) v) : Res (Mat p q))) = .ok X' ↔
      ∃ v a b, y[i]? = some v ∧ PairMeans spl r c i a b ∧ X' = np.assign X (a, b) v := by
  constructor
  · intro h
    cases h0 : raw.item y (i : Int) with
    | error e => rw [h0] at h; cases h
    | ok v =>
        cases h1 : raw.sample spl (r : Int) p i with
        | error e => rw [h0, ok_bind, h1] at h; cases h
        | ok a =>
            cases h2 : raw.sample spl (c : Int) q i with
            | error e => rw [h0, ok_bind, h1, ok_bind, h2] at h; cases h
            | ok b =>
                rw [h0, ok_bind, h1, ok_bind, h2, ok_bind] at h
                exact ⟨v, a, b, (raw_item_nat _ _ _).1 h0, ⟨raw_sample_ok.1 h1, raw_sample_ok.1 h2⟩, (Except.ok.inj h).symm⟩
  · rintro ⟨v, a, b, h0, ⟨h1, h2⟩, rfl⟩
    rw [(raw_item_nat _ _ _).2 h0, ok_bind, raw_sample_ok.2 h1, ok_bind, raw_sample_ok.2 h2, ok_bind]

theorem written_step {spl : List (List Int)} {y : List ℝ} {p q r c N : Nat} {X : Mat p q} (hX : Written spl y r c N X) {v : ℝ} {a : Fin p}
    {b : Fin q} (hv : y[N]? = some v) (hab : PairMeans spl r c N a b) : Written spl y r c (N + 1) (np.assign X (a, b) v) := by
  intro i j
  by_cases hij : (i, j) = (a, b)
  · obtain ⟨rfl, rfl⟩ := Prod.ext_iff.1 hij
    have e : np.assign X (i, j) v i j = v := if_pos rfl
    refine ⟨fun k hk x hn hl hx => ?_, fun h => absurd hab (h N (by omega))⟩
    rcases Nat.lt_or_ge k N with hkN | hkN
    · exact absurd hab (hl N hkN (by omega))
    · obtain rfl : k = N := by omega
      rw [e]; exact Option.some.inj (hv.symm.trans hx)
  · have e : np.assign X (a, b) v i j = X i j := if_neg hij
    have hne : ¬ PairMeans spl r c N i j := by
      rintro ⟨h1, h2⟩
      exact hij (Prod.ext (names_unique h1 hab.1) (names_unique h2 hab.2))
    rw [e]
    refine ⟨fun k hk x hn hl hx => ?_, fun h => (hX i j).2 fun k hk => h k (by omega)⟩
    rcases Nat.lt_or_ge k N with hkN | hkN
    · exact (hX i j).1 k hkN x hn (fun l h1 h2 => hl l h1 (by omega)) hx
    · obtain rfl : k = N := by omega
      exact absurd hn hne

theorem scatter_inv {spl : List (List Int)} {y : List ℝ} {p q r c : Nat} {m : Int} {M : Mat p q}
    (h : raw.scatter spl y p q (r : Int) (c : Int) m = .ok M) :
    (∀ k < m.toNat, (∃ x, y[k]? = some x) ∧ ∃ (a : Fin p) (b : Fin q), PairMeans spl r c k a b) ∧ Written spl y r c m.toNat M := by
  refine foldlM_range_inv (P := fun N X => (∀ k < N, (∃ x, y[k]? = some x) ∧ ∃ (a : Fin p) (b : Fin q), PairMeans spl r c k a b) ∧
    Written spl y r c N X) ?_ ⟨by simp, fun a b => ⟨by simp, fun _ => rfl⟩⟩ h
  rintro N - X X' ⟨h1, h2⟩ hs
  obtain ⟨v, a, b, hv, hab, rfl⟩ := scatter_step.1 hs
  refine ⟨fun k hk => ?_, written_step h2 hv hab⟩
  rcases Nat.lt_or_ge k N with hkN | hkN
  · exact h1 k hkN
  · obtain rfl : k = N := by omega
    exact ⟨⟨v, hv⟩, a, b, hab⟩

theorem scatter_exists {spl : List (List Int)} {y : List ℝ} {p q r c : Nat} {m : Int}
    (h : ∀ k < m.toNat, (∃ x, y[k]? = some x) ∧ ∃ (a : Fin p) (b : Fin q), PairMeans spl r c k a b) :
    ∃ M, raw.scatter spl y p q (r : Int) (c : Int) m = .ok M := by
  unfold raw.scatter
  generalize m.toNat = N at h
  induction N with
  | zero => exact ⟨_, rfl⟩
  | succ N ih =>
      obtain ⟨X, hX⟩ := ih fun k hk => h k (by omega)
      obtain ⟨⟨v, hv⟩, a, b, hab⟩ := h N (by omega)
      refine ⟨np.assign X (a, b) v, ?_⟩
      rw [List.range_succ, List.foldlM_append, hX, ok_bind, List.foldlM_cons, scatter_step.2 ⟨v, a, b, hv, hab, rfl⟩]
      rfl

theorem last_or_none (P : Nat → Prop) : ∀ N, (∀ k < N, ¬ P k) ∨ ∃ k < N, P k ∧ ∀ l, k < l → l < N → ¬ P l
  | 0 => .inl (by simp)
  | N + 1 => by
      by_cases h : P N
      · exact .inr ⟨N, by omega, h, fun l h1 h2 => by omega⟩
      · rcases last_or_none P N with h' | ⟨k, hk, hP, hl⟩
        · left
          intro k hk
          rcases Nat.lt_or_ge k N with h1 | h1
          · exact h' k h1
          · obtain rfl : k = N := by omega
            exact h
        · right
          refine ⟨k, by omega, hP, fun l h1 h2 => ?_⟩
          rcases Nat.lt_or_ge l N with h3 | h3
          · exact hl l h1 h3
          · obtain rfl : l = N := by omega
            exact h

theorem Written.unique {spl : List (List Int)} {y : List ℝ} {r c N : Nat} {p q : Nat} {M M' : Mat p q} (h : Written spl y r c N M)
    (h' : Written spl y r c N M') (hy : ∀ k < N, ∃ x, y[k]? = some x) : M = M' := by
  funext a b
  rcases last_or_none (fun k => PairMeans spl r c k a b) N with h0 | ⟨k, hk, hn, hl⟩
  · rw [(h a b).2 h0, (h' a b).2 h0]
  · obtain ⟨x, hx⟩ := hy k hk
    rw [(h a b).1 k hk x hn hl hx, (h' a b).1 k hk x hn hl hx]

theorem adjoint_branch (spl : List (List Int)) (y : List ℝ) (shape : List Nat) (m : Int) (d : Fin 3) :
    raw.adjointOperator spl y shape m (some (d.val : Int)) = (do
      let p ← raw.item shape ((d.val : Nat) : Int)
      let q ← raw.item shape (((d + 1).val : Nat) : Int)
      let X ← raw.scatter spl y p q ((d.val : Nat) : Int) (((d + 1).val : Nat) : Int) m
      .ok (.mat p q X)) := by
  fin_cases d <;> rfl

/-- **C162**: with `dim` = 0, 1, 2, `adjoint_operator` returns exactly if the sizes are given, every sample is a position of a matrix of these
sizes, and there is a value for it; an entry of the matrix is the value of the last sample at its position, or zero. -/
theorem C162_adjoint (spl : List (List Int)) (y : List ℝ) (shape : List Nat) (m : Int) (d : Fin 3) (p q : Nat) (M : Mat p q) :
    raw.adjointOperator spl y shape m (some (d.val : Int)) = .ok (.mat p q M) ↔
      shape[d.val]? = some p ∧ shape[(d + 1).val]? = some q ∧
      (∀ k < m.toNat, k < y.length ∧ ∃ (a : Fin p) (b : Fin q), PairMeans spl d.val (d + 1).val k a b) ∧
      ∀ a b,
        (∀ k < m.toNat, ∀ x, PairMeans spl d.val (d + 1).val k a b →
          (∀ l, k < l → l < m.toNat → ¬ PairMeans spl d.val (d + 1).val l a b) → y[k]? = some x → M a b = x) ∧
        ((∀ k < m.toNat, ¬ PairMeans spl d.val (d + 1).val k a b) → M a b = 0) := by
  have hlen : ∀ k, (∃ x, y[k]? = some x) ↔ k < y.length := by
    intro k
    constructor
    · rintro ⟨x, hx⟩; exact (List.getElem?_eq_some_iff.1 hx).1
    · intro h; exact ⟨_, List.getElem?_eq_getElem h⟩
  simp only [← hlen]
  rw [adjoint_branch]
  constructor
  · intro h
    cases h1 : raw.item shape ((d.val : Nat) : Int) with
    | error e => rw [h1] at h; cases h
    | ok p' =>
        cases h2 : raw.item shape (((d + 1).val : Nat) : Int) with
        | error e => rw [h1, ok_bind, h2] at h; cases h
        | ok q' =>
            cases h3 : raw.scatter spl y p' q' ((d.val : Nat) : Int) (((d + 1).val : Nat) : Int) m with
            | error e => rw [h1, ok_bind, h2, ok_bind, h3] at h; cases h
            | ok X =>
                rw [h1, ok_bind, h2, ok_bind, h3, ok_bind] at h
                cases h
                obtain ⟨h4, h5⟩ := scatter_inv h3
                exact ⟨(raw_item_nat _ _ _).1 h1, (raw_item_nat _ _ _).1 h2, h4, h5⟩
  · rintro ⟨h1, h2, h3, h4⟩
    obtain ⟨X, hX⟩ := scatter_exists (r := d.val) (c := (d + 1).val) h3
    obtain rfl : X = M := (scatter_inv hX).2.unique h4 fun k hk => (h3 k hk).1
    rw [(raw_item_nat _ _ _).2 h1, ok_bind, (raw_item_nat _ _ _).2 h2, ok_bind, hX, ok_bind]

/-- **C162**: otherwise `adjoint_operator` raises `IndexError`; with any other `dim` it returns -1 whatever the arguments. -/
theorem C162_adjoint_else (spl : List (List Int)) (y : List ℝ) (shape : List Nat) (m : Int) :
    (∀ d : Fin 3, (∃ p q M, raw.adjointOperator spl y shape m (some (d.val : Int)) = .ok (.mat p q M)) ∨
      raw.adjointOperator spl y shape m (some (d.val : Int)) = .error .indexError) ∧
    ∀ dim : Option Int, (∀ d : Fin 3, dim ≠ some (d.val : Int)) → raw.adjointOperator spl y shape m dim = .ok .minusOne := by
  constructor
  · intro d
    rw [adjoint_branch]
    cases h1 : raw.item shape ((d.val : Nat) : Int) with
    | error e => right; rw [raw_item_error h1]; rfl
    | ok p =>
        cases h2 : raw.item shape (((d + 1).val : Nat) : Int) with
        | error e => right; rw [ok_bind, raw_item_error h2]; rfl
        | ok q =>
            cases h3 : raw.scatter spl y p q ((d.val : Nat) : Int) (((d + 1).val : Nat) : Int) m with
            | ok X => left; exact ⟨_, _, _, by rw [ok_bind, ok_bind, h3, ok_bind]⟩
            | error e =>
                right
                have : e = .indexError := foldlM_error_index (fun _ _ _ => bind_error_index (fun _ => raw_item_error) fun _ _ =>
                  bind_error_index (fun _ => raw_sample_error) fun _ _ => bind_error_index (fun _ => raw_sample_error)
                    fun _ _ h => by cases h) h3
                rw [ok_bind, ok_bind, h3, this]; rfl
  · intro dim h
    unfold raw.adjointOperator
    rw [if_neg (show dim ≠ some 0 from h 0), if_neg (show dim ≠ some 1 from h 1), if_neg (show dim ≠ some 2 from h 2)]

/-- **C162**: `Pomega_tensor` returns exactly if the number of samples is not negative and every sample is a position of the tensor; its entries
are the entries of the tensor there. -/
theorem C162_tensor {p q r : Nat} (spl : List (List Int)) (T : Fin p → Fin q → Fin r → ℝ) (m : Int) (v : List ℝ) :
    raw.PomegaTensor spl T m = .ok v ↔ 0 ≤ m ∧ v.length = m.toNat ∧
      ∀ k < m.toNat, ∃ a b c, SampleMeans spl 0 k p a ∧ SampleMeans spl 1 k q b ∧ SampleMeans spl 2 k r c ∧ v[k]? = some (T a b c) := by
  unfold raw.PomegaTensor
  by_cases hm : m < 0
  · simp [hm, not_le.2 hm]
  · rw [if_neg hm, mapM_range_iff]
    simp only [not_lt.1 hm, true_and]
    refine and_congr_right fun _ => forall₂_congr fun k _ => ⟨?_, ?_⟩
    · rintro ⟨x, hx, hv⟩
      cases h1 : raw.sample spl 0 p k with
      | error e => rw [h1] at hx; cases hx
      | ok a =>
          cases h2 : raw.sample spl 1 q k with
          | error e => rw [h1, ok_bind, h2] at hx; cases hx
          | ok b =>
              cases h3 : raw.sample spl 2 r k with
              | error e => rw [h1, ok_bind, h2, ok_bind, h3] at hx; cases hx
              | ok c =>
                  rw [h1, ok_bind, h2, ok_bind, h3, ok_bind] at hx
                  cases hx
                  exact ⟨a, b, c, raw_sample_ok.1 h1, raw_sample_ok.1 h2, raw_sample_ok.1 h3, hv⟩
    · rintro ⟨a, b, c, h1, h2, h3, hv⟩
      have e1 : raw.sample spl 0 p k = .ok a := raw_sample_ok.2 h1
      have e2 : raw.sample spl 1 q k = .ok b := raw_sample_ok.2 h2
      have e3 : raw.sample spl 2 r k = .ok c := raw_sample_ok.2 h3
      exact ⟨_, by rw [e1, ok_bind, e2, ok_bind, e3, ok_bind], hv⟩

/-- **C162**: otherwise `Pomega_tensor` raises `ValueError` for a negative number of samples and `IndexError` else. -/
theorem C162_tensor_else {p q r : Nat} (spl : List (List Int)) (T : Fin p → Fin q → Fin r → ℝ) (m : Int) :
    (m < 0 → raw.PomegaTensor spl T m = .error .valueError) ∧
    (0 ≤ m → (∃ v, raw.PomegaTensor spl T m = .ok v) ∨ raw.PomegaTensor spl T m = .error .indexError) := by
  unfold raw.PomegaTensor
  refine ⟨fun h => if_pos h, fun h => ?_⟩
  rw [if_neg (not_lt.2 h)]
  cases h1 : (List.range m.toNat).mapM fun i => do
    let a ← raw.sample spl 0 p i
    let b ← raw.sample spl 1 q i
    let c ← raw.sample spl 2 r i
    (.ok (T a b c) : Res ℝ) with
  | ok v => exact .inl ⟨v, rfl⟩
  | error e =>
      right
      rw [mapM_error_index (fun _ _ => bind_error_index (fun _ => raw_sample_error) fun _ _ =>
        bind_error_index (fun _ => raw_sample_error) fun _ _ => bind_error_index (fun _ => raw_sample_error) fun _ _ h => by cases h) h1]

/-- **C162**: `Pomega_Pair` returns exactly if the three sizes are given and every sample is a position of each of the three matrices; its entries are
the sums of the three sampled vectors. -/
theorem C162_pair {p0 q0 p1 q1 p2 q2 : Nat} (spl : List (List Int)) (X : Mat p0 q0) (Y : Mat p1 q1) (Z : Mat p2 q2) (shape : List Nat) (m : Int)
    (v : List (Option ℝ)) : raw.PomegaPair spl X Y Z shape m = .ok v ↔
      ∃ N0 N1 N2 : Nat, shape[0]? = some N0 ∧ shape[1]? = some N1 ∧ shape[2]? = some N2 ∧ v.length = m.toNat ∧
        ∀ k < m.toNat, ∃ a b b' c c' a', PairMeans spl 0 1 k a b ∧ PairMeans spl 1 2 k b' c ∧ PairMeans spl 2 0 k c' a' ∧
          v[k]? = some (if N0 = 0 ∨ N1 = 0 ∨ N2 = 0 then none else some (X a b / √N2 + Y b' c / √N0 + Z c' a' / √N1)) := by
  have hA := C162_matrix spl X shape m 0
  have hB := C162_matrix spl Y shape m 1
  have hC := C162_matrix spl Z shape m 2
  have hsum : ∀ (N0 N1 N2 : Nat) (x y z : ℝ), raw.addNum (raw.addNum (if N2 = 0 then none else some x) (if N0 = 0 then none else some y))
      (if N1 = 0 then none else some z) = if N0 = 0 ∨ N1 = 0 ∨ N2 = 0 then none else some (x + y + z) := by
    intro N0 N1 N2 x y z
    by_cases h0 : N0 = 0 <;> by_cases h1 : N1 = 0 <;> by_cases h2 : N2 = 0 <;> simp [h0, h1, h2, raw.addNum]
  unfold raw.PomegaPair
  constructor
  · intro h
    cases h1 : raw.PomegaMat spl X shape m (some 0) with
    | error e => rw [h1] at h; cases h
    | ok A =>
    cases h2 : raw.PomegaMat spl Y shape m (some 1) with
    | error e => rw [h1, ok_bind, h2] at h; cases h
    | ok B =>
    cases h3 : raw.PomegaMat spl Z shape m (some 2) with
    | error e => rw [h1, ok_bind, h2, ok_bind, h3] at h; cases h
    | ok C =>
    rw [h1, ok_bind, h2, ok_bind, h3, ok_bind] at h
    cases A with
    | none => cases h
    | some A =>
    cases B with
    | none => cases h
    | some B =>
    cases C with
    | none => cases h
    | some C =>
    cases h
    obtain ⟨N2, e2, lA, hA⟩ := (hA A).1 h1
    obtain ⟨N0, e0, lB, hB⟩ := (hB B).1 h2
    obtain ⟨N1, e1, lC, hC⟩ := (hC C).1 h3
    refine ⟨N0, N1, N2, e0, e1, e2, by simp [lA, lB, lC], fun k hk => ?_⟩
    obtain ⟨a, b, n1, v1⟩ := hA k hk
    obtain ⟨b', c, n2, v2⟩ := hB k hk
    obtain ⟨c', a', n3, v3⟩ := hC k hk
    refine ⟨a, b, b', c, c', a', n1, n2, n3, ?_⟩
    rw [List.getElem?_zipWith, List.getElem?_zipWith, v1, v2, v3]
    exact congrArg some (hsum N0 N1 N2 _ _ _)
  · rintro ⟨N0, N1, N2, e0, e1, e2, hl, hv⟩
    choose a b b' c c' a' n1 n2 n3 hv using hv
    have f1 := (hA (List.ofFn fun k : Fin m.toNat => if N2 = 0 then none else some (X (a k k.2) (b k k.2) / √N2))).2
      ⟨N2, e2, by simp, fun k hk => ⟨_, _, n1 k hk, by simp [hk]⟩⟩
    have f2 := (hB (List.ofFn fun k : Fin m.toNat => if N0 = 0 then none else some (Y (b' k k.2) (c k k.2) / √N0))).2
      ⟨N0, e0, by simp, fun k hk => ⟨_, _, n2 k hk, by simp [hk]⟩⟩
    have f3 := (hC (List.ofFn fun k : Fin m.toNat => if N1 = 0 then none else some (Z (c' k k.2) (a' k k.2) / √N1))).2
      ⟨N1, e1, by simp, fun k hk => ⟨_, _, n3 k hk, by simp [hk]⟩⟩
    have f1' : raw.PomegaMat spl X shape m (some 0) = _ := f1
    have f2' : raw.PomegaMat spl Y shape m (some 1) = _ := f2
    have f3' : raw.PomegaMat spl Z shape m (some 2) = _ := f3
    rw [f1', ok_bind, f2', ok_bind, f3', ok_bind]
    refine congrArg Except.ok (List.ext_getElem? fun k => ?_)
    by_cases hk : k < m.toNat
    · rw [hv k hk, List.getElem?_zipWith, List.getElem?_zipWith]
      simp only [List.getElem?_ofFn, hk, dite_true]
      exact congrArg some (hsum N0 N1 N2 _ _ _)
    · rw [List.getElem?_eq_none (by simp; omega), List.getElem?_eq_none (by omega)]

/-- Otherwise `Pomega_Pair` raises `IndexError`. -/
theorem C162_pair_else {p0 q0 p1 q1 p2 q2 : Nat} (spl : List (List Int)) (X : Mat p0 q0) (Y : Mat p1 q1) (Z : Mat p2 q2) (shape : List Nat) (m : Int) :
    (∃ v, raw.PomegaPair spl X Y Z shape m = .ok v) ∨ raw.PomegaPair spl X Y Z shape m = .error .indexError := by
  have h1 : (∃ v, raw.PomegaMat spl X shape m (some 0) = .ok (some v)) ∨ raw.PomegaMat spl X shape m (some 0) = .error .indexError :=
    (C162_matrix_else spl X shape m).1 0
  have h2 : (∃ v, raw.PomegaMat spl Y shape m (some 1) = .ok (some v)) ∨ raw.PomegaMat spl Y shape m (some 1) = .error .indexError :=
    (C162_matrix_else spl Y shape m).1 1
  have h3 : (∃ v, raw.PomegaMat spl Z shape m (some 2) = .ok (some v)) ∨ raw.PomegaMat spl Z shape m (some 2) = .error .indexError :=
    (C162_matrix_else spl Z shape m).1 2
  unfold raw.PomegaPair
  rcases h1 with ⟨A, h1⟩ | h1
  · rcases h2 with ⟨B, h2⟩ | h2
    · rcases h3 with ⟨C, h3⟩ | h3
      · left; rw [h1, ok_bind, h2, ok_bind, h3, ok_bind]; exact ⟨_, rfl⟩
      · right; rw [h1, ok_bind, h2, ok_bind, h3]; rfl
    · right; rw [h1, ok_bind, h2]; rfl
  · right; rw [h1]; rfl

/-- A sample list as a list of lists. -/
def listsOf {n : Fin 3 → Nat} {m : Nat} (spl : Samples n m) : List (List Int) :=
  [List.ofFn fun i => ((spl 0 i).val : Int), List.ofFn fun i => ((spl 1 i).val : Int), List.ofFn fun i => ((spl 2 i).val : Int)]

theorem names_lists {n : Fin 3 → Nat} {m : Nat} (spl : Samples n m) (d : Fin 3) (k : Fin m) (a : Fin (n d)) :
    SampleMeans (listsOf spl) d.val k.val (n d) a ↔ a = spl d k := by
  have hz : ∀ z : Int, z = ((spl d k).val : Int) → (Means (n d) z a ↔ a = spl d k) := by
    rintro z rfl
    unfold Means
    have := (spl d k).2
    have := a.2
    rw [Fin.ext_iff]
    omega
  have hl : (listsOf spl)[d.val]? = some (List.ofFn fun i => ((spl d i).val : Int)) := by
    fin_cases d <;> rfl
  unfold SampleMeans
  rw [hl]
  constructor
  · rintro ⟨l, z, h1, h2, h3⟩
    cases h1
    simp only [List.getElem?_ofFn, k.2, dite_true, Option.some.injEq] at h2
    exact (hz z h2.symm).1 h3
  · rintro rfl
    exact ⟨_, _, rfl, by simp, (hz _ rfl).2 rfl⟩

theorem foldlM_pure {β σ : Type} {f : σ → β → Res σ} {g : σ → β → σ} (h : ∀ s b, f s b = .ok (g s b)) : ∀ {l : List β} {s : σ},
    l.foldlM f s = .ok (l.foldl g s)
  | [], s => rfl
  | b :: l, s => by rw [List.foldlM_cons, h, ok_bind, foldlM_pure h, List.foldl_cons]

/-- **C162**: for positions that exist these calls are the operators of C63 to C69. -/
theorem C162_typed {n : Fin 3 → Nat} {m : Nat} (spl : Samples n m) (T : Tensor3 n) (X : Mat (n 0) (n 1)) (Y : Mat (n 1) (n 2)) (Z : Mat (n 2) (n 0))
    (y : Fin m → ℝ) :
    raw.PomegaTensor (listsOf spl) T m = .ok (List.ofFn (np.PomegaTensor spl T)) ∧
    raw.PomegaMat (listsOf spl) X [n 0, n 1, n 2] m (some 0) = .ok (some (List.ofFn fun i => some (np.PomegaMat spl 0 X i))) ∧
    raw.PomegaMat (listsOf spl) Y [n 0, n 1, n 2] m (some 1) = .ok (some (List.ofFn fun i => some (np.PomegaMat spl 1 Y i))) ∧
    raw.PomegaMat (listsOf spl) Z [n 0, n 1, n 2] m (some 2) = .ok (some (List.ofFn fun i => some (np.PomegaMat spl 2 Z i))) ∧
    raw.PomegaPair (listsOf spl) X Y Z [n 0, n 1, n 2] m = .ok (List.ofFn fun i => some (np.PomegaPair spl X Y Z i)) ∧
    raw.adjointOperator (listsOf spl) (List.ofFn y) [n 0, n 1, n 2] m (some 0) = .ok (.mat _ _ (np.adjointOperator spl y 0)) ∧
    raw.adjointOperator (listsOf spl) (List.ofFn y) [n 0, n 1, n 2] m (some 1) = .ok (.mat _ _ (np.adjointOperator spl y 1)) ∧
    raw.adjointOperator (listsOf spl) (List.ofFn y) [n 0, n 1, n 2] m (some 2) = .ok (.mat _ _ (np.adjointOperator spl y 2)) := by
  have hN : ∀ (d : Fin 3) (k : Nat) (hk : k < m) (a : Fin (n d)), SampleMeans (listsOf spl) d.val k (n d) a ↔ a = spl d ⟨k, hk⟩ :=
    fun d k hk a => names_lists spl d ⟨k, hk⟩ a
  have hpos : ∀ d, ∀ k < m, n d ≠ 0 := fun d k hk h0 => by
    have := (spl d ⟨k, hk⟩).2
    omega
  have hadj : ∀ (d : Fin 3) (p q : Nat) (f : Fin m → Fin p × Fin q), [n 0, n 1, n 2][d.val]? = some p → [n 0, n 1, n 2][(d + 1).val]? = some q →
      (∀ k (hk : k < m) (a : Fin p) (b : Fin q), PairMeans (listsOf spl) d.val (d + 1).val k a b ↔ (a, b) = f ⟨k, hk⟩) →
      raw.adjointOperator (listsOf spl) (List.ofFn y) [n 0, n 1, n 2] m (some (d.val : Int)) =
        .ok (.mat p q ((List.finRange m).foldl (fun X i => np.assign X (f i) (y i)) 0)) := by
    intro d p q f hp hq hf
    have hs : raw.scatter (listsOf spl) (List.ofFn y) p q ((d.val : Nat) : Int) (((d + 1).val : Nat) : Int) m =
        .ok ((List.finRange m).foldl (fun X i => np.assign X (f i) (y i)) 0) := by
      unfold raw.scatter
      rw [show ((m : Int)).toNat = m from Int.toNat_natCast m, ← List.map_coe_finRange_eq_range, List.foldlM_map]
      refine foldlM_pure fun X i => scatter_step.2 ⟨y i, (f i).1, (f i).2, by simp, (hf i i.2 _ _).2 rfl, rfl⟩
    rw [adjoint_branch, (raw_item_nat _ _ _).2 hp, ok_bind, (raw_item_nat _ _ _).2 hq, ok_bind, hs, ok_bind]
  refine ⟨?_, ?_, ?_, ?_, ?_, ?_, ?_, ?_⟩
  · refine (C162_tensor _ _ _ _).2 ⟨by simp, by simp, fun k hk => ?_⟩
    have hk : k < m := by simpa using hk
    exact ⟨_, _, _, (hN 0 k hk _).2 rfl, (hN 1 k hk _).2 rfl, (hN 2 k hk _).2 rfl, by simp [hk, np.PomegaTensor]⟩
  · refine (C162_matrix _ X _ _ 0 _).2 ⟨n 2, rfl, by simp, fun k hk => ?_⟩
    have hk : k < m := by simpa using hk
    exact ⟨_, _, ⟨(hN 0 k hk _).2 rfl, (hN 1 k hk _).2 rfl⟩, by simp [hk, np.PomegaMat, hpos 2 k hk]⟩
  · refine (C162_matrix _ Y _ _ 1 _).2 ⟨n 0, rfl, by simp, fun k hk => ?_⟩
    have hk : k < m := by simpa using hk
    exact ⟨_, _, ⟨(hN 1 k hk _).2 rfl, (hN 2 k hk _).2 rfl⟩, by simp [hk, np.PomegaMat, hpos 0 k hk]⟩
  · refine (C162_matrix _ Z _ _ 2 _).2 ⟨n 1, rfl, by simp, fun k hk => ?_⟩
    have hk : k < m := by simpa using hk
    exact ⟨_, _, ⟨(hN 2 k hk _).2 rfl, (hN 0 k hk _).2 rfl⟩, by simp [hk, np.PomegaMat, hpos 1 k hk]⟩
  · refine (C162_pair _ X Y Z _ _ _).2 ⟨n 0, n 1, n 2, rfl, rfl, rfl, by simp, fun k hk => ?_⟩
    have hk : k < m := by simpa using hk
    refine ⟨_, _, _, _, _, _, ⟨(hN 0 k hk _).2 rfl, (hN 1 k hk _).2 rfl⟩, ⟨(hN 1 k hk _).2 rfl, (hN 2 k hk _).2 rfl⟩,
      ⟨(hN 2 k hk _).2 rfl, (hN 0 k hk _).2 rfl⟩, ?_⟩
    simp [hk, np.PomegaPair, np.PomegaMat, hpos 0 k hk, hpos 1 k hk, hpos 2 k hk]
  · refine hadj 0 _ _ (fun i => (spl 0 i, spl 1 i)) rfl rfl fun k hk a b => ?_
    exact (and_congr (hN 0 k hk a) (hN 1 k hk b)).trans Prod.mk_inj.symm
  · refine hadj 1 _ _ (fun i => (spl 1 i, spl 2 i)) rfl rfl fun k hk a b => ?_
    exact (and_congr (hN 1 k hk a) (hN 2 k hk b)).trans Prod.mk_inj.symm
  · refine hadj 2 _ _ (fun i => (spl 2 i, spl 0 i)) rfl rfl fun k hk a b => ?_
    exact (and_congr (hN 2 k hk a) (hN 0 k hk b)).trans Prod.mk_inj.symm

/-- Index -1 is the last row, a sample beyond the number asked for is not looked at, and the later of two values at one position stays. -/
example : ∃ M, raw.adjointOperator [[-1, 1, 7], [0, 0]] [4, 5] [2, 1] 2 (some 0) = .ok (.mat 2 1 M) ∧ M 1 0 = 5 ∧ M 0 0 = 0 := by
  obtain ⟨M, hM⟩ : ∃ M, raw.scatter [[-1, 1, 7], [0, 0]] [4, 5] 2 1 ((0 : Nat) : Int) ((1 : Nat) : Int) 2 = .ok M := by
    refine scatter_exists fun k hk => ?_
    have hk : k < 2 := hk
    interval_cases k
    · exact ⟨⟨4, rfl⟩, 1, 0, ⟨_, -1, rfl, rfl, by decide, by decide⟩, ⟨_, 0, rfl, rfl, by decide, by decide⟩⟩
    · exact ⟨⟨5, rfl⟩, 1, 0, ⟨_, 1, rfl, rfl, by decide, by decide⟩, ⟨_, 0, rfl, rfl, by decide, by decide⟩⟩
  have h : raw.adjointOperator [[-1, 1, 7], [0, 0]] [4, 5] [2, 1] 2 (some ((0 : Fin 3).val : Int)) = .ok (.mat 2 1 M) := by
    rw [adjoint_branch, (raw_item_nat _ _ _).2 (show [2, 1][(0 : Fin 3).val]? = some 2 from rfl), ok_bind,
      (raw_item_nat _ _ _).2 (show [2, 1][((0 : Fin 3) + 1).val]? = some 1 from rfl), ok_bind]
    exact congrArg (· >>= fun X => Except.ok (raw.Adjoint.mat 2 1 X)) hM
  obtain ⟨-, -, -, h4⟩ := (C162_adjoint _ _ _ _ 0 2 1 M).1 h
  refine ⟨M, h, (h4 1 0).1 1 (by decide) 5 ⟨⟨_, 1, rfl, rfl, by decide, by decide⟩, ⟨_, 0, rfl, rfl, by decide, by decide⟩⟩
    (fun l h1 h2 => absurd h2 (by simp; omega)) rfl, (h4 0 0).2 fun k hk => ?_⟩
  have hk : k < 2 := hk
  rintro ⟨⟨l, z, h1, h2, h3⟩, -⟩
  cases h1
  interval_cases k <;> cases h2 <;> revert h3 <;> simp [Means]

end TD.Props
