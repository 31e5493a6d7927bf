import Verif.Model.PitfRawTf
import Verif.Props.PitfRaw

/-!
# C175: the TensorFlow sampling operators on any samples, against the numpy ones
-/
namespace TD.Spec

/-- List `r` of the samples is there and has at least `m` members. -/
def SamplesGiven (spl : List (List Int)) (r m : Nat) : Prop := ∃ l, spl[r]? = some l ∧ m ≤ l.length

/-- None of the first `m` members of list `r` is negative. -/
def NoNegativeSample (spl : List (List Int)) (r m : Nat) : Prop := ∀ l z, ∀ k < m, spl[r]? = some l → l[k]? = some z → 0 ≤ z

end TD.Spec

namespace TD.Props
open TD TD.pitf TD.ops Matrix Spec

theorem two_phase {β γ : Type} {f : Nat → Res β} {g : β → Res γ} {m : Nat} {v : List γ} :
    ((List.range m).mapM f >>= fun ps => ps.mapM g) = .ok v ↔ v.length = m ∧ ∀ k < m, ∃ x w, f k = .ok x ∧ g x = .ok w ∧ v[k]? = some w := by
  constructor
  · intro h
    cases h1 : (List.range m).mapM f with
    | error e => rw [h1] at h; cases h
    | ok ps =>
        rw [h1, ok_bind] at h
        obtain ⟨hl, hp⟩ := mapM_range_iff.1 h1
        have h2 := mapM_forall₂_of h
        refine ⟨by rw [← h2.length_eq, hl], fun k hk => ?_⟩
        obtain ⟨x, hx, hx'⟩ := hp k hk
        obtain ⟨hk', e⟩ := List.getElem?_eq_some_iff.1 hx'
        have hk'' : k < v.length := by rw [← h2.length_eq]; exact hk'
        refine ⟨x, v[k], hx, ?_, List.getElem?_eq_getElem hk''⟩
        have := h2.get hk' hk''
        simpa [e] using this
  · rintro ⟨hl, h⟩
    have h' : ∀ k : Fin m, ∃ x, f k = .ok x ∧ g x = .ok (v[k.val]'(by omega)) := fun k => by
      obtain ⟨x, w, h1, h2, h3⟩ := h k k.2
      rw [List.getElem?_eq_getElem (by omega)] at h3
      exact ⟨x, h1, by rw [Option.some.inj h3]; exact h2⟩
    choose B hB using h'
    have h1 : (List.range m).mapM f = .ok (List.ofFn B) :=
      mapM_range_iff.2 ⟨by simp, fun k hk => ⟨_, (hB ⟨k, hk⟩).1, by simp [hk]⟩⟩
    rw [h1, ok_bind]
    refine mapM_of_forall₂ (List.forall₂_iff_get.2 ⟨by simp [hl], fun k h1 h2 => ?_⟩)
    have := (hB ⟨k, by omega⟩).2
    simpa using this

theorem tf_pick_ok {spl : List (List Int)} {r i : Nat} {z : Int} : rawtf.pick spl r i = .ok z ↔ ∃ l, spl[r]? = some l ∧ l[i]? = some z := by
  unfold rawtf.pick
  cases h : spl[r]? with
  | none => simp
  | some l =>
      cases h' : l[i]? with
      | none => simp [h']
      | some x => simp [h']

theorem tf_slice_ok {n : Nat} {z : Int} {a : Fin n} : rawtf.slice n z = .ok a ↔ Means n z a := by
  rw [← axisIndex_ok]
  unfold rawtf.slice raw.axisIndex
  cases tf.wrap n z with
  | none => simp
  | some k =>
      simp only
      split <;> simp

theorem tf_within_ok {n : Nat} {z : Int} {a : Fin n} : rawtf.within n z = .ok a ↔ 0 ≤ z ∧ Means n z a := by
  unfold rawtf.within Means
  have ha := a.2
  split
  · rename_i h
    simp only [Except.ok.injEq, Fin.ext_iff]
    omega
  · rename_i h
    simp only [reduceCtorEq, false_iff]
    omega

theorem res_bind_ok_iff {β γ : Type} {x : Res β} {f : β → Res γ} {c : γ} : (x >>= f) = .ok c ↔ ∃ b, x = .ok b ∧ f b = .ok c := by
  cases x with
  | error e => simp [bind, Except.bind]
  | ok b => simp [bind, Except.bind]

theorem tf_gather_ok {spl : List (List Int)} {p q : Nat} {mat : Mat p q} {r c m : Nat} {v : List ℝ} :
    rawtf.gather spl mat r c m = .ok v ↔ raw.gather spl mat (r : Int) (c : Int) (m : Int) = .ok v := by
  rw [gather_ok]
  unfold rawtf.gather
  rw [two_phase, Int.toNat_natCast]
  refine and_congr_right fun _ => forall₂_congr fun k _ => ?_
  simp only [res_bind_ok_iff, tf_pick_ok, tf_slice_ok, Except.ok.injEq]
  constructor
  · rintro ⟨x, w, ⟨z1, ⟨l1, a1, a2⟩, z2, ⟨l2, b1, b2⟩, rfl⟩, ⟨a, ha, b, hb, rfl⟩, hv⟩
    exact ⟨a, b, ⟨⟨l1, z1, a1, a2, ha⟩, l2, z2, b1, b2, hb⟩, hv⟩
  · rintro ⟨a, b, ⟨⟨l1, z1, a1, a2, ha⟩, l2, z2, b1, b2, hb⟩, hv⟩
    exact ⟨_, _, ⟨z1, ⟨l1, a1, a2⟩, z2, ⟨l2, b1, b2⟩, rfl⟩, ⟨a, ha, b, hb, rfl⟩, hv⟩

theorem tf_pomega_branch {p q : Nat} (spl : List (List Int)) (mat : Mat p q) (n : Fin 3 → Nat) (m : Nat) (d : Fin 3) :
    rawtf.PomegaMat spl mat n m (some (d.val : Int)) = (do
      let v ← rawtf.gather spl mat d.val (d + 1).val m
      .ok (v.map fun x => loss.fdiv x √(n (d + 2)))) := by
  fin_cases d <;> rfl

/-- **C175**: `Pomega_mat` of the TensorFlow version returns exactly what the numpy version returns (see C162), and only then. -/
theorem C175_matrix {p q : Nat} (spl : List (List Int)) (mat : Mat p q) (n : Fin 3 → Nat) (m : Nat) (d : Fin 3) (v : List (Option ℝ)) :
    rawtf.PomegaMat spl mat n m (some (d.val : Int)) = .ok v ↔
      raw.PomegaMat spl mat [n 0, n 1, n 2] m (some (d.val : Int)) = .ok (some v) := by
  rw [tf_pomega_branch, pomega_branch]
  have hi : raw.item [n 0, n 1, n 2] (((d + 2).val : Nat) : Int) = .ok (n (d + 2)) := by
    rw [raw_item_nat]
    fin_cases d <;> rfl
  simp only [hi, res_bind_ok_iff, tf_gather_ok, Except.ok.injEq, Option.some.injEq]
  simp

/-- What a loop of the graph does when it does not return. -/
theorem two_phase_else {β γ : Type} {f : Nat → Res β} {g : β → Res γ} {m : Nat} {P : PyErr → Prop} {Q : PyErr → Prop}
    (hf : ∀ k < m, ∀ e, f k = .error e → P e) (hg : ∀ x e, g x = .error e → Q e) :
    (∃ v, ((List.range m).mapM f >>= fun ps => ps.mapM g) = .ok v) ∨
    ((∃ k < m, ∀ x, f k ≠ .ok x) ∧ ∃ e, P e ∧ ((List.range m).mapM f >>= fun ps => ps.mapM g) = .error e) ∨
    ((∀ k < m, ∃ x, f k = .ok x) ∧ ∃ e, Q e ∧ ((List.range m).mapM f >>= fun ps => ps.mapM g) = .error e) := by
  have mem : ∀ {β γ : Type} {f : β → Res γ} {l : List β} {e : PyErr}, l.mapM f = .error e → ∃ x ∈ l, f x = .error e := by
    intro β γ f l
    induction l with
    | nil => intro e h; cases h
    | cons x l ih =>
        intro e h
        rw [List.mapM_cons] at h
        cases h1 : f x with
        | error e' => rw [h1] at h; cases h; exact ⟨x, by simp, h1⟩
        | ok b =>
            rw [h1, ok_bind] at h
            cases h2 : l.mapM f with
            | error e' =>
                rw [h2] at h; cases h
                obtain ⟨y, hy, hy'⟩ := ih h2
                exact ⟨y, by simp [hy], hy'⟩
            | ok bs => rw [h2] at h; cases h
  cases h1 : (List.range m).mapM f with
  | error e =>
      obtain ⟨k, hk, he⟩ := mem h1
      rw [List.mem_range] at hk
      exact .inr (.inl ⟨⟨k, hk, by simp [he]⟩, e, hf k hk e he, rfl⟩)
  | ok ps =>
      rw [ok_bind]
      have hall : ∀ k < m, ∃ x, f k = .ok x := fun k hk => by
        obtain ⟨x, hx, -⟩ := (mapM_range_iff.1 h1).2 k hk
        exact ⟨x, hx⟩
      cases h2 : ps.mapM g with
      | error e =>
          obtain ⟨x, -, he⟩ := mem h2
          exact .inr (.inr ⟨hall, e, hg x e he, rfl⟩)
      | ok v => exact .inl ⟨v, rfl⟩

theorem given_iff {spl : List (List Int)} {r m : Nat} (hm : 0 < m) : SamplesGiven spl r m ↔ ∀ k < m, ∃ z, rawtf.pick spl r k = .ok z := by
  simp only [tf_pick_ok]
  constructor
  · rintro ⟨l, h1, h2⟩ k hk
    exact ⟨_, l, h1, List.getElem?_eq_getElem (by omega)⟩
  · intro h
    obtain ⟨-, l, h1, -⟩ := h 0 hm
    refine ⟨l, h1, ?_⟩
    obtain ⟨z, l', h1', h2⟩ := h (m - 1) (by omega)
    rw [h1] at h1'; cases h1'
    have := (List.getElem?_eq_some_iff.1 h2).1
    omega

theorem tf_pick_error {spl : List (List Int)} {r i : Nat} {e : PyErr} (h : rawtf.pick spl r i = .error e) : e = .indexError ∨ e = .valueError := by
  unfold rawtf.pick at h
  split at h
  · cases h; exact .inl rfl
  · split at h
    · cases h; exact .inr rfl
    · cases h

theorem tf_slice_error {n : Nat} {z : Int} {e : PyErr} (h : rawtf.slice n z = .error e) : e = .invalidArgument := by
  unfold rawtf.slice at h
  split at h
  · split at h
    · cases h
    · cases h; rfl
  · cases h; rfl

theorem res_bind_error_iff {β γ : Type} {x : Res β} {f : β → Res γ} {e : PyErr} :
    (x >>= f) = .error e ↔ x = .error e ∨ ∃ b, x = .ok b ∧ f b = .error e := by
  cases x with
  | error e' => simp [bind, Except.bind]
  | ok b => simp [bind, Except.bind]

theorem tf_gather_else {spl : List (List Int)} {p q : Nat} {mat : Mat p q} {r c m : Nat} (hm : 0 < m) :
    (SamplesGiven spl r m ∧ SamplesGiven spl c m → (∃ v, rawtf.gather spl mat r c m = .ok v) ∨ rawtf.gather spl mat r c m = .error .invalidArgument) ∧
    (¬ (SamplesGiven spl r m ∧ SamplesGiven spl c m) → rawtf.gather spl mat r c m = .error .indexError ∨ rawtf.gather spl mat r c m = .error .valueError) := by
  have key := two_phase_else (m := m) (P := fun e => e = .indexError ∨ e = .valueError) (Q := fun e => e = .invalidArgument)
    (f := fun i => do
      let t1 ← rawtf.pick spl r i
      let t2 ← rawtf.pick spl c i
      .ok (t1, t2))
    (g := fun t : Int × Int => do
      let a ← rawtf.slice p t.1
      let b ← rawtf.slice q t.2
      .ok (mat a b))
    (fun k _ e h => by
      rcases res_bind_error_iff.1 h with h | ⟨_, -, h⟩
      · exact tf_pick_error h
      · rcases res_bind_error_iff.1 h with h | ⟨_, -, h⟩
        · exact tf_pick_error h
        · cases h)
    (fun x e h => by
      rcases res_bind_error_iff.1 h with h | ⟨_, -, h⟩
      · exact tf_slice_error h
      · rcases res_bind_error_iff.1 h with h | ⟨_, -, h⟩
        · exact tf_slice_error h
        · cases h)
  have hG : (SamplesGiven spl r m ∧ SamplesGiven spl c m) ↔ ∀ k < m, ∃ x, (do
      let t1 ← rawtf.pick spl r k
      let t2 ← rawtf.pick spl c k
      (.ok (t1, t2) : Res (Int × Int))) = .ok x := by
    rw [given_iff hm, given_iff hm]
    simp only [res_bind_ok_iff]
    constructor
    · rintro ⟨h1, h2⟩ k hk
      obtain ⟨a, ha⟩ := h1 k hk
      obtain ⟨b, hb⟩ := h2 k hk
      exact ⟨_, a, ha, b, hb, rfl⟩
    · intro h
      refine ⟨fun k hk => ?_, fun k hk => ?_⟩ <;> obtain ⟨_, a, ha, b, hb, -⟩ := h k hk
      exacts [⟨a, ha⟩, ⟨b, hb⟩]
  rw [hG]
  change (_ → (∃ v, rawtf.gather spl mat r c m = .ok v) ∨ _) ∧ _
  rcases key with ⟨v, h⟩ | ⟨⟨k, hk, hn⟩, e, he, h⟩ | ⟨hall, e, he, h⟩
  · refine ⟨fun _ => .inl ⟨v, h⟩, fun hn => absurd (fun k hk => ?_) hn⟩
    obtain ⟨x, w, hx, -⟩ := (two_phase.1 h).2 k hk
    exact ⟨x, hx⟩
  · refine ⟨fun hall => ?_, fun _ => ?_⟩
    · obtain ⟨x, hx⟩ := hall k hk
      exact absurd hx (hn x)
    · rcases he with rfl | rfl
      exacts [.inl h, .inr h]
  · exact ⟨fun _ => .inr (by rw [← he]; exact h), fun hn => absurd hall hn⟩

/-- **C175**: when `Pomega_mat` does not return: if the samples are there, the run raises `InvalidArgumentError`; if a list or a sample is
missing, building the graph raises `IndexError` or `ValueError`; any `dim` but 0, 1, 2 is refused with `ValueError` (the numpy version
returns `None`). -/
theorem C175_matrix_else {p q : Nat} (spl : List (List Int)) (mat : Mat p q) (n : Fin 3 → Nat) (m : Nat) (hm : 0 < m) :
    (∀ d : Fin 3, (SamplesGiven spl d m ∧ SamplesGiven spl (d + 1 : Fin 3) m → (∃ v, rawtf.PomegaMat spl mat n m (some (d.val : Int)) = .ok v) ∨
        rawtf.PomegaMat spl mat n m (some (d.val : Int)) = .error .invalidArgument) ∧
      (¬ (SamplesGiven spl d m ∧ SamplesGiven spl (d + 1 : Fin 3) m) → rawtf.PomegaMat spl mat n m (some (d.val : Int)) = .error .indexError ∨
        rawtf.PomegaMat spl mat n m (some (d.val : Int)) = .error .valueError)) ∧
    ∀ dim : Option Int, (∀ d : Fin 3, dim ≠ some (d.val : Int)) → rawtf.PomegaMat spl mat n m dim = .error .valueError := by
  constructor
  · intro d
    rw [tf_pomega_branch]
    obtain ⟨h1, h2⟩ := tf_gather_else (spl := spl) (mat := mat) (r := d.val) (c := (d + 1).val) hm
    refine ⟨fun h => ?_, fun h => ?_⟩
    · rcases h1 h with ⟨v, h⟩ | h <;> rw [h]
      · exact .inl ⟨_, rfl⟩
      · exact .inr rfl
    · rcases h2 h with h | h <;> rw [h]
      · exact .inl rfl
      · exact .inr rfl
  · intro dim h
    unfold rawtf.PomegaMat
    rw [if_neg (show dim ≠ some 0 from h 0), if_neg (show dim ≠ some 1 from h 1), if_neg (show dim ≠ some 2 from h 2)]

/-- **C175**: `Pomega_tensor` returns exactly what the numpy version returns, and only then. -/
theorem C175_tensor {p q r : Nat} (spl : List (List Int)) (T : Fin p → Fin q → Fin r → ℝ) (m : Nat) (v : List ℝ) :
    rawtf.PomegaTensor spl T m = .ok v ↔ raw.PomegaTensor spl T m = .ok v := by
  rw [C162_tensor]
  unfold rawtf.PomegaTensor
  rw [two_phase, Int.toNat_natCast]
  simp only [Int.natCast_nonneg, true_and]
  refine and_congr_right fun _ => forall₂_congr fun k _ => ?_
  simp only [res_bind_ok_iff, tf_pick_ok, tf_slice_ok, Except.ok.injEq]
  constructor
  · rintro ⟨x, w, ⟨z1, ⟨l1, a1, a2⟩, z2, ⟨l2, b1, b2⟩, z3, ⟨l3, c1, c2⟩, rfl⟩, ⟨a, ha, b, hb, c, hc, rfl⟩, hv⟩
    exact ⟨a, b, c, ⟨l1, z1, a1, a2, ha⟩, ⟨l2, z2, b1, b2, hb⟩, ⟨l3, z3, c1, c2, hc⟩, hv⟩
  · rintro ⟨a, b, c, ⟨l1, z1, a1, a2, ha⟩, ⟨l2, z2, b1, b2, hb⟩, ⟨l3, z3, c1, c2, hc⟩, hv⟩
    exact ⟨_, _, ⟨z1, ⟨l1, a1, a2⟩, z2, ⟨l2, b1, b2⟩, z3, ⟨l3, c1, c2⟩, rfl⟩, ⟨a, ha, b, hb, c, hc, rfl⟩, hv⟩

/-- **C175**: `Pomega_Pair` returns exactly what the numpy version returns, and only then. -/
theorem C175_pair {p0 q0 p1 q1 p2 q2 : Nat} (spl : List (List Int)) (X : Mat p0 q0) (Y : Mat p1 q1) (Z : Mat p2 q2) (n : Fin 3 → Nat) (m : Nat)
    (v : List (Option ℝ)) : rawtf.PomegaPair spl X Y Z n m = .ok v ↔ raw.PomegaPair spl X Y Z [n 0, n 1, n 2] m = .ok v := by
  have h0 := fun w => C175_matrix spl X n m 0 w
  have h1 := fun w => C175_matrix spl Y n m 1 w
  have h2 := fun w => C175_matrix spl Z n m 2 w
  change ∀ w, rawtf.PomegaMat spl X n m (some 0) = .ok w ↔ raw.PomegaMat spl X [n 0, n 1, n 2] m (some 0) = .ok (some w) at h0
  change ∀ w, rawtf.PomegaMat spl Y n m (some 1) = .ok w ↔ raw.PomegaMat spl Y [n 0, n 1, n 2] m (some 1) = .ok (some w) at h1
  change ∀ w, rawtf.PomegaMat spl Z n m (some 2) = .ok w ↔ raw.PomegaMat spl Z [n 0, n 1, n 2] m (some 2) = .ok (some w) at h2
  unfold rawtf.PomegaPair raw.PomegaPair
  simp only [res_bind_ok_iff, h0, h1, h2, Except.ok.injEq]
  constructor
  · rintro ⟨A, hA, B, hB, C, hC, rfl⟩
    exact ⟨_, hA, _, hB, _, hC, rfl⟩
  · rintro ⟨A, hA, B, hB, C, hC, h⟩
    match A, B, C, h with
    | some A, some B, some C, h => exact ⟨A, hA, B, hB, C, hC, Except.ok.inj h⟩

theorem sparseToDense_append {r c : Nat} (es : List ((Fin r × Fin c) × ℝ)) (p : Fin r × Fin c) (x : ℝ) :
    tfl.sparseToDense (es ++ [(p, x)]) = np.assign (tfl.sparseToDense es) p x := by
  funext i j
  unfold tfl.sparseToDense np.assign
  by_cases h : (i, j) = p
  · subst h
    simp
  · rw [if_neg h, List.filter_append, List.filter_cons_of_neg (by simpa [eq_comm] using h)]
    simp

theorem tf_scatter_ok {spl : List (List Int)} {y : List ℝ} {p q r c m : Nat} {M : Mat p q} :
    rawtf.scatter spl y p q r c m = .ok M ↔ (∃ es : List ((Fin p × Fin q) × ℝ), es.length = m ∧ M = tfl.sparseToDense es ∧
      ∀ k < m, ∃ e, es[k]? = some e ∧ y[k]? = some e.2 ∧ PairMeans spl r c k e.1.1 e.1.2 ∧
        ∃ l1 z1 l2 z2, spl[r]? = some l1 ∧ l1[k]? = some z1 ∧ 0 ≤ z1 ∧ spl[c]? = some l2 ∧ l2[k]? = some z2 ∧ 0 ≤ z2) := by
  have hy : ∀ (k : Nat) (v : ℝ), rawtf.value y k = .ok v ↔ y[k]? = some v := by
    intro k v
    unfold rawtf.value
    cases y[k]? with
    | none => simp
    | some v => simp
  unfold rawtf.scatter
  rw [← bind_assoc, res_bind_ok_iff]
  simp only [two_phase, zero_add, Except.ok.injEq]
  refine exists_congr fun es => ?_
  rw [and_assoc]
  refine and_congr_right fun _ => ?_
  rw [and_comm, eq_comm]
  refine and_congr_right fun _ => forall₂_congr fun k _ => ?_
  simp only [res_bind_ok_iff, tf_pick_ok, tf_within_ok, hy, Except.ok.injEq]
  constructor
  · rintro ⟨x, w, ⟨z1, ⟨l1, a1, a2⟩, z2, ⟨l2, b1, b2⟩, v, hv, rfl⟩, ⟨a, ⟨ha, ha'⟩, b, ⟨hb, hb'⟩, rfl⟩, hw⟩
    exact ⟨_, hw, hv, ⟨⟨l1, z1, a1, a2, ha'⟩, l2, z2, b1, b2, hb'⟩, l1, z1, l2, z2, a1, a2, ha, b1, b2, hb⟩
  · rintro ⟨⟨⟨a, b⟩, v⟩, hw, hv, ⟨⟨l1, z1, a1, a2, ha⟩, l2, z2, b1, b2, hb⟩, l1', z1', l2', z2', c1, c2, c3, d1, d2, d3⟩
    rw [a1] at c1; cases c1
    rw [a2] at c2; cases c2
    rw [b1] at d1; cases d1
    rw [b2] at d2; cases d2
    exact ⟨_, _, ⟨z1, ⟨l1, a1, a2⟩, z2, ⟨l2, b1, b2⟩, v, hv, rfl⟩, ⟨a, ⟨c3, ha⟩, b, ⟨d3, hb⟩, rfl⟩, hw⟩

theorem dense_written {spl : List (List Int)} {y : List ℝ} {p q r c : Nat} : ∀ (m : Nat) (es : List ((Fin p × Fin q) × ℝ)), es.length = m →
    (∀ k < m, ∃ e, es[k]? = some e ∧ y[k]? = some e.2 ∧ PairMeans spl r c k e.1.1 e.1.2) → Written spl y r c m (tfl.sparseToDense es)
  | 0, es, hl, _ => by
      cases es with
      | nil => exact fun a b => ⟨by simp, fun _ => rfl⟩
      | cons => simp at hl
  | m + 1, es, hl, h => by
      obtain ⟨e, h1, h2, h3⟩ := h m (by omega)
      have hes : es = es.take m ++ [(e.1, e.2)] := by
        have hm : m < es.length := by omega
        conv_lhs => rw [← List.take_append_drop m es]
        congr 1
        rw [List.drop_eq_getElem_cons hm, List.drop_eq_nil_of_le (by omega)]
        rw [List.getElem?_eq_getElem hm] at h1
        rw [Option.some.inj h1]
      rw [hes, sparseToDense_append]
      refine written_step (dense_written m (es.take m) (by simp [hl]) fun k hk => ?_) h2 h3
      obtain ⟨e', f1, f2, f3⟩ := h k (by omega)
      exact ⟨e', by rw [List.getElem?_take_of_lt hk, f1], f2, f3⟩

/-- `scatter` of the TensorFlow version against that of the numpy version. -/
theorem tf_scatter_iff {spl : List (List Int)} {y : List ℝ} {p q r c m : Nat} {M : Mat p q} :
    rawtf.scatter spl y p q r c m = .ok M ↔
      NoNegativeSample spl r m ∧ NoNegativeSample spl c m ∧ raw.scatter spl y p q (r : Int) (c : Int) (m : Int) = .ok M := by
  have fwd : ∀ M : Mat p q, rawtf.scatter spl y p q r c m = .ok M →
      NoNegativeSample spl r m ∧ NoNegativeSample spl c m ∧ raw.scatter spl y p q (r : Int) (c : Int) (m : Int) = .ok M := by
    intro M h
    obtain ⟨es, hl, rfl, he⟩ := tf_scatter_ok.1 h
    refine ⟨fun l z k hk h1 h2 => ?_, fun l z k hk h1 h2 => ?_, ?_⟩
    · obtain ⟨_, -, -, -, l1, z1, l2, z2, a1, a2, a3, -⟩ := he k hk
      rw [h1] at a1; cases a1
      rw [h2] at a2; cases a2
      exact a3
    · obtain ⟨_, -, -, -, l1, z1, l2, z2, -, -, -, a1, a2, a3⟩ := he k hk
      rw [h1] at a1; cases a1
      rw [h2] at a2; cases a2
      exact a3
    · obtain ⟨M', hM'⟩ := scatter_exists (spl := spl) (y := y) (p := p) (q := q) (r := r) (c := c) (m := (m : Int)) (fun k hk => by
        obtain ⟨e, -, h2, h3, -⟩ := he k (by simpa using hk)
        exact ⟨⟨_, h2⟩, _, _, h3⟩)
      obtain ⟨h1, h2⟩ := scatter_inv hM'
      rw [Int.toNat_natCast] at h1 h2
      rw [hM', h2.unique (dense_written m es hl fun k hk => by
        obtain ⟨e, f1, f2, f3, -⟩ := he k hk
        exact ⟨e, f1, f2, f3⟩) fun k hk => (h1 k hk).1]
  refine ⟨fwd M, fun ⟨h1, h2, h3⟩ => ?_⟩
  obtain ⟨g1, -⟩ := scatter_inv h3
  rw [Int.toNat_natCast] at g1
  have hex : ∀ k : Fin m, ∃ e : (Fin p × Fin q) × ℝ, y[k.val]? = some e.2 ∧ PairMeans spl r c k e.1.1 e.1.2 := fun k => by
    obtain ⟨⟨x, hx⟩, a, b, hab⟩ := g1 k k.2
    exact ⟨((a, b), x), hx, hab⟩
  choose E hE using hex
  have hM : rawtf.scatter spl y p q r c m = .ok (tfl.sparseToDense (List.ofFn E)) := by
    refine tf_scatter_ok.2 ⟨List.ofFn E, by simp, rfl, fun k hk => ?_⟩
    obtain ⟨e1, ⟨l1, z1, a1, a2, a3⟩, l2, z2, b1, b2, b3⟩ := hE ⟨k, hk⟩
    exact ⟨E ⟨k, hk⟩, by simp [hk], e1, ⟨⟨l1, z1, a1, a2, a3⟩, l2, z2, b1, b2, b3⟩, l1, z1, l2, z2, a1, a2, h1 l1 z1 k hk a1 a2, b1, b2,
      h2 l2 z2 k hk b1 b2⟩
  have := (fwd _ hM).2.2
  rw [h3] at this
  rw [hM, ← Except.ok.inj this]

/-- **C175**: `adjoint_operator` of the TensorFlow version returns a matrix exactly if no sample is negative and the numpy version returns
that matrix (see C162). -/
theorem C175_adjoint (spl : List (List Int)) (y : List ℝ) (n : Fin 3 → Nat) (m : Nat) (d : Fin 3) (M : Mat (n d) (n (d + 1))) :
    rawtf.adjointOperator spl y n m (some (d.val : Int)) = .ok (.mat _ _ M) ↔
      NoNegativeSample spl d m ∧ NoNegativeSample spl (d + 1 : Fin 3) m ∧
        raw.adjointOperator spl y [n 0, n 1, n 2] m (some (d.val : Int)) = .ok (.mat _ _ M) := by
  have e1 : rawtf.adjointOperator spl y n m (some (d.val : Int)) = (do
      let X ← rawtf.scatter spl y (n d) (n (d + 1)) d.val (d + 1).val m
      .ok (.mat _ _ X)) := by
    fin_cases d <;> rfl
  have hi : ∀ d : Fin 3, raw.item [n 0, n 1, n 2] ((d.val : Nat) : Int) = .ok (n d) := by
    intro d
    rw [raw_item_nat]
    fin_cases d <;> rfl
  rw [e1, adjoint_branch, hi, hi, ok_bind, ok_bind, res_bind_ok_iff, res_bind_ok_iff]
  constructor
  · rintro ⟨X, h, hX⟩
    cases hX
    obtain ⟨h1, h2, h3⟩ := tf_scatter_iff.1 h
    exact ⟨h1, h2, M, h3, rfl⟩
  · rintro ⟨h1, h2, X, h3, hX⟩
    cases hX
    exact ⟨M, tf_scatter_iff.2 ⟨h1, h2, h3⟩, rfl⟩

theorem tf_within_error {n : Nat} {z : Int} {e : PyErr} (h : rawtf.within n z = .error e) : e = .invalidArgument := by
  unfold rawtf.within at h
  split at h
  · cases h
  · cases h; rfl

/-- **C175**: when `adjoint_operator` does not return: if samples and values are there, the run raises `InvalidArgumentError`; if a list,
a sample or a value is missing, building the graph raises `IndexError` or `ValueError`; any `dim` but 0, 1, 2 is refused with
`ValueError` (the numpy version returns -1). -/
theorem C175_adjoint_else (spl : List (List Int)) (y : List ℝ) (n : Fin 3 → Nat) (m : Nat) (hm : 0 < m) :
    (∀ d : Fin 3, (SamplesGiven spl d m ∧ SamplesGiven spl (d + 1 : Fin 3) m ∧ m ≤ y.length →
        (∃ p q M, rawtf.adjointOperator spl y n m (some (d.val : Int)) = .ok (.mat p q M)) ∨
        rawtf.adjointOperator spl y n m (some (d.val : Int)) = .error .invalidArgument) ∧
      (¬ (SamplesGiven spl d m ∧ SamplesGiven spl (d + 1 : Fin 3) m ∧ m ≤ y.length) →
        rawtf.adjointOperator spl y n m (some (d.val : Int)) = .error .indexError ∨
        rawtf.adjointOperator spl y n m (some (d.val : Int)) = .error .valueError)) ∧
    ∀ dim : Option Int, (∀ d : Fin 3, dim ≠ some (d.val : Int)) → rawtf.adjointOperator spl y n m dim = .error .valueError := by
  have hval : ∀ k, (∃ v, rawtf.value y k = .ok v) ↔ k < y.length := by
    intro k
    unfold rawtf.value
    by_cases h : k < y.length
    · simp [h]
    · simp [h]
  have hvale : ∀ k e, rawtf.value y k = .error e → e = .valueError := by
    intro k e h
    unfold rawtf.value at h
    split at h <;> cases h
    rfl
  constructor
  · intro d
    have e1 : rawtf.adjointOperator spl y n m (some (d.val : Int)) = (do
        let X ← rawtf.scatter spl y (n d) (n (d + 1)) d.val (d + 1).val m
        .ok (.mat _ _ X)) := by
      fin_cases d <;> rfl
    rw [e1]
    unfold rawtf.scatter
    rw [← bind_assoc]
    generalize hr : d.val = r
    generalize hc : (d + 1).val = c
    have hG : (SamplesGiven spl r m ∧ SamplesGiven spl c m ∧ m ≤ y.length) ↔ ∀ k < m, ∃ x, (do
        let t1 ← rawtf.pick spl r k
        let t2 ← rawtf.pick spl c k
        let v ← rawtf.value y k
        (.ok (t1, t2, v) : Res (Int × Int × ℝ))) = .ok x := by
      rw [given_iff hm, given_iff hm]
      simp only [res_bind_ok_iff]
      constructor
      · rintro ⟨h1, h2, h3⟩ k hk
        obtain ⟨a, ha⟩ := h1 k hk
        obtain ⟨b, hb⟩ := h2 k hk
        obtain ⟨v, hv⟩ := (hval k).2 (by omega)
        exact ⟨_, a, ha, b, hb, v, hv, rfl⟩
      · intro h
        refine ⟨fun k hk => ?_, fun k hk => ?_, ?_⟩
        · obtain ⟨_, a, ha, b, hb, -⟩ := h k hk; exact ⟨a, ha⟩
        · obtain ⟨_, a, ha, b, hb, -⟩ := h k hk; exact ⟨b, hb⟩
        · obtain ⟨_, a, ha, b, hb, v, hv, -⟩ := h (m - 1) (by omega)
          have := (hval (m - 1)).1 ⟨v, hv⟩
          omega
    rw [hG]
    have key := two_phase_else (m := m) (P := fun e => e = .indexError ∨ e = .valueError) (Q := fun e => e = .invalidArgument)
      (f := fun i => do
        let t1 ← rawtf.pick spl r i
        let t2 ← rawtf.pick spl c i
        let v ← rawtf.value y i
        (.ok (t1, t2, v) : Res (Int × Int × ℝ)))
      (g := fun e : Int × Int × ℝ => do
        let a ← rawtf.within (n d) e.1
        let b ← rawtf.within (n (d + 1)) e.2.1
        .ok ((a, b), e.2.2))
      (fun k _ e h => by
        rcases res_bind_error_iff.1 h with h | ⟨_, -, h⟩
        · exact tf_pick_error h
        · rcases res_bind_error_iff.1 h with h | ⟨_, -, h⟩
          · exact tf_pick_error h
          · rcases res_bind_error_iff.1 h with h | ⟨_, -, h⟩
            · exact .inr (hvale _ _ h)
            · cases h)
      (fun x e h => by
        rcases res_bind_error_iff.1 h with h | ⟨_, -, h⟩
        · exact tf_within_error h
        · rcases res_bind_error_iff.1 h with h | ⟨_, -, h⟩
          · exact tf_within_error h
          · cases h)
    rcases key with ⟨v, h⟩ | ⟨⟨k, hk, hn⟩, e, he, h⟩ | ⟨hall, e, he, h⟩
    · refine ⟨fun _ => .inl ?_, fun hn => absurd (fun k hk => ?_) hn⟩
      · rw [h]; exact ⟨_, _, _, rfl⟩
      · obtain ⟨x, w, hx, -⟩ := (two_phase.1 h).2 k hk
        exact ⟨x, hx⟩
    · refine ⟨fun hall => ?_, fun _ => ?_⟩
      · obtain ⟨x, hx⟩ := hall k hk
        exact absurd hx (hn x)
      · rw [h]
        rcases he with rfl | rfl
        exacts [.inl rfl, .inr rfl]
    · exact ⟨fun _ => .inr (by rw [h, he]; rfl), fun hn => absurd hall hn⟩
  · intro dim h
    unfold rawtf.adjointOperator
    rw [if_neg (show dim ≠ some 0 from h 0), if_neg (show dim ≠ some 1 from h 1), if_neg (show dim ≠ some 2 from h 2)]

/-- **C175**: the two versions differ on negative indices: numpy counts them from the end, TensorFlow raises. -/
theorem C175_adjoint_negative : (∃ M, raw.adjointOperator [[-1], [0], [0]] [5] [2, 1, 1] 1 (some 0) = .ok (.mat 2 1 M) ∧ M 1 0 = 5) ∧
    ∃ e, rawtf.adjointOperator [[-1], [0], [0]] [5] ![2, 1, 1] 1 (some 0) = .error e ∧ e = .invalidArgument :=
  ⟨⟨_, rfl, by simp [np.assign]⟩, _, rfl, rfl⟩

theorem noNegative_lists {n : Fin 3 → Nat} {m : Nat} (spl : Samples n m) (d : Fin 3) (N : Nat) : NoNegativeSample (listsOf spl) d N := by
  intro l z k _ h1 h2
  have hl : (listsOf spl)[d.val]? = some (List.ofFn fun i => ((spl d i).val : Int)) := by
    fin_cases d <;> rfl
  rw [hl] at h1; cases h1
  obtain ⟨i, rfl⟩ := List.mem_ofFn.1 (List.mem_of_getElem? h2)
  omega

/-- **C175**: for positions that exist these calls are the TensorFlow operators of C63 to C69. -/
theorem C175_typed {n : Fin 3 → Nat} {m : Nat} (spl : Samples n m) (T : Tensor3 n) (X : Mat (n 0) (n 1)) (Y : Mat (n 1) (n 2)) (Z : Mat (n 2) (n 0))
    (y : Fin m → ℝ) :
    rawtf.PomegaTensor (listsOf spl) T m = .ok (List.ofFn (tfl.PomegaTensor spl T)) ∧
    rawtf.PomegaMat (listsOf spl) X n m (some 0) = .ok (List.ofFn fun i => some (tfl.PomegaMat spl 0 X i)) ∧
    rawtf.PomegaMat (listsOf spl) Y n m (some 1) = .ok (List.ofFn fun i => some (tfl.PomegaMat spl 1 Y i)) ∧
    rawtf.PomegaMat (listsOf spl) Z n m (some 2) = .ok (List.ofFn fun i => some (tfl.PomegaMat spl 2 Z i)) ∧
    rawtf.PomegaPair (listsOf spl) X Y Z n m = .ok (List.ofFn fun i => some (tfl.PomegaPair spl X Y Z i)) ∧
    rawtf.adjointOperator (listsOf spl) (List.ofFn y) n m (some 0) = .ok (.mat _ _ (tfl.adjointOperator spl y 0)) ∧
    rawtf.adjointOperator (listsOf spl) (List.ofFn y) n m (some 1) = .ok (.mat _ _ (tfl.adjointOperator spl y 1)) ∧
    rawtf.adjointOperator (listsOf spl) (List.ofFn y) n m (some 2) = .ok (.mat _ _ (tfl.adjointOperator spl y 2)) := by
  obtain ⟨h1, h2, h3, h4, h5, h6, h7, h8⟩ := C162_typed spl T X Y Z y
  have hN := fun d => noNegative_lists spl d m
  have ha : ∀ d, tfl.adjointOperator spl y d = np.adjointOperator spl y d := (C65_agree_partial spl).2.2.2.2 y
  refine ⟨(C175_tensor _ _ _ _).2 h1, (C175_matrix _ X _ _ 0 _).2 h2, (C175_matrix _ Y _ _ 1 _).2 h3, (C175_matrix _ Z _ _ 2 _).2 h4,
    (C175_pair _ _ _ _ _ _ _).2 h5, ?_, ?_, ?_⟩
  · rw [ha]; exact (C175_adjoint _ _ n m 0 _).2 ⟨hN 0, hN 1, h6⟩
  · rw [ha]; exact (C175_adjoint _ _ n m 1 _).2 ⟨hN 1, hN 2, h7⟩
  · rw [ha]; exact (C175_adjoint _ _ n m 2 _).2 ⟨hN 2, hN 0, h8⟩

end TD.Props
