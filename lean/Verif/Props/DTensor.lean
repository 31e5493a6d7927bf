import Mathlib.Algebra.Ring.Int.Defs
import Verif.Lemmas.Bcast
import Verif.Lemmas.Unfolding
import Verif.Model.Type

/-!
# C29, C30 : `DTensor`
-/
namespace TD.Props
open TD Tensor Spec
variable {α : Type}

/-- An unfold call with this mode returns (does not raise). -/
def Returns [Zero α] (T : Tensor α) (m : Int) : Bool :=
  match ops.unfold T m with
  | .ok _ => true
  | .error _ => false

/-- **C29**, what is true of every history of `unfold` calls on one `DTensor`: the first call that
returns decides, and every later call returns the unfolding along *that* mode, whatever mode it asks for
(even an invalid one).  Missing: that later calls honour their own mode, see
`C29_later_mode_ignored_false`. -/
theorem C29_first_mode_wins_partial [Zero α] (T : Tensor α) (ms : List Int) (k : Nat) (m : Int)
    (hk : ms[k]? = some m) :
    ((DTensor.init T).unfoldMany ms).2[k]? = some (match (ms.take k).find? (Returns T) with
      | some m0 => ops.unfold T m0
      | none => ops.unfold T m) := by
  have hcached : ∀ (ms : List Int) (u : Tensor α) (k : Nat) (m : Int), ms[k]? = some m →
      ((⟨T, some u⟩ : DTensor α).unfoldMany ms).2[k]? = some (.ok u) := by
    intro ms
    induction ms with
    | nil => intro u k m h; simp at h
    | cons m' ms ih =>
        intro u k m h
        cases k with
        | zero => simp [DTensor.unfoldMany, DTensor.unfold, DTensor.init]
        | succ k =>
            have := ih u k m (by simpa using h)
            simpa [DTensor.unfoldMany, DTensor.unfold] using this
  induction ms generalizing k with
  | nil => simp at hk
  | cons m' ms ih =>
      cases hu : ops.unfold T m' with
      | ok u =>
          have hst : (DTensor.init T).unfold m' = .ok (⟨T, some u⟩, DTensor.init u) := by
            simp [DTensor.unfold, DTensor.init, hu, pure, Except.pure]
          cases k with
          | zero =>
              simp only [List.getElem?_cons_zero, Option.some.injEq] at hk
              subst hk
              simp only [DTensor.unfoldMany, hst, hu]
              rfl
          | succ k =>
              have hr : Returns T m' = true := by simp [Returns, hu]
              have := hcached ms u k m (by simpa using hk)
              simp only [DTensor.unfoldMany, hst, List.getElem?_cons_succ, this, List.take_succ_cons,
                List.find?_cons, hr, hu]
      | error e =>
          have hst : (DTensor.init T).unfold m' = .error e := by
            simp [DTensor.unfold, DTensor.init, hu]
          cases k with
          | zero =>
              simp only [List.getElem?_cons_zero, Option.some.injEq] at hk
              subst hk
              simp [DTensor.unfoldMany, hst, hu]
          | succ k =>
              have hr : Returns T m' = false := by simp [Returns, hu]
              have := ih k (by simpa using hk)
              simp only [DTensor.unfoldMany, hst, List.getElem?_cons_succ, this, List.take_succ_cons,
                List.find?_cons, hr]

/-- **C29**, corollary: if every call asks for the same mode, every call gives that unfolding. -/
theorem C29_same_mode_partial [Zero α] (T : Tensor α) (m : Int) (n k : Nat) (hk : k < n) :
    ((DTensor.init T).unfoldMany (List.replicate n m)).2[k]? = some (ops.unfold T m) := by
  rw [C29_first_mode_wins_partial T _ k m (by simp [hk])]
  split
  · rename_i m0 h
    have := List.mem_of_find?_eq_some h
    simp only [List.take_replicate, List.mem_replicate] at this
    rw [this.2]
  · rfl

def exT : Tensor Int := ofFn [2, 3] fun i => 3 * (i.getD 0 0 : Int) + i.getD 1 0

/-- **C29** is false: after `d.unfold(0)` the call `d.unfold(1)` returns the mode-0 unfolding. -/
theorem C29_later_mode_ignored_false :
    ∃ u, ((DTensor.init exT).unfoldMany [0, 1]).2[1]? = some u ∧ u ≠ ops.unfold exT 1 ∧
      u = ops.unfold exT 0 := by
  refine ⟨ops.unfold exT 0, ?_, ?_, rfl⟩
  · rw [C29_first_mode_wins_partial exT [0, 1] 1 1 rfl]
    have : ([0, 1].take 1 : List Int).find? (Returns exT) = some 0 := by decide +kernel
    rw [this]
  · have h : ∀ r : Res (Tensor Int), r = ops.unfold exT 1 → r.map Tensor.shape = .ok [3, 2] := by
      rintro r rfl
      rfl
    intro e
    have := h _ e
    exact absurd this (by decide +kernel)

/-- **C29** fails on *every* tensor having two modes of different (positive) size. -/
theorem C29_fails_generally_false [Zero α] (T : Tensor α) (m n : Nat) (hm : m < T.order) (hn : n < T.order)
    (hpm : 0 < T.shape.getD m 0) (hpn : 0 < T.shape.getD n 0) (hd : T.shape.getD m 0 ≠ T.shape.getD n 0) :
    ((DTensor.init T).unfoldMany [m, n]).2[1]? ≠ some (ops.unfold T n) := by
  obtain ⟨M, hM, hMs, -⟩ := ops.unfold_spec T hm hpm
  obtain ⟨N, hN, hNs, -⟩ := ops.unfold_spec T hn hpn
  rw [C29_first_mode_wins_partial T [(m : Int), (n : Int)] 1 n rfl]
  have hr : Returns T m = true := by simp [Returns, hM]
  simp only [List.take_succ_cons, List.take_zero, List.find?_cons, hr]
  rw [hM, hN]
  intro e
  simp only [Option.some.injEq, Except.ok.injEq] at e
  have h1 := hMs
  rw [e, hNs] at h1
  simp only [List.cons.injEq] at h1
  exact hd h1.1.symm

/-- **C30**: `+` acts entrywise with numpy broadcasting, and raises when the shapes do not broadcast; the
right operand may be a `DTensor` or a raw tensor. -/
theorem C30_add_entry [Zero α] [Add α] (d : DTensor α) (o : DTensor.Rhs α) :
    (∀ s, Bcast d.T.shape o.T.shape s → ∃ r, d.add o = .ok r ∧ r.T.shape = s ∧ ∀ idx, InB s idx →
      r.T.at_ idx = d.T.at_ (alignIdx d.T.shape idx) + o.T.at_ (alignIdx o.T.shape idx)) ∧
    ((¬ ∃ s, Bcast d.T.shape o.T.shape s) → d.add o = .error .invalidArgument) := by
  obtain ⟨h1, h2⟩ := tf.ewise_spec (· + ·) d.T o.T
  refine ⟨fun s hs => ?_, fun h => ?_⟩
  · obtain ⟨C, hC, hC1, hC2⟩ := h1 s hs
    exact ⟨DTensor.init C, by rw [DTensor.add, hC]; rfl, hC1, hC2⟩
  · rw [DTensor.add, h2 h]; rfl

/-- **C30**: `-`, as for `+`. -/
theorem C30_sub_entry [Zero α] [Sub α] (d : DTensor α) (o : DTensor.Rhs α) :
    (∀ s, Bcast d.T.shape o.T.shape s → ∃ r, d.sub o = .ok r ∧ r.T.shape = s ∧ ∀ idx, InB s idx →
      r.T.at_ idx = d.T.at_ (alignIdx d.T.shape idx) - o.T.at_ (alignIdx o.T.shape idx)) ∧
    ((¬ ∃ s, Bcast d.T.shape o.T.shape s) → d.sub o = .error .invalidArgument) := by
  obtain ⟨h1, h2⟩ := tf.ewise_spec (· - ·) d.T o.T
  refine ⟨fun s hs => ?_, fun h => ?_⟩
  · obtain ⟨C, hC, hC1, hC2⟩ := h1 s hs
    exact ⟨DTensor.init C, by rw [DTensor.sub, hC]; rfl, hC1, hC2⟩
  · rw [DTensor.sub, h2 h]; rfl

/-- **C30**: `*` is the entrywise product, as for `+`. -/
theorem C30_mul_entry [Zero α] [Mul α] (d : DTensor α) (o : DTensor.Rhs α) :
    (∀ s, Bcast d.T.shape o.T.shape s → ∃ r, d.hmul o = .ok r ∧ r.T.shape = s ∧ ∀ idx, InB s idx →
      r.T.at_ idx = d.T.at_ (alignIdx d.T.shape idx) * o.T.at_ (alignIdx o.T.shape idx)) ∧
    ((¬ ∃ s, Bcast d.T.shape o.T.shape s) → d.hmul o = .error .invalidArgument) := by
  obtain ⟨h1, h2⟩ := tf.ewise_spec (· * ·) d.T o.T
  refine ⟨fun s hs => ?_, fun h => ?_⟩
  · obtain ⟨C, hC, hC1, hC2⟩ := h1 s hs
    exact ⟨DTensor.init C, by rw [DTensor.hmul, hC]; rfl, hC1, hC2⟩
  · rw [DTensor.hmul, h2 h]; rfl

/-- Concrete instances: `[2,3]` with `[3]` broadcasts, `[2,3]` with `[2]` does not. -/
example : Bcast [2, 3] [3] [2, 3] ∧ Bcast [2, 1] [1, 3] [2, 3] ∧ ¬ ∃ s, Bcast [2, 3] [2] s := by
  refine ⟨(tf.bcastShape_spec _ _ _).1 rfl, (tf.bcastShape_spec _ _ _).1 rfl, ?_⟩
  rintro ⟨s, hs⟩
  have h1 := (tf.bcastShape_spec _ _ _).2 hs
  have h2 : tf.bcastShape [2, 3] [2] = none := rfl
  rw [h2] at h1
  cases h1

/-- **C30**: `+` and `*` commute, also under broadcasting and also in whether they raise. -/
theorem C30_comm [CommSemiring α] (d e : DTensor α) :
    d.add (.dtensor e) = e.add (.dtensor d) ∧ d.hmul (.dtensor e) = e.hmul (.dtensor d) := by
  constructor
  · simp only [DTensor.add, DTensor.Rhs.T, tf.ewise_comm (· + ·) add_comm d.T e.T]
  · simp only [DTensor.hmul, DTensor.Rhs.T, tf.ewise_comm (· * ·) mul_comm d.T e.T]

/-- **C30**: a `DTensor` right operand and its raw tensor give the same result, for every operator. -/
theorem C30_raw_operand [CommRing α] (d e : DTensor α) :
    d.add (.dtensor e) = d.add (.raw e.T) ∧ d.sub (.dtensor e) = d.sub (.raw e.T) ∧
    d.hmul (.dtensor e) = d.hmul (.raw e.T) ∧ d.kron (.dtensor e) = d.kron (.raw e.T) ∧
    d.khatri (.dtensor e) = d.khatri (.raw e.T) := ⟨rfl, rfl, rfl, rfl, rfl⟩

/-- **C30**: `(a + b) - b = a` whenever `b` broadcasts into the shape of `a`. -/
theorem C30_add_sub_cancel [AddCommGroup α] (a : Tensor α) (o : DTensor.Rhs α)
    (h : Bcast a.shape o.T.shape a.shape) :
    ∃ r, (DTensor.init a).add o = .ok r ∧ r.sub o = .ok (DTensor.init a) := by
  obtain ⟨r, hr, hs, he⟩ := (C30_add_entry (DTensor.init a) o).1 a.shape h
  refine ⟨r, hr, ?_⟩
  obtain ⟨q, hq, hqs, hqe⟩ := (C30_sub_entry r o).1 a.shape (by rw [hs]; exact h)
  have hq' : ∀ e, r.sub o = .ok e → e = DTensor.init e.T := by
    intro e he
    unfold DTensor.sub at he
    cases hx : tf.ewise (· - ·) r.T o.T with
    | error e' => rw [hx] at he; cases he
    | ok t => rw [hx] at he; cases he; rfl
  rw [hq, hq' q hq]
  congr 2
  refine ext_at hqs fun idx hi => ?_
  rw [hqs] at hi
  have ha : alignIdx a.shape idx = idx := by
    rw [← tf.bcastIdx_eq (by rw [hi.length]), tf.bcastIdx_self hi]
  rw [hqe idx hi, hs, ha, he idx hi]
  change a.at_ (alignIdx a.shape idx) + _ - _ = _
  rw [ha, add_sub_cancel_right]

/-- Hypothesis of the cancellation theorem: a `[2,3]` tensor and a row vector. -/
example : Bcast exT.shape (DTensor.Rhs.raw (ofFn [3] fun _ => (1 : Int))).T.shape exT.shape :=
  (tf.bcastShape_spec _ _ _).1 rfl

/-- **C30**: the remaining methods are the functional operations on the wrapped tensors; they raise when
those raise, and the result is a fresh `DTensor` (nothing cached). -/
theorem C30_methods [CommRing α] (d e : DTensor α) (o : DTensor.Rhs α) (a b : ops.Axis) (c : ops.CAxis)
    (m : Int) (sh : List Nat) :
    d.mul e a b = (ops.mul d.T e.T a b).map DTensor.init ∧
    d.t2mat a c = (ops.t2mat d.T a c).map DTensor.init ∧
    d.vectorize = (ops.vectorize d.T).map DTensor.init ∧
    d.kron o = (ops.kron [d.T, o.T]).map DTensor.init ∧
    d.khatri o = (ops.khatri [d.T, o.T]).map DTensor.init ∧
    DTensor.fold d.T m sh = (ops.fold d.T m sh).map DTensor.init := by
  refine ⟨?_, ?_, ?_, ?_, ?_, ?_⟩
  · unfold DTensor.mul; cases ops.mul d.T e.T a b <;> rfl
  · unfold DTensor.t2mat; cases ops.t2mat d.T a c <;> rfl
  · unfold DTensor.vectorize; cases ops.vectorize d.T <;> rfl
  · unfold DTensor.kron; cases ops.kron [d.T, o.T] <;> rfl
  · unfold DTensor.khatri; cases ops.khatri [d.T, o.T] <;> rfl
  · unfold DTensor.fold; cases ops.fold d.T m sh <;> rfl

end TD.Props
