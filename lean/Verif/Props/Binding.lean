import Mathlib.Algebra.Order.Ring.Rat
import Mathlib.Data.List.Induction
import Mathlib.Tactic.NormNum
import Verif.Spec.Binding

/-!
# C116: which data a training decomposes
-/
namespace TD.Props
open TD.Spec TD.bind
variable {α : Type}

private theorem build_heap (prov : Nat → Nat) (w : World α) (i r : Nat) (hr : r < w.heap.length) :
    (w.build prov i).1.heap[r]? = w.heap[r]? := by
  have hc : ∀ (w : World α) (p r' : Nat) (h : List (Tensor α)), w.call p = .ok (r', h) → ∃ l, h = w.heap ++ l := by
    intro w p r' h e
    unfold World.call at e
    split at e
    · cases e
    · cases e; exact ⟨[], by simp⟩
    · split at e
      · cases e
      · cases e; exact ⟨[], by simp⟩
    · cases e; exact ⟨_, rfl⟩
  unfold World.build
  split
  · rfl
  · rename_i r1 h1 e1
    obtain ⟨l1, rfl⟩ := hc _ _ _ _ e1
    have g1 : (w.heap ++ l1)[r]? = w.heap[r]? := List.getElem?_append_left hr
    split
    · exact g1
    · split
      · exact g1
      · rename_i r2 h2 e2
        obtain ⟨l2, rfl⟩ := hc _ _ _ _ e2
        show (w.heap ++ l1 ++ l2)[r]? = _
        rw [List.getElem?_append_left (by rw [List.length_append]; omega), g1]

private theorem run_keeps (prov : Nat → Nat) (i r : Nat) : ∀ (mid : List (Act α)) (w : World α) (t : Tensor α),
    w.heap[r]? = some t → Act.build i ∉ mid →
    (run prov w mid).feed i = w.feed i ∧ (run prov w mid).heap[r]? = some (written r t mid)
  | [], w, t, h, _ => ⟨rfl, h⟩
  | a :: mid, w, t, h, hb => by
      have hr : r < w.heap.length := (List.getElem?_eq_some_iff.1 h).1
      have key : (w.step prov a).feed i = w.feed i ∧ (w.step prov a).heap[r]? = some (written r t [a]) := by
        cases a with
        | new x t' => exact ⟨rfl, by simpa [World.step, written, List.getElem?_append_left hr] using h⟩
        | assign x y => exact ⟨rfl, h⟩
        | write r' t' =>
            refine ⟨rfl, ?_⟩
            by_cases e : r' = r
            · subst e; simp [World.step, written, hr]
            · simpa [World.step, written, e, List.getElem?_set_ne e] using h
        | provide p s => exact ⟨rfl, h⟩
        | build k =>
            refine ⟨?_, (build_heap prov w k r hr).trans h⟩
            have hk : i ≠ k := fun e => hb (by simp [e])
            show (w.build prov k).1.feed i = _
            unfold World.build
            split
            · rfl
            · split
              · rfl
              · split
                · rfl
                · exact Function.update_of_ne hk _ _
        | train k => exact ⟨rfl, h⟩
      obtain ⟨h1, h2⟩ := run_keeps prov i r mid _ _ key.2 fun hm => hb (by simp [hm])
      exact ⟨h1.trans key.1, h2⟩

private theorem build_names (prov : Nat → Nat) (w : World α) (i r : Nat) (t : Tensor α) (hn : Names w (prov i) r)
    (ht : w.heap[r]? = some t) :
    (w.build prov i).1.heap = w.heap ∧ (w.build prov i).1.feed i = some (t.shape, r) := by
  have hc : ∀ h, h = w.heap → ({ w with heap := h } : World α).call (prov i) = .ok (r, h) := by
    intro h e
    rcases hn with e' | ⟨x, e', e''⟩ <;> simp [World.call, *]
  have e1 : w.call (prov i) = .ok (r, w.heap) := hc _ rfl
  unfold World.build
  rw [e1]
  simp only [ht, hc _ rfl]
  simp

private theorem build_fresh (prov : Nat → Nat) (w : World α) (i : Nat) (t : Tensor α) (hn : w.source (prov i) = .fresh t) :
    (w.build prov i).1.heap = w.heap ++ [t] ++ [t] ∧
      (w.build prov i).1.feed i = some (t.shape, w.heap.length + 1) := by
  have e1 : w.call (prov i) = .ok (w.heap.length, w.heap ++ [t]) := by simp [World.call, hn]
  have e2 : ({ w with heap := w.heap ++ [t] } : World α).call (prov i) = .ok (w.heap.length + 1, w.heap ++ [t] ++ [t]) := by
    simp [World.call, hn]
  unfold World.build
  rw [e1]
  simp only [e2, List.getElem?_concat_length]
  simp

/-- **C116.** Once `build_model` has been called, a training decomposes the data the provider supplied then, whatever the script
does in between short of writing into arrays: name other arrays, replace `full_tensor`, build and train other models, train
this one. -/
theorem C116_supplied (prov : Nat → Nat) (w : World α) (i : Nat) (t : Tensor α) (hs : Supplies w (prov i) t)
    (mid : List (Act α)) (hb : Act.build i ∉ mid) (hw : ∀ r t', Act.write r t' ∉ mid) :
    (run prov w (.build i :: mid)).train i = .ok t := by
  have nw : ∀ r (t : Tensor α), written r t mid = t := by
    intro r t
    clear hb
    induction mid with
    | nil => rfl
    | cons a mid ih =>
        have := ih (fun r t' hm => hw r t' (by simp [hm]))
        cases a with
        | write r' t' => exact absurd (by simp) (hw r' t')
        | _ => exact this
  rcases hs with ⟨r, hn, ht⟩ | hf
  · obtain ⟨h1, h2⟩ := build_names prov w i r t hn ht
    obtain ⟨h3, h4⟩ := run_keeps prov i r mid (w.build prov i).1 t (by rw [h1, ht]) hb
    show (run prov (w.build prov i).1 mid).train i = _
    rw [World.train, h3, h2]
    simp [h4, nw]
  · obtain ⟨h1, h2⟩ := build_fresh prov w i t hf
    obtain ⟨h3, h4⟩ := run_keeps prov i (w.heap.length + 1) mid (w.build prov i).1 t (by rw [h1]; simp) hb
    show (run prov (w.build prov i).1 mid).train i = _
    rw [World.train, h3, h2]
    simp [h4, nw]

/-- **C116.** What is bound is the array object: if the provider returns an array the script can write to, a training
decomposes what that array holds at the time of the training, or raises `ValueError` if its shape has been changed. -/
theorem C116_object (prov : Nat → Nat) (w : World α) (i r : Nat) (t : Tensor α) (hn : Names w (prov i) r)
    (ht : w.heap[r]? = some t) (mid : List (Act α)) (hb : Act.build i ∉ mid) :
    (run prov w (.build i :: mid)).train i =
      if (written r t mid).shape = t.shape then .ok (written r t mid) else .error .valueError := by
  obtain ⟨h1, h2⟩ := build_names prov w i r t hn ht
  obtain ⟨h3, h4⟩ := run_keeps prov i r mid (w.build prov i).1 t (by rw [h1, ht]) hb
  show (run prov (w.build prov i).1 mid).train i = _
  rw [World.train, h3, h2]
  simp [h4]

/-- Building again binds to what the provider supplies then, whatever happened before. -/
theorem C116_rebuild (prov : Nat → Nat) (w : World α) (h : List (Act α)) (i : Nat) (t : Tensor α)
    (hs : Supplies (run prov w h) (prov i) t) : (run prov w (h ++ [.build i])).train i = .ok t := by
  have := C116_supplied prov (run prov w h) i t hs [] (by simp) (by simp)
  rwa [show run prov w (h ++ [.build i]) = run prov (run prov w h) [.build i] from List.foldl_append]

/-- A provider that supplies nothing makes `build_model` raise, `NotImplementedError` if `full_tensor` was never set and `NameError`
if it names a variable without value, and leaves an earlier binding in place. -/
theorem C116_no_data (prov : Nat → Nat) (w : World α) (i : Nat) :
    (w.source (prov i) = .abstract → w.build prov i = (w, .error .notImplemented)) ∧
    (∀ x, w.source (prov i) = .variable x → w.vars x = none → w.build prov i = (w, .error .unboundLocal)) := by
  refine ⟨fun e => ?_, fun x e e' => ?_⟩ <;> simp [World.build, World.call, *]

/-- A model whose `build_model` was never called, or always raised, cannot be trained: `TypeError`. -/
theorem C116_unbuilt (prov : Nat → Nat) (w : World α) (i : Nat) (hw : w.feed i = none) (h : List (Act α))
    (hb : ∀ h1 h2, h = h1 ++ Act.build i :: h2 → ((run prov w h1).build prov i).2.isOk = false) :
    (run prov w h).train i = .error .typeError := by
  have key : (run prov w h).feed i = none := by
    induction h using List.reverseRecOn with
    | nil => exact hw
    | append_singleton h a ih =>
        have ih := ih fun h1 h2 e => hb h1 (h2 ++ [a]) (by rw [e]; simp)
        rw [show run prov w (h ++ [a]) = (run prov w h).step prov a by simp [run]]
        cases a with
        | build k =>
            show ((run prov w h).build prov k).1.feed i = none
            by_cases e : i = k
            · subst e
              have := hb h [] rfl
              revert this
              unfold World.build
              split
              · exact fun _ => ih
              · split
                · exact fun _ => ih
                · split
                  · exact fun _ => ih
                  · intro h; cases h
            · unfold World.build
              split
              · exact ih
              · split
                · exact ih
                · split
                  · exact ih
                  · exact (Function.update_of_ne e _ _).trans ih
        | _ => exact ih
  rw [World.train, key]

/-- What the user sees is what `train` of the current world gives. -/
theorem C116_out (prov : Nat → Nat) (w : World α) (h : List (Act α)) (i : Nat) :
    (run prov w (h ++ [.train i])).out.getLast? = some (i, (run prov w h).train i) := by
  rw [show run prov w (h ++ [.train i]) = run prov (run prov w h) [.train i] from List.foldl_append]
  simp [run, World.step]

/-- The array of length one. -/
private def one (q : ℚ) : Tensor ℚ := Tensor.ofFn [1] fun _ => q

/-- **The data supplied at the time of the training may be another**: a script that lets `X` name a new array after
`build_model` trains on the old one. -/
theorem C116_not_current : ∃ (h : List (Act ℚ)) (t t' : Tensor ℚ), Supplies (run id {} h) 0 t' ∧
    (run id {} h).train 0 = .ok t ∧ t ≠ t' := by
  refine ⟨[.new 0 (one 1), .provide 0 (.variable 0), .build 0, .new 0 (one 2)], one 1, one 2, Or.inl ⟨1, Or.inr ⟨0, rfl, rfl⟩, rfl⟩,
    rfl, by decide +kernel⟩

/-- The hypotheses of the theorems are met by the scripts of the repository: `X = ...; provider.full_tensor = lambda: X`. -/
example : Names (run id {} [.new 0 (one 1), .provide 0 (.variable 0)]) 0 0 ∧
    (run id {} [.new 0 (one 1), .provide 0 (.variable 0)]).heap[0]? = some (one 1) := ⟨Or.inr ⟨0, rfl, rfl⟩, rfl⟩

/-- Writing into the array is seen. -/
example : (run id {} [.new 0 (one 1), .provide 0 (.variable 0), .build 0, .write 0 (one 3)]).train 0 = .ok (one 3) := rfl

end TD.Props
