import Verif.Model.Negative
import Verif.Lemmas.EinsumPerm
import Verif.Lemmas.Ttm
import Verif.Lemmas.HosvdCore
import Verif.Lemmas.KronLaws

/-!
# Lemmas on axes given as integers (C146)
-/
namespace TD
open Tensor tf ops
variable {α : Type}

theorem wrap_nat (d i : Nat) : wrap d (i : Int) = if i < d then some i else none := by
  unfold wrap
  by_cases h : i < d
  · rw [if_pos ⟨by omega, by omega⟩, if_pos h]; simp
  · rw [if_neg (by omega), if_neg (by omega), if_neg h]

theorem dimsAtZ_nat (s l : List Nat) : dimsAtZ s (l.map Int.ofNat) = dimsAt s l := by
  unfold dimsAtZ dimsAt
  induction l with
  | nil => rfl
  | cons i l ih =>
      rw [List.map_cons, List.mapM_cons, List.mapM_cons, ih]
      show (match wrap s.length (i : Int) with | some k => _ | none => _) >>= _ = _
      rw [wrap_nat]
      by_cases h : i < s.length
      · rw [if_pos h, List.getElem?_eq_getElem h]
        simp [h]
      · rw [if_neg h, List.getElem?_eq_none (by omega)]

theorem filter_rest (n : Nat) (r : List Nat) :
    ((List.range n).map Int.ofNat).filter (· ∉ r.map Int.ofNat) = ((List.range n).filter (· ∉ r)).map Int.ofNat := by
  rw [List.filter_map]
  congr 1
  apply List.filter_congr
  intro k _
  have : Int.ofNat k ∈ r.map Int.ofNat ↔ k ∈ r :=
    ⟨fun h => by obtain ⟨j, hj, e⟩ := List.mem_map.1 h; exact Int.ofNat.inj e ▸ hj, fun h => List.mem_map.2 ⟨k, h, rfl⟩⟩
  simp only [Function.comp_apply, this]

theorem t2matZ_nat [Zero α] (neg : Tensor α → List Int → Res (Tensor α)) (t : Tensor α) (r : List Nat) :
    t2matZ neg t (r.map Int.ofNat) = t2mat t (.list r) .rest := by
  unfold t2matZ t2mat t2matSt
  rw [dimsAtZ_nat, filter_rest]
  dsimp only
  rw [dimsAtZ_nat]
  cases dimsAt t.shape r with
  | error e => rfl
  | ok rd =>
      rw [ok_bind]
      dsimp only
      cases dimsAt t.shape ((List.range t.order).filter (· ∉ r)) with
      | error e => rfl
      | ok cd =>
          rw [ok_bind, ok_bind, ← List.map_append]
          have : transposeZ neg t ((r ++ (List.range t.order).filter (· ∉ r)).map Int.ofNat) =
              tf.transpose t (r ++ (List.range t.order).filter (· ∉ r)) := by
            unfold transposeZ
            rw [List.length_map]
            by_cases hl : (r ++ (List.range t.order).filter (· ∉ r)).length = t.order
            · rw [if_neg (by simpa using hl), if_neg, List.map_map]
              · congr 1
                exact List.map_id _
              · simp
            · rw [if_pos hl, tf.transpose, if_neg]
              intro h
              exact hl (by simpa using h.length_eq)
          rw [this]

theorem setAllZ_nat (base : List Char) : ∀ l : List (Nat × Char), setAllZ base (l.map fun p => (Int.ofNat p.1, p.2)) = setAll base l
  | [] => rfl
  | (i, c) :: l => by
      rw [List.map_cons, setAll, setAllZ]
      show (match wrap base.length (i : Int) with | some k => _ | none => _) = _
      rw [wrap_nat]
      by_cases h : i < base.length
      · rw [if_pos h, if_pos h]
        exact setAllZ_nat _ l
      · rw [if_neg h, if_neg h]

theorem mapM_map_res {β γ δ : Type} (g : β → γ) (f : γ → Res δ) : ∀ l : List β, (l.map g).mapM f = l.mapM fun x => f (g x)
  | [] => rfl
  | x :: l => by rw [List.map_cons, List.mapM_cons, List.mapM_cons, mapM_map_res g f l]

theorem mapM_post {β γ δ : Type} (f : β → Res γ) (g : γ → δ) : ∀ l : List β,
    (l.mapM fun x => f x >>= fun y => (.ok (g y) : Res δ)) = (l.mapM f >>= fun ys => (.ok (ys.map g) : Res (List δ)))
  | [] => rfl
  | x :: l => by
      rw [List.mapM_cons, List.mapM_cons, mapM_post f g l]
      cases f x with
      | error e => rfl
      | ok y =>
          simp only [ok_bind]
          cases l.mapM f <;> rfl

theorem ttmEqZ_nat (n : Nat) (axis : List Nat) (tr : Bool) : ttmEqZ n (axis.map Int.ofNat) tr = ttmEq n axis tr := by
  unfold ttmEqZ ttmEq
  simp only [mapM_map_res]
  have e : (axis.mapM fun (i : Nat) => (do let m ← chr (97 + Int.ofNat i); return (Int.ofNat i, m) : Res (Int × Char))) =
      (axis.mapM fun (i : Nat) => (do let m ← chr (97 + (i : Int)); return (i, m) : Res (Nat × Char))) >>= fun ys =>
        (.ok (ys.map fun p => (Int.ofNat p.1, p.2)) : Res (List (Int × Char))) := by
    rw [← mapM_post]
    refine congrArg (fun f => List.mapM f axis) (funext fun i => ?_)
    show (chr (97 + (i : Int)) >>= _) = _
    cases chr (97 + (i : Int)) <;> rfl
  rw [e]
  show ((List.range n).mapM _ >>= _) = ((List.range n).mapM _ >>= _)
  congr 1
  funext op
  congr 1
  funext ops'
  cases (axis.mapM fun (i : Nat) => (do let m ← chr (97 + (i : Int)); return (i, m) : Res (Nat × Char))) with
  | error e => rfl
  | ok l => simp only [ok_bind, setAllZ_nat]

theorem t2matZ_negative [Zero α] (neg : Tensor α → List Int → Res (Tensor α)) (t : Tensor α) (r : List Int)
    (h : ∃ i ∈ r, i < 0) : ∃ e, t2matZ neg t r = .error e := by
  unfold t2matZ
  cases dimsAtZ t.shape r with
  | error e => exact ⟨e, rfl⟩
  | ok rd =>
      rw [ok_bind]
      dsimp only
      cases dimsAtZ t.shape (((List.range t.order).map Int.ofNat).filter (· ∉ r)) with
      | error e => exact ⟨e, rfl⟩
      | ok cd =>
          rw [ok_bind]
          refine ⟨.invalidArgument, ?_⟩
          have : transposeZ neg t (r ++ ((List.range t.order).map Int.ofNat).filter (· ∉ r)) = .error .invalidArgument := by
            unfold transposeZ
            rw [if_pos]
            intro hl
            obtain ⟨i, hi, hi0⟩ := h
            -- the axes in the list together with the remaining ones cover `range(ndims)`, and `i` comes on top
            have hsub : (i :: (List.range t.order).map Int.ofNat) ⊆ r ++ ((List.range t.order).map Int.ofNat).filter (· ∉ r) := by
              intro k hk
              rcases List.mem_cons.1 hk with rfl | hk
              · exact List.mem_append_left _ hi
              · by_cases hr : k ∈ r
                · exact List.mem_append_left _ hr
                · exact List.mem_append_right _ (List.mem_filter.2 ⟨hk, by simpa using hr⟩)
            have hnd : (i :: (List.range t.order).map Int.ofNat).Nodup := by
              refine List.nodup_cons.2 ⟨?_, (List.nodup_range).map fun a b h => Int.ofNat.inj h⟩
              intro hm
              obtain ⟨k, -, e⟩ := List.mem_map.1 hm
              have : (0 : Int) ≤ Int.ofNat k := Int.natCast_nonneg k
              omega
            have := (hnd.subperm hsub).length_le
            rw [hl] at this
            simp at this
          rw [this]; rfl

theorem negBind_ok {X Y : Type} {x : Res X} {f : X → Res Y} {y : Y} (h : (x >>= f) = .ok y) : ∃ a, x = .ok a ∧ f a = .ok y := by
  cases x with
  | error e => cases h
  | ok a => exact ⟨a, rfl, h⟩

theorem setAllZ_length (base : List Char) : ∀ {l : List (Int × Char)} {b : List Char}, (∃ p ∈ l, wrap base.length p.1 = none) →
    setAllZ base l ≠ .ok b
  | [], b, h => by simp at h
  | (i, c) :: l, b, h => by
      rw [setAllZ]
      cases hw : wrap base.length i with
      | none => simp
      | some k =>
          simp only
          obtain ⟨p, hp, hn⟩ := h
          rcases List.mem_cons.1 hp with rfl | hp
          · rw [hw] at hn; cases hn
          · have := setAllZ_length (base.set k c) (l := l) (b := b) ⟨p, hp, by simpa using hn⟩
            exact this

theorem ttmEqZ_bounds {n : Nat} {axis : List Int} {tr : Bool} {eqn : List Char} (h : ttmEqZ n axis tr = .ok eqn) :
    ∀ i ∈ axis, -(n : Int) ≤ i ∧ i < n := by
  intro i hi
  by_contra hc
  unfold ttmEqZ at h
  obtain ⟨op, h1, h⟩ := negBind_ok h
  obtain ⟨mo, h2, h⟩ := negBind_ok h
  obtain ⟨se, h3, h⟩ := negBind_ok h
  obtain ⟨ta, h4, h⟩ := negBind_ok h
  have hlen : op.length = n := by simpa using (mapM_forall₂_of h1).length_eq.symm
  obtain ⟨p, hp, hip⟩ : ∃ p ∈ se, p.1 = i := by
    have := mapM_forall₂_of h3
    obtain ⟨k, hk, rfl⟩ := List.getElem_of_mem hi
    have hk' : k < se.length := this.length_eq ▸ hk
    refine ⟨se[k], List.getElem_mem _, ?_⟩
    have hg := (List.forall₂_iff_get.1 this).2 k hk hk'
    simp only [List.get_eq_getElem] at hg
    obtain ⟨m, -, hm⟩ := negBind_ok hg
    cases hm' : se[k] with
    | mk u v => rw [hm'] at hm; cases hm; rfl
  refine setAllZ_length op ⟨p, hp, ?_⟩ h4
  rw [hip, hlen]
  unfold wrap
  rw [if_neg (by omega), if_neg (by omega)]

theorem joinComma_cons (w : List Char) : ∀ {ws : List (List Char)}, ws ≠ [] → w ++ ',' :: joinComma ws = joinComma (w :: ws)
  | [], h => absurd rfl h
  | _ :: _, _ => rfl

end TD
