import Mathlib.Data.List.Dedup
import Verif.Lemmas.Ewise

namespace TD.tf
open Spec Tensor
variable {α : Type}

/-! ### Parsing -/

theorem splitArrow_append {l r : List Char} (h : '-' ∉ l) :
    splitArrow (l ++ '-' :: '>' :: r) = some (l, r) := by
  induction l with
  | nil => rfl
  | cons c l ih =>
      have hc : c ≠ '-' := fun e => h (by simp [e])
      have hl : '-' ∉ l := fun e => h (by simp [e])
      rw [List.cons_append, splitArrow]
      · rw [ih hl]; rfl
      · intro r' h1 _; exact hc h1

theorem splitAll_no {w : List Char} (h : ',' ∉ w) : splitAll ',' w = [w] := by
  induction w with
  | nil => rfl
  | cons c w ih =>
      have hc : c ≠ ',' := fun e => h (by simp [e])
      have hw : ',' ∉ w := fun e => h (by simp [e])
      simp [splitAll, hc, ih hw]

theorem splitAll_cons {w r : List Char} (h : ',' ∉ w) :
    splitAll ',' (w ++ ',' :: r) = w :: splitAll ',' r := by
  induction w with
  | nil => simp [splitAll]
  | cons c w ih =>
      have hc : c ≠ ',' := fun e => h (by simp [e])
      have hw : ',' ∉ w := fun e => h (by simp [e])
      simp [splitAll, hc, ih hw]

theorem splitAll_join : ∀ {ws : List (List Char)}, ws ≠ [] → (∀ w ∈ ws, ',' ∉ w) →
    splitAll ',' (ops.joinComma ws) = ws
  | [], h, _ => absurd rfl h
  | [w], _, h => splitAll_no (h w (by simp))
  | w :: v :: ws, _, h => by
      rw [ops.joinComma, splitAll_cons (h w (by simp)),
        splitAll_join (by simp) (fun u hu => h u (by simp [hu]))]
      simp

theorem not_mem_join {c : Char} (hc : c ≠ ',') : ∀ {ws : List (List Char)}, (∀ w ∈ ws, c ∉ w) →
    c ∉ ops.joinComma ws
  | [], _ => by simp [ops.joinComma]
  | [w], h => h w (by simp)
  | w :: v :: ws, h => by
      rw [ops.joinComma]
      · simp only [List.mem_append, List.mem_cons, not_or]
        exact ⟨h w (by simp), hc, not_mem_join hc (fun u hu => h u (by simp [hu]))⟩
      · simp

theorem isLabel_ne {c d : Char} (h : isLabel c = true) (hd : isLabel d = false) : c ≠ d := by
  rintro rfl; rw [h] at hd; cases hd

theorem parse_ok {ws : List (List Char)} {out : List Char} (hws : ws ≠ [])
    (hne : ∀ w ∈ ws, w ≠ []) (hl : ∀ w ∈ ws, ∀ c ∈ w, isLabel c = true)
    (ho : ∀ c ∈ out, isLabel c = true) :
    parseEq (ops.joinComma ws ++ '-' :: '>' :: out) = some (ws, out) := by
  have h1 : '-' ∉ ops.joinComma ws := not_mem_join (by decide) (fun w hw hc =>
    absurd (hl w hw _ hc) (by decide))
  have h2 : ∀ w ∈ ws, ',' ∉ w := fun w hw hc => absurd (hl w hw _ hc) (by decide)
  unfold parseEq
  rw [splitArrow_append h1]
  simp only [splitAll_join hws h2]
  rw [if_pos]
  simp only [Bool.and_eq_true, List.all_eq_true]
  refine ⟨fun w hw => ⟨?_, fun c hc => hl w hw c hc⟩, ho⟩
  have := hne w hw
  cases w <;> simp_all

/-! ### Label environments -/

theorem bindLabels_getElem {cs : List Char} (h : cs.Nodup) {vs : List Nat} {k : Nat}
    (hk : k < cs.length) : bindLabels cs vs cs[k] = vs.getD k 0 := by
  unfold bindLabels; rw [h.idxOf_getElem]

theorem map_bindLabels {cs : List Char} (h : cs.Nodup) {vs : List Nat} (hl : vs.length = cs.length) :
    cs.map (bindLabels cs vs) = vs := by
  apply List.ext_getElem
  · simp [hl]
  · intro k h1 h2
    rw [List.getElem_map, bindLabels_getElem h, List.getD_eq_getElem _ _ h2]

theorem map_bindLabels_append {as bs : List Char} (h : (as ++ bs).Nodup) {us vs : List Nat}
    (hu : us.length = as.length) (hv : vs.length = bs.length) :
    as.map (bindLabels (as ++ bs) (us ++ vs)) = us ∧ bs.map (bindLabels (as ++ bs) (us ++ vs)) = vs := by
  have := map_bindLabels (vs := us ++ vs) h (by simp [hu, hv])
  rw [List.map_append] at this
  exact List.append_inj this (by simp [hu])

theorem flatten_map_dims {ins : List (List Char)} {shapes : List (List Nat)} {D : Char → Nat}
    (h : ins.map (fun w => w.map D) = shapes) : ins.flatten.map D = shapes.flatten := by
  subst h; rw [List.map_flatten]

theorem labelDim_eq {ins : List (List Char)} {shapes : List (List Nat)} {D : Char → Nat}
    (h : ins.map (fun w => w.map D) = shapes) {c : Char} (hc : c ∈ ins.flatten) :
    labelDim ins shapes c = D c := by
  unfold labelDim bindLabels
  rw [← flatten_map_dims h]
  revert hc
  generalize ins.flatten = l
  intro hc
  have hl := List.idxOf_lt_length_iff.2 hc
  rw [List.getD_eq_getElem _ _ (by simpa using hl)]
  simp

theorem mem_zip_map_self {β γ : Type} {f : β → γ} : ∀ {l : List β} {p : β × γ},
    p ∈ l.zip (l.map f) → p.1 ∈ l ∧ p.2 = f p.1
  | [], p, h => by simp at h
  | a :: l, p, h => by
      rw [List.map_cons, List.zip_cons_cons, List.mem_cons] at h
      rcases h with rfl | h
      · simp
      · have := mem_zip_map_self h
        exact ⟨by simp [this.1], this.2⟩

theorem einsumOk_of {ins : List (List Char)} {out : List Char} {shapes : List (List Nat)} {D : Char → Nat}
    (h : ins.map (fun w => w.map D) = shapes) (hnd : ∀ w ∈ ins, w.Nodup) (ho : out.Nodup)
    (hsub : ∀ c ∈ out, c ∈ ins.flatten) : einsumOk ins out shapes := by
  refine ⟨by subst h; simp, ?_, hnd, ho, hsub, ?_⟩
  · subst h
    intro p hp
    rw [(mem_zip_map_self hp).2]; simp
  · intro p hp
    rw [← flatten_map_dims h] at hp
    obtain ⟨h1, h2⟩ := mem_zip_map_self hp
    rw [labelDim_eq h h1, h2]

section sumOver
variable [AddCommMonoid α]

theorem sumOver_congr_dim {d d' : Char → Nat} {cs : List Char} (h : ∀ c ∈ cs, d c = d' c)
    (F : (Char → Nat) → α) (env : Char → Nat) : sumOver d cs F env = sumOver d' cs F env := by
  induction cs generalizing env with
  | nil => rfl
  | cons c cs ih =>
      simp only [sumOver]
      rw [h c (by simp)]
      apply Finset.sum_congr rfl
      intro v _
      exact ih (fun c hc => h c (by simp [hc])) _

theorem sumOver_perm {d : Char → Nat} {cs cs' : List Char} (h : cs.Perm cs') (hnd : cs.Nodup)
    (F : (Char → Nat) → α) (env : Char → Nat) : sumOver d cs F env = sumOver d cs' F env := by
  induction h generalizing env with
  | nil => rfl
  | cons c h ih =>
      simp only [sumOver]
      apply Finset.sum_congr rfl
      intro v _
      exact ih (List.nodup_cons.1 hnd).2 _
  | swap a b l =>
      simp only [sumOver]
      rw [Finset.sum_comm]
      have hne : a ≠ b := by
        intro e; subst e; simp at hnd
      apply Finset.sum_congr rfl
      intro v _
      apply Finset.sum_congr rfl
      intro w _
      rw [Function.update_comm hne.symm]
  | trans h1 h2 ih1 ih2 => rw [ih1 hnd, ih2 (h1.nodup_iff.1 hnd)]

end sumOver

/-- Working form of `einsumL`: any consistent dimension function and any enumeration of the summed
labels may be used. -/
theorem einsumL_eq [CommSemiring α] {ins : List (List Char)} {out S : List Char} {ts : List (Tensor α)}
    {D : Char → Nat} (h : ins.map (fun w => w.map D) = ts.map Tensor.shape)
    (hnd : ∀ w ∈ ins, w.Nodup) (ho : out.Nodup) (hsub : ∀ c ∈ out, c ∈ ins.flatten)
    (hS : S.Nodup) (hSmem : ∀ c, c ∈ S ↔ c ∈ ins.flatten ∧ c ∉ out) :
    einsumL ins out ts = .ok (ofFn (out.map D) fun idx =>
      sumOver D S (fun env => (List.zipWith (fun w t => t.at_ (w.map env)) ins ts).prod)
        (bindLabels out idx)) := by
  unfold einsumL
  simp only
  rw [if_pos (einsumOk_of h hnd ho hsub)]
  have hout : out.map (labelDim ins (ts.map Tensor.shape)) = out.map D :=
    List.map_congr_left (fun c hc => labelDim_eq h (hsub c hc))
  have hperm : (ins.flatten.dedup.filter (· ∉ out)).Perm S := by
    rw [List.perm_ext_iff_of_nodup ((List.nodup_dedup _).filter _) hS]
    intro c
    rw [hSmem]
    simp
  rw [hout]
  congr 2
  funext idx
  rw [contract_setLabels _ _ (fun env => List.zipWith (fun w (t : Tensor α) => t.at_ (w.map env)) ins ts), sumOver_perm hperm ((List.nodup_dedup _).filter _)]
  exact sumOver_congr_dim (fun c hc => labelDim_eq h ((hSmem c).1 hc).1) _ _

theorem einsum_eq [CommSemiring α] {ins : List (List Char)} {out : List Char} (ts : List (Tensor α))
    (hws : ins ≠ []) (hne : ∀ w ∈ ins, w ≠ []) (hl : ∀ w ∈ ins, ∀ c ∈ w, isLabel c = true)
    (ho : ∀ c ∈ out, isLabel c = true) :
    einsum (ops.joinComma ins ++ '-' :: '>' :: out) ts = einsumL ins out ts := by
  unfold einsum; rw [parse_ok hws hne hl ho]

/-! ### Letters -/

/-- The letter number `i` (`'a'` is 0). -/
def letter (i : Nat) : Char := Char.ofNat (97 + i)

theorem letter_isLabel : ∀ i < 26, isLabel (letter i) = true := by decide

theorem letter_toNat {i : Nat} (h : i < 26) : (letter i).toNat = 97 + i := by
  revert i; decide

theorem letter_inj {i j : Nat} (hi : i < 26) (hj : j < 26) (h : letter i = letter j) : i = j := by
  have := congrArg Char.toNat h
  rw [letter_toNat hi, letter_toNat hj] at this; omega

theorem nodup_letters {l : List Nat} (h : l.Nodup) (hlt : ∀ i ∈ l, i < 26) : (l.map letter).Nodup :=
  h.map_on (fun x hx y hy e => letter_inj (hlt x hx) (hlt y hy) e)

end TD.tf
