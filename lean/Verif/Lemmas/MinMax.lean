import Verif.Model.MinMax
import Verif.Spec.MinMaxSpec
import Verif.Lemmas.Arith

/-!
Lemmas for C97: the loops of `min` and `max`.
-/

namespace Verif.Lemmas
open Verif Verif.Text Verif.Value Verif.Arith Verif.Spec Verif.Numbers Verif.MinMax

theorem foldl_first {α : Type} {r : α → α → Prop} (hr : ∀ a, r a a) (ht : ∀ a b c, r a b → r b c → r a c) {f : α → α → α}
    (hf : ∀ a b, FirstOf r [a, b] (f a b)) (l : List α) : ∀ a, FirstOf r (a :: l) (l.foldl f a) := by
  induction l with
  | nil => intro a; exact ⟨List.mem_singleton.2 rfl, fun x hx => by rw [List.mem_singleton] at hx; subst hx; exact hr _⟩
  | cons b l ih =>
    intro a
    obtain ⟨hm, hall⟩ := ih (f a b)
    obtain ⟨hab, hle⟩ := hf a b
    rw [List.foldl_cons]
    have h0 := hall (f a b) (List.mem_cons_self ..)
    refine ⟨?_, fun x hx => ?_⟩
    · rcases List.mem_cons.1 hm with h | h
      · rw [h]
        rcases List.mem_cons.1 hab with h' | h'
        · rw [h']; exact List.mem_cons_self ..
        · rw [List.mem_singleton.1 h']; exact List.mem_cons_of_mem _ (List.mem_cons_self ..)
      · exact List.mem_cons_of_mem _ (List.mem_cons_of_mem _ h)
    · rcases List.mem_cons.1 hx with rfl | hx
      · exact ht _ _ _ h0 (hle _ (List.mem_cons_self ..))
      · rcases List.mem_cons.1 hx with rfl | hx
        · exact ht _ _ _ h0 (hle _ (List.mem_cons_of_mem _ (List.mem_singleton.2 rfl)))
        · exact hall x (List.mem_cons_of_mem _ hx)

theorem better_min (a b : Text) : FirstOf TextLe [a, b] (better true a b) := by
  unfold better FirstOf TextLe
  cases h : lt b a with
  | true =>
    have := ((Text.lt_iff b a).1 h).1
    simp [this, Text.le_refl]
  | false =>
    have : le a b = true := by unfold lt at h; simpa using h
    simp [this, Text.le_refl]

theorem better_max (a b : Text) : FirstOf (fun x y => TextLe y x) [a, b] (better false a b) := by
  unfold better FirstOf TextLe
  cases h : lt a b with
  | true =>
    have := ((Text.lt_iff a b).1 h).1
    simp [this, Text.le_refl]
  | false =>
    have : le b a = true := by unfold lt at h; simpa using h
    simp [this, Text.le_refl]

theorem mem_texts {values : List Value} {t : Text} : t ∈ texts values ↔ ∃ v ∈ values, v ≠ .nil ∧ sprint v = t := by
  unfold texts
  rw [List.mem_map]
  constructor
  · rintro ⟨v, hv, rfl⟩
    rw [List.mem_filter] at hv
    exact ⟨v, hv.1, (by rintro rfl; exact absurd hv.2 (by simp)), rfl⟩
  · rintro ⟨v, hv, hn, rfl⟩
    refine ⟨v, List.mem_filter.2 ⟨hv, ?_⟩, rfl⟩
    cases v with
    | nil => exact absurd rfl hn
    | _ => rfl

theorem texts_nil {values : List Value} : texts values = [] ↔ ∀ v ∈ values, v = .nil := by
  constructor
  · intro h v hv
    refine Classical.byContradiction fun hn => ?_
    have := mem_texts.2 ⟨v, hv, hn, rfl⟩
    rw [h] at this
    cases this
  · intro h
    cases ht : texts values with
    | nil => rfl
    | cons t ts =>
      obtain ⟨v, hv, hn, _⟩ := mem_texts.1 (ht ▸ List.mem_cons_self (a := t) (l := ts))
      exact absurd (h v hv) hn

/-- The text that is chosen: the first, or the last, of the texts. -/
theorem compareStrings_first (useMin : Bool) {values : List Value} (h : texts values ≠ []) :
    ∃ m, compareStrings useMin values = some m ∧ FirstOf (fun a b => if useMin then TextLe a b else TextLe b a) (texts values) m := by
  unfold compareStrings
  cases ht : texts values with
  | nil => exact absurd ht h
  | cons t ts =>
    refine ⟨_, rfl, ?_⟩
    cases useMin with
    | true => exact foldl_first (fun a => Text.le_refl a) (fun a b c => Text.le_trans a b c) better_min ts t
    | false => exact foldl_first (r := fun a b => TextLe b a) (fun a => Text.le_refl a) (fun a b c h1 h2 => Text.le_trans c b a h2 h1) better_max ts t

theorem floats_list_once (N : Nums) (l : List Value) : floats N [.list l] = (ListOps.clone l).mapM (toFloat N) := rfl

theorem clone_nest (k : List Value) : ListOps.clone [.list k] = k := by
  unfold ListOps.clone ListOps.newList
  rw [ListOps.foldl_append_eq, List.nil_append]

end Verif.Lemmas
