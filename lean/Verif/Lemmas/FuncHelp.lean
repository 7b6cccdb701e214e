import Verif.Spec.HelpSpec
import Verif.Lemmas.HclMark

/-!
Lemmas about the listing of the functions (C75).
-/

namespace Verif.Lemmas
open Verif Verif.FuncHelp Verif.Spec

theorem increasing_sort {l : List Text} (h : l.Nodup) : Increasing (Text.sortBy id l) := by
  have h1 := Text.sortBy_sorted id l
  have h2 : (Text.sortBy id l).Nodup := (Text.sortBy_perm id l).nodup_iff.2 h
  unfold Increasing
  exact h1.and h2

theorem mem_sort {l : List Text} {n : Text} : n ∈ Text.sortBy id l ↔ n ∈ l := (Text.sortBy_perm id l).mem_iff

theorem increasing_ext {a b : List Text} (ha : Increasing a) (hb : Increasing b) (h : ∀ n, n ∈ a ↔ n ∈ b) : a = b := by
  have na : a.Nodup := ha.imp fun x => x.2
  have nb : b.Nodup := hb.imp fun x => x.2
  refine Text.sorted_perm_unique id ((List.perm_ext_iff_of_nodup na nb).2 h) (ha.imp fun x => x.1) (hb.imp fun x => x.1) ?_
  simpa using na

theorem collect_get (g : Text → Text) (ns : List Text) (c : GoMap (List Text)) (k : Text) :
    ((collect g ns c).get? k).getD [] = (c.get? k).getD [] ++ ns.filter fun n => g n == k := by
  induction ns generalizing c with
  | nil => simp [collect]
  | cons n ns ih =>
    rw [collect, ih, GoMap.get?_set]
    by_cases h : g n = k
    · subst h; simp
    · simp [h]

theorem collect_keys (g : Text → Text) (ns : List Text) (c : GoMap (List Text)) (k : Text) :
    k ∈ (collect g ns c).keys ↔ k ∈ c.keys ∨ ∃ n ∈ ns, g n = k := by
  induction ns generalizing c with
  | nil => simp [collect]
  | cons n ns ih =>
    rw [collect, ih, GoMap.mem_keys_iff, GoMap.get?_set, GoMap.mem_keys_iff]
    by_cases h : g n = k
    · subst h; simp
    · simp [h]

theorem collect_wf (g : Text → Text) (ns : List Text) (c : GoMap (List Text)) (h : c.WF) : (collect g ns c).WF := by
  induction ns generalizing c with
  | nil => exact h
  | cons n ns ih => exact ih _ (h.set _ _)

theorem infix_join_blank {w : Text} {l : List Text} (h : w ∈ l) : w <:+: Text.join [' '] l := by
  induction l with
  | nil => cases h
  | cons x xs ih =>
    cases xs with
    | nil => simp only [List.mem_singleton] at h; subst h; exact List.infix_rfl
    | cons y ys =>
      show w <:+: x ++ [' '] ++ Text.join [' '] (y :: ys)
      rcases List.mem_cons.1 h with rfl | h
      · exact ⟨[], [' '] ++ Text.join [' '] (y :: ys), by simp⟩
      · obtain ⟨s, e, hse⟩ := ih h
        exact ⟨x ++ [' '] ++ s, e, by rw [← hse]; simp⟩

theorem infix_of_join_blank {f : Text} {lower : Char → Char} {l : List Text} (hb : ' ' ∉ f) (hl : lower ' ' = ' ') (hf : f ≠ [])
    (h : f <:+: (Text.join [' '] l).map lower) : ∃ w ∈ l, f <:+: w.map lower := by
  induction l with
  | nil =>
    have : f = [] := List.infix_nil.1 h
    exact absurd this hf
  | cons x xs ih =>
    cases xs with
    | nil => exact ⟨x, by simp, h⟩
    | cons y ys =>
      have h' : f <:+: x.map lower ++ ' ' :: (Text.join [' '] (y :: ys)).map lower := by
        have : (Text.join [' '] (x :: y :: ys)).map lower = x.map lower ++ ' ' :: (Text.join [' '] (y :: ys)).map lower := by
          show (x ++ [' '] ++ Text.join [' '] (y :: ys)).map lower = _
          simp [hl]
        rw [← this]; exact h
      rcases infix_glue hb h' with h1 | h1
      · exact ⟨x, by simp, h1⟩
      · obtain ⟨w, hw, hi⟩ := ih h1
        exact ⟨w, by simp [hw], hi⟩

theorem infix_mid {a b c w : Text} (h : w <:+: b) : w <:+: a ++ b ++ c := by
  obtain ⟨s, e, rfl⟩ := h
  exact ⟨a ++ s, e ++ c, by simp⟩

/-- What is found in one of the texts is found in the text built from them. -/
theorem search_of_finds {lower : Char → Char} {category detailed : Bool} {f n : Text} {d : Doc}
    (h : Finds lower category detailed f n d) : f.map lower <:+: search lower category detailed n d := by
  obtain ⟨w, hw, hi⟩ := h
  refine hi.trans ?_
  unfold search lowerText
  rcases hw with rfl | hw | ⟨hc, rfl⟩ | ⟨hc, rfl⟩
  · refine ⟨[], (' ' :: Text.join [' '] d.aliases).map lower ++ ((if category then ' ' :: d.group.map lower else []) ++ (if detailed then ' ' :: d.description.map lower else [])), ?_⟩
    simp
  · obtain ⟨s, e, hse⟩ := infix_join_blank hw
    refine ⟨n.map lower ++ lower ' ' :: s.map lower, e.map lower ++ ((if category then ' ' :: d.group.map lower else []) ++ (if detailed then ' ' :: d.description.map lower else [])), ?_⟩
    rw [← hse]
    simp
  · refine ⟨(n ++ ' ' :: Text.join [' '] d.aliases).map lower ++ [' '], (if detailed then ' ' :: d.description.map lower else []), ?_⟩
    simp [hc]
  · refine ⟨(n ++ ' ' :: Text.join [' '] d.aliases).map lower ++ (if category then ' ' :: d.group.map lower else []) ++ [' '], [], ?_⟩
    simp [hc]

/-- Conversely, for a filter without a blank. -/
theorem finds_of_search {lower : Char → Char} {category detailed : Bool} {f n : Text} {d : Doc} (hl : lower ' ' = ' ')
    (hf : ' ' ∉ f.map lower) (h : f.map lower <:+: search lower category detailed n d) : Finds lower category detailed f n d := by
  by_cases hne : f.map lower = []
  · exact ⟨n, .inl rfl, by rw [hne]; exact List.nil_infix⟩
  have base : f.map lower <:+: (n ++ ' ' :: Text.join [' '] d.aliases).map lower → Finds lower category detailed f n d := by
    intro h
    rw [List.map_append, List.map_cons, hl] at h
    rcases infix_glue hf h with h | h
    · exact ⟨n, .inl rfl, h⟩
    · obtain ⟨w, hw, hi⟩ := infix_of_join_blank hf hl hne h
      exact ⟨w, .inr (.inl hw), hi⟩
  have step : f.map lower <:+: (n ++ ' ' :: Text.join [' '] d.aliases).map lower ++ (if category then ' ' :: d.group.map lower else []) →
      Finds lower category detailed f n d := by
    intro h
    cases hc : category with
    | false => rw [hc] at h; simp only [Bool.false_eq_true, if_false, List.append_nil] at h; rw [hc] at base; exact base h
    | true =>
      rw [hc] at h; simp only [if_true] at h
      rcases infix_glue hf h with h | h
      · rw [hc] at base; exact base h
      · exact ⟨d.group, .inr (.inr (.inl ⟨rfl, rfl⟩)), h⟩
  unfold search lowerText at h
  cases hd : detailed with
  | false => rw [hd] at h step; simp only [Bool.false_eq_true, if_false, List.append_nil] at h; exact step h
  | true =>
    rw [hd] at h step; simp only [if_true] at h
    rcases infix_glue hf h with h | h
    · exact step h
    · exact ⟨d.description, .inr (.inr (.inr ⟨rfl, rfl⟩)), h⟩

theorem swap_loops {α β γ : Type} (as : List α) (bs : List β) (f : α → β → Option γ) :
    (as.flatMap fun a => bs.filterMap (f a)).Perm (bs.flatMap fun b => as.filterMap fun a => f a b) := by
  have app : ∀ (bs : List β) (g h : β → List γ), (bs.flatMap fun b => g b ++ h b).Perm (bs.flatMap g ++ bs.flatMap h) := by
    intro bs g h
    induction bs with
    | nil => exact List.Perm.refl _
    | cons b bs ih =>
      simp only [List.flatMap_cons]
      have h1 := (List.Perm.append_left (g b ++ h b) ih)
      refine h1.trans ?_
      rw [List.append_assoc, List.append_assoc]
      refine List.Perm.append_left _ ?_
      rw [← List.append_assoc, ← List.append_assoc]
      exact List.Perm.append_right _ List.perm_append_comm
  have one : ∀ (bs : List β) (g : β → Option γ), bs.filterMap g = bs.flatMap fun b => (g b).toList := by
    intro bs g
    induction bs with
    | nil => rfl
    | cons b bs ih =>
      rw [List.filterMap_cons, List.flatMap_cons, ← ih]
      cases g b <;> rfl
  induction as with
  | nil => simp
  | cons a as ih =>
    rw [List.flatMap_cons]
    refine (List.Perm.append_left _ ih).trans ?_
    rw [one bs (f a)]
    refine (app bs (fun b => (f a b).toList) _).symm.trans ?_
    have : (fun b => (f a b).toList ++ as.filterMap fun a => f a b) = fun b => (a :: as).filterMap fun a => f a b := by
      funext b
      rw [List.filterMap_cons]
      cases f a b <;> rfl
    rw [this]

theorem slice_filterMap {α : Type} (l : List α) (o c : Nat) :
    ((List.range c).filterMap fun r => l[o + r]?) = (l.drop o).take c := by
  induction c with
  | zero => simp
  | succ c ih =>
    rw [List.range_succ, List.filterMap_append, ih, List.take_add_one, List.getElem?_drop]
    congr 1

theorem five_slices {α : Type} (l : List α) (c : Nat) (h : l.length ≤ 5 * c) :
    ((List.range 5).flatMap fun j => (l.drop (j * c)).take c) = l := by
  have hr : List.range 5 = [0, 1, 2, 3, 4] := rfl
  have step : ∀ o, (l.drop o).take c ++ l.drop (o + c) = l.drop o := by
    intro o
    rw [← List.drop_drop]
    exact List.take_append_drop _ _
  have h5 : l.drop (4 * c + c) = [] := List.drop_eq_nil_of_le (by omega)
  simp only [hr, List.flatMap_cons, List.flatMap_nil]
  have e4 := step (4 * c)
  have e3 := step (3 * c)
  have e2 := step (2 * c)
  have e1 := step (1 * c)
  have e0 := step (0 * c)
  rw [h5] at e4
  rw [e4]
  rw [show 3 * c + c = 4 * c by omega] at e3
  rw [show 2 * c + c = 3 * c by omega] at e2
  rw [show 1 * c + c = 2 * c by omega] at e1
  rw [show 0 * c + c = 1 * c by omega] at e0
  rw [e3, e2, e1, e0]
  simp

theorem colLength_enough (l : List Text) : l.length ≤ 5 * colLength l := by unfold colLength; omega

theorem row_cell (l : List Text) (r j : Nat) (hj : j < 5) :
    ((List.range 5).filterMap fun j => l[j * colLength l + r]?)[j]? = l[j * colLength l + r]? := by
  generalize colLength l = c
  have hr : List.range 5 = [0, 1, 2, 3, 4] := rfl
  have none_of : ∀ {a b : Nat}, a ≤ b → l[a * c + r]? = none → l[b * c + r]? = none := by
    intro a b hab h
    rw [List.getElem?_eq_none_iff] at h ⊢
    have := Nat.mul_le_mul_right c hab
    omega
  rw [hr]
  cases h0 : l[0 * c + r]? with
  | none =>
    rw [none_of (Nat.zero_le j) h0]
    simp only [List.filterMap_cons, List.filterMap_nil, h0, none_of (a := 0) (b := 1) (by decide) h0, none_of (a := 0) (b := 2) (by decide) h0, none_of (a := 0) (b := 3) (by decide) h0, none_of (a := 0) (b := 4) (by decide) h0]
    rfl
  | some x0 =>
  cases h1 : l[1 * c + r]? with
  | none =>
    simp only [List.filterMap_cons, List.filterMap_nil, h0, h1, none_of (a := 1) (b := 2) (by decide) h1, none_of (a := 1) (b := 3) (by decide) h1, none_of (a := 1) (b := 4) (by decide) h1]
    match j with
    | 0 => exact h0.symm
    | j + 1 => rw [none_of (a := 1) (b := j + 1) (by omega) h1]; rfl
  | some x1 =>
  cases h2 : l[2 * c + r]? with
  | none =>
    simp only [List.filterMap_cons, List.filterMap_nil, h0, h1, h2, none_of (a := 2) (b := 3) (by decide) h2, none_of (a := 2) (b := 4) (by decide) h2]
    match j with
    | 0 => exact h0.symm
    | 1 => exact h1.symm
    | j + 2 => rw [none_of (a := 2) (b := j + 2) (by omega) h2]; rfl
  | some x2 =>
  cases h3 : l[3 * c + r]? with
  | none =>
    simp only [List.filterMap_cons, List.filterMap_nil, h0, h1, h2, h3, none_of (a := 3) (b := 4) (by decide) h3]
    match j with
    | 0 => exact h0.symm
    | 1 => exact h1.symm
    | 2 => exact h2.symm
    | j + 3 => rw [none_of (a := 3) (b := j + 3) (by omega) h3]; rfl
  | some x3 =>
  cases h4 : l[4 * c + r]? with
  | none =>
    simp only [List.filterMap_cons, List.filterMap_nil, h0, h1, h2, h3, h4]
    match j with
    | 0 => exact h0.symm
    | 1 => exact h1.symm
    | 2 => exact h2.symm
    | 3 => exact h3.symm
    | j + 4 => rw [none_of (a := 4) (b := j + 4) (by omega) h4]; rfl
  | some x4 =>
    simp only [List.filterMap_cons, List.filterMap_nil, h0, h1, h2, h3, h4]
    match j, hj with
    | 0, _ => exact h0.symm
    | 1, _ => exact h1.symm
    | 2, _ => exact h2.symm
    | 3, _ => exact h3.symm
    | 4, _ => exact h4.symm

theorem realNames_keys (t : Table) (ns : List Text) (c : GoMap Unit) (m : Text) :
    m ∈ (realNames t ns c).keys ↔ m ∈ c.keys ∨ ∃ n ∈ ns, Described t n m := by
  induction ns generalizing c with
  | nil => simp [realNames]
  | cons n ns ih =>
    have key : ∀ x, Described t n x ↔ x = realName t n := by
      intro x
      unfold Described realName
      split
      · rename_i d hd
        simp [hd]
      · rename_i hd
        constructor
        · rintro (⟨d, h, _⟩ | ⟨_, h⟩)
          · exact absurd h (hd d)
          · exact h
        · intro h
          exact .inr ⟨hd, h⟩
    rw [realNames, ih, GoMap.mem_keys_iff, GoMap.get?_set, GoMap.mem_keys_iff]
    simp only [List.mem_cons, exists_eq_or_imp, key m]
    by_cases h : m = realName t n
    · simp [← h]
    · have h' : ¬ realName t n = m := fun e => h e.symm
      simp [h, h']

theorem realNames_wf (t : Table) (ns : List Text) (c : GoMap Unit) (h : c.WF) : (realNames t ns c).WF := by
  induction ns generalizing c with
  | nil => exact h
  | cons n ns ih => exact ih _ (h.set _ _)

end Verif.Lemmas
