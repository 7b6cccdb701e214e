import Verif.Model.RazorEngine
import Verif.Spec.RazorLinesSpec
import Verif.Lemmas.RegexStatic
/-!
# Ordinary lines are kept by the rules of razor
-/

namespace Verif.Lemmas
open Verif Regex Spec Engine Razor
open Verif.Text (splitC)

/-! ## Lines -/

theorem ordinaryLine_iff {l : Text} : ordinaryLine l = true ↔ OrdinaryLine l := by
  unfold ordinaryLine OrdinaryLine
  rw [List.all_eq_true]
  refine forall_congr' fun f => imp_congr_right fun _ => ?_
  rw [← Text.contains_iff]
  cases Text.contains f l <;> simp

/-- The lines of two texts put together. -/
theorem splitC_glue (sep : Char) (u v : Text) : ∃ ls l r rs, splitC sep u = ls ++ [l] ∧ splitC sep v = r :: rs ∧
    splitC sep (u ++ v) = ls ++ (l ++ r) :: rs := by
  obtain ⟨r, rs, hv⟩ : ∃ r rs, splitC sep v = r :: rs := by
    cases h : splitC sep v with
    | nil => exact absurd h (Text.splitC_ne_nil sep v)
    | cons r rs => exact ⟨r, rs, rfl⟩
  induction u with
  | nil => exact ⟨[], [], r, rs, rfl, hv, hv⟩
  | cons c u ih =>
    obtain ⟨ls, l, r', rs', hu, hv', huv⟩ := ih
    by_cases hc : c = sep
    · refine ⟨[] :: ls, l, r', rs', ?_, hv', ?_⟩
      · simp [splitC, hc, hu]
      · simp [splitC, hc, huv]
    · cases ls with
      | nil =>
        refine ⟨[], c :: l, r', rs', ?_, hv', ?_⟩
        · simp [splitC, hc, hu]
        · simp [splitC, hc, huv]
      | cons l₁ ls =>
        refine ⟨(c :: l₁) :: ls, l, r', rs', ?_, hv', ?_⟩
        · simp [splitC, hc, hu]
        · simp [splitC, hc, huv]

/-- Every ordinary line of the first content is, in order, a line of the second one, whatever is before them. -/
def Keeps (s s' : Text) : Prop := ∀ p, (ordinaryLines (p ++ s)).Sublist (ordinaryLines (p ++ s'))

theorem Keeps.refl (s : Text) : Keeps s s := fun _ => List.Sublist.refl _

theorem Keeps.trans {a b c : Text} (h₁ : Keeps a b) (h₂ : Keeps b c) : Keeps a c := fun p => (h₁ p).trans (h₂ p)

theorem Keeps.append (x : Text) {a b : Text} (h : Keeps a b) : Keeps (x ++ a) (x ++ b) := by
  intro p
  rw [← List.append_assoc, ← List.append_assoc]
  exact h (p ++ x)

/-- A part of a line that is not ordinary may be replaced by anything. -/
theorem Keeps.change {m : Text} (hn : '\n' ∉ m) {f : Text} (hf : f ∈ razorSigns) (hm : f <:+: m) (o w : Text) : Keeps (m ++ w) (o ++ w) := by
  intro p
  obtain ⟨ls, l, r, rs, hp, hw, h₁⟩ := splitC_glue '\n' p (m ++ w)
  obtain ⟨ms, m', r', rs', hm', hw', h₂⟩ := splitC_glue '\n' m w
  rw [Text.splitC_of_not_mem hn] at hm'
  have hms : ms = [] ∧ m' = m := by
    cases ms with
    | nil =>
      have h := hm'
      simp at h
      exact ⟨rfl, h.symm⟩
    | cons a ms => simp at hm'
  obtain ⟨rfl, rfl⟩ := hms
  rw [h₂] at hw
  simp only [List.nil_append, List.cons.injEq] at hw
  obtain ⟨rfl, rfl⟩ := hw
  obtain ⟨ls', l', t, ts, hp', ho, h₃⟩ := splitC_glue '\n' p (o ++ w)
  obtain ⟨os, o', r'', rs'', _, hw'', h₄⟩ := splitC_glue '\n' o w
  rw [hp] at hp'
  obtain ⟨rfl, hl⟩ := List.append_inj' hp' rfl
  cases hl
  rw [hw'] at hw''
  cases hw''
  have hbad : ordinaryLine (l ++ (m' ++ r')) = false := by
    rw [Bool.eq_false_iff]
    intro h
    refine ordinaryLine_iff.mp h f hf (hm.trans ⟨l, r', by simp⟩)
  unfold ordinaryLines
  rw [h₁, h₃, List.filter_append, List.filter_append, List.filter_cons, hbad]
  refine List.Sublist.append (List.Sublist.refl _) ?_
  simp only [Bool.false_eq_true, ↓reduceIte]
  refine List.Sublist.filter _ ?_
  rw [h₄] at ho
  cases os with
  | nil =>
    simp only [List.nil_append, List.cons.injEq] at ho
    obtain ⟨_, rfl⟩ := ho
    exact List.sublist_cons_self _ _
  | cons a os =>
    simp only [List.cons_append, List.cons.injEq] at ho
    obtain ⟨_, rfl⟩ := ho
    exact ((List.sublist_cons_self _ _).trans (List.sublist_append_right _ _)).trans (List.sublist_cons_self _ _)

theorem replaceRe_keeps {letter : Char → Bool} {r : Re} {out : Text → Caps → Text}
    (h : ∀ p x q caps w, x ≠ [] → Fit letter r p x q [] caps → Keeps (x ++ w) (out x caps ++ w)) (s : Text) : Keeps s (replaceRe letter r out s) := by
  refine replaceRe_induct Keeps (Keeps.refl []) ?_ ?_ s
  · intro c t t' ht
    exact ht.append [c]
  · intro p x q caps t' hx hf ht
    exact (h p x q caps q hx hf).trans (ht.append _)

theorem replaceAll_keeps {m : Text} (hn : '\n' ∉ m) (hm : m ∈ razorSigns) (hne : m ≠ []) (o : Text) :
    ∀ (n : Nat) (s : Text), s.length ≤ n → Keeps s (Text.replaceAll m o s) := by
  intro n
  induction n with
  | zero =>
    intro s h
    rw [List.length_eq_zero_iff.mp (Nat.le_zero.mp h), Text.replaceAll_nil]
    exact Keeps.refl _
  | succ n ih =>
    intro s h
    cases s with
    | nil =>
      rw [Text.replaceAll_nil]
      exact Keeps.refl _
    | cons c t =>
      cases hp : Text.hasPrefix m (c :: t) with
      | false =>
        rw [Text.replaceAll_skip hp]
        exact (ih t (by simpa using h)).append [c]
      | true =>
        obtain ⟨q, hq⟩ := Text.hasPrefix_iff.mp hp
        rw [← hq, Text.replaceAll_match o q hne]
        refine (Keeps.change hn hm (List.infix_refl m) o q).trans ((ih q ?_).append o)
        have h1 : (c :: t).length = m.length + q.length := by rw [← hq]; exact List.length_append
        have h2 : 0 < m.length := List.length_pos_iff.mpr hne
        rw [h1] at h
        omega

/-! ## The rules -/

/-- A rule whose matches have no newline and are never ordinary. -/
def inLine (r : Re) : Bool := avoids '\n' r && razorSigns.any (fun f => needs f r)

theorem inLine_keeps {letter : Char → Bool} (hl : letter '\n' = false) {r : Re} (h : inLine r = true) (out : Text → Caps → Text) (s : Text) :
    Keeps s (replaceRe letter r out s) := by
  unfold inLine at h
  rw [Bool.and_eq_true] at h
  obtain ⟨f, hf, hn⟩ := List.any_eq_true.mp h.2
  refine replaceRe_keeps (fun p x q caps w _ hfit => ?_) s
  exact Keeps.change (avoids_sound hl hfit h.1) hf (needs_sound hfit hn) _ _

theorem doubleFirst_keeps (m w : Text) : Keeps (m ++ w) (doubleFirst m ++ w) := by
  induction m with
  | nil => exact Keeps.refl _
  | cons c t ih =>
    unfold doubleFirst
    split
    · rename_i hc
      subst hc
      exact Keeps.change (m := ['@']) (f := ['@']) (by decide) (by decide) (List.infix_refl _) ['@', '@'] (t ++ w)
    · exact ih.append [c]

theorem protectEmail_keeps (m w : Text) : Keeps (m ++ w) (protectEmail m ++ w) := by
  cases m with
  | nil => exact Keeps.refl _
  | cons c t =>
    by_cases h : c = '@' ∨ c = '#'
    · rw [show protectEmail (c :: t) = c :: t from if_pos h]
      exact Keeps.refl _
    · rw [show protectEmail (c :: t) = doubleFirst (c :: t) from if_neg h]
      exact doubleFirst_keeps _ _

theorem fit_seq {letter : Char → Bool} {a b : Re} {p : Option Char} {x q : Text} {c c₂ : Caps} (h : Fit letter (.seq a b) p x q c c₂) :
    ∃ x₁ x₂ c₁, x = x₁ ++ x₂ ∧ Fit letter a p x₁ (x₂ ++ q) c c₁ ∧ Fit letter b (lastOr p x₁) x₂ q c₁ c₂ := by
  cases h with
  | seq h₁ h₂ => exact ⟨_, _, _, rfl, h₁, h₂⟩

theorem fit_lit {letter : Char → Bool} {ch : Char} {p : Option Char} {x q : Text} {c c' : Caps} (h : Fit letter (lit ch) p x q c c') :
    x = [ch] ∧ c' = c := by
  cases h with
  | cls hk =>
    refine ⟨?_, rfl⟩
    have := single_some (k := ⟨false, [.chr ch]⟩) rfl hk
    rw [this]

theorem fit_group {letter : Char → Bool} {n : Text} {a : Re} {p : Option Char} {x q : Text} {c c' : Caps} (h : Fit letter (.group n a) p x q c c') :
    ∃ d, c' = (n, x) :: d ∧ Fit letter a p x q c d := by
  cases h with
  | group h => exact ⟨_, rfl, h⟩

theorem fit_assoc {letter : Char → Bool} {a b d : Re} {p : Option Char} {x q : Text} {c c' : Caps}
    (h : Fit letter (.seq (.seq a b) d) p x q c c') : Fit letter (.seq a (.seq b d)) p x q c c' := by
  obtain ⟨y, z, c₁, rfl, h₁, h₂⟩ := fit_seq h
  obtain ⟨u, v, c₂, rfl, h₃, h₄⟩ := fit_seq h₁
  rw [List.append_assoc]
  refine .seq (by simpa using h₃) (.seq h₄ ?_)
  rw [lastOr_append]
  exact h₂

theorem block_keeps {letter : Char → Bool} (hl : letter '\n' = false) {name : Text} {r a body b : Re}
    (hr : ∀ {p x q c c'}, Fit letter r p x q c c' → Fit letter (.seq (.seq a (.group name body)) b) p x q c c') (ha : inLine a = true)
    (hb : ∀ {p x q c c'}, Fit letter b p x q c c' → c' = c ∧ '\n' ∉ x ∧ ∃ f ∈ razorSigns, f <:+: x) {out : Text → Caps → Text}
    (hout : ∀ x caps, ∃ o₁ o₂, out x caps = o₁ ++ groupOf caps name ++ o₂) (s : Text) :
    Keeps s (replaceRe letter r out s) := by
  refine replaceRe_keeps (fun p x q caps w _ hfit => ?_) s
  obtain ⟨y, z, c₁, rfl, h₁, h₂⟩ := fit_seq (hr hfit)
  obtain ⟨u, v, c₂, rfl, h₃, h₄⟩ := fit_seq h₁
  obtain ⟨d, rfl, _⟩ := fit_group h₄
  obtain ⟨rfl, hz, f, hf, hfz⟩ := hb h₂
  obtain ⟨o₁, o₂, ho⟩ := hout (u ++ v ++ z) ((name, v) :: d)
  rw [ho]
  have hg : groupOf ((name, v) :: d) name = v := by simp [groupOf]
  rw [hg]
  unfold inLine at ha
  rw [Bool.and_eq_true] at ha
  obtain ⟨f', hf', hn'⟩ := List.any_eq_true.mp ha.2
  have k₁ := Keeps.change (avoids_sound hl h₃ ha.1) hf' (needs_sound h₃ hn') o₁ (v ++ (z ++ w))
  have k₂ := ((Keeps.change hz hf hfz o₂ w).append v).append o₁
  have := k₁.trans k₂
  simpa [List.append_assoc] using this

end Verif.Lemmas
