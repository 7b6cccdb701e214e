import Verif.Lemmas.RazorNameRun
/-!
# An automaton for the indices of razor

It reads a text with one `@name[…]`, with the kinds and the states of the automaton of variables; the state `w` is between the brackets and after them.
-/

namespace Verif.Lemmas
open Verif Regex Spec Engine Razor Table

def sliceNext (s : St) (k : Kind) : St :=
  match s with
  | .w => if k = .at then .bad else .w
  | .p | .h | .s1 | .s2 | .cm | .u1 | .u2 | .bad => next s k
  | .a | .m1 | .m2 => if k = .dollar then .bad else next s k
  | s => if k = .lbr then .w else if k.inName then next s k else .bad

def charSlice (letter : Char → Bool) (s : St) (c : Char) : St := sliceNext s (kindOf letter c)

/-- The states after a character of a class. -/
def sliceStep (k : Cls) (S : List St) : List St :=
  (allKinds.filter (clsMay k)).foldl (fun R kd => union R (S.foldl (fun R s => union R [sliceNext s kd]) [])) []

/-- The matches of the expression all lead to the state `bad`. -/
def sliceBad (r : Re) : Bool := (post allSt sliceStep r [.p]).all (fun s => s == .bad)

theorem sliceStep_sound {letter : Char → Bool} (hl : PlainLetters letter) (k : Cls) (c : Char) (s : St) (S : List St)
    (hk : k.has letter c = true) (hs : s ∈ S) : charSlice letter s c ∈ sliceStep k S := by
  unfold sliceStep
  refine mem_foldl_union _ _ _ _ (.inr ⟨kindOf letter c, List.mem_filter.mpr ⟨?_, clsMay_sound hl hk⟩, ?_⟩)
  · cases kindOf letter c <;> decide
  · exact mem_foldl_union _ _ _ _ (.inr ⟨s, hs, List.mem_singleton.mpr rfl⟩)

theorem sliceBad_sound {letter : Char → Bool} (hl : PlainLetters letter) {r : Re} {p : Option Char} {x q : Text} {c c' : Caps}
    (h : Fit letter r p x q c c') (hb : sliceBad r = true) : x.foldl (charSlice letter) .p = .bad := by
  have h1 := post_sound (all := allSt) (fun s => by cases s <;> decide) (step := sliceStep) (δ := charSlice letter) (sliceStep_sound hl) h
    (List.mem_singleton.mpr rfl : St.p ∈ [St.p])
  exact eq_of_beq (List.all_eq_true.mp hb _ h1)

/-- The rules before the one of indices. -/
theorem table_slice : ∀ e ∈ (table.drop 2).take 101, (needs c!"${" e.2.2.2 || needs c!"{{ /*" e.2.2.2 || needs c!"*/ }}" e.2.2.2 || sliceBad e.2.2.2) = true := by
  decide +kernel

/-! ## The automaton on a text -/

theorem before_same {letter : Char → Bool} (y : Text) : ∀ {x : Text} {s : St}, BeforeMeaning x s → '@' ∉ y →
    y.foldl (charSlice letter) s = y.foldl (charNext letter) s := by
  induction y with
  | nil => intros; rfl
  | cons c y ih =>
    intro x s h hy
    rw [List.mem_cons, not_or] at hy
    have e : charSlice letter s c = charNext letter s c := by
      cases s <;> first | rfl | exact h.elim
    rw [List.foldl_cons, List.foldl_cons, e]
    exact ih (before_step (letter := letter) h (fun hc => hy.1 hc.symm)) hy.2

theorem name_same {letter : Char → Bool} (hl : PlainLetters letter) (y : Text) : ∀ {u : Text} {s : St}, NameMeaning u s →
    (∀ c ∈ y, varChar letter c = true) → (u = [] → ∃ c t, y = c :: t ∧ letter c = true) →
    y.foldl (charSlice letter) s = y.foldl (charNext letter) s := by
  induction y with
  | nil => intros; rfl
  | cons c y ih =>
    intro u s h hy ha
    have hk := varChar_kind hl (hy c (List.mem_cons_self ..))
    have h1 := name_step (letter := letter) (c := c) h hk (by
      intro hu
      obtain ⟨c', t, he, hc'⟩ := ha hu
      cases he
      exact itemMay_sound hl (i := .letter) hc')
    have e : charSlice letter s c = charNext letter s c := by
      unfold charSlice charNext
      generalize kindOf letter c = k at hk
      cases s <;> first | exact h.elim | (cases k <;> first | rfl | cases hk)
    rw [List.foldl_cons, List.foldl_cons, e]
    exact ih h1 (fun d hd => hy d (List.mem_cons_of_mem _ hd)) (by simp)

theorem slice_stays {letter : Char → Bool} (z : Text) (h : '@' ∉ z) : z.foldl (charSlice letter) .w = .w := by
  induction z with
  | nil => rfl
  | cons c z ih =>
    rw [List.mem_cons, not_or] at h
    have : charSlice letter .w c = .w := by
      unfold charSlice sliceNext
      simp only
      rw [if_neg]
      intro hk
      have := kind_meaning letter c
      rw [hk] at this
      exact h.1 this.symm
    rw [List.foldl_cons, this]
    exact ih h.2

theorem slice_bad_stays (letter : Char → Bool) (y : Text) : y.foldl (charSlice letter) .bad = .bad := by
  induction y with
  | nil => rfl
  | cons c y ih => exact ih

/-- A text with an index, read from the beginning. -/
theorem slice_read {letter : Char → Bool} (hl : PlainLetters letter) {a name z : Text} {r : Text × Text × Text} (hc : NotCommented a) (ha : '@' ∉ a) (hr : r ∈ reduceSigns)
    (hn : VarName letter name) (hz : '@' ∉ z) : (a ++ '@' :: (r.1 ++ (name ++ '[' :: z))).foldl (charSlice letter) .p = .w := by
  have h1 : charSlice letter (a.foldl (charSlice letter) .p) '@' = .a := by
    rw [before_same a (x := []) (s := .p) trivial ha, ← before_at (letter := letter) hc ha]
    have := before_run (letter := letter) a (x := []) (s := .p) trivial ha
    generalize a.foldl (charNext letter) .p = s at this
    cases s <;> first | rfl | exact this.elim
  have h2 : r.1.foldl (charSlice letter) .a = r.1.foldl (charNext letter) .a := by
    simp only [reduceSigns, List.mem_cons, List.not_mem_nil, or_false] at hr
    rcases hr with rfl | rfl | rfl | rfl | rfl <;> rfl
  have h3 := (sign_state letter hr).1
  have h4 := name_end hl hn h3
  rw [List.foldl_append, List.foldl_cons, h1, List.foldl_append, h2, List.foldl_append, name_same hl name h3 hn.chars (fun _ => hn.first), List.foldl_cons]
  generalize name.foldl (charNext letter) (r.1.foldl (charNext letter) .a) = s at h4
  have h5 : charSlice letter s '[' = .w := by
    cases s <;> first | rfl | cases h4
  rw [h5]
  exact slice_stays z hz

/-- No part of the text leads to `bad`. -/
theorem slice_not_bad {letter : Char → Bool} (hl : PlainLetters letter) {a name z : Text} {r : Text × Text × Text} (hc : NotCommented a) (ha : '@' ∉ a) (hr : r ∈ reduceSigns)
    (hn : VarName letter name) (hz : '@' ∉ z) {x : Text} (hx : x <:+: a ++ '@' :: (r.1 ++ (name ++ '[' :: z))) : x.foldl (charSlice letter) .p ≠ .bad := by
  obtain ⟨u, v, huv⟩ := hx
  rw [List.append_assoc] at huv
  have key : (x ++ v).foldl (charSlice letter) .p ≠ .bad := by
    have free : ∀ y : Text, '@' ∉ y → y.foldl (charSlice letter) .p ≠ .bad := by
      intro y hy
      rw [before_same y (x := []) (s := .p) trivial hy]
      have := before_run (letter := letter) y (x := []) (s := .p) trivial hy
      generalize y.foldl (charNext letter) .p = s at this
      rintro rfl
      exact this
    rcases List.append_eq_append_iff.mp huv with ⟨y, h1, h2⟩ | ⟨y, h1, h2⟩
    · rw [h2, slice_read hl (notCommented_suffix (a := u) (by rw [← h1]; exact hc)) (fun hm => ha (by rw [h1]; simp [hm])) hr hn hz]
      decide
    · cases y with
      | nil =>
        rw [List.nil_append] at h2
        have := slice_read hl (a := []) (notCommented_suffix (a := a) (by simpa using hc)) (by simp) hr hn hz
        rw [List.nil_append, h2] at this
        rw [this]
        decide
      | cons d y =>
        simp only [List.cons_append, List.cons.injEq] at h2
        refine free _ (fun hm => ?_)
        have hm : '@' ∈ r.1 ++ (name ++ '[' :: z) := by
          rw [h2.2]
          exact List.mem_append_right _ hm
        simp only [List.mem_append, List.mem_cons] at hm
        rcases hm with hm | hm | hm | hm
        · exact absurd hm ((by decide : ∀ r ∈ reduceSigns, '@' ∉ r.1) r hr)
        · have := hn.chars _ hm
          unfold varChar at this
          rw [hl.1 _ (by decide)] at this
          exact absurd this (by decide)
        · cases hm
        · exact hz hm
  rw [List.foldl_append] at key
  intro hb
  rw [hb, slice_bad_stays] at key
  exact key rfl

theorem rules_before_slice {letter : Char → Bool} (hl : PlainLetters letter) (parser : Replacement → Text → Text) {a name z : Text} {r : Text × Text × Text}
    (hc : NotCommented a) (ha : '@' ∉ a) (hr : r ∈ reduceSigns) (hn : VarName letter name) (hz : '@' ∉ z) (hs : NoOtherSign (a ++ '@' :: (r.1 ++ (name ++ '[' :: z)))) :
    (((generate defaultDelims).drop 2).take 101).foldl (applyRule letter parser) (a ++ '@' :: (r.1 ++ (name ++ '[' :: z))) = a ++ '@' :: (r.1 ++ (name ++ '[' :: z)) := by
  refine foldl_idle parser _ (fun rule hrule => ?_)
  obtain ⟨e, hmem, hcomp⟩ := rules_compiled 2 101 rule hrule
  have := table_slice e hmem
  simp only [Bool.or_eq_true] at this
  rcases this with ((h' | h') | h') | h'
  · exact rule_idle parser hcomp h' (hs _ (by decide))
  · exact rule_idle parser hcomp h' (hs _ (by decide))
  · exact rule_idle parser hcomp h' (hs _ (by decide))
  · rw [applyRule_compiled hcomp]
    exact replaceRe_none (fun p x q caps hfit _ hx => slice_not_bad hl hc ha hr hn hz hx (sliceBad_sound hl hfit h'))

end Verif.Lemmas
