import Verif.Lemmas.RazorEngine
import Verif.Spec.RazorAtSpec
/-!
# Literal razor delimiters through the rules of razor
-/

namespace Verif.Lemmas
open Verif Regex Spec Engine Razor Table

/-- Every `@` is replaced by a text. -/
def substAt (m : Text) : Text → Text
  | [] => []
  | c :: t => if c = '@' then m ++ substAt m t else c :: substAt m t

theorem doubled_eq (t : Text) : doubled t = substAt ['@', '@'] t := by
  induction t with
  | nil => rfl
  | cons c t ih =>
    unfold doubled substAt
    rw [ih]
    rfl

theorem substAt_cons_ne {m : Text} {c : Char} (h : c ≠ '@') (t : Text) : substAt m (c :: t) = c :: substAt m t := by
  rw [substAt, if_neg h]

theorem substAt_cons_at (m t : Text) : substAt m ('@' :: t) = m ++ substAt m t := by
  rw [substAt, if_pos rfl]

theorem substAt_none {m t : Text} (h : '@' ∉ t) : substAt m t = t := by
  induction t with
  | nil => rfl
  | cons c t ih =>
    rw [List.mem_cons, not_or] at h
    rw [substAt_cons_ne (fun hc => h.1 hc.symm), ih h.2]

theorem substAt_append (m a b : Text) : substAt m (a ++ b) = substAt m a ++ substAt m b := by
  induction a with
  | nil => rfl
  | cons c a ih =>
    by_cases hc : c = '@'
    · subst hc
      rw [List.cons_append, substAt_cons_at, substAt_cons_at, ih, List.append_assoc]
    · rw [List.cons_append, substAt_cons_ne hc, substAt_cons_ne hc, ih, List.cons_append]

/-- A prefix that has nothing in common with what is inserted was there. -/
theorem substAt_prefix {m f t : Text} (hm : m ≠ []) (hf : ∀ c ∈ f, c ≠ '@' ∧ c ∉ m) (h : f <+: substAt m t) : f <+: t := by
  induction f generalizing t with
  | nil => exact List.nil_prefix
  | cons c f ih =>
    have hc := hf c (List.mem_cons_self ..)
    cases t with
    | nil =>
      have := List.eq_nil_of_prefix_nil h
      cases this
    | cons d t =>
      by_cases hd : d = '@'
      · subst hd
        rw [substAt_cons_at] at h
        cases m with
        | nil => exact absurd rfl hm
        | cons e m =>
          rw [List.cons_append, List.cons_prefix_cons] at h
          exact absurd (h.1 ▸ List.mem_cons_self ..) hc.2
      · rw [substAt_cons_ne hd, List.cons_prefix_cons] at h
        rw [List.cons_prefix_cons]
        exact ⟨h.1, ih (fun c hc => hf c (List.mem_cons_of_mem _ hc)) h.2⟩

/-- The same for a factor. -/
theorem substAt_infix {m f t : Text} (hm : m ≠ []) (hne : f ≠ []) (hf : ∀ c ∈ f, c ≠ '@' ∧ c ∉ m) (h : f <:+: substAt m t) : f <:+: t := by
  induction t with
  | nil => exact h
  | cons d t ih =>
    by_cases hd : d = '@'
    · subst hd
      rw [substAt_cons_at] at h
      refine (ih ?_).trans (List.suffix_cons '@' t).isInfix
      obtain ⟨a, b, hab⟩ := h
      rw [List.append_assoc] at hab
      rcases List.append_eq_append_iff.mp hab with ⟨u, h1, h2⟩ | ⟨u, h1, h2⟩
      · rcases f with _ | ⟨c, f⟩
        · exact absurd rfl hne
        · cases u with
          | nil => exact ⟨[], b, by simpa using h2⟩
          | cons e u =>
            simp only [List.cons_append, List.cons.injEq] at h2
            have hcm : c ∈ m := by
              rw [h1, h2.1]
              simp
            exact absurd hcm (hf c (List.mem_cons_self ..)).2
      · exact ⟨u, b, by rw [h2]; simp⟩
    · rw [substAt_cons_ne hd] at h
      rcases List.infix_cons_iff.mp h with h | h
      · rw [← substAt_cons_ne hd] at h
        exact (substAt_prefix hm hf h).isInfix
      · exact (ih h).trans (List.suffix_cons d t).isInfix

/-! ## E-mail addresses -/

/-- Where a text is: the end of its beginning is another character, a first `@` after another character, or another `@`; or it has a lonely `@`. -/
inductive AtState
  | start
  | other
  | first
  | again
  | lonely
  deriving DecidableEq

def atNext : AtState → Char → AtState
  | .lonely, _ => .lonely
  | .other, c => if c = '@' then .first else .other
  | .first, c => if c = '@' then .again else .lonely
  | .start, c => if c = '@' then .again else .other
  | .again, c => if c = '@' then .again else .other

/-- The states after a character of a class. -/
def atStep (k : Cls) (S : List AtState) : List AtState :=
  (if k.has (fun _ => false) '@' then S.map (fun s => atNext s '@') else []) ++ (if single k = some '@' then [] else S.map (fun s => atNext s 'x'))

theorem atStep_sound {letter : Char → Bool} (hl : letter '@' = false) (k : Cls) (c : Char) (s : AtState) (S : List AtState)
    (hk : k.has letter c = true) (hs : s ∈ S) : atNext s c ∈ atStep k S := by
  unfold atStep
  by_cases hc : c = '@'
  · subst hc
    rw [Cls.has_congr (g := fun _ => false) hl] at hk
    rw [if_pos hk]
    exact List.mem_append_left _ (List.mem_map.mpr ⟨s, hs, rfl⟩)
  · have hn : ¬ single k = some '@' := fun h => hc (single_some h hk)
    rw [if_neg hn]
    refine List.mem_append_right _ (List.mem_map.mpr ⟨s, hs, ?_⟩)
    cases s <;> simp [atNext, hc]

/-- A `@` between two other characters. -/
def Lonely (x : Text) : Prop := ∃ a c d b, x = a ++ c :: '@' :: d :: b ∧ c ≠ '@' ∧ d ≠ '@'

/-- The meaning of the states. -/
def AtMeaning : AtState → Text → Prop
  | .start, _ => True
  | .other, x => ∃ a c, x = a ++ [c] ∧ c ≠ '@'
  | .first, x => ∃ a c, x = a ++ [c, '@'] ∧ c ≠ '@'
  | .again, _ => True
  | .lonely, x => Lonely x

theorem atNext_meaning {s : AtState} {x : Text} (c : Char) (h : AtMeaning s x) : AtMeaning (atNext s c) (x ++ [c]) := by
  cases s with
  | start | again =>
    simp only [atNext]
    split
    · trivial
    · rename_i hc
      exact ⟨x, c, rfl, hc⟩
  | other =>
    obtain ⟨a, d, rfl, hd⟩ := h
    simp only [atNext]
    split
    · rename_i hc
      subst hc
      exact ⟨a, d, by simp, hd⟩
    · rename_i hc
      exact ⟨_, c, rfl, hc⟩
  | first =>
    obtain ⟨a, d, rfl, hd⟩ := h
    simp only [atNext]
    split
    · trivial
    · rename_i hc
      exact ⟨a, d, c, [], by simp, hd, hc⟩
  | lonely =>
    obtain ⟨a, d, e, b, rfl, hd, he⟩ := h
    exact ⟨a, d, e, b ++ [c], by simp, hd, he⟩

theorem atFold_meaning (y : Text) : ∀ {s : AtState} {x : Text}, AtMeaning s x → AtMeaning (y.foldl atNext s) (x ++ y) := by
  induction y with
  | nil =>
    intro s x h
    simpa using h
  | cons c y ih =>
    intro s x h
    have := ih (atNext_meaning c h)
    simpa using this

def allAtStates : List AtState := [.start, .other, .first, .again, .lonely]

/-- Every match of the expression has a lonely `@`. -/
def needsLonely (r : Re) : Bool := (post allAtStates atStep r [.start]).all (fun s => s == .lonely)

theorem needsLonely_sound {letter : Char → Bool} (hl : letter '@' = false) {r : Re} {p : Option Char} {x q : Text} {c c' : Caps}
    (h : Fit letter r p x q c c') (hn : needsLonely r = true) : Lonely x := by
  have h1 := post_sound (all := allAtStates) (fun s => by cases s <;> decide) (step := atStep) (δ := atNext) (atStep_sound hl) h
    (List.mem_singleton.mpr rfl : AtState.start ∈ [AtState.start])
  have h2 := List.all_eq_true.mp hn _ h1
  have h3 := atFold_meaning x (s := .start) (x := []) trivial
  rw [eq_of_beq h2] at h3
  simpa [AtMeaning] using h3

/-- There is none in a text where they are doubled. -/
theorem not_lonely_doubled {t : Text} {c d : Char} (hc : c ≠ '@') (hd : d ≠ '@') : ¬ [c, '@', d] <:+: doubled t := by
  induction t with
  | nil => simp [doubled]
  | cons e t ih =>
    intro h
    unfold doubled at h
    split at h
    · rcases List.infix_cons_iff.mp h with h | h
      · exact hc (List.cons_prefix_cons.mp h).1
      · rcases List.infix_cons_iff.mp h with h | h
        · exact hc (List.cons_prefix_cons.mp h).1
        · exact ih h
    · rcases List.infix_cons_iff.mp h with h | h
      · have h := (List.cons_prefix_cons.mp h).2
        cases t with
        | nil =>
          have := List.eq_nil_of_prefix_nil h
          cases this
        | cons e t =>
          unfold doubled at h
          split at h
          · exact hd (List.cons_prefix_cons.mp (List.cons_prefix_cons.mp h).2).1
          · rename_i he
            exact he (List.cons_prefix_cons.mp h).1.symm
      · exact ih h

theorem lonely_not_infix {x t : Text} (hx : Lonely x) : ¬ x <:+: doubled t := by
  obtain ⟨a, c, d, b, rfl, hc, hd⟩ := hx
  intro h
  exact not_lonely_doubled hc hd (List.IsInfix.trans ⟨a, b, by simp⟩ h)

/-! ## Literal expressions -/

/-- The expression of a literal text. -/
def litRe : Text → Re := List.foldl (fun r c => mkSeq r (lit c)) .eps

theorem run_mkSeq {β : Type} (letter : Char → Bool) (a b : Re) (p : Option Char) (s : Text) (c : Caps) (k : Cont β) :
    run letter (mkSeq a b) p s c k = run letter a p s c (fun p s c => run letter b p s c k) := by
  cases a <;> rfl

theorem run_lit {β : Type} (letter : Char → Bool) (ch : Char) (p : Option Char) (s : Text) (c : Caps) (k : Cont β) :
    run letter (lit ch) p s c k = match s with
      | [] => none
      | d :: t => if d = ch then k (some d) t c else none := by
  cases s with
  | nil => rfl
  | cons d t => simp [run, lit, oneChar, Cls.has, Item.has]

theorem run_litRe_aux {β : Type} (letter : Char → Bool) (w : Text) : ∀ (r : Re) (p : Option Char) (s : Text) (c : Caps) (k : Cont β),
    run letter (w.foldl (fun r c => mkSeq r (lit c)) r) p s c k = run letter r p s c (fun p s c =>
      match Text.dropPrefix? w s with
      | some q => k (lastOr p w) q c
      | none => none) := by
  induction w with
  | nil =>
    intro r p s c k
    simp [Text.dropPrefix?, lastOr_nil]
  | cons d w ih =>
    intro r p s c k
    rw [List.foldl_cons, ih, run_mkSeq]
    congr 1
    funext p s c
    rw [run_lit]
    cases s with
    | nil => simp [Text.dropPrefix?]
    | cons e t =>
      by_cases he : e = d
      · subst he
        simp only [if_true, Text.dropPrefix?]
        cases Text.dropPrefix? w t with
        | none => rfl
        | some q =>
          simp only
          rw [← lastOr_single p e, lastOr_append]
          rfl
      · have hd : Text.dropPrefix? (d :: w) (e :: t) = none := by
          simp only [Text.dropPrefix?]
          exact if_neg (fun h => he h.symm)
        rw [hd]
        exact if_neg he

theorem matchAt_litRe (letter : Char → Bool) (w : Text) (p : Option Char) (s : Text) :
    matchAt letter (litRe w) p s = if Text.hasPrefix w s then some (w.length, []) else none := by
  unfold matchAt litRe
  rw [run_litRe_aux]
  simp only [run]
  by_cases h : Text.hasPrefix w s = true
  · rw [if_pos h]
    obtain ⟨q, rfl⟩ := Text.hasPrefix_iff.mp h
    have : Text.dropPrefix? w (w ++ q) = some q := Text.dropPrefix?_eq_some.mpr rfl
    rw [this]
    simp
  · rw [if_neg h]
    cases hd : Text.dropPrefix? w s with
    | none => rfl
    | some q => exact absurd (Text.hasPrefix_iff.mpr ⟨q, (Text.dropPrefix?_eq_some.mp hd).symm⟩) h

/-- The replacement of a literal text. -/
theorem replaceRe_litRe (letter : Char → Bool) {w : Text} (hw : w ≠ []) {out : Text → Caps → Text} {o : Text} (ho : out w [] = o) (s : Text) :
    replaceRe letter (litRe w) out s = Text.replaceAll w o s := by
  unfold replaceRe Text.replaceAll
  rw [if_neg hw]
  suffices ∀ n (s : Text) p, Regex.replaceAux letter (litRe w) out n p s = Text.replaceAux w o n s from this 0 s none
  intro n s
  induction s generalizing n with
  | nil =>
    intro p
    cases n <;> rfl
  | cons c t ih =>
    intro p
    cases n with
    | succ n => exact ih n _
    | zero =>
      simp only [Regex.replaceAux, Text.replaceAux]
      rw [matchAt_litRe]
      by_cases h : Text.hasPrefix w (c :: t) = true
      · rw [if_pos h, if_pos h]
        obtain ⟨q, hq⟩ := Text.hasPrefix_iff.mp h
        cases w with
        | nil => exact absurd rfl hw
        | cons e w =>
          simp only [List.length_cons, Nat.add_sub_cancel]
          rw [ih]
          congr 1
          rw [← hq, ← ho]
          simp
      · rw [if_neg h, if_neg h]
        simp only
        rw [ih]

/-! ## From doubled delimiters to the marks and back -/

/-- The mark of a literal delimiter, razor_repl_expr.go:15. -/
def atMark : Text := c!"_=!AT!=_"

theorem replaceAll_doubled (m t : Text) : Text.replaceAll ['@', '@'] m (doubled t) = substAt m t := by
  induction t with
  | nil => exact Text.replaceAll_nil _ _
  | cons c t ih =>
    by_cases hc : c = '@'
    · subst hc
      rw [substAt_cons_at, ← ih]
      have : doubled ('@' :: t) = ['@', '@'] ++ doubled t := by simp [doubled]
      rw [this, Text.replaceAll_match m _ (by simp)]
    · rw [substAt_cons_ne hc, ← ih]
      have : doubled (c :: t) = c :: doubled t := by simp [doubled, hc]
      rw [this, Text.replaceAll_skip]
      unfold Text.hasPrefix
      rw [show Text.dropPrefix? ['@', '@'] (c :: doubled t) = none from if_neg (fun h => hc h.symm)]
      rfl

theorem replaceAll_atMark {t : Text} (h : ¬ c!"_=!" <:+: t) : Text.replaceAll atMark ['@'] (substAt atMark t) = t := by
  induction t with
  | nil => exact Text.replaceAll_nil _ _
  | cons c t ih =>
    have ht := ih (fun hi => h (hi.trans (List.suffix_cons c t).isInfix))
    by_cases hc : c = '@'
    · subst hc
      rw [substAt_cons_at, Text.replaceAll_match _ _ (by decide), ht]
      rfl
    · rw [substAt_cons_ne hc, Text.replaceAll_skip, ht]
      rw [Bool.eq_false_iff]
      intro hp
      have hp := Text.hasPrefix_iff.mp hp
      unfold atMark at hp
      obtain ⟨h1, h2⟩ := List.cons_prefix_cons.mp hp
      subst h1
      have h3 : c!"=!" <+: substAt c!"_=!AT!=_" t := (show c!"=!" <+: c!"=!AT!=_" from ⟨_, rfl⟩).trans h2
      apply h
      cases t with
      | nil => exact absurd (List.eq_nil_of_prefix_nil h3) (by decide)
      | cons d t =>
        by_cases hd : d = '@'
        · subst hd
          rw [substAt_cons_at] at h3
          exact absurd (List.cons_prefix_cons.mp h3).1 (by decide)
        · rw [substAt_cons_ne hd] at h3
          obtain ⟨h4, h5⟩ := List.cons_prefix_cons.mp h3
          subst h4
          cases t with
          | nil => exact absurd (List.eq_nil_of_prefix_nil h5) (by decide)
          | cons e t =>
            by_cases he : e = '@'
            · subst he
              rw [substAt_cons_at] at h5
              exact absurd (List.cons_prefix_cons.mp h5).1 (by decide)
            · rw [substAt_cons_ne he] at h5
              obtain ⟨h6, _⟩ := List.cons_prefix_cons.mp h5
              subst h6
              exact ⟨[], t, rfl⟩

theorem at_not_mem_marked (t : Text) : '@' ∉ substAt atMark t := by
  induction t with
  | nil => simp [substAt]
  | cons c t ih =>
    by_cases hc : c = '@'
    · subst hc
      rw [substAt_cons_at, List.mem_append, not_or]
      exact ⟨by decide, ih⟩
    · rw [substAt_cons_ne hc, List.mem_cons, not_or]
      exact ⟨fun h => hc h.symm, ih⟩

/-! ## The rules -/

theorem split_rules (lo n : Nat) (parser : Replacement → Text → Text) (letter : Char → Bool) (s : Text) :
    ((generate defaultDelims).drop lo).foldl (applyRule letter parser) s =
      ((generate defaultDelims).drop (lo + n)).foldl (applyRule letter parser)
        ((((generate defaultDelims).drop lo).take n).foldl (applyRule letter parser) s) := by
  rw [← List.foldl_append, ← List.drop_drop, List.take_append_drop]

/-- Rules that all need a factor that the content does not have. -/
theorem rules_idle {letter : Char → Bool} (parser : Replacement → Text → Text) (lo n : Nat) (F : List Text)
    (hF : ∀ e ∈ (table.drop lo).take n, F.any (fun f => needs f e.2.2.2) = true) {s : Text} (hs : ∀ f ∈ F, ¬ f <:+: s) :
    (((generate defaultDelims).drop lo).take n).foldl (applyRule letter parser) s = s := by
  refine foldl_idle parser _ (fun r hr => ?_)
  obtain ⟨e, he, hc⟩ := rules_compiled lo n r hr
  obtain ⟨f, hf, hn⟩ := List.any_eq_true.mp (hF e he)
  exact rule_idle parser hc hn (hs f hf)

/-- A rule that replaces a literal text by another one. -/
theorem rule_literal {letter : Char → Bool} (parser : Replacement → Text → Text) (i : Nat) {name w o : Text} (hw : w ≠ [])
    (hi : (table.drop i).take 1 = [(name, o, 0, litRe w)]) (ho : expand (groupOf []) o = o) (s : Text) :
    (((generate defaultDelims).drop i).take 1).foldl (applyRule letter parser) s = Text.replaceAll w o s := by
  have hlen := congrArg List.length (congrArg (fun l => List.take 1 (List.drop i l)) table_eq)
  simp only [← List.map_drop, ← List.map_take, List.length_map, hi] at hlen
  obtain ⟨r, hr⟩ := List.length_eq_one_iff.mp hlen
  obtain ⟨e, he, hc⟩ := rules_compiled i 1 r (by rw [hr]; exact List.mem_singleton.mpr rfl)
  rw [hi] at he
  rw [List.mem_singleton.mp he] at hc
  rw [hr, List.foldl_cons, List.foldl_nil, applyRule_compiled hc]
  refine replaceRe_litRe letter hw ?_ s
  unfold output
  rw [if_pos hc.2.2.1, hc.2.1, ho]

/-- The rules after the one of e-mail addresses give back the text whose delimiters were doubled. -/
theorem rules_doubled {letter : Char → Bool} (parser : Replacement → Text → Text) {t : Text} (h : NoOtherSign t) :
    ((generate defaultDelims).drop 3).foldl (applyRule letter parser) (doubled t) = t := by
  have hsub : ∀ {m f : Text}, m ≠ [] → f ∈ otherSigns → (∀ c ∈ f, c ≠ '@' ∧ c ∉ m) → ¬ f <:+: substAt m t := by
    intro m f hm hf hc hi
    have hne : ∀ f ∈ otherSigns, f ≠ [] := by decide
    exact h f hf (substAt_infix hm (hne f hf) hc hi)
  rw [split_rules 3 1, rules_idle parser 3 1 [c!"${"] (by decide +kernel)]
  · rw [split_rules 4 1, rule_literal parser 4 (name := []) (w := ['@', '@']) (o := atMark) (by decide) (by decide +kernel) (by decide +kernel),
      replaceAll_doubled]
    rw [split_rules 5 156, rules_idle parser 5 156 [c!"@", c!"*/ }}", c!"{{ /*", c!"\"<<", c!"\"{{"] (by decide +kernel)]
    · rw [split_rules 161 1, rule_literal parser 161 (name := []) (w := atMark) (o := ['@']) (by decide) (by decide +kernel) (by decide +kernel),
        replaceAll_atMark (h _ (by decide))]
      have : (generate defaultDelims).drop (161 + 1) = ((generate defaultDelims).drop 162).take 3 := by
        rw [List.take_of_length_le]
        simp [generate_length]
      rw [this, rules_idle parser 162 3 [c!"_=!TRIPLE_BT!=_", c!"_=!REPL!=_", c!"`"] (by decide +kernel)]
      intro f hf
      simp only [List.mem_cons, List.not_mem_nil, or_false] at hf
      rcases hf with rfl | rfl | rfl
      · exact fun hi => h c!"_=!" (by decide) (List.IsInfix.trans ⟨[], c!"TRIPLE_BT!=_", rfl⟩ hi)
      · exact fun hi => h c!"_=!" (by decide) (List.IsInfix.trans ⟨[], c!"REPL!=_", rfl⟩ hi)
      · exact h _ (by decide)
    · intro f hf
      simp only [List.mem_cons, List.not_mem_nil, or_false] at hf
      rcases hf with rfl | rfl | rfl | rfl | rfl
      · exact fun hi => at_not_mem_marked t (hi.subset (List.mem_singleton.mpr rfl))
      all_goals exact hsub (by decide) (by decide) (by decide)
  · intro f hf
    rw [List.mem_singleton.mp hf, doubled_eq]
    exact hsub (by decide) (by decide) (by decide)

end Verif.Lemmas
