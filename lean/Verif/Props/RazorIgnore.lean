import Verif.Lemmas.RazorIgnore
import Verif.Props.RazorAt
/-!
# C92 Ignored razor expressions
-/

namespace Verif.Props
open Verif Regex Spec Engine Razor Lemmas Table

/-- **C92.** Whatever the ignored expressions are, the only effect on the content is that some of its delimiters are hidden from the rules. -/
theorem C92_only (letter : Char → Bool) (list : List Text) (s s' : Text) (h : Ignore.ignoreAll letter ['@'] list s = some s') : Hides s s' := by
  unfold Ignore.ignoreAll at h
  induction list generalizing s with
  | nil =>
    rw [← Option.some.inj h]
    exact hides_refl s
  | cons e list ih =>
    rw [List.foldlM_cons] at h
    cases he : Ignore.ignoreOne letter ['@'] s e with
    | none =>
      rw [he] at h
      cases h
    | some s₁ =>
      rw [he] at h
      refine hides_trans ?_ (ih s₁ h)
      unfold Ignore.ignoreOne at he
      split at he
      · cases he
        exact hides_refl s
      · obtain ⟨r, _, hr⟩ := Option.map_eq_some_iff.mp he
        rw [← hr]
        exact hides_replaceRe letter r s

example : Ignore.ignoreAll Char.isAlpha ['@'] [c!"th(is|at)One", c!"x\\w*"] c!"@thisOne @xyz @y" =
    some c!"_=!AT!=_thisOne _=!AT!=_xyz @y" := by decide +kernel

/-- With names as ignored expressions, the delimiters that are hidden are exactly those that are followed by one of the names (and not by a longer one);
then the rules are applied. -/
theorem C92_names_partial (letter : Char → Bool) (parser : Replacement → Text → Text) (list : List Text) (s : Text)
    (hl : ∀ e ∈ ignoredNames list, ∀ c ∈ e, wordLetter c = true) (h : IgnoredApart (ignoredNames list) s) (ha : '@' ∈ s) (hr : RazorAllowed s) :
    Ignore.applyRazor letter parser defaultDelims list s =
      some (translateBy letter parser (generate defaultDelims) (hidden (ignoredNames list) s)) := by
  unfold Ignore.applyRazor
  rw [if_pos (isRazor_of ha hr), show defaultDelims.razor = ['@'] from rfl, ignoreAll_names (fun e he c hc => ?_) h]
  · rfl
  · by_cases hn : Text.trimSpace e = []
    · rw [hn] at hc
      cases hc
    · exact hl _ (List.mem_filter.mpr ⟨List.mem_map.mpr ⟨e, he, rfl⟩, by simpa using hn⟩) c hc

/-- If no delimiter is followed by one of the names, the list has no effect. -/
theorem C92_none_partial (letter : Char → Bool) (parser : Replacement → Text → Text) (list : List Text) (s : Text)
    (hl : ∀ e ∈ ignoredNames list, ∀ c ∈ e, wordLetter c = true) (h : NoneIgnored (ignoredNames list) s) :
    Ignore.applyRazor letter parser defaultDelims list s = some (applyRazor letter parser defaultDelims s) := by
  by_cases hz : Content.isRazor defaultDelims s = true
  · unfold Ignore.applyRazor applyRazor
    rw [if_pos hz, if_pos hz, show defaultDelims.razor = ['@'] from rfl]
    suffices Ignore.ignoreAll letter ['@'] list s = some s by rw [this]; rfl
    unfold Ignore.ignoreAll
    induction list with
    | nil => rfl
    | cons e list ih =>
      have hsub : ∀ v ∈ ignoredNames list, v ∈ ignoredNames (e :: list) := by
        intro v hv
        unfold ignoredNames at hv ⊢
        rw [List.map_cons]
        exact List.mem_filter.mpr ⟨List.mem_cons_of_mem _ (List.mem_filter.mp hv).1, (List.mem_filter.mp hv).2⟩
      have hone : Ignore.ignoreOne letter ['@'] s e = some s := by
        unfold Ignore.ignoreOne
        by_cases he : Text.trimSpace e = []
        · rw [if_pos he]
        · have hm : Text.trimSpace e ∈ ignoredNames (e :: list) :=
            List.mem_filter.mpr ⟨List.mem_map.mpr ⟨e, List.mem_cons_self .., rfl⟩, by simpa using he⟩
          rw [if_neg he, pattern_name (hl _ hm), parse_name (hl _ hm), Option.map_some, replaceRe_nameEdge letter (hl _ hm) he]
          congr 1
          refine hidden_none (fun a b hs hb => ?_)
          rw [List.mem_singleton] at hb
          exact h a b hs (hb ▸ hm)
      rw [List.foldlM_cons, hone]
      exact ih (fun v hv => hl v (hsub v hv)) (fun a b hs hb => h a b hs (hsub _ hb))
  · unfold Ignore.applyRazor applyRazor
    rw [if_neg hz, if_neg hz]

/-- If all the delimiters are followed by one of the names, the text is left as it is. -/
theorem C92_kept_partial (letter : Char → Bool) (parser : Replacement → Text → Text) (list : List Text) (s : Text)
    (hl : ∀ e ∈ ignoredNames list, ∀ c ∈ e, wordLetter c = true) (h : IgnoredApart (ignoredNames list) s) (h1 : AllIgnored (ignoredNames list) s)
    (h2 : NoOtherSign s) : Ignore.applyRazor letter parser defaultDelims list s = some s := by
  unfold Ignore.applyRazor
  split
  · rw [show defaultDelims.razor = ['@'] from rfl, ignoreAll_names (fun e he c hc => ?_) h]
    · rw [Option.map_some, hidden_all h1]
      unfold translateBy
      rw [rules_hidden parser h2, not_callMark h2]
    · by_cases hn : Text.trimSpace e = []
      · rw [hn] at hc
        cases hc
      · exact hl _ (List.mem_filter.mpr ⟨List.mem_map.mpr ⟨e, he, rfl⟩, by simpa using hn⟩) c hc
  · rfl

theorem ignoredApart_of {names : List Text} {s : Text} (h : ∀ a b, s = a ++ '@' :: b → '@' ∉ b ∨ ∃ w c t, b = w ++ c :: t ∧
    (∀ d ∈ w, wordLetter d = true) ∧ wordLetter c = false ∧ c ≠ '@') : IgnoredApart names s := by
  rintro u hu v _ ⟨a, b, hs⟩
  rcases h a (u ++ '@' :: v ++ b) (by rw [← hs]; simp) with h | ⟨w, c, t, hb, hw, hc, hne⟩
  · exact h (by simp)
  · have h1 := nameAt_append hu ('@' :: v ++ b)
    have h2 := nameAt_append hw (c :: t)
    rw [show nameAt ('@' :: v ++ b) = [] from rfl, List.append_nil] at h1
    rw [show nameAt (c :: t) = [] by unfold nameAt; rw [List.takeWhile_cons_of_neg (by simp [hc])], List.append_nil] at h2
    rw [List.append_assoc] at hb
    rw [← hb, h1] at h2
    subst h2
    have := List.append_cancel_left hb
    exact hne (List.cons.inj this).1.symm

example : (∀ e ∈ ignoredNames [c!" sha256 ", c!"", c!"name"], ∀ c ∈ e, wordLetter c = true) ∧
    IgnoredApart (ignoredNames [c!" sha256 ", c!"", c!"name"]) c!"python@sha256:33 @name" ∧
    AllIgnored (ignoredNames [c!" sha256 ", c!"", c!"name"]) c!"python@sha256:33 @name" ∧ NoOtherSign c!"python@sha256:33 @name" := by
  have hsplit : ∀ a b, c!"python@sha256:33 @name" = a ++ '@' :: b → b = c!"sha256:33 @name" ∨ b = c!"name" := by
    intro a b h
    have h1 : c!"python@sha256:33 @name".drop a.length = '@' :: b := by rw [h]; simp
    have h2 : ∀ n < 23, (c!"python@sha256:33 @name".drop n).head? = some '@' → (c!"python@sha256:33 @name".drop n).tail = c!"sha256:33 @name" ∨
        (c!"python@sha256:33 @name".drop n).tail = c!"name" := by decide
    have h3 := congrArg List.length h
    simp at h3
    have h4 := h2 a.length (by omega) (by rw [h1]; rfl)
    rw [h1] at h4
    exact h4
  refine ⟨by decide +kernel, ignoredApart_of ?_, ?_, by unfold NoOtherSign; decide +kernel⟩
  · intro a b h
    rcases hsplit a b h with rfl | rfl
    · exact .inr ⟨c!"sha256", ':', c!"33 @name", rfl, by decide, by decide, by decide⟩
    · exact .inl (by decide)
  · intro a b h
    rcases hsplit a b h with rfl | rfl <;> decide +kernel

/-- The list in the variable GOTEMPLATE_IGNORE_RAZOR, when it begins with a letter: what is between commas, spaces and newlines (of Unix or Windows). The
options of the command line come before it. -/
theorem C92_env (letter : Char → Bool) (convert : Text → Option (List Text)) (c : Char) (t : Text) (flags : List Text) (h : letter c = true) :
    (Ignore.listOf letter convert (c :: t) flags).map ignoredNames = some (ignoredNames flags ++ ignoredNames (listedIn (c :: t))) := by
  have he := ignoredNames_env (convert := convert) (t := t) h
  cases hx : Ignore.fromEnv letter convert (c :: t) with
  | none =>
    rw [hx] at he
    cases he
  | some l =>
    rw [hx, Option.map_some] at he
    unfold Ignore.listOf
    rw [hx, Option.map_some, Option.map_some]
    unfold Ignore.append
    rw [List.append_nil]
    unfold ignoredNames at he ⊢
    rw [List.map_append, List.filter_append, Option.some.inj he]

example : ignoredNames (listedIn c!"foo, bar\r\nbaz,") = [c!"foo", c!"bar", c!"baz"] := by decide +kernel

/-! ## Violations -/

/-- Letters with `é`. -/
def letterE (c : Char) : Bool := c.isAlpha || c == 'é'

theorem ignore_onTable (letter : Char → Bool) (list : List Text) (s s' : Text) (h : Content.isRazor defaultDelims s = true)
    (h1 : Ignore.ignoreAll letter ['@'] list s = some s') :
    Ignore.applyRazor letter (fun _ m => m) defaultDelims list s = some (Text.replaceAll callMark [] (onTable letter table s')) := by
  unfold Ignore.applyRazor translateBy
  rw [if_pos h, show defaultDelims.razor = ['@'] from rfl, h1, Option.map_some, foldl_onTable letter table_eq]

/-- The order of the ignored expressions matters: `@foo@bar` is left as it is or not. -/
theorem C92_not_order : Ignore.applyRazor letterE (fun _ m => m) defaultDelims [c!"foo", c!"bar"] c!"@foo@bar" = some c!"@foo@bar" ∧
    Ignore.applyRazor letterE (fun _ m => m) defaultDelims [c!"bar", c!"foo"] c!"@foo@bar" = some c!"{{ $.foo_ }}=!AT!=_bar" := by
  constructor
  · rw [ignore_onTable _ _ _ c!"_=!AT!=_foo_=!AT!=_bar" (by decide +kernel) (by decide +kernel)]
    decide +kernel
  · rw [ignore_onTable _ _ _ c!"@foo_=!AT!=_bar" (by decide +kernel) (by decide +kernel)]
    decide +kernel

/-- A doubled delimiter before an ignored name is not literal any more. -/
theorem C92_not_doubled : Ignore.applyRazor letterE (fun _ m => m) defaultDelims [c!"foo"] c!"a @@foo" = some c!"a {{ $._ }}=!AT!=_foo" := by
  rw [ignore_onTable _ _ _ c!"a @_=!AT!=_foo" (by decide +kernel) (by decide +kernel)]
  decide +kernel

/-- Two alternatives: the first one is ignored at the beginning of longer names, the other one is not ignored. -/
theorem C92_not_alternatives :
    Ignore.applyRazor letterE (fun _ m => m) defaultDelims [c!"foo|bar"] c!"@food @bar" = some c!"@food {{ $.bar }}" := by
  rw [ignore_onTable _ _ _ c!"_=!AT!=_food @bar" (by decide +kernel) (by decide +kernel)]
  decide +kernel

/-- Names that end with a letter outside ASCII are not ignored, and a name is ignored at the beginning of a longer one. -/
theorem C92_not_unicode :
    Ignore.applyRazor letterE (fun _ m => m) defaultDelims [c!"café"] c!"un @café noir" = some c!"un {{ $.café }} noir" ∧
    Ignore.applyRazor letterE (fun _ m => m) defaultDelims [c!"caf"] c!"un @café noir" = some c!"un @café noir" := by
  constructor
  · rw [ignore_onTable _ _ _ c!"un @café noir" (by decide +kernel) (by decide +kernel)]
    decide +kernel
  · rw [ignore_onTable _ _ _ c!"un _=!AT!=_café noir" (by decide +kernel) (by decide +kernel)]
    decide +kernel

/-- With the delimiter `$`, which is special in regular expressions, nothing is ignored; with `(` the program panics. -/
theorem C92_not_delimiter : Ignore.ignoreAll letterE ['$'] [c!"foo"] c!"a $foo" = some c!"a $foo" ∧
    Ignore.ignoreAll letterE ['('] [c!"foo"] c!"a (foo" = none := by
  constructor <;> decide +kernel

example (letter : Char → Bool) (parser : Replacement → Text → Text) :
    Ignore.applyRazor letter parser defaultDelims [c!"sha"] c!"a@sha256" = some (applyRazor letter parser defaultDelims c!"a@sha256") := by
  refine C92_none_partial letter parser [c!"sha"] c!"a@sha256" (by decide +kernel) ?_
  intro a b h
  have h1 : c!"a@sha256".drop a.length = '@' :: b := by rw [h]; simp
  have h2 : ∀ n < 9, (c!"a@sha256".drop n).head? = some '@' → (c!"a@sha256".drop n).tail = c!"sha256" := by decide
  have h3 := congrArg List.length h
  simp at h3
  have h4 := h2 a.length (by omega) (by rw [h1]; rfl)
  rw [h1] at h4
  simp only [List.tail_cons] at h4
  subst h4
  decide +kernel


end Verif.Props
