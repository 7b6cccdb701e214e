import Verif.Lemmas.RazorWordSteps
import Verif.Spec.RazorParenSpec
/-!
# An automaton for the expressions between parentheses in razor

It reads a text where each delimiter is followed by signs and a parenthesis; the state `bad` is out of reach.
-/

namespace Verif.Lemmas
open Verif Regex Spec Engine Razor Table

/-- The states: before a delimiter (`p`, `h`, `s1`, `s2`, `cm`, as for variables), just after it (`a`, then `m1` and `m2` after `-` and `--`). -/
inductive PSt
  | p | h | s1 | s2 | cm | a | m1 | m2 | bad
  deriving DecidableEq

def allP : List PSt := [.p, .h, .s1, .s2, .cm, .a, .m1, .m2, .bad]

def parenP : Kind → PSt
  | .at => .a
  | .hash => .h
  | .slash => .s1
  | _ => .p

def parenNext : PSt → Kind → PSt
  | .p, k => parenP k
  | .h, k => match k with
    | .hash | .bang => .cm
    | k => parenP k
  | .s1, k => match k with
    | .slash => .s2
    | k => parenP k
  | .s2, k => match k with
    | .slash | .bang => .cm
    | k => parenP k
  | .cm, k => match k with
    | .at => .bad
    | .blank => .cm
    | k => parenP k
  | .a, k => match k with
    | .minus => .m1
    | .lpar => .p
    | _ => .bad
  | .m1, k => match k with
    | .minus => .m2
    | .lpar => .p
    | _ => .bad
  | .m2, k => match k with
    | .lpar => .p
    | _ => .bad
  | .bad, _ => .bad

def parenCharNext (letter : Char → Bool) (s : PSt) (c : Char) : PSt := parenNext s (kindOf letter c)

/-- The states after a character of a class. -/
def parenStep (k : Cls) (S : List PSt) : List PSt :=
  (allKinds.filter (clsMay k)).foldl (fun R kd => union R (S.foldl (fun R s => union R [parenNext s kd]) [])) []

/-- The matches of the expression all lead to the state `bad`. -/
def leadsToParenBad (r : Re) : Bool := (post allP parenStep r [.p]).all (fun s => s == .bad)

theorem parenStep_sound {letter : Char → Bool} (hl : PlainLetters letter) (k : Cls) (c : Char) (s : PSt) (S : List PSt)
    (hk : k.has letter c = true) (hs : s ∈ S) : parenCharNext letter s c ∈ parenStep k S := by
  unfold parenStep
  refine mem_foldl_union _ _ _ _ (.inr ⟨kindOf letter c, List.mem_filter.mpr ⟨?_, clsMay_sound hl hk⟩, ?_⟩)
  · cases kindOf letter c <;> decide
  · exact mem_foldl_union _ _ _ _ (.inr ⟨s, hs, List.mem_singleton.mpr rfl⟩)

theorem leadsToParenBad_sound {letter : Char → Bool} (hl : PlainLetters letter) {r : Re} {p : Option Char} {x q : Text} {c c' : Caps}
    (h : Fit letter r p x q c c') (hb : leadsToParenBad r = true) : x.foldl (parenCharNext letter) .p = .bad := by
  have h1 := post_sound (all := allP) (fun s => by cases s <;> decide) (step := parenStep) (δ := parenCharNext letter) (parenStep_sound hl) h
    (List.mem_singleton.mpr rfl : PSt.p ∈ [PSt.p])
  exact eq_of_beq (List.all_eq_true.mp hb _ h1)

/-- The rules before the one of names between parentheses. -/
theorem table_paren_bad : ∀ e ∈ (table.drop 2).take 140,
    (needs c!"${" e.2.2.2 || needs c!"{{ /*" e.2.2.2 || needs c!"*/ }}" e.2.2.2 || needs c!")[" e.2.2.2 || leadsToParenBad e.2.2.2) = true := by
  decide +kernel

/-- The rules between it and the one of the other expressions. -/
theorem table_paren_index : ∀ e ∈ (table.drop 143).take 7, [c!")["].any (fun f => needs f e.2.2.2) = true := by
  decide +kernel

/-! ## The automaton on a text -/

/-- Each delimiter is followed by signs and a parenthesis, and is not in a comment. -/
def ParenShape (t : Text) : Prop :=
  ∀ u v, t = u ++ '@' :: v → NotCommented u ∧ ∃ r ∈ [[], c!"-", c!"--"], ∃ z, v = r ++ '(' :: z

/-- What the states say of what is read. -/
def PMeaning (x : Text) : PSt → Prop
  | .p => True
  | .h => ∃ u, x = u ++ c!"#"
  | .s1 => ∃ u, x = u ++ c!"/"
  | .s2 => ∃ u, x = u ++ c!"//"
  | .cm => ∃ u m w, m ∈ commentSigns ∧ (∀ c ∈ w, isBlank c = true) ∧ x = u ++ (m ++ w)
  | .a => ∃ u, x = u ++ c!"@"
  | .m1 => ∃ u, x = u ++ c!"@-"
  | .m2 => ∃ u, x = u ++ c!"@--"
  | .bad => False

theorem pmeaning_P {letter : Char → Bool} {x : Text} {c : Char} {k : Kind} (hm : KindMeaning letter c k) : PMeaning (x ++ [c]) (parenP k) := by
  cases k <;> simp only [parenP] <;> try trivial
  · subst hm
    exact ⟨x, rfl⟩
  · subst hm
    exact ⟨x, rfl⟩
  · subst hm
    exact ⟨x, rfl⟩

theorem kindOf_par (letter : Char → Bool) : kindOf letter '(' = .lpar ∧ kindOf letter '-' = .minus := ⟨rfl, rfl⟩

theorem pmeaning_step {letter : Char → Bool} {t u0 x q : Text} {s : PSt} {c : Char} (ht : ParenShape t) (hx : t = u0 ++ (x ++ c :: q)) (h : PMeaning x s) :
    PMeaning (x ++ [c]) (parenCharNext letter s c) := by
  have hm := kind_meaning letter c
  cases s with
  | p => exact pmeaning_P hm
  | h =>
    obtain ⟨u, rfl⟩ := h
    unfold parenCharNext
    generalize kindOf letter c = k at hm
    simp only [parenNext]
    split
    · subst hm
      exact ⟨u, c!"##", [], by decide, by simp, by simp⟩
    · subst hm
      exact ⟨u, c!"#!", [], by decide, by simp, by simp⟩
    · exact pmeaning_P hm
  | s1 =>
    obtain ⟨u, rfl⟩ := h
    unfold parenCharNext
    generalize kindOf letter c = k at hm
    simp only [parenNext]
    split
    · subst hm
      exact ⟨u, by simp⟩
    · exact pmeaning_P hm
  | s2 =>
    obtain ⟨u, rfl⟩ := h
    unfold parenCharNext
    generalize kindOf letter c = k at hm
    simp only [parenNext]
    split
    · subst hm
      exact ⟨u, c!"///", [], by decide, by simp, by simp⟩
    · subst hm
      exact ⟨u, c!"//!", [], by decide, by simp, by simp⟩
    · exact pmeaning_P hm
  | cm =>
    obtain ⟨u, m, w, h1, h2, rfl⟩ := h
    unfold parenCharNext
    generalize kindOf letter c = k at hm
    simp only [parenNext]
    split
    · subst hm
      exact absurd (by simp) ((ht (u0 ++ (u ++ (m ++ w))) q (by rw [hx]; simp)).1 (u0 ++ u) m w h1 h2)
    · exact ⟨u, m, w ++ [c], h1, forall_snoc h2 hm, by simp⟩
    · exact pmeaning_P hm
  | a =>
    obtain ⟨u, rfl⟩ := h
    obtain ⟨_, r, hr, z, hz⟩ := ht (u0 ++ u) (c :: q) (by rw [hx]; simp)
    simp only [List.mem_cons, List.not_mem_nil, or_false] at hr
    rcases hr with rfl | rfl | rfl <;> simp only [List.nil_append, List.cons_append, List.cons.injEq] at hz <;> obtain ⟨rfl, _⟩ := hz
    · trivial
    · exact ⟨u, by simp⟩
    · exact ⟨u, by simp⟩
  | m1 =>
    obtain ⟨u, rfl⟩ := h
    obtain ⟨_, r, hr, z, hz⟩ := ht (u0 ++ u) ('-' :: c :: q) (by rw [hx]; simp)
    simp only [List.mem_cons, List.not_mem_nil, or_false] at hr
    rcases hr with rfl | rfl | rfl <;> simp only [List.nil_append, List.cons_append, List.cons.injEq] at hz
    · exact absurd hz.1 (by decide)
    · obtain ⟨_, rfl, _⟩ := hz
      trivial
    · obtain ⟨_, rfl, _⟩ := hz
      exact ⟨u, by simp⟩
  | m2 =>
    obtain ⟨u, rfl⟩ := h
    obtain ⟨_, r, hr, z, hz⟩ := ht (u0 ++ u) ('-' :: '-' :: c :: q) (by rw [hx]; simp)
    simp only [List.mem_cons, List.not_mem_nil, or_false] at hr
    rcases hr with rfl | rfl | rfl <;> simp only [List.nil_append, List.cons_append, List.cons.injEq] at hz
    · exact absurd hz.1 (by decide)
    · exact absurd hz.2.1 (by decide)
    · obtain ⟨_, _, rfl, _⟩ := hz
      trivial
  | bad => exact h.elim

theorem pmeaning_run {letter : Char → Bool} {t u0 : Text} (ht : ParenShape t) (y : Text) : ∀ {x q : Text} {s : PSt}, t = u0 ++ (x ++ (y ++ q)) → PMeaning x s →
    PMeaning (x ++ y) (y.foldl (parenCharNext letter) s) := by
  induction y with
  | nil =>
    intro x q s _ h
    rw [List.append_nil]
    exact h
  | cons c y ih =>
    intro x q s hx h
    have := ih (x := x ++ [c]) (q := q) (by rw [hx]; simp) (pmeaning_step (letter := letter) ht hx h)
    simpa using this

theorem not_paren_bad {letter : Char → Bool} {t x : Text} (ht : ParenShape t) (hx : x <:+: t) : x.foldl (parenCharNext letter) .p ≠ .bad := by
  obtain ⟨u, v, h⟩ := hx
  intro hb
  have := pmeaning_run (letter := letter) ht x (u0 := u) (x := []) (q := v) (s := .p) (by rw [← h]; simp) trivial
  rw [hb] at this
  exact this

theorem rules_before_paren {letter : Char → Bool} (hl : PlainLetters letter) (parser : Replacement → Text → Text) {t : Text} (h : ParenShape t)
    (hs : NoOtherSign t) (hb : ¬ c!")[" <:+: t) : (((generate defaultDelims).drop 2).take 140).foldl (applyRule letter parser) t = t := by
  refine foldl_idle parser _ (fun r hr => ?_)
  obtain ⟨e, hmem, hcomp⟩ := rules_compiled 2 140 r hr
  have := table_paren_bad e hmem
  simp only [Bool.or_eq_true] at this
  rcases this with (((h' | h') | h') | h') | h'
  · exact rule_idle parser hcomp h' (hs _ (by decide))
  · exact rule_idle parser hcomp h' (hs _ (by decide))
  · exact rule_idle parser hcomp h' (hs _ (by decide))
  · exact rule_idle parser hcomp h' hb
  · rw [applyRule_compiled hcomp]
    exact replaceRe_none (fun p x q caps hfit _ hx => not_paren_bad h hx (leadsToParenBad_sound hl hfit h'))

end Verif.Lemmas
