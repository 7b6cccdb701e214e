import Verif.Lemmas.RazorTable
import Verif.Lemmas.RazorLines
/-!
# The rules of razor on a content
-/

namespace Verif.Lemmas
open Verif Regex Spec Engine Razor Table

/-- A line of the table. -/
abbrev Entry := Text × Text × Nat × Re

/-- A rule and its line of the table. -/
def Compiled (r : Replacement) (e : Entry) : Prop := r.name = e.1 ∧ r.replace = e.2.1 ∧ r.parser = e.2.2.1 ∧ parse r.expr = some e.2.2.2

theorem compiled_of_map {rs : List Replacement} {es : List Entry}
    (h : rs.map (fun r => (r.name, r.replace, r.parser, parse r.expr)) = es.map (fun e => (e.1, e.2.1, e.2.2.1, some e.2.2.2))) :
    ∀ r ∈ rs, ∃ e ∈ es, Compiled r e := by
  intro r hr
  have hm : (r.name, r.replace, r.parser, parse r.expr) ∈ es.map (fun e => (e.1, e.2.1, e.2.2.1, some e.2.2.2)) := by
    rw [← h]
    exact List.mem_map.mpr ⟨r, hr, rfl⟩
  obtain ⟨e, he, heq⟩ := List.mem_map.mp hm
  simp only [Prod.mk.injEq] at heq
  exact ⟨e, he, heq.1.symm, heq.2.1.symm, heq.2.2.1.symm, heq.2.2.2.symm⟩

/-- The rules from `lo`, `n` of them, are in the table. -/
theorem rules_compiled (lo n : Nat) : ∀ r ∈ ((generate defaultDelims).drop lo).take n, ∃ e ∈ (table.drop lo).take n, Compiled r e := by
  apply compiled_of_map
  rw [List.map_take, List.map_drop, table_eq, ← List.map_drop, ← List.map_take]

theorem applyRule_compiled {letter : Char → Bool} {parser : Replacement → Text → Text} {r : Replacement} {e : Entry} (h : Compiled r e) (s : Text) :
    applyRule letter parser s r = replaceRe letter e.2.2.2 (output parser r) s := by
  unfold applyRule
  rw [h.2.2.2]

/-- The rule `/*@ ... @*/`. -/
def pseudoRule : Re :=
  .seq (.seq (.seq (.seq (.seq (.seq (lit '/') (lit '*')) (lit '@')) (.group c!"content" (.star false (.cls ⟨true, []⟩)))) (lit '@')) (lit '*'))
    (lit '/')

/-- The beginning `@`, `@-`, `@_`, `@--` of a rule. -/
def reduceRe : Re :=
  .group c!"reduce" (.seq (.opt true (.group [] (.alt (.group c!"reduce1" (lit '-')) (lit '_')))) (.group c!"reduce2" (.opt true (lit '-'))))

/-- The rule `@/* ... */`. -/
def blockRule : Re :=
  .seq (.seq (.seq (.seq (.seq (.seq (lit '@') reduceRe) (lit '/')) (lit '*')) (.group c!"block_comment" (.star false (.cls ⟨true, []⟩)))) (lit '*'))
    (lit '/')

/-- The rules that keep ordinary lines. -/
def keepsLines (e : Entry) : Bool :=
  inLine e.2.2.2 || (e.1 == emailName && e.2.2.1 != 0) || (e.2.2.2 == pseudoRule && e.2.2.1 == 0 && e.2.1 == c!"${content}") ||
    (e.2.2.2 == blockRule && e.2.2.1 == 0 && e.2.1 == c!"{{${reduce1} /*${block_comment}*/ ${reduce2}}}")

theorem table_keeps : ∀ e ∈ (table.drop 2).take 163, keepsLines e = true := by
  decide +kernel

theorem pseudo_keeps {letter : Char → Bool} (hl : letter '\n' = false) {out : Text → Caps → Text}
    (hout : ∀ x caps, out x caps = groupOf caps c!"content") (s : Text) : Keeps s (replaceRe letter pseudoRule out s) := by
  refine block_keeps hl (name := c!"content") (a := .seq (.seq (lit '/') (lit '*')) (lit '@')) (b := .seq (lit '@') (.seq (lit '*') (lit '/')))
    (fun h => fit_assoc (fit_assoc h)) (by decide) ?_ (fun x caps => ⟨[], [], by rw [hout]; simp⟩) s
  intro p x q c c' h
  obtain ⟨x₁, y, c₁, rfl, h₁, h₂⟩ := fit_seq h
  obtain ⟨x₂, x₃, c₂, rfl, h₃, h₄⟩ := fit_seq h₂
  obtain ⟨rfl, rfl⟩ := fit_lit h₁
  obtain ⟨rfl, rfl⟩ := fit_lit h₃
  obtain ⟨rfl, rfl⟩ := fit_lit h₄
  exact ⟨rfl, by decide, ['@'], by decide, ⟨[], ['*', '/'], rfl⟩⟩

theorem blockRule_keeps {letter : Char → Bool} (hl : letter '\n' = false) {out : Text → Caps → Text}
    (hout : ∀ x caps, out x caps = expand (groupOf caps) c!"{{${reduce1} /*${block_comment}*/ ${reduce2}}}") (s : Text) :
    Keeps s (replaceRe letter blockRule out s) := by
  refine block_keeps hl (name := c!"block_comment") (a := .seq (.seq (.seq (lit '@') reduceRe) (lit '/')) (lit '*')) (b := .seq (lit '*') (lit '/'))
    (fun h => fit_assoc h) (by decide) ?_ (fun x caps => ⟨c!"{{" ++ groupOf caps c!"reduce1" ++ c!" /*", c!"*/ " ++ groupOf caps c!"reduce2" ++ c!"}}", ?_⟩) s
  · intro p x q c c' h
    obtain ⟨x₁, y, c₁, rfl, h₁, h₂⟩ := fit_seq h
    obtain ⟨rfl, rfl⟩ := fit_lit h₁
    obtain ⟨rfl, rfl⟩ := fit_lit h₂
    exact ⟨rfl, by decide, ['*', '/'], by decide, List.infix_refl _⟩
  · rw [hout]
    simp [expand, expandAux, Razor.groupName, nameChar, Text.hasPrefix, Text.dropPrefix?]

theorem rule_keeps {letter : Char → Bool} (hl : letter '\n' = false) (parser : Replacement → Text → Text) {r : Replacement} {e : Entry}
    (h : Compiled r e) (he : keepsLines e = true) (s : Text) : Keeps s (applyRule letter parser s r) := by
  rw [applyRule_compiled h]
  unfold keepsLines at he
  simp only [Bool.or_eq_true, Bool.and_eq_true, beq_iff_eq, bne_iff_ne, ne_eq] at he
  obtain ⟨hname, hrep, hpar, _⟩ := h
  rcases he with ((he | ⟨h1, h2⟩) | ⟨⟨h1, h2⟩, h3⟩) | ⟨⟨h1, h2⟩, h3⟩
  · exact inLine_keeps hl he _ s
  · refine replaceRe_keeps (fun p x q caps w _ _ => ?_) s
    have : output parser r x caps = protectEmail x := by
      unfold output
      rw [if_neg (by rw [hpar]; exact h2), if_pos (by rw [hname, h1])]
    rw [this]
    exact protectEmail_keeps x w
  · rw [h1]
    refine pseudo_keeps hl (fun x caps => ?_) s
    unfold output
    rw [if_pos (by rw [hpar, h2]), hrep, h3]
    simp [expand, expandAux, Razor.groupName, nameChar, Text.hasPrefix, Text.dropPrefix?]
  · rw [h1]
    refine blockRule_keeps hl (fun x caps => ?_) s
    unfold output
    rw [if_pos (by rw [hpar, h2]), hrep, h3]

theorem foldl_keeps {letter : Char → Bool} (hl : letter '\n' = false) (parser : Replacement → Text → Text) (rs : List Replacement)
    (h : ∀ r ∈ rs, ∃ e, Compiled r e ∧ keepsLines e = true) (s : Text) : Keeps s (rs.foldl (applyRule letter parser) s) := by
  induction rs generalizing s with
  | nil => exact Keeps.refl s
  | cons r rs ih =>
    obtain ⟨e, hc, he⟩ := h r (List.mem_cons_self ..)
    exact (rule_keeps hl parser hc he s).trans (ih (fun r hr => h r (List.mem_cons_of_mem _ hr)) _)

/-- A rule whose matches need a factor that the content does not have changes nothing. -/
theorem rule_idle {letter : Char → Bool} (parser : Replacement → Text → Text) {r : Replacement} {e : Entry} (h : Compiled r e) {f s : Text}
    (hn : needs f e.2.2.2 = true) (hf : ¬ f <:+: s) : applyRule letter parser s r = s := by
  rw [applyRule_compiled h]
  exact replaceRe_none (fun p x q caps hfit _ hx => hf ((needs_sound hfit hn).trans hx))

theorem foldl_idle {letter : Char → Bool} (parser : Replacement → Text → Text) (rs : List Replacement) {s : Text}
    (h : ∀ r ∈ rs, applyRule letter parser s r = s) : rs.foldl (applyRule letter parser) s = s := by
  induction rs with
  | nil => rfl
  | cons r rs ih =>
    rw [List.foldl_cons, h r (List.mem_cons_self ..)]
    exact ih (fun r hr => h r (List.mem_cons_of_mem _ hr))

theorem generate_length : (generate defaultDelims).length = 165 := by
  have h := congrArg List.length table_eq
  rw [List.length_map, List.length_map] at h
  rw [h]
  rfl

/-- The rules of the table, with functions that leave the matches as they are. -/
def onTable (letter : Char → Bool) (es : List Entry) (s : Text) : Text :=
  es.foldl (fun s e => replaceRe letter e.2.2.2 (output (fun _ m => m) ⟨e.1, [], e.2.1, e.2.2.1, defaultDelims⟩) s) s

theorem foldl_onTable (letter : Char → Bool) {rs : List Replacement} {es : List Entry}
    (h : rs.map (fun r => (r.name, r.replace, r.parser, parse r.expr)) = es.map (fun e => (e.1, e.2.1, e.2.2.1, some e.2.2.2))) (s : Text) :
    rs.foldl (applyRule letter (fun _ m => m)) s = onTable letter es s := by
  induction rs generalizing es s with
  | nil =>
    cases es with
    | nil => rfl
    | cons e es => cases h
  | cons r rs ih =>
    cases es with
    | nil => cases h
    | cons e es =>
      simp only [List.map_cons, List.cons.injEq, Prod.mk.injEq] at h
      obtain ⟨⟨h1, h2, h3, h4⟩, h5⟩ := h
      have hr : applyRule letter (fun _ m => m) s r =
          replaceRe letter e.2.2.2 (output (fun _ m => m) ⟨e.1, [], e.2.1, e.2.2.1, defaultDelims⟩) s := by
        unfold applyRule
        rw [h4]
        refine congrArg (fun o => replaceRe letter e.2.2.2 o s) ?_
        funext m caps
        unfold output
        rw [h1, h2, h3]
      rw [List.foldl_cons, hr]
      exact ih h5 _

/-- The translation of a content, computed with the table. -/
theorem applyRazor_onTable (letter : Char → Bool) (s : Text) (h : Content.isRazor defaultDelims s = true) :
    applyRazor letter (fun _ m => m) defaultDelims s = Text.replaceAll callMark [] (onTable letter table s) := by
  unfold applyRazor translateBy
  rw [if_pos h, foldl_onTable letter table_eq]

end Verif.Lemmas
