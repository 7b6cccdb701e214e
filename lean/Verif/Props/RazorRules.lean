import Verif.Lemmas.RazorRules
import Verif.Model.RazorExpr
/-!
# C38: changing the delimiters does not change the rules; C39: the cache of rules
-/

namespace Verif.Props
open Razor Spec Lemmas

theorem plain_facts {d : Delims} (h : PlainText d) :
    (quoteMeta d.left ≠ [] ∧ quoteMeta d.right ≠ [] ∧ quoteMeta d.razor ≠ []) ∧
    ('{' ∉ quoteMeta d.razor ∧ '}' ∉ quoteMeta d.razor ∧ '}' ∉ quoteMeta d.left) ∧
    ∀ c ∈ quoteMeta d.left ++ quoteMeta d.right ++ quoteMeta d.razor, abbreviationChar c = false := by
  obtain ⟨⟨h1, h2, h3⟩, h4, ⟨h5, h6, h7⟩, _⟩ := h
  refine ⟨⟨quoteMeta_ne h1, quoteMeta_ne h2, quoteMeta_ne h3⟩, ⟨?_, ?_, ?_⟩, ?_⟩
  · intro h; rcases mem_quoteMeta h with h | h
    · exact absurd h (by decide)
    · exact h5 h
  · intro h; rcases mem_quoteMeta h with h | h
    · exact absurd h (by decide)
    · exact h6 h
  · intro h; rcases mem_quoteMeta h with h | h
    · exact absurd h (by decide)
    · exact h7 h
  · intro c hc
    simp only [List.mem_append] at hc h4
    rcases hc with (hc | hc) | hc <;> rcases mem_quoteMeta hc with h | h
    · subst h; decide
    · exact h4 c (by simp [h])
    · subst h; decide
    · exact h4 c (by simp [h])
    · subst h; decide
    · exact h4 c (by simp [h])

/-- The expansion of the abbreviations, on the pieces of a rule. -/
theorem expand_abbreviations (metas : List (Text × Text))
    (hm : ∀ m ∈ metas, m.1 ≠ [] ∧ (∀ c ∈ m.1, abbreviationChar c = true) ∧ '@' ∉ m.2) (toks : List Tok) (ha : Abstract toks) :
    ∃ toks' : List Tok, Abstract toks' ∧ ∀ d : Delims, d.left ≠ [] → d.right ≠ [] → d.razor ≠ [] →
      (∀ c ∈ d.left ++ d.right ++ d.razor, abbreviationChar c = false) →
      metas.foldl (fun re m => Text.replaceAll m.1 m.2 re) (write d toks) = write d toks' := by
  induction metas generalizing toks with
  | nil => exact ⟨toks, ha, fun _ _ _ _ _ => rfl⟩
  | cons m ms ih =>
    obtain ⟨h1, h2, h3⟩ := hm m (by simp)
    obtain ⟨t1, ht1, he1⟩ := replace_abbreviation (v := m.2) h1 toks
    have ha1 : Abstract t1 := fun h => by
      rcases ht1 h with h | ⟨h, _⟩
      · exact ha h
      · exact h3 h
    obtain ⟨t2, ha2, he2⟩ := ih (fun m' hm' => hm m' (by simp [hm'])) t1 ha1
    refine ⟨t2, ha2, fun d hl hr hz hd => ?_⟩
    rw [List.foldl_cons, he1 d hl hr hz (fun c hc hk => absurd (h2 c hk) (by rw [hd c hc]; decide))]
    exact he2 d hl hr hz hd

/-- C38 for one rule of the translation: the rule made for given delimiters is the same rule, whatever these delimiters are. The rule
must not use the abbreviations `function;` and `[expr]`, whose own texts have a literal `@` (see below). -/
theorem C38_rule_partial (re : Text) (hf : Text.contains (T "function;") re = false)
    (hx : Text.contains (T "[expr]") (searchText defaultDelims re) = false) :
    ∃ toks : List Tok, Abstract toks ∧ ∀ d, PlainText d → subExpressions (searchText d re) = [write (quotedDelims d) toks] := by
  obtain ⟨t1, ht1, he1⟩ := replace_abbreviation (k := T "function;") (v := T "@reduce;(?P<expr>[id]\\([sp][expr]*[sp]\\))") (by decide) (scan re)
  have ha1 : Abstract t1 := by
    intro h
    rcases ht1 h with h | ⟨_, h⟩
    · exact scan_abstract re h
    · obtain ⟨a, b, hab⟩ := h
      have : T "function;" <:+: re := by
        refine ⟨write defaultDelims a, write defaultDelims b, ?_⟩
        conv => rhs; rw [← write_scan re, ← hab, write_append, write_append, write_chars]
      rw [← Text.contains_iff, hf] at this
      cases this
  obtain ⟨t2, ha2, he2⟩ := expand_abbreviations (customMetaclass.drop 1) (by decide +kernel) t1 ha1
  have main : ∀ d, PlainText d → searchText d re = write (quotedDelims d) t2 := by
    intro d hd
    obtain ⟨⟨f1, f2, f3⟩, ⟨f4, f5, f6⟩, f7⟩ := plain_facts hd
    unfold searchText
    simp only
    have e1 : Text.replaceAll (T "@") (quoteMeta d.razor) re = write ⟨['{', '{'], ['}', '}'], quoteMeta d.razor⟩ (scan re) := by
      conv => lhs; rw [← write_scan re]
      exact replace_razor _ (by decide) (by decide) (scan_abstract re)
    have e2 : Text.replaceAll (T "{{") (quoteMeta d.left) (Text.replaceAll (T "@") (quoteMeta d.razor) re) =
        write ⟨quoteMeta d.left, ['}', '}'], quoteMeta d.razor⟩ (scan re) := by
      rw [e1]; exact replace_left _ (by decide) f3 (by decide) f4 (scan_tight re)
    have e3 : Text.replaceAll (T "}}") (quoteMeta d.right) (Text.replaceAll (T "{{") (quoteMeta d.left)
        (Text.replaceAll (T "@") (quoteMeta d.razor) re)) = write (quotedDelims d) (scan re) := by
      rw [e2]; exact replace_right _ f1 f3 f6 f5 (scan_tight re)
    rw [e3]
    have : customMetaclass = (T "function;", T "@reduce;(?P<expr>[id]\\([sp][expr]*[sp]\\))") :: customMetaclass.drop 1 := rfl
    rw [this, List.foldl_cons, he1 (quotedDelims d) f1 f2 f3 (fun c hc hk => ?_)]
    · exact he2 (quotedDelims d) f1 f2 f3 f7
    · have h1 := f7 c hc
      have h2 : ∀ c ∈ T "function;", abbreviationChar c = true := by decide
      rw [h2 c hk] at h1
      cases h1
  refine ⟨t2, ha2, fun d hd => ?_⟩
  obtain ⟨⟨f1, f2, f3⟩, _, f7⟩ := plain_facts hd
  have hnot : ¬ (T "[expr]").map Tok.char <:+: t2 := by
    rintro ⟨a, b, hab⟩
    have : T "[expr]" <:+: searchText defaultDelims re := by
      rw [main defaultDelims (by decide)]
      refine ⟨write (quotedDelims defaultDelims) a, write (quotedDelims defaultDelims) b, ?_⟩
      rw [← hab, write_append, write_append, write_chars]
    rw [← Text.contains_iff, hx] at this
    cases this
  have hc : Text.contains (T "[expr]") (searchText d re) = false := by
    rw [main d hd]
    cases hcc : Text.contains (T "[expr]") (write (quotedDelims d) t2) with
    | false => rfl
    | true =>
      exfalso
      refine hnot (infix_write f1 f2 f3 (by decide) (fun c hc hk => ?_) (Text.contains_iff.1 hcc))
      have h1 := f7 c hc
      have h2 : ∀ c ∈ T "[expr]", abbreviationChar c = true := by decide
      rw [h2 c hk] at h1
      cases h1
  rw [subExpressions, hc, main d hd]
  rfl

/-- C38 for the replacements: the same pieces are written for all delimiters. -/
theorem C38_replacement_partial (s : Text) :
    ∃ toks : List Tok, Abstract toks ∧ ∀ d, PlainText d → replaceText d s = write d toks := by
  refine ⟨scan s, scan_abstract s, fun d hd => ?_⟩
  obtain ⟨⟨h1, h2, h3⟩, h4, ⟨h5, h6, h7⟩, h8, h9⟩ := hd
  unfold replaceText
  have e1 : Text.replaceAll (T "{{") d.left s = write ⟨d.left, ['}', '}'], ['@']⟩ (scan s) := by
    conv => lhs; rw [← write_scan s]
    exact replace_left _ (by decide) (by decide) (by decide) (by decide) (scan_tight s)
  have e2 : Text.replaceAll (T "}}") d.right (Text.replaceAll (T "{{") d.left s) = write ⟨d.left, d.right, ['@']⟩ (scan s) := by
    rw [e1]; exact replace_right _ h1 (by decide) h7 (by decide) (scan_tight s)
  rw [e2]
  exact replace_razor _ h8 h9 (scan_abstract s)

/-- The rules of the table covered by `C38_rule_partial`. -/
def covered (re : Text) : Bool :=
  !(Text.contains (T "function;") re) && !(Text.contains (T "[expr]") (searchText defaultDelims re))

/-- C38 for the table: the covered rules (35 of 53) are the same for all delimiters. -/
theorem C38_table_partial :
    ∀ r ∈ expressions, covered r.2.1 = true →
      ∃ toks res : List Tok, Abstract toks ∧ Abstract res ∧
        ∀ d, PlainText d → makeRules d r = [⟨r.1, write (quotedDelims d) toks, write d res, min r.2.2.2 1, d⟩] := by
  intro r _ h
  simp only [covered, Bool.and_eq_true, Bool.not_eq_true'] at h
  obtain ⟨toks, h1, h2⟩ := C38_rule_partial r.2.1 h.1 h.2
  obtain ⟨res, h3, h4⟩ := C38_replacement_partial r.2.2.1
  refine ⟨toks, res, h1, h3, fun d hd => ?_⟩
  simp [makeRules, h2 d hd, h4 d hd]

/-- C38 for all the rules: the number of rules made from a line of the table, their names and their functions are the same for all delimiters
as soon as the expression is still there, and they are given these delimiters. -/
theorem C38_rules (d e : Delims) (r : Text × Text × Text × Nat)
    (h : Text.contains (T "[expr]") (searchText d r.2.1) = Text.contains (T "[expr]") (searchText e r.2.1)) :
    (makeRules d r).map (fun x => (x.name, x.parser)) = (makeRules e r).map (fun x => (x.name, x.parser)) ∧
    ∀ x ∈ makeRules d r, x.delimiters = d := by
  constructor
  · unfold makeRules
    generalize searchText d r.2.1 = x at h
    generalize searchText e r.2.1 = y at h
    generalize replaceText d r.2.2.1 = u
    generalize replaceText e r.2.2.1 = v
    have hl : (subExpressions x).length = (subExpressions y).length := by
      unfold subExpressions
      rw [h]
      split
      · rw [List.length_map, List.length_map]
      · rfl
    have hp : ∀ (d : Delims) (u : Text) (l : List Text), (l.map (fun t => (⟨r.1, t, u, min r.2.2.2 1, d⟩ : Replacement))).map
        (fun x => (x.name, x.parser)) = List.replicate l.length (r.1, min r.2.2.2 1) := by
      intro d u l
      induction l with
      | nil => rfl
      | cons t l ih => rw [List.map_cons, List.map_cons, ih]; rfl
    simp only [List.map_append, hp, hl]
    congr 1
    split <;> rfl
  · intro x hx
    simp only [makeRules, List.mem_append, List.mem_map] at hx
    rcases hx with ⟨_, _, rfl⟩ | hx
    · rfl
    · split at hx
      · simp only [List.mem_singleton] at hx
        rw [hx]
      · cases hx

/-- The example shows the rule of comments with the delimiters `<<`, `>>` and `#`. -/
example : PlainText ⟨T "<<", T ">>", T "#"⟩ ∧ PlainText defaultDelims ∧ covered (T "(?s)@reduce;/\\*(?P<block_comment>.*?)\\*/") = true ∧
    searchText ⟨T "<<", T ">>", T "#"⟩ (T "@{{[sp]") = T "#<<[[:blank:]]*" ∧ searchText defaultDelims (T "@{{[sp]") = T "@\\{\\{[[:blank:]]*" := by
  decide +kernel

/-- C38 is false for the rules of function calls: their razor delimiter is always `@`. -/
theorem C38_not_function :
    (T "Function call - @func(args...)", T "function;endexpr;", T "{{${reduce1} ${expr} ${reduce2}}}", 1) ∈ expressions ∧
    (∀ d, PlainText d → searchText d (T "function;endexpr;") = searchText defaultDelims (T "function;endexpr;")) ∧
    Text.hasPrefix (T "@") (searchText defaultDelims (T "function;endexpr;")) = true := by
  refine ⟨by decide +kernel, fun d hd => ?_, by decide +kernel⟩
  have e : ∀ d : Delims, Text.replaceAll (T "}}") (quoteMeta d.right) (Text.replaceAll (T "{{") (quoteMeta d.left)
      (Text.replaceAll (T "@") (quoteMeta d.razor) (T "function;endexpr;"))) = T "function;endexpr;" := by
    intro d
    rw [Text.replaceAll_of_not_contains (s := T "function;endexpr;") (by decide),
      Text.replaceAll_of_not_contains (s := T "function;endexpr;") (by decide),
      Text.replaceAll_of_not_contains (s := T "function;endexpr;") (by decide)]
  unfold searchText
  simp only [e]

/-- C38 is false for the rules with an expression: an expression always stops at an `@`, never at the razor delimiter `#`. -/
theorem C38_not_expression :
    T "[^@\\n]" ∈ expressionList ∧ (∀ e ∈ expressionList, '#' ∉ e) ∧
    (subExpressions (searchText ⟨T "{{", T "}}", T "#"⟩ (T "@reduce;(?P<function>[id])\\([sp](?P<args>[expr]+)[sp]\\)endexpr;"))).length = 7 := by
  decide +kernel

/-- C38 is false for a right delimiter other than `}}`: the reference to the last group is damaged. With the default delimiters the
replacement of a function call gives `{{ x }}`, with `<<` and `>>` it gives `<< x ${reduce2>>}`. -/
theorem C38_not_right :
    let group : Text → Text := fun g => if g = T "expr" then T "x" else []
    expand group (replaceText defaultDelims (T "{{${reduce1} ${expr} ${reduce2}}}")) = T "{{ x }}" ∧
    expand group (replaceText ⟨T "<<", T ">>", T "@"⟩ (T "{{${reduce1} ${expr} ${reduce2}}}")) = T "<< x ${reduce2>>}" := by
  decide +kernel

/-! ## The cache -/

/-- Two different sets of delimiters without blanks have different keys. -/
theorem cacheKey_inj {d e : Delims} (hd : ∀ c ∈ d.left ++ d.right ++ d.razor, c ≠ ' ') (he : ∀ c ∈ e.left ++ e.right ++ e.razor, c ≠ ' ')
    (h : cacheKey d = cacheKey e) : d = e := by
  unfold cacheKey at h
  have h' := List.append_cancel_right (List.cons.inj h).2
  have hs : ∀ f : Delims, (∀ c ∈ f.left ++ f.right ++ f.razor, c ≠ ' ') →
      Text.splitC ' ' (Text.join [' '] [f.left, f.right, f.razor]) = [f.left, f.right, f.razor] := by
    intro f hf
    refine Text.splitC_join (by simp) (fun l hl hc => ?_)
    simp only [List.mem_cons, List.not_mem_nil, or_false] at hl
    refine hf ' ' ?_ rfl
    rcases hl with rfl | rfl | rfl <;> simp [hc]
  have := hs d hd
  rw [h', hs e he] at this
  cases d; cases e
  simp only [List.cons.injEq, and_true] at this
  simp [this]

/-- What the cache contains after any history. -/
theorem cacheAfter_get {α : Type} (gen : Delims → α) (history : List Delims) (k : Text) (v : α)
    (h : (cacheAfter gen history).get? k = some v) : ∃ e ∈ history, cacheKey e = k ∧ gen e = v := by
  have key : ∀ (history : List Delims) (cache : GoMap α) (P : Text → α → Prop), (∀ k v, cache.get? k = some v → P k v) →
      (∀ e ∈ history, P (cacheKey e) (gen e)) →
      ∀ k v, (history.foldl (fun cache d => (rulesOf gen cache d).2) cache).get? k = some v → P k v := by
    intro history
    induction history with
    | nil => intro cache P h _; exact h
    | cons e es ih =>
      intro cache P h1 h2
      refine ih _ P ?_ (fun x hx => h2 x (by simp [hx]))
      intro k v hk
      simp only [rulesOf, ensureInit] at hk
      split at hk
      · exact h1 k v hk
      · rw [GoMap.get?_set] at hk
        split at hk
        · rename_i e1
          cases hk
          rw [← e1]
          exact h2 e (by simp)
        · exact h1 k v hk
  refine key history [] (fun k v => ∃ e ∈ history, cacheKey e = k ∧ gen e = v) (by simp) (fun e he => ⟨e, he, rfl, rfl⟩) k v h

/-- C39, for delimiters without blanks: whatever templates were processed before, a template is translated with the rules generated for
its own delimiters. -/
theorem C39_own_rules_partial {α : Type} (gen : Delims → α) (history : List Delims) (d : Delims)
    (hb : ∀ e ∈ d :: history, ∀ c ∈ e.left ++ e.right ++ e.razor, c ≠ ' ') :
    (rulesOf gen (cacheAfter gen history) d).1 = some (gen d) := by
  simp only [rulesOf, ensureInit]
  split
  · rename_i h
    simp only [GoMap.has, Option.isSome_iff_exists] at h
    obtain ⟨v, hv⟩ := h
    obtain ⟨e, he, hk, hg⟩ := cacheAfter_get gen history _ _ hv
    rw [hv, ← hg, cacheKey_inj (hb e (by simp [he])) (hb d (by simp)) hk]
  · rw [GoMap.get?_set]; simp

/-- The example shows a history with several delimiters, one of them the same as the default ones. -/
example : (rulesOf (fun d => d) (cacheAfter (fun d => d) [⟨T "<<", T ">>", T "#"⟩, defaultDelims]) defaultDelims).1 = some defaultDelims := by
  decide +kernel

/-- C39 without the restriction, for any history: a template is always translated with rules of this process, made for delimiters that are
the same text when they are separated by blanks. -/
theorem C39_same_key {α : Type} (gen : Delims → α) (history : List Delims) (d : Delims) :
    ∃ e ∈ d :: history, e.left ++ ' ' :: (e.right ++ ' ' :: e.razor) = d.left ++ ' ' :: (d.right ++ ' ' :: d.razor) ∧ (rulesOf gen (cacheAfter gen history) d).1 = some (gen e) := by
  simp only [rulesOf, ensureInit]
  split
  · rename_i h
    simp only [GoMap.has, Option.isSome_iff_exists] at h
    obtain ⟨v, hv⟩ := h
    obtain ⟨e, he, hk, hg⟩ := cacheAfter_get gen history _ _ hv
    refine ⟨e, by simp [he], ?_, by rw [hv, hg]⟩
    simp only [cacheKey, Text.join, List.cons.injEq, true_and] at hk
    simpa using List.append_cancel_right hk
  · exact ⟨d, by simp, rfl, by rw [GoMap.get?_set]; simp⟩

/-- C39 is false with blanks in the delimiters: the rules of the first template are used for the second one. -/
theorem C39_not_blanks {α : Type} (gen : Delims → α) :
    (rulesOf gen (cacheAfter gen [⟨T "< <", T ">", T "#"⟩]) ⟨T "<", T "< >", T "#"⟩).1 = some (gen ⟨T "< <", T ">", T "#"⟩) := by
  rfl

end Verif.Props
