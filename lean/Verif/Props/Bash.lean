import Verif.Lemmas.Bash
import Verif.Props.Marshal
/-!
# C60: bash variables
-/

namespace Verif
namespace Props
open Spec Bash Lemmas Text

/-- C60. A text with a blank, a bracket or a parenthesis is written as a text literal of Go, whatever its other characters, and any other text as it is. -/
theorem C60_quoted (lib : Lib) (level : Nat) (s : Text) :
    ((∃ c ∈ s, c ∈ T " \t\n[]()") → readLiteral (toBash lib level (.str false s)) = some s) ∧
    ((∀ c ∈ s, c ∉ T " \t\n[]()") → toBash lib level (.str false s) = s) := by
  constructor
  · intro h
    simp only [toBash]
    rw [if_pos (any_mem.2 h)]
    exact readLiteral_quote _ _
  · intro h
    simp only [toBash]
    rw [if_neg]
    intro h2
    obtain ⟨c, hc, hm⟩ := any_mem.1 h2
    exact h c hc hm

private theorem isPrint_ne {c : Char} (h1 : ¬ (c = '"' ∨ c = '\\')) (h3 : c ≠ '$') (h4 : c ≠ '`') {t w rest : Text}
    (h : bashWord true t = some (w, rest)) : ∃ w', bashWord true ([c] ++ t) = some (w', rest) := by
  rw [List.singleton_append, bashWord_inside (fun h => h1 (.inl h)) (fun h => h1 (.inr h)) h3 h4, h]
  exact ⟨_, rfl⟩

private theorem inside_plain {l t w rest : Text} (hl : ∀ c ∈ l, c ≠ '"' ∧ c ≠ '\\' ∧ c ≠ '$' ∧ c ≠ '`') (h : bashWord true t = some (w, rest)) :
    ∃ w', bashWord true (l ++ t) = some (w', rest) := by
  induction l with
  | nil => exact ⟨w, h⟩
  | cons c l ih =>
    obtain ⟨w', hw⟩ := ih (fun c hc => hl c (List.mem_cons_of_mem _ hc))
    obtain ⟨h1, h2, h3, h4⟩ := hl c (by simp)
    rw [List.cons_append, bashWord_inside h1 h2 h3 h4, hw]
    exact ⟨_, rfl⟩

private theorem digit_plain : ∀ n : Fin 16, let c := Nat.digitChar n.1; c ≠ '"' ∧ c ≠ '\\' ∧ c ≠ '$' ∧ c ≠ '`' := by decide

private theorem hex_plain (k n : Nat) : ∀ c ∈ Quote.hex k n, c ≠ '"' ∧ c ≠ '\\' ∧ c ≠ '$' ∧ c ≠ '`' := by
  induction k generalizing n with
  | zero => intro c hc; cases hc
  | succ k ih =>
    intro c hc
    simp only [Quote.hex, List.mem_append, List.mem_singleton] at hc
    rcases hc with hc | rfl
    · exact ih _ c hc
    · exact digit_plain ⟨n % 16, Nat.mod_lt _ (by omega)⟩

private theorem inside_esc {d : Char} {l t w rest : Text} (hl : ∀ c ∈ l, c ≠ '"' ∧ c ≠ '\\' ∧ c ≠ '$' ∧ c ≠ '`') (h : bashWord true t = some (w, rest)) :
    ∃ w', bashWord true ('\\' :: d :: l ++ t) = some (w', rest) := by
  obtain ⟨w', hw⟩ := inside_plain hl h
  have e : bashWord true ('\\' :: d :: l ++ t) = if d ∈ T "\"\\$`" then addChar d (bashWord true (l ++ t)) else addChar '\\' (addChar d (bashWord true (l ++ t))) := rfl
  by_cases hd : d ∈ T "\"\\$`"
  · rw [e, if_pos hd, hw]; exact ⟨_, rfl⟩
  · rw [e, if_neg hd, hw]; exact ⟨_, rfl⟩

private theorem escape_forms (pr : Char → Bool) (c : Char) (P : Text → Prop) (h1 : ¬ (c = '"' ∨ c = '\\') → P [c]) (h2 : ∀ d, P ['\\', d])
    (h3 : ∀ d k n, P ('\\' :: d :: Quote.hex k n)) : P (Quote.escape pr c) := by
  unfold Quote.escape
  split
  · exact h2 _
  · rename_i h
    split
    · exact h1 h
    · repeat' split
      all_goals first | exact h2 _ | exact h3 _ _ _

private theorem escape_word (pr : Char → Bool) {c : Char} (h3 : c ≠ '$') (h4 : c ≠ '`') {t w rest : Text} (h : bashWord true t = some (w, rest)) :
    ∃ w', bashWord true (Quote.escape pr c ++ t) = some (w', rest) :=
  escape_forms pr c (fun u => ∃ w', bashWord true (u ++ t) = some (w', rest)) (fun h1 => isPrint_ne h1 h3 h4 h)
    (fun _ => inside_esc (l := []) (by simp) h) (fun _ _ _ => inside_esc (hex_plain _ _) h)

/-- C60. A text with a blank, a bracket or a parenthesis, without `$` and backquotes, is one word for bash, whatever its other characters. -/
theorem C60_word (lib : Lib) (level : Nat) (s : Text) (h : ∃ c ∈ s, c ∈ T " \t\n[]()") (h3 : '$' ∉ s) (h4 : '`' ∉ s) :
    ∃ w, bashWord false (toBash lib level (.str false s)) = some (w, []) := by
  simp only [toBash]
  rw [if_pos (any_mem.2 h), Quote.quote, bashWord_open]
  clear h
  induction s with
  | nil => exact ⟨[], rfl⟩
  | cons c s ih =>
    simp only [List.mem_cons, not_or] at h3 h4
    obtain ⟨w, hw⟩ := ih h3.2 h4.2
    rw [List.flatMap_cons, List.append_assoc]
    exact escape_word lib.isPrint (Ne.symm h3.1) (Ne.symm h4.1) hw

/-- C60. Bash reads back a text of printable ASCII characters, without `$` and backquotes, that is either of ordinary characters or quoted. Missing: the other
texts, see `C60_not_escaped` and `C60_not_special`. -/
theorem C60_scalar_partial (lib : Lib) (level : Nat) (s : Text) (h : SafeText s) : bashWord false (toBash lib level (.str false s)) = some (s, []) := by
  have := bashWord_value lib h.1 (.inl rfl : Ends []) level
  have e : replaceAll (T "$") (T "\\$") (toBash lib level (.str false s)) = toBash lib level (.str false s) := by
    change replaceAll ['$'] _ _ = _
    rw [replaceAll_char]
    have : ∀ c ∈ toBash lib level (.str false s), c ≠ '$' := by
      simp only [toBash]
      split
      · intro c hc
        simp only [Quote.quote, List.mem_cons, List.mem_append, List.mem_flatMap, List.not_mem_nil, or_false] at hc
        rcases hc with rfl | ⟨d, hd, hc⟩ | rfl
        · decide
        · have hd' := h.1.1 d hd
          by_cases h1 : d = '"'
          · subst h1; simp [Quote.escape] at hc; rcases hc with rfl | rfl <;> decide
          · by_cases h2 : d = '\\'
            · subst h2; simp [Quote.escape] at hc; subst hc; decide
            · rw [escape_ascii ⟨hd'.1, hd'.2.1⟩ h1 h2, List.mem_singleton] at hc
              subst hc
              rintro rfl
              exact h.2 hd
        · decide
      · rintro c hc rfl
        exact h.2 hc
    generalize toBash lib level (.str false s) = q at this
    induction q with
    | nil => rfl
    | cons c q ih =>
      rw [List.flatMap_cons, if_neg (this c (by simp)), ih (fun c hc => this c (List.mem_cons_of_mem _ hc))]
      rfl
  rw [e, List.append_nil] at this
  exact this

/-- C60. Bash reads the array written for a list as the texts of its elements, each exactly once and in order. Missing: elements that are nil, empty, or contain
characters that are special for bash, see `C60_not_empty`, `C60_not_nil` and `C60_not_newline`. -/
theorem C60_list_partial (lib : Lib) (level : Nat) (hl : level ≠ 2) (ty : NodeTy) (es : List GoVal) (hn : ∀ e ∈ es, e ≠ .nil)
    (h : ∀ e ∈ es, SafeElement (textOf lib e)) :
    ∃ body, toBash lib level (.slice ty es) = T "(" ++ body ++ T ")" ∧ BashWords body (es.map (textOf lib)) := by
  have hs : strings lib es = es.map (textOf lib) := by
    unfold strings
    rw [List.filter_eq_self.2]
    intro e he
    have := hn e he
    cases e <;> simp_all [isNil]
  refine ⟨join [' '] ((es.map (textOf lib)).map (Bash.quote lib)), ?_, bashWords_list lib _ ?_⟩
  · simp only [toBash, bashList, if_neg hl, hs]
  · intro s hs
    obtain ⟨e, he, rfl⟩ := List.mem_map.1 hs
    exact h e he

/-- C60. Bash reads the associative array written for a dictionary of texts as its entries, each exactly once and in increasing order of the keys. Missing: keys
that are not ordinary words, values that are not texts, or with characters that are special for bash. -/
theorem C60_assoc_partial (lib : Lib) (ty : NodeTy) (es : List (Text × Text)) (hk : ∀ e ∈ es, e.1 ≠ [] ∧ ∀ c ∈ e.1, BashPlain c)
    (hv : ∀ e ∈ es, SafeValue e.2) (hd : (es.map Prod.fst).Nodup) :
    ∃ body ps, toBash lib 1 (.map ty (es.map (fun e => (e.1, .str false e.2)))) = T "(" ++ body ++ T ")" ∧ BashPairs body ps ∧ ps.Perm es ∧
      (ps.map Prod.fst).Pairwise (fun a b => lt a b = true) := by
  have hp := sortBy_perm Prod.fst es
  refine ⟨_, sortBy Prod.fst es, ?_, bashPairs_dict lib _ (fun e he => hk e (hp.mem_iff.1 he)) (fun e he => hv e (hp.mem_iff.1 he)), hp, ?_⟩
  · rw [toBash, bashEntries_str, ← sortBy_map_val (fun s => (Shape.scalar, toBash lib (1 + 1) (.str false s)))]
    simp only [bashDict, List.map_map]
    rfl
  · rw [sortBy_map]
    exact sortBy_strict hd

/-- C60. A dictionary is written as its variables, each exactly once and in increasing order of the keys: arrays are declared for lists, associative arrays for
dictionaries. -/
theorem C60_variables (lib : Lib) (ty : NodeTy) (es : List (Text × GoVal)) (hd : (es.map Prod.fst).Nodup) :
    ∃ ls : List ((Text × GoVal) × Text), (ls.map Prod.fst).Perm es ∧ (ls.map (fun l => l.1.1)).Pairwise (fun a b => lt a b = true) ∧
      toBash lib 0 (.map ty es) = join (T "\n") (ls.map Prod.snd) ∧ ∀ l ∈ ls, SetsVariable l.1.1 l.1.2 (toBash lib 1 l.1.2) l.2 := by
  refine ⟨(sortBy Prod.fst es).map (fun e => (e, variableText e.1 (shape e.2, toBash lib 1 e.2))), ?_, ?_, ?_, ?_⟩
  · rw [List.map_map]
    have : (Prod.fst ∘ fun e : Text × GoVal => (e, variableText e.1 (shape e.2, toBash lib 1 e.2))) = id := rfl
    rw [this, List.map_id]
    exact sortBy_perm _ _
  · rw [List.map_map]
    change ((sortBy Prod.fst es).map Prod.fst).Pairwise _
    rw [sortBy_map]
    exact sortBy_strict hd
  · simp only [toBash, bashEntries_eq]
    rw [← sortBy_map_val (fun v => (shape v, toBash lib (0 + 1) v))]
    simp only [bashDict, List.map_map]
    rfl
  · intro l hl
    obtain ⟨⟨k, v⟩, _, rfl⟩ := List.mem_map.1 hl
    cases v
    case nil => exact .nothing _
    case slice ty es => exact .array _ _ _
    case map ty es => exact .assoc _ _ _
    all_goals exact .scalar _ _ ⟨by simp, by simp⟩ (by simp)

/-- C60. Without structures the rendering never fails. -/
theorem C60_total_partial (lib : Lib) (v : GoVal) (h : StructFree v) : ∃ t, ToBash lib v = some t := by
  obtain ⟨r, hr⟩ := C59_total_partial v h
  exact ⟨toBash lib 0 r, by simp only [ToBash, hr]⟩

/-! ## Where the rendering loses data -/

private def ascii : Lib := ⟨fun _ => true, fun _ => T "?"⟩

private def texts (l : List String) : GoVal := .slice .any (l.map (fun s => .str false (T s)))

/-- C60. An empty text in a list is lost. -/
theorem C60_not_empty : toBash ascii 0 (texts ["a", "", "b"]) = T "(a  b)" ∧ BashWords (T "a  b") [T "a", T "b"] := by
  refine ⟨by decide +kernel, ?_⟩
  refine .word _ (T "a") (T "  b") _ ⟨'a', T "  b", by decide, by decide⟩ (by decide +kernel) (.blank ' ' (T " b") _ (by decide) (.blank ' ' (T "b") _ (by decide) ?_))
  exact .word _ (T "b") [] _ ⟨'b', [], by decide, by decide⟩ (by decide +kernel) .nil

/-- C60. A nil element of a list is lost. -/
theorem C60_not_nil : toBash ascii 0 (.slice .any [.str false (T "a"), .nil, .str false (T "b")]) = T "(a b)" := by decide +kernel

/-- C60. An element of a list with a newline becomes two words. -/
theorem C60_not_newline : toBash ascii 0 (texts ["a\nb"]) = T "(a\nb)" ∧ BashWords (T "a\nb") [T "a", T "b"] := by
  refine ⟨by decide +kernel, ?_⟩
  refine .word _ (T "a") (T "\nb") _ ⟨'a', T "\nb", by decide, by decide⟩ (by decide +kernel) (.blank '\n' (T "b") _ (by decide) ?_)
  exact .word _ (T "b") [] _ ⟨'b', [], by decide, by decide⟩ (by decide +kernel) .nil

/-- C60. A newline is written `\n` in quotes, which bash reads as a backslash and a letter. -/
theorem C60_not_escaped : toBash ascii 0 (.str false (T "a\nb")) = T "\"a\\nb\"" ∧ bashWord false (T "\"a\\nb\"") = some (T "a\\nb", []) := by decide +kernel

/-- C60. Characters that are special for bash are not protected: `a;b` is written as it is, and so is `$` in a list. -/
theorem C60_not_special : toBash ascii 0 (.str false (T "a;b")) = T "a;b" ∧ bashWord false (T "a;b") = none ∧
    toBash ascii 0 (texts ["$x y"]) = T "(\"$x y\")" ∧ bashWord false (T "\"$x y\"") = none := by decide +kernel

/-- C60. Names of variables are not checked. -/
theorem C60_not_key : ToBash ascii (.map .any [(T "a b", .str false (T "x"))]) = some (T "a b=x") := by decide +kernel

/-! ## Cases that meet the hypotheses -/

example : toBash ascii 0 (.map .any [(T "b", texts ["x y", "z"]), (T "a", .map .any [(T "k", .str false (T "$ v"))]), (T "c", .str false (T "t"))]) =
    T "declare -A a\na=([k]=\"\\$ v\")\ndeclare -a b\nb=(\"x y\" z)\nc=t" := by decide +kernel

example : SafeElement (T "x y\"\\") ∧ SafeElement (T "z-1") ∧ SafeValue (T "$ v") ∧ SafeValue (T "$v") ∧ SafeValue [] ∧ SafeText (T "a [b]") := by
  refine ⟨⟨by decide, by decide +kernel, .inl ⟨' ', by decide, by decide⟩⟩, ⟨by decide, by decide +kernel, .inr (by decide +kernel)⟩,
    ⟨by decide +kernel, .inl ⟨' ', by decide, by decide⟩⟩, ⟨by decide +kernel, .inr (by decide +kernel)⟩, ⟨by simp, .inr (by simp)⟩,
    ⟨by decide +kernel, .inl ⟨' ', by decide, by decide⟩⟩, by decide⟩

example : StructFree (texts ["a"]) := .slice _ _ (by
  intro e he
  simp only [List.map_cons, List.map_nil, List.mem_singleton] at he
  subst he
  exact .leaf _ ⟨by simp, by simp⟩ (by simp) (by simp))

example : ∃ w, bashWord false (toBash ascii 1 (.str false (T "a (b)"))) = some (w, []) := C60_word ascii 1 _ ⟨'(', by decide, by decide⟩ (by decide) (by decide)
example : bashWord false (toBash ascii 0 (.str false (T "a [b]"))) = some (T "a [b]", []) :=
  C60_scalar_partial ascii 0 _ ⟨⟨by decide +kernel, .inl ⟨' ', by decide, by decide⟩⟩, by decide⟩
example : ∃ body, toBash ascii 1 (texts ["x y", "z-1"]) = T "(" ++ body ++ T ")" ∧ BashWords body [T "x y", T "z-1"] :=
  C60_list_partial ascii 1 (by decide) .any [.str false (T "x y"), .str false (T "z-1")] (by simp) (by
    intro e he
    simp only [List.mem_cons, List.not_mem_nil, or_false] at he
    rcases he with rfl | rfl
    · exact ⟨by decide, by decide +kernel, .inl ⟨' ', by decide, by decide⟩⟩
    · exact ⟨by decide, by decide +kernel, .inr (by decide +kernel)⟩)
example : ∃ body ps, toBash ascii 1 (.map .any [(T "k", .str false (T "$ v")), (T "j", .str false (T "w"))]) = T "(" ++ body ++ T ")" ∧ BashPairs body ps ∧
    ps.Perm [(T "k", T "$ v"), (T "j", T "w")] ∧ (ps.map Prod.fst).Pairwise (fun a b => lt a b = true) :=
  C60_assoc_partial ascii .any [(T "k", T "$ v"), (T "j", T "w")] (by decide +kernel) (by
    intro e he
    simp only [List.mem_cons, List.not_mem_nil, or_false] at he
    rcases he with rfl | rfl
    · exact ⟨by decide +kernel, .inl ⟨' ', by decide, by decide⟩⟩
    · exact ⟨by decide +kernel, .inr (by decide +kernel)⟩) (by decide)
example := C60_variables ascii .any [(T "b", texts ["x y", "z"]), (T "a", .str false (T "t"))] (by decide)


end Props
end Verif
