import Verif.Lemmas.Args
/-!
# C54, C55: lists of patterns, exclusions and substitutions
-/

namespace Verif.Props
open Verif Text Spec Args Lemmas

/-! ## C54: patterns and exclusions -/

/-- The patterns are those listed by the arguments, in order: between commas, without the blanks around them and without the empty ones. -/
theorem C54_extend (values xs : List Text) : extend values = xs ↔ ListsAll values xs := (listsAll_iff values xs).symm

/-- Patterns that were split are not changed by splitting them again. -/
theorem C54_again (values : List Text) : extend (extend values) = extend values := by
  have h : ∀ l : List Text, (∀ x ∈ l, ',' ∉ x ∧ trimSpace x = x ∧ x ≠ []) → extend l = l := by
    intro l hl
    unfold extend
    induction l with
    | nil => rfl
    | cons x l ih =>
      obtain ⟨h1, h2, h3⟩ := hl x (by simp)
      rw [List.flatMap_cons, ih (fun y hy => hl y (by simp [hy])), splitC_of_not_mem h1]
      simp [h2, h3]
  apply h
  intro x hx
  unfold extend at hx
  obtain ⟨v, hv, hx⟩ := List.mem_flatMap.1 hx
  rw [List.mem_filter, List.mem_map] at hx
  obtain ⟨⟨p, hp, rfl⟩, hne⟩ := hx
  refine ⟨fun hc => splitC_no_sep ',' v p hp (trimmed_sub (trimmed_trimSpace p) _ hc), trimSpace_of_trimmed (trimmed_self (trimmed_trimSpace p)), by simpa using hne⟩

example : extend [T " *.gt , ,x*", T ""] = [T "*.gt", T "x*"] ∧ ListsAll [T " *.gt , ,x*", T ""] [T "*.gt", T "x*"] := by
  have h : extend [T " *.gt , ,x*", T ""] = [T "*.gt", T "x*"] := by decide +kernel
  exact ⟨h, (C54_extend _ _).1 h⟩

/-- When there is no error, the files that match no exclusion are kept, in order, and the others are removed. -/
theorem C54_excluded (lib : PathLib) (files patterns ps r : List Text) (hp : ListsAll patterns ps) (h : exclude lib files patterns = (r, true))
    (b : Text → Bool) (hb : ∀ f ∈ files, b f = true ↔ ∃ p ∈ ps, ∃ p' f', lib.abs p = some p' ∧ lib.abs f = some f' ∧ lib.pathMatch p' f' = some true) :
    r = files.filter (fun f => !b f) := by
  rw [listsAll_iff] at hp
  unfold exclude at h
  rw [hp] at h
  split at h
  · rename_i h0
    rw [List.length_eq_zero_iff] at h0
    subst h0
    simp only [Prod.mk.injEq, and_true] at h
    subst h
    symm
    rw [List.filter_eq_self]
    intro f hf
    have := hb f hf
    simp only [List.not_mem_nil, false_and, exists_false, iff_false] at this
    simp [this]
  · have := excludeLoop_true h b hb
    simpa using this

/-- There is an error only when the path of a file or of a pattern cannot be computed or a pattern is invalid for a file. -/
theorem C54_errors (lib : PathLib) (files patterns ps r : List Text) (hp : ListsAll patterns ps) (h : exclude lib files patterns = (r, false)) :
    ∃ f ∈ files, lib.abs f = none ∨ ∃ f', lib.abs f = some f' ∧ ∃ p ∈ ps, lib.abs p = none ∨ ∃ p', lib.abs p = some p' ∧ lib.pathMatch p' f' = none := by
  rw [listsAll_iff] at hp
  unfold exclude at h
  rw [hp] at h
  split at h
  · cases h
  · exact excludeLoop_false h

/-- A library where the pattern `[` is invalid and the others are names of files. -/
private def strictLib : PathLib := ⟨some, fun p f => if p = T "[" then none else some (p = f)⟩

example : [T "a", T "c"] = [T "a", T "b", T "c"].filter (fun f => !(f == T "b")) :=
  C54_excluded strictLib _ [T "b , d"] [T "b", T "d"] _ ((C54_extend _ _).1 (by decide +kernel)) (by decide +kernel) (· == T "b") (by
    intro f hf
    simp only [List.mem_cons, List.not_mem_nil, or_false] at hf
    rcases hf with rfl | rfl | rfl <;> simp [strictLib, T])
example : ∃ f ∈ [T "a", T "b"], strictLib.abs f = none ∨ ∃ f', strictLib.abs f = some f' ∧ ∃ p ∈ [T "b", T "["], strictLib.abs p = none ∨
    ∃ p', strictLib.abs p = some p' ∧ strictLib.pathMatch p' f' = none :=
  C54_errors strictLib _ [T "b,["] _ [] ((C54_extend _ _).1 (by decide +kernel)) (by decide +kernel)

/-- An invalid pattern is not reported when a pattern before it excludes all the files. -/
theorem C54_not_reported : ¬ ∀ (lib : PathLib) (files patterns : List Text) (p : Text), files ≠ [] → p ∈ extend patterns → (∀ f, lib.pathMatch p f = none) →
    lib.abs = some → (exclude lib files patterns).2 = false := by
  intro h
  have := h ⟨some, fun p _ => if p = T "[" then none else some true⟩ [T "a"] [T "*,["] (T "[") (by simp) (by decide) (by intro f; rfl) rfl
  revert this; decide

/-- A library where a pattern is the name of a file. -/
private def nameLib : PathLib := ⟨some, fun p f => some (p = f)⟩

example : exclude nameLib [T "a", T "b", T "c"] [T "b , d"] = ([T "a", T "c"], true) := by decide +kernel

/-! ## C55: substitutions -/

/-- A text is accepted iff, without the blanks around it, it is a substitution. The separator is its first character; it is an ASCII one.
Missing: other separators, see `C55_not_separator`. -/
theorem C55_accepted_partial (s t : Text) (ht : Trimmed s t) (ha : ∀ c, t.head? = some c → c.toNat < 128) :
    (∃ r, parseReplacer s = some r) ↔ ∃ sep expr repl, IsSubstitution sep t expr repl := by
  constructor
  · rintro ⟨r, h⟩
    obtain ⟨sep, expr, repl, h, _⟩ := (parse_iff ht ha r).1 h
    exact ⟨sep, expr, repl, h⟩
  · rintro ⟨sep, expr, repl, h⟩
    exact ⟨_, (parse_iff ht ha _).2 ⟨sep, expr, repl, h, rfl⟩⟩

private theorem ascii_head {sep : Char} {t expr repl : Text} (h : IsSubstitution sep t expr repl) (ha : sep.toNat < 128) :
    ∀ c, t.head? = some c → c.toNat < 128 := by
  obtain ⟨rfl, _⟩ := h
  intro c hc
  simp only [List.cons_append, List.head?_cons, Option.some.injEq] at hc
  rw [← hc]; exact ha

/-- The expression and the replacement are as given, unless the replacement is the letter `d`. -/
theorem C55_parsed (s t : Text) (sep : Char) (expr repl : Text) (ht : Trimmed s t) (h : IsSubstitution sep t expr repl) (ha : sep.toNat < 128)
    (hd : repl ≠ T "d") : parseReplacer s = some (expr, repl) :=
  (parse_iff ht (ascii_head h ha) _).2 ⟨sep, expr, repl, h, by unfold deletion; rw [if_neg hd]⟩

/-- With the replacement `d` the matches are removed. -/
theorem C55_delete (s t : Text) (sep : Char) (expr : Text) (ht : Trimmed s t) (h : IsSubstitution sep t expr (T "d")) (ha : sep.toNat < 128)
    (hd : ¬ T "$" <:+ expr) : parseReplacer s = some (expr, []) := by
  refine (parse_iff ht (ascii_head h ha) _).2 ⟨sep, expr, T "d", h, ?_⟩
  unfold deletion
  rw [if_pos rfl, if_neg (by rw [List.isSuffixOf_iff_suffix]; exact hd)]

/-- With the replacement `d` and an expression that ends with `$` whole lines are removed with their line break: the expression is extended with
a line break and the mode where `$` is the end of a line is selected. -/
theorem C55_lines (s t : Text) (sep : Char) (expr : Text) (ht : Trimmed s t) (h : IsSubstitution sep t expr (T "d")) (ha : sep.toNat < 128)
    (hd : T "$" <:+ expr) : parseReplacer s = some (if T "(?m)" <+: expr then expr ++ T "\\n" else T "(?m)" ++ expr ++ T "\\n", []) := by
  refine (parse_iff ht (ascii_head h ha) _).2 ⟨sep, expr, T "d", h, ?_⟩
  unfold deletion
  have hd' : (T "$").isSuffixOf expr = true := by rw [List.isSuffixOf_iff_suffix]; exact hd
  rw [if_pos rfl, if_pos hd']
  dsimp only
  have key : (T "(?m)").isPrefixOf (expr ++ T "\\n") = true ↔ T "(?m)" <+: expr := by
    rw [List.isPrefixOf_iff_prefix]
    constructor
    · intro hpre
      rcases Nat.lt_or_ge expr.length 4 with hl | hl
      · exfalso
        obtain ⟨x, rfl⟩ := hd
        obtain ⟨y, hy⟩ := hpre
        simp only [T] at hy
        match x, hl, hy with
        | [], _, hy => revert hy; intro hy; simp at hy
        | [a], _, hy => revert hy; intro hy; simp at hy
        | [a, b], _, hy => revert hy; intro hy; simp at hy
        | a :: b :: c :: x, hl, _ => revert hl; intro hl; simp [T] at hl; omega
      · exact List.prefix_of_prefix_length_le hpre (List.prefix_append _ _) (by simpa [T] using hl)
    · rintro ⟨y, rfl⟩; exact ⟨y ++ T "\\n", by simp⟩
  by_cases hp : T "(?m)" <+: expr
  · rw [if_pos (key.2 hp), if_pos hp]
  · rw [if_neg (fun h => hp (key.1 h)), if_neg hp]; simp

/-- A text between blanks. -/
private theorem between {s : Text} (a t b : Text) (hs : s = a ++ t ++ b) (ha : ∀ c ∈ a, isSpace c = true) (hb : ∀ c ∈ b, isSpace c = true) (x y : Char) (hx : t.head? = some x)
    (hy : t.getLast? = some y) (hx' : isSpace x = false) (hy' : isSpace y = false) : Trimmed s t :=
  ⟨a, b, hs, ha, hb, fun c hc => by rw [hx] at hc; injection hc with hc; exact hc ▸ hx', fun c hc => by rw [hy] at hc; injection hc with hc; exact hc ▸ hy'⟩

example : ∃ r, parseReplacer (T " /a+/b ") = some r :=
  (C55_accepted_partial _ (T "/a+/b") (between (T " ") _ (T " ") rfl (by decide) (by decide) '/' 'b' rfl rfl rfl rfl)
    (by intro c hc; injection hc with hc; subst hc; decide)).2 ⟨'/', T "a+", T "b", rfl, by decide, by decide, by decide⟩
example : parseReplacer (T " /a+/b ") = some (T "a+", T "b") :=
  C55_parsed _ (T "/a+/b") '/' _ _ (between (T " ") _ (T " ") rfl (by decide) (by decide) '/' 'b' rfl rfl rfl rfl) ⟨rfl, by decide, by decide, by decide⟩ (by decide) (by decide)
example : parseReplacer (T "|x/y|d\n") = some (T "x/y", []) :=
  C55_delete _ (T "|x/y|d") '|' _ (between [] _ (T "\n") rfl (by decide) (by decide) '|' 'd' rfl rfl rfl rfl) ⟨rfl, by decide, by decide, by decide⟩ (by decide) (by decide)
example : parseReplacer (T "/^#.*$/d") = some (T "(?m)^#.*$\\n", []) := by
  rw [C55_lines (T "/^#.*$/d") (T "/^#.*$/d") '/' (T "^#.*$") (between [] _ [] rfl (by decide) (by decide) '/' 'd' rfl rfl rfl rfl) ⟨rfl, by decide, by decide, by decide⟩ (by decide) (by decide)]
  decide +kernel

example : parseReplacer (T " /a+/b ") = some (T "a+", T "b") ∧ parseReplacer (T "|x/y|d") = some (T "x/y", []) ∧
    parseReplacer (T "/^#.*$/d") = some (T "(?m)^#.*$\\n", []) ∧ parseReplacer (T "/a/b/") = none ∧ parseReplacer (T "//b") = none ∧
    IsSubstitution '|' (T "|x/y|d") (T "x/y") (T "d") :=
  ⟨by decide +kernel, by decide +kernel, by decide +kernel, by decide +kernel, by decide +kernel, rfl, by decide, by decide, by decide⟩

/-- A separator that is not an ASCII character is refused. -/
theorem C55_not_separator : ¬ ∀ (sep : Char) (t expr repl : Text), IsSubstitution sep t expr repl → isSpace sep = false → Trimmed t t →
    ∃ r, parseReplacer t = some r := by
  intro h
  obtain ⟨r, hr⟩ := h '§' (T "§a§b") (T "a") (T "b") ⟨rfl, by decide, by decide, by decide⟩ (by decide)
    ⟨[], [], rfl, by simp, by simp, by intro c hc; injection hc with hc; subst hc; decide, by intro c hc; injection hc with hc; subst hc; decide⟩
  have : parseReplacer (T "§a§b") = none := by decide +kernel
  rw [this] at hr; cases hr

/-- A replacement that ends with blanks loses them: replacing by a space is replacing by nothing. -/
theorem C55_not_blank : ¬ ∀ (sep : Char) (s expr repl : Text), IsSubstitution sep s expr repl → sep.toNat < 128 → repl ≠ T "d" →
    parseReplacer s = some (expr, repl) := by
  intro h
  have := h '/' (T "/_/ ") (T "_") (T " ") ⟨rfl, by decide, by decide, by decide⟩ (by decide) (by decide)
  revert this; decide +kernel

/-- A deletion whose expression ends with an escaped dollar also removes a line break. -/
theorem C55_not_dollar : parseReplacer (T "/cost\\$/d") = some (T "(?m)cost\\$\\n", []) := by decide +kernel

/-- All the substitutions are prepared, in order, or there is an error when one is refused. -/
theorem C55_prepared (lib : RegexLib) (ss : List Text) (rs : List (Replacer lib)) :
    initReplacers lib ss = some rs ↔ rs.length = ss.length ∧
      ∀ (i : Nat) (s : Text) (r : Replacer lib), ss[i]? = some s → rs[i]? = some r → ∃ e, parseReplacer s = some (e, r.replace) ∧ lib.compile e = some r.regex := by
  induction ss generalizing rs with
  | nil =>
    simp only [initReplacers, Option.some.injEq, List.length_nil, List.length_eq_zero_iff]
    constructor
    · rintro rfl; exact ⟨rfl, by simp⟩
    · rintro ⟨rfl, _⟩; rfl
  | cons s ss ih =>
    simp only [initReplacers]
    constructor
    · intro h
      split at h
      · cases h
      · rename_i e repl hp
        split at h
        · cases h
        · rename_i r hr
          obtain ⟨rs', h1, rfl⟩ := Option.map_eq_some_iff.1 h
          obtain ⟨h2, h3⟩ := (ih rs').1 h1
          refine ⟨by simp [h2], ?_⟩
          intro i s' r' hs hr'
          cases i with
          | zero =>
            simp only [List.getElem?_cons_zero, Option.some.injEq] at hs hr'
            subst hs; subst hr'
            exact ⟨e, hp, hr⟩
          | succ i => exact h3 i s' r' (by simpa using hs) (by simpa using hr')
    · rintro ⟨h1, h2⟩
      cases rs with
      | nil => simp at h1
      | cons r rs =>
        obtain ⟨e, he, hc⟩ := h2 0 s r (by simp) (by simp)
        rw [he]
        dsimp only
        rw [hc]
        dsimp only
        rw [(ih rs).2 ⟨by simpa using h1, fun i s' r' hs hr => h2 (i + 1) s' r' (by simpa using hs) (by simpa using hr)⟩]
        rfl

/-- Without substitution the content is unchanged; each substitution applies to the result of those before it. -/
theorem C55_order (lib : RegexLib) (content : Text) : substitute lib content [] = content ∧
    ∀ (rs : List (Replacer lib)) (r : Replacer lib), substitute lib content (rs ++ [r]) = lib.replaceAll r.regex (substitute lib content rs) r.replace := by
  refine ⟨rfl, fun rs => ?_⟩
  induction rs generalizing content with
  | nil => intro r; rfl
  | cons r' rs ih => intro r; exact ih _ r

/-- A library where expressions are texts. -/
private def textLib : RegexLib := ⟨Text, fun e => if e = T "(" then none else some e, fun r c n => replaceAll r n c⟩

example : (initReplacers textLib [T "/a/b", T "/b/c"]).map (substitute textLib (T "ab")) = some (T "cc") ∧
    (initReplacers textLib [T "/b/c", T "/a/b"]).map (substitute textLib (T "ab")) = some (T "bc") ∧
    (initReplacers textLib [T "/a/b", T "/(/c"]).isNone := by
  refine ⟨by decide +kernel, by decide +kernel, by decide +kernel⟩

end Verif.Props
