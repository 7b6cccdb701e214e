import Verif.Lemmas.RazorSettled
import Verif.Model.Regex
/-!
# C110: what Go's parser is given for a razor expression
-/

namespace Verif.Props
open Verif Text Razor Prepare Spec Lemmas

/-- The maps in the order of the source. -/
def plainOrders : Orders := ⟨reserved, Prepare.signs, wordOperators⟩

/-- The maps in the opposite order. -/
def otherOrders : Orders := ⟨reserved.reverse, Prepare.signs.reverse, wordOperators.reverse⟩

theorem plainOrders_some : SomeOrder plainOrders := ⟨.refl _, .refl _, .refl _⟩
theorem otherOrders_some : SomeOrder otherOrders := ⟨List.reverse_perm _, List.reverse_perm _, List.reverse_perm _⟩

/-- C110. A literal is given to Go as it is written (an `@` in it is marked), and what is on both sides is rewritten separately. -/
theorem C110_literal (o : Orders) (ho : SomeOrder o) (a l b : Text) (ha : Closed a) (hl : Literal l) (hm : '♠' ∉ a ++ (l ++ b)) :
    ∃ A B, prepare o a = some A ∧ prepare o b = some B ∧ prepare o (a ++ (l ++ b)) = some (A ++ (replaceAll ['@'] atSign l ++ B)) :=
  prepare_literal ho ha hl hm

example : Closed c!"a eq " ∧ Literal c!"\"b and c.map\"" ∧ prepare plainOrders c!"a eq \"b and c.map\" ≠ d" = some c!"a==\"b and c.map\" != d" ∧
    prepare plainOrders c!"x+\"u@v\"" = some c!"x+\"u_=!AT!=_v\"" := by
  refine ⟨plain_closed ?_, ?_, by decide +kernel, by decide +kernel⟩
  · intro c hc hq
    rcases hq with rfl | rfl <;> revert hc <;> decide
  · refine .double c!"b and c.map" ?_ ?_
    · intro pre post h
      exact absurd (h ▸ by simp : '"' ∈ c!"b and c.map") (by decide)
    · rintro ⟨pre, n, h, _⟩
      have : '\\' ∈ c!"b and c.map" := by
        rw [h, List.replicate_succ]
        simp
      exact absurd this (by decide)

/-- The dots of the model are those of the regular expression in the code. -/
example : (Regex.parse c!"(?P<prefix>^|[^\\w\\)\\]])\\.(?P<value>\\w[\\w\\.]*)?").map (fun r => Regex.replaceRe Char.isAlpha r (fun _ caps =>
      expand (fun n => ((caps.find? (·.1 == n)).map (·.2)).getD []) c!"${prefix}__DoTPrefix__${value}") c!".. a.b .c (.e) x..y ).z ]. ..a.b. é.x") =
    some (dots .free c!".. a.b .c (.e) x..y ).z ]. ..a.b. é.x") := by decide +kernel

/-- C110. A variable — also one whose name is or contains a word that Go reserves — is given to Go as one identifier, and the code for this identifier is the
variable again. -/
theorem C110_names (letter : Char → Bool) (hl : SignLetters letter) (o : Orders) (ho : SomeOrder o) (v code : Text) (hv : Variable letter v code)
    (hm : ∀ w ∈ markWords, ¬ w <:+: v) :
    ∃ m, prepare o v = some m ∧ GoName letter m ∧ ∀ group, expand group (comeBack (identText m)) = code :=
  prepare_variable hl ho hv hm

theorem signLetters_alpha : SignLetters Char.isAlpha := ⟨⟨fun _ _ => rfl, by decide, by decide, by decide⟩, by decide, by decide, by decide, by decide⟩

example : SignLetters Char.isAlpha ∧ Variable Char.isAlpha c!"defaultype" c!"$.defaultype" ∧ Variable Char.isAlpha c!"range" c!"$.range" ∧
    Variable Char.isAlpha c!"$map" c!"$map" ∧ Variable Char.isAlpha c!".type" c!".type" ∧ (∀ w ∈ markWords, ¬ w <:+: c!"defaultype") ∧
    prepare plainOrders c!"defaultype" = some c!"__REPL_3__ype" ∧ prepare otherOrders c!"defaultype" = some c!"defaul__REPL_5__" ∧
    prepare plainOrders c!".type" = some c!"__DoTPrefix____REPL_5__" := by
  refine ⟨signLetters_alpha, .global _ _ ?_ ?_ ?_, .global _ _ ?_ ?_ ?_, .local _ ?_, .context _ ?_, ?_, ?_, ?_, ?_⟩ <;> decide +kernel

/-- C110. The other keywords of Go cannot be the name of a variable in an expression: the parser is given the keyword itself. -/
theorem C110_not_keyword (o : Orders) (ho : SomeOrder o) (w : Text) (hw : w ∈ goKeywords) (h : w ∉ allowedKeywords) : prepare o w = some w := by
  have h0 : ∀ w ∈ goKeywords, ∀ c ∈ w, c ≠ '"' ∧ c ≠ '`' ∧ c ≠ '♠' := by decide +kernel
  have h1 : ∀ w ∈ goKeywords, w ∉ allowedKeywords → ∀ k ∈ reserved, replaceAll k.1 k.2 w = w := by decide +kernel
  have h2 : ∀ w ∈ goKeywords, ∀ k ∈ Prepare.signs, replaceAll k.1 k.2 w = w := by decide +kernel
  have h3 : ∀ w ∈ goKeywords, '.' ∉ w ∧ ' ' ∉ w ∧ '[' ∉ w ∧ ':' ∉ w := by decide +kernel
  obtain ⟨a1, a2, a3, a4⟩ := h3 w hw
  rw [prepare_plain ho (h0 w hw)]
  unfold rewrite
  rw [each_fixed fun k hk => h1 w hw h k (ho.words.subset hk), dots_free a1, each_fixed fun k hk => h2 w hw k (ho.signs.subset hk),
    operators_free (fun k hk => ho.operators.subset hk) a2, index_free a3 a4]

example : c!"package" ∈ goKeywords ∧ c!"package" ∉ allowedKeywords ∧ c!"import" ∈ goKeywords ∧ c!"import" ∉ allowedKeywords := by decide

/-- C110. A name that contains a mark of the translation comes back as another variable. -/
theorem C110_not_marks : ∃ v m, Variable Char.isAlpha v (c!"$." ++ v) ∧ prepare plainOrders v = some m ∧
    ∃ other, other ≠ c!"$." ++ v ∧ ∀ group, expand group (comeBack (identText m)) = other := by
  refine ⟨c!"__REPL_7__", c!"__REPL_7__", .global _ _ (by decide) (by decide) (by decide), by decide +kernel, c!"$.map", by decide, fun group => ?_⟩
  have : comeBack (identText c!"__REPL_7__") = c!"$$" ++ c!".map" := by decide +kernel
  rw [this, expand_dollar group (by decide)]

/-- C110. An operator between two expressions, written as a word between spaces or as a sign, is given to Go as the operator of Go, and what is on both sides
is rewritten as if it were alone. -/
theorem C110_operator (o : Orders) (ho : SomeOrder o) (a x b g : Text) (h : Between a x b g) (ha : Closed a) (h1 : '♠' ∉ a) (h2 : '♠' ∉ b) :
    ∃ A B, prepare o a = some A ∧ prepare o b = some B ∧ prepare o (a ++ (x ++ b)) = some (A ++ (g ++ B)) :=
  prepare_between ho h ha h1 h2

example : Between c!"$x" c!" eq " c!".y and z ≠ 3" c!"==" ∧ Between c!".y" c!" and " c!"z ≠ 3" c!"&&" ∧ Between c!"z " c!"≠" c!" 3" c!"!=" ∧
    prepare plainOrders c!"$x eq .y and z ≠ 3" = some c!"__REPL_0__x==__DoTPrefix__y&&z != 3" := by
  refine ⟨.word c!"eq" _ _ ?_ ?_ ?_ ?_, .word c!"and" _ _ ?_ ?_ ?_ ?_, .sign _ _ _ ?_ ?_ ?_, ?_⟩ <;> decide +kernel

/-- C110. Two operators that are words cannot follow each other: `a and not b` is never given to Go as `a&&!b`. -/
theorem C110_not_neighbours (o : Orders) (ho : SomeOrder o) : prepare o c!"a and not b" = some c!"a&&not b" ∨ prepare o c!"a and not b" = some c!"a and!b" := by
  have h1 : ∀ k ∈ reserved, replaceAll k.1 k.2 c!"a and not b" = c!"a and not b" := by decide +kernel
  have h2 : ∀ k ∈ Prepare.signs, replaceAll k.1 k.2 c!"a and not b" = c!"a and not b" := by decide +kernel
  have h3 : ∀ k ∈ wordOperators, replaceAll k.1 k.2 c!"a&&not b" = c!"a&&not b" ∧ replaceAll k.1 k.2 c!"a and!b" = c!"a and!b" ∧
      (replaceAll k.1 k.2 c!"a and not b" = c!"a&&not b" ∨ replaceAll k.1 k.2 c!"a and not b" = c!"a and!b" ∨
        (replaceAll k.1 k.2 c!"a and not b" = c!"a and not b" ∧ k ≠ (c!" and ", c!"&&"))) := by decide +kernel
  have key : ∀ order : List (Text × Text), (∀ k ∈ order, k ∈ wordOperators) → (c!" and ", c!"&&") ∈ order →
      replaceEach order c!"a and not b" = c!"a&&not b" ∨ replaceEach order c!"a and not b" = c!"a and!b" := by
    intro order
    induction order with
    | nil => intro _ h; cases h
    | cons k order ih =>
      intro hk hm
      have hk' : ∀ k ∈ order, k ∈ wordOperators := fun k h => hk k (List.mem_cons_of_mem _ h)
      have e : ∀ s, replaceEach (k :: order) s = replaceEach order (replaceAll k.1 k.2 s) := fun _ => rfl
      obtain ⟨_, _, h⟩ := h3 k (hk k (List.mem_cons_self ..))
      rw [e]
      rcases h with h | h | ⟨h, hne⟩
      · rw [h]
        exact .inl (each_fixed fun k hk => (h3 k (hk' k hk)).1)
      · rw [h]
        exact .inr (each_fixed fun k hk => (h3 k (hk' k hk)).2.1)
      · rw [h]
        exact ih hk' ((List.mem_cons.mp hm).resolve_left (Ne.symm hne))
  rw [prepare_plain ho (by decide)]
  unfold rewrite
  rw [each_fixed fun k hk => h1 k (ho.words.subset hk), dots_free (by decide), each_fixed fun k hk => h2 k (ho.signs.subset hk)]
  rcases key o.operators (fun k hk => ho.operators.subset hk) (ho.operators.symm.subset (by decide +kernel)) with h | h
  · rw [h, index_free (by decide) (by decide)]
    exact .inl rfl
  · rw [h, index_free (by decide) (by decide)]
    exact .inr rfl

/-- C110. The same expression is always given to Go as the same text — proved for the expressions where no two replacements share a character. -/
theorem C110_order_partial (o o' : Orders) (ho : SomeOrder o) (ho' : SomeOrder o') (s : Text) (h : Settled s) : prepare o s = prepare o' s :=
  settled_one ho ho' h

example : Settled c!"f($x, \"a b\") eq .map «2" ∧ prepare plainOrders c!"f($x, \"a b\") eq .map «2" = some c!"f(__REPL_0__x, \"a b\")==__DoTPrefix____REPL_7__ <<2" := by
  refine ⟨?_, by decide +kernel⟩
  have simple : ∀ s : Text, (∀ c ∈ s, c ∉ c!" ≠÷≦≧«»\"`♠") → ¬ c!"<>" <:+: s → (∀ w ∈ sharedWords, ¬ w <:+: s) → Settled s := Settled.simple
  have l : Literal c!"\"a b\"" := by
    refine .double c!"a b" ?_ ?_
    · intro pre post h
      exact absurd (h ▸ by simp : '"' ∈ c!"a b") (by decide)
    · rintro ⟨pre, n, h, _⟩
      have : '\\' ∈ c!"a b" := by
        rw [h, List.replicate_succ]
        simp
      exact absurd this (by decide)
  have h1 : Settled c!"f($x, " := .space c!"f($x," [] (simple _ (by decide +kernel) (by decide +kernel) (by decide +kernel)) (simple _ (by decide) (by decide) (by decide +kernel))
    (by decide +kernel) (by decide +kernel)
  have h2 : Settled c!"f($x, \"a b\")" := .literal _ _ c!")" h1 (simple _ (by decide +kernel) (by decide +kernel) (by decide +kernel)) l (by decide)
  have h3 : Settled c!".map " := .space c!".map" [] (simple _ (by decide +kernel) (by decide +kernel) (by decide +kernel)) (simple _ (by decide) (by decide) (by decide +kernel))
    (by decide +kernel) (by decide +kernel)
  have h4 : Settled c!".map «2" := .operator c!".map " c!"«" c!"2" c!"<<" h3 (simple _ (by decide +kernel) (by decide +kernel) (by decide +kernel))
    (.sign _ _ _ (by decide +kernel) (by decide +kernel) (by decide +kernel))
  exact .operator c!"f($x, \"a b\")" c!" eq " c!".map «2" c!"==" h2 h4 (.word c!"eq" _ _ (by decide +kernel) (by decide +kernel) (by decide +kernel) (by decide +kernel))

/-- C110. The same expression can be given to Go as different texts, with the order in which Go enumerates a map. -/
theorem C110_not_order : ∃ o o' s, SomeOrder o ∧ SomeOrder o' ∧ prepare o s ≠ prepare o' s :=
  ⟨plainOrders, otherOrders, c!"a and not b", plainOrders_some, otherOrders_some, by decide +kernel⟩

end Verif.Props
