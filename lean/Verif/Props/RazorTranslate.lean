import Verif.Lemmas.RazorBounds
import Verif.Props.RazorPrepare
import Verif.Props.Razor
/-!
# C111: from the text of a razor expression to the code of the template
-/

namespace Verif.Props
open Verif Text Razor Prepare Spec Lemmas

/-- C111. The parser of the model reads what the grammar of Go says: the operators have their five precedences and bind to the left. -/
theorem C111_parser (ts : List Translate.Token) (x : Translate.Node) (h : Level 1 ts x) : Translate.parseTokens ts = some x := parseTokens_level h

/-- C111. A list of tokens is at most one expression. -/
theorem C111_grammar (ts : List Translate.Token) (x y : Translate.Node) (hx : Level 1 ts x) (hy : Level 1 ts y) : x = y := by
  have h := parseTokens_level hx
  rw [parseTokens_level hy] at h
  exact (Option.some.inj h).symm

/-- The code of the text is the code of its expression. -/
theorem translate_source {letter : Char → Bool} (hl : SignLetters letter) {o : Orders} (ho : SomeOrder o) (group : Text → Text) {s : Text} {e : Expr}
    (h : ExprText letter 1 s e) (hm : ∀ w ∈ markWords, ¬ w <:+: s) : Translate.translate letter o group s = render group e := by
  obtain ⟨_, _, _, m, ts, t, g1, _, _, g4, g5, g6⟩ := source_ready hl ho h hm
  obtain ⟨u, hu⟩ := good_of_covered (source_covered h).1
  rw [render_eq group hu.nv hu.dollar]
  have g4 := g4 [] nofun
  simp only [List.append_nil, scan_nil, Option.map_some] at g4
  rcases value_both g6 with ⟨_, n2⟩ | ⟨L, hL, v1, v2⟩
  · rw [hu.nv] at n2
    cases n2
  · rw [hu.nv] at v2
    cases v2
    simp only [Translate.translate, g1, Translate.parse, g4, Option.bind_eq_bind, Option.bind_some, parseTokens_level g5, v1, finish_both hL]

/-- C111. The text of an expression — variables, literals, parentheses, calls, unary operators and binary operators in any spelling, with the precedences of
Go — becomes a pipeline whose operations are those of the expression, whatever the order of the maps. -/
theorem C111_translation (letter : Char → Bool) (hl : SignLetters letter) (o : Orders) (ho : SomeOrder o) (group : Text → Text) (s : Text) (e : Expr)
    (h : ExprText letter 1 s e) (hm : ∀ w ∈ markWords, ¬ w <:+: s) :
    ∃ code, Translate.translate letter o group s = some code ∧ parsePipeline code = some (meaning e) := by
  rw [translate_source hl ho group h hm]
  exact C35_translation_partial group (source_covered h).1

theorem source_up {letter : Char → Bool} {s : Text} {e : Expr} (p : Nat) : ∀ n, p + n ≤ 7 → ExprText letter (p + n) s e → ExprText letter p s e := by
  intro n
  induction n with
  | zero => exact fun _ h => h
  | succ n ih => exact fun hn h => ih (by omega) (.up (by omega) h)

instance (l : Text) : Decidable (Spaces l) := inferInstanceAs (Decidable (∀ c ∈ l, c = ' '))
instance (c : Char) : Decidable (literalChar c) := inferInstanceAs (Decidable (_ ∧ _))

/-- `f($x, "a b") + 2 mul ( .y - map) ≠ 3`, with the expression it stands for and its code. -/
example : ∃ e, ExprText Char.isAlpha 1 c!"f($x, \"a b\") + 2 mul ( .y - map) ≠ 3" e ∧ (∀ w ∈ markWords, ¬ w <:+: c!"f($x, \"a b\") + 2 mul ( .y - map) ≠ 3") ∧
    e = .binary c!"!=" (.binary c!"+" (.call (.ident (.glob c!"f")) [.ident (.loc c!"x"), .lit c!"\"a b\""] false)
      (.binary c!"*" (.lit c!"2") (.paren (.binary c!"-" (.ident (.ctx c!"y")) (.ident (.glob c!"map")))))) (.lit c!"3") ∧
    Translate.translate Char.isAlpha otherOrders (fun _ => []) c!"f($x, \"a b\") + 2 mul ( .y - map) ≠ 3" =
      some c!"ne (add (f $x \"a b\") (mul 2 (sub .y $.map))) 3" := by
  refine ⟨_, ?_, by decide +kernel, rfl, by decide +kernel⟩
  have x : ExprText Char.isAlpha 7 c!"$x" (.ident (.loc c!"x")) := .variable (.loc c!"x") (.local _ (by decide)) (.inr (by decide)) (by decide +kernel)
  have y : ExprText Char.isAlpha 7 c!".y" (.ident (.ctx c!"y")) := .variable (.ctx c!"y") (.context _ (by decide)) (.inr (by decide)) (by decide +kernel)
  have z : ExprText Char.isAlpha 7 c!"map" (.ident (.glob c!"map")) :=
    .variable (.glob c!"map") (.global _ _ (by decide) (by decide) (by decide +kernel)) (show IsName c!"map" by decide) (by decide +kernel)
  have l : ExprText Char.isAlpha 7 c!"\"a b\"" (.lit c!"\"a b\"") := .quoted (q := '"') (body := c!"a b") (.inl rfl) (by decide)
  have two : ExprText Char.isAlpha 7 c!"2" (.lit c!"2") := .number (by decide) (by decide)
  have three : ExprText Char.isAlpha 7 c!"3" (.lit c!"3") := .number (by decide) (by decide)
  have f : ExprText Char.isAlpha 7 c!"f($x, \"a b\")" _ :=
    .call (n := c!"f") [⟨[], c!"$x", [], .ident (.loc c!"x")⟩, ⟨c!" ", c!"\"a b\"", [], .lit c!"\"a b\""⟩] (.global _ _ (by decide) (by decide) (by decide +kernel)) (by decide)
      (by decide) (by
        intro a ha
        simp only [List.mem_cons, List.not_mem_nil, or_false] at ha
        rcases ha with rfl | rfl
        · exact source_up 1 6 (by decide) x
        · exact source_up 1 6 (by decide) l)
  have m : ExprText Char.isAlpha 4 c!".y - map" _ :=
    .binary (a := c!".y") (l := c!" ") (x := c!"-") (r := c!" ") (b := c!"map") (.go (p := 4) (by decide)) (by decide) (by decide) (by decide)
      (apart_char (c := ' ') rfl (by decide) (by decide)) (source_up 4 3 (by decide) y) (source_up 5 2 (by decide) z)
  have p : ExprText Char.isAlpha 7 c!"( .y - map)" _ := .paren (l := c!" ") (r := []) (by decide) (by decide) (source_up 1 3 (by decide) m)
  have t : ExprText Char.isAlpha 5 c!"2 mul ( .y - map)" _ :=
    .binary (a := c!"2") (l := []) (x := c!" mul ") (r := []) (b := c!"( .y - map)") (.word (w := c!"mul") (g := c!"*") (by decide +kernel)) (by decide) (by decide) (by decide)
      (apart_char (c := '(') rfl (by decide) (by decide)) (source_up 5 2 (by decide) two) (source_up 6 1 (by decide) p)
  have u : ExprText Char.isAlpha 4 c!"f($x, \"a b\") + 2 mul ( .y - map)" _ :=
    .binary (a := c!"f($x, \"a b\")") (l := c!" ") (x := c!"+") (r := c!" ") (b := c!"2 mul ( .y - map)") (.go (p := 4) (by decide)) (by decide) (by decide) (by decide)
      (apart_char (c := ' ') rfl (by decide) (by decide)) (source_up 4 3 (by decide) f) t
  have v : ExprText Char.isAlpha 3 c!"f($x, \"a b\") + 2 mul ( .y - map) ≠ 3" _ :=
    .binary (a := c!"f($x, \"a b\") + 2 mul ( .y - map)") (l := c!" ") (x := c!"≠") (r := c!" ") (b := c!"3") (.sign (g := c!"!=") (by decide +kernel)) (by decide) (by decide) (by decide)
      (apart_char (c := ' ') rfl (by decide) (by decide)) (source_up 3 1 (by decide) u) (source_up 4 3 (by decide) three)
  exact source_up 1 2 (by decide) v

/-- A selector of a variable, one of the result of a call, and a method of the global context. -/
example : ∃ e, ExprText Char.isAlpha 1 c!"$x.a / g().b > $.m(1)" e ∧ (∀ w ∈ markWords, ¬ w <:+: c!"$x.a / g().b > $.m(1)") ∧
    e = .binary c!">" (.binary c!"/" (.sel (.ident (.loc c!"x")) c!"a") (.sel (.call (.ident (.glob c!"g")) [] false) c!"b"))
      (.call (.sel (.ident (.loc [])) c!"m") [.lit c!"1"] false) ∧
    Translate.translate Char.isAlpha otherOrders (fun _ => []) c!"$x.a / g().b > $.m(1)" = some c!"gt (div $x.a g.b) ($.m 1)" := by
  refine ⟨_, ?_, by decide +kernel, rfl, by decide +kernel⟩
  have x : ExprText Char.isAlpha 7 c!"$x" (.ident (.loc c!"x")) := .variable (.loc c!"x") (.local _ (by decide)) (.inr (by decide)) (by decide +kernel)
  have d : ExprText Char.isAlpha 7 c!"$" (.ident (.loc [])) := .variable (.loc []) (.local _ (by decide)) (.inl rfl) (by decide +kernel)
  have xa : ExprText Char.isAlpha 7 c!"$x.a" _ := .sel (n := c!"a") (c := 'x') x (by intro v h; cases h) rfl (.inl rfl) (.global _ _ (by decide) (by decide) (by decide +kernel)) (by decide)
  have g : ExprText Char.isAlpha 7 c!"g()" _ := .call (n := c!"g") [] (.global _ _ (by decide) (by decide) (by decide +kernel)) (by decide) (by decide) (by simp)
  have gb : ExprText Char.isAlpha 7 c!"g().b" _ := .sel (n := c!"b") (c := ')') g (by intro v h; cases h) rfl (.inr (.inr (.inl rfl))) (.global _ _ (by decide) (by decide) (by decide +kernel)) (by decide)
  have m : ExprText Char.isAlpha 7 c!"$.m" _ := .sel (n := c!"m") (c := '$') d (by intro v h; cases h) rfl (.inr (.inr (.inr (.inr rfl)))) (.global _ _ (by decide) (by decide) (by decide +kernel)) (by decide)
  have one : ExprText Char.isAlpha 7 c!"1" (.lit c!"1") := .number (by decide) (by decide)
  have m1 : ExprText Char.isAlpha 7 c!"$.m(1)" _ := .method [⟨[], c!"1", [], .lit c!"1"⟩] m (.inl rfl) (by decide) (by
    intro a ha
    cases List.mem_singleton.mp ha
    exact source_up 1 6 (by decide) one)
  have q : ExprText Char.isAlpha 5 c!"$x.a / g().b" _ :=
    .binary (a := c!"$x.a") (l := c!" ") (x := c!"/") (r := c!" ") (b := c!"g().b") (.go (p := 5) (by decide)) (by decide) (by decide) (by decide)
      (apart_char (c := ' ') rfl (by decide) (by decide)) (source_up 5 2 (by decide) xa) (source_up 6 1 (by decide) gb)
  have r : ExprText Char.isAlpha 3 c!"$x.a / g().b > $.m(1)" _ :=
    .binary (a := c!"$x.a / g().b") (l := c!" ") (x := c!">") (r := c!" ") (b := c!"$.m(1)") (.go (p := 3) (by decide)) (by decide) (by decide) (by decide)
      (apart_char (c := ' ') rfl (by decide) (by decide)) (source_up 3 2 (by decide) q) (source_up 4 3 (by decide) m1)
  exact source_up 1 2 (by decide) r

/-- An index, a slice, and a selector of an element. -/
example : ∃ e, ExprText Char.isAlpha 1 c!"l[-1].a + l[ i:2 mul 3]" e ∧ (∀ w ∈ markWords, ¬ w <:+: c!"l[-1].a + l[ i:2 mul 3]") ∧
    e = .binary c!"+" (.sel (.index (.ident (.glob c!"l")) (.unary c!"-" (.lit c!"1"))) c!"a")
      (.slice (.ident (.glob c!"l")) (.ident (.glob c!"i")) (.binary c!"*" (.lit c!"2") (.lit c!"3"))) ∧
    Translate.translate Char.isAlpha otherOrders (fun _ => []) c!"l[-1].a + l[ i:2 mul 3]" = some c!"add ((slice $.l -1).a) (slice $.l $.i (mul 2 3))" := by
  refine ⟨_, ?_, by decide +kernel, rfl, by decide +kernel⟩
  have l : ExprText Char.isAlpha 7 c!"l" (.ident (.glob c!"l")) :=
    .variable (.glob c!"l") (.global _ _ (by decide) (by decide) (by decide +kernel)) (show IsName c!"l" by decide) (by decide +kernel)
  have i : ExprText Char.isAlpha 7 c!"i" (.ident (.glob c!"i")) :=
    .variable (.glob c!"i") (.global _ _ (by decide) (by decide) (by decide +kernel)) (show IsName c!"i" by decide) (by decide +kernel)
  have n : ∀ d ∈ [c!"1", c!"2", c!"3"], ExprText Char.isAlpha 7 d (.lit d) := by
    intro d hd
    have := (by decide : ∀ d ∈ [c!"1", c!"2", c!"3"], d ≠ [] ∧ ∀ c ∈ d, c.isDigit = true) d hd
    exact .number this.1 this.2
  have m : ExprText Char.isAlpha 6 c!"-1" _ :=
    .unary (g := c!"-") (l := []) (by decide) (by decide) (apart_char (c := '1') rfl (by decide) (by decide)) (source_up 6 1 (by decide) (n c!"1" (by decide)))
  have x : ExprText Char.isAlpha 7 c!"l[-1]" _ := .index (s := c!"l") (l := []) (t := c!"-1") (r := []) l (by decide) (by decide) (source_up 1 5 (by decide) m)
  have a : ExprText Char.isAlpha 7 c!"l[-1].a" _ := .sel (n := c!"a") (c := ']') x (by intro v h; cases h) rfl (.inr (.inr (.inr (.inl rfl)))) (.global _ _ (by decide) (by decide) (by decide +kernel)) (by decide)
  have t : ExprText Char.isAlpha 5 c!"2 mul 3" _ :=
    .binary (a := c!"2") (l := []) (x := c!" mul ") (r := []) (b := c!"3") (.word (w := c!"mul") (g := c!"*") (by decide +kernel)) (by decide) (by decide) (by decide)
      (apart_char (c := '3') rfl (by decide) (by decide)) (source_up 5 2 (by decide) (n c!"2" (by decide))) (source_up 6 1 (by decide) (n c!"3" (by decide)))
  have y : ExprText Char.isAlpha 7 c!"l[ i:2 mul 3]" _ :=
    .slice (s := c!"l") (l := c!" ") (t := c!"i") (r := []) (l' := []) (t' := c!"2 mul 3") (r' := []) l (by decide) (by decide) (by decide) (by decide)
      (source_up 1 6 (by decide) i) (source_up 1 4 (by decide) t)
  have z : ExprText Char.isAlpha 4 c!"l[-1].a + l[ i:2 mul 3]" _ :=
    .binary (a := c!"l[-1].a") (l := c!" ") (x := c!"+") (r := c!" ") (b := c!"l[ i:2 mul 3]") (.go (p := 4) (by decide)) (by decide) (by decide) (by decide)
      (apart_char (c := ' ') rfl (by decide) (by decide)) (source_up 4 3 (by decide) a) (source_up 5 2 (by decide) y)
  exact source_up 1 3 (by decide) z

/-- C111. The bounds that are not written: the code is the one of the text with the bounds, whatever is around them. -/
theorem C111_bounds (letter : Char → Bool) (o : Orders) (ho : SomeOrder o) (group : Text → Text) (s t : Text) (h : Written s t) (hs : '♠' ∉ s) :
    Translate.translate letter o group s = Translate.translate letter o group t := by
  have e : prepare o s = prepare o t := by
    cases h with
    | both ha => simp only [List.mem_append, not_or] at hs; exact prepare_both ho ha hs.1 hs.2.2
    | low ha => simp only [List.mem_append, not_or] at hs; exact prepare_low ho ha hs.1 hs.2.2
    | high ha hn => simp only [List.mem_append, not_or] at hs; exact prepare_high ho ha hs.1 hs.2.2 hn
    | zero ha hd hd' => simp only [List.mem_append, not_or] at hs; exact prepare_zero ho ha hs.1 hs.2.2 hd hd'
  unfold Translate.translate
  rw [e]

/-- C111. An expression with bounds that are not written becomes a pipeline with the operations of the expression that has them. -/
theorem C111_slices (letter : Char → Bool) (hl : SignLetters letter) (o : Orders) (ho : SomeOrder o) (group : Text → Text) (s t : Text) (e : Expr) (hw : WrittenAll s t)
    (hs : '♠' ∉ s) (h : ExprText letter 1 t e) (hm : ∀ w ∈ markWords, ¬ w <:+: t) :
    ∃ code, Translate.translate letter o group s = some code ∧ parsePipeline code = some (meaning e) := by
  induction hw with
  | same _ => exact C111_translation letter hl o ho group _ e h hm
  | step h1 _ ih =>
    rw [C111_bounds letter o ho group _ _ h1 hs]
    refine ih ?_ h hm
    cases h1 <;> simp_all

/-- `l[n-1:] + l[:2] + l[-2:]`. -/
example : WrittenAll c!"l[n-1:] + l[:2] + l[-2:]" c!"l[n-1:-1] + l[0:2] + l[-2:0]" ∧
    Translate.translate Char.isAlpha otherOrders (fun _ => []) c!"l[n-1:] + l[:2] + l[-2:]" = some c!"add (add (slice $.l (sub $.n 1) -1) (slice $.l 0 2)) (slice $.l -2 0)" := by
  have plain : ∀ a : Text, Plain a → Closed a := fun _ h => plain_closed h
  have hn : ¬ NegativeLow c!"l[n-1" := by
    rintro ⟨d, h1, _, h3⟩
    simp [List.suffix_cons_iff] at h3
  refine ⟨.step (.high (a := c!"l[n-1") (b := c!" + l[:2] + l[-2:]") (plain _ (by decide)) hn)
    (.step (.low (a := c!"l[n-1:-1] + l") (b := c!"2] + l[-2:]") (plain _ (by decide)))
      (.step (.zero (a := c!"l[n-1:-1] + l[0:2] + l") (d := c!"2") (b := []) (plain _ (by decide)) (by decide) (by decide)) (.same _))), by decide +kernel⟩

/-- C111. A text has one meaning. -/
theorem C111_meaning (letter : Char → Bool) (hl : SignLetters letter) (s : Text) (e e' : Expr) (h : ExprText letter 1 s e) (h' : ExprText letter 1 s e')
    (hm : ∀ w ∈ markWords, ¬ w <:+: s) : meaning e = meaning e' := by
  obtain ⟨c, a1, a2⟩ := C111_translation letter hl plainOrders plainOrders_some (fun _ => []) s e h hm
  obtain ⟨c', b1, b2⟩ := C111_translation letter hl plainOrders plainOrders_some (fun _ => []) s e' h' hm
  rw [a1] at b1
  cases b1
  rw [a2] at b2
  exact Option.some.inj b2

/-- C111. The code does not depend on the order of the maps. -/
theorem C111_order (letter : Char → Bool) (hl : SignLetters letter) (o o' : Orders) (ho : SomeOrder o) (ho' : SomeOrder o') (group : Text → Text) (s : Text) (e : Expr)
    (h : ExprText letter 1 s e) (hm : ∀ w ∈ markWords, ¬ w <:+: s) : Translate.translate letter o group s = Translate.translate letter o' group s := by
  rw [translate_source hl ho group h hm, translate_source hl ho' group h hm]

/-- C111. A word operator just before a sign: the spaces are removed with the word, and the two signs are read as one. `a lt -1` and `a sub -1` are not
translated, although `a < -1` and `a - -1` are; `a band ^b` is another operation than `a & ^b`. -/
theorem C111_not_signs (o : Orders) (ho : SomeOrder o) :
    Translate.translate Char.isAlpha o (fun _ => []) c!"a lt -1" = none ∧ Translate.translate Char.isAlpha o (fun _ => []) c!"a < -1" = some c!"lt $.a -1" ∧
    Translate.translate Char.isAlpha o (fun _ => []) c!"a sub -1" = none ∧ Translate.translate Char.isAlpha o (fun _ => []) c!"a - -1" = some c!"sub $.a -1" ∧
    Translate.translate Char.isAlpha o (fun _ => []) c!"a band ^b" = some c!"bclear $.a $.b" ∧
    Translate.translate Char.isAlpha o (fun _ => []) c!"a & ^b" = some c!"band $.a (bxor $.b)" := by
  have simple : ∀ s : Text, (∀ c ∈ s, c ∉ c!" ≠÷≦≧«»\"`♠") → ¬ c!"<>" <:+: s → (∀ w ∈ sharedWords, ¬ w <:+: s) → Settled s := Settled.simple
  have one : ∀ s, Settled s → Translate.translate Char.isAlpha o (fun _ => []) s = Translate.translate Char.isAlpha plainOrders (fun _ => []) s := by
    intro s hs
    unfold Translate.translate
    rw [C110_order_partial o plainOrders ho plainOrders_some s hs]
  have atom : ∀ s ∈ [c!"a", c!"-1", c!"^b", c!"<", c!"-", c!"&"], Settled s := by
    intro s hs
    refine simple s ?_ ?_ ?_ <;> revert hs <;> revert s <;> decide +kernel
  have word : ∀ w ∈ [c!"lt", c!"sub", c!"band"], ∀ s ∈ [c!"-1", c!"^b"], Settled (c!"a" ++ ((' ' :: (w ++ [' '])) ++ s)) := by
    intro w hw s hs
    have key : ∀ w ∈ [c!"lt", c!"sub", c!"band"], ∃ g, (w, g) ∈ wordTable := by
      intro w hw
      simp only [List.mem_cons, List.not_mem_nil, or_false] at hw
      rcases hw with rfl | rfl | rfl
      · exact ⟨c!"<", by decide +kernel⟩
      · exact ⟨c!"-", by decide +kernel⟩
      · exact ⟨c!"&", by decide +kernel⟩
    obtain ⟨g, hg⟩ := key w hw
    refine .operator _ _ _ g (atom _ (by decide)) (atom s ((by decide : ∀ s ∈ [c!"-1", c!"^b"], s ∈ [c!"a", c!"-1", c!"^b", c!"<", c!"-", c!"&"]) s hs)) (.word w _ _ hg ?_ ?_ ?_)
    · decide +kernel
    · revert hs; revert s; decide +kernel
    · exact fun _ => by decide
  have sign : ∀ w ∈ [c!"<", c!"-", c!"&"], ∀ s ∈ [c!"-1", c!"^b"], Settled (c!"a" ++ ' ' :: (w ++ ' ' :: s)) := by
    intro w hw s hs
    refine .space _ _ (atom _ (by decide)) (.space _ _ (atom w ((by decide : ∀ s ∈ [c!"<", c!"-", c!"&"], s ∈ [c!"a", c!"-1", c!"^b", c!"<", c!"-", c!"&"]) w hw))
      (atom s ((by decide : ∀ s ∈ [c!"-1", c!"^b"], s ∈ [c!"a", c!"-1", c!"^b", c!"<", c!"-", c!"&"]) s hs)) ?_ ?_) ?_ ?_
    · revert hw; revert w; decide +kernel
    · revert hs; revert s; decide +kernel
    · decide +kernel
    · revert hs; revert s; revert hw; revert w; decide +kernel
  refine ⟨?_, ?_, ?_, ?_, ?_, ?_⟩
  · exact (one _ (word c!"lt" (by decide) c!"-1" (by decide))).trans (by decide +kernel)
  · exact (one _ (sign c!"<" (by decide) c!"-1" (by decide))).trans (by decide +kernel)
  · exact (one _ (word c!"sub" (by decide) c!"-1" (by decide))).trans (by decide +kernel)
  · exact (one _ (sign c!"-" (by decide) c!"-1" (by decide))).trans (by decide +kernel)
  · exact (one _ (word c!"band" (by decide) c!"^b" (by decide))).trans (by decide +kernel)
  · exact (one _ (sign c!"&" (by decide) c!"^b" (by decide))).trans (by decide +kernel)

end Verif.Props
