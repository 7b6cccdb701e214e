import Verif.Lemmas.RazorSource
/-!
# From the text of a razor expression to its tree
-/

namespace Verif.Lemmas
open Verif Text Razor Prepare Spec

/-- The expressions that a dot can follow. -/
def dottable : Expr → Bool
  | .ident _ => true
  | .sel _ _ => true
  | .paren _ => true
  | .call _ _ _ => true
  | .index _ _ => true
  | .slice _ _ _ => true
  | _ => false

/-- What can follow an expression. -/
def After (letter : Char → Bool) (e : Expr) (rest : Text) : Prop :=
  ∀ c, rest.head? = some c → Translate.nameChar letter c = false ∧ (dottable e = false → c ≠ '.')

theorem follow_after {letter : Char → Bool} {rest : Text} (h : Follow letter rest) (e : Expr) : After letter e rest := fun c hc => ⟨(h c hc).1, fun _ => (h c hc).2⟩

theorem after_follow {letter : Char → Bool} {rest : Text} {e : Expr} (h : After letter e rest) (he : dottable e = false) : Follow letter rest :=
  fun c hc => ⟨(h c hc).1, (h c hc).2 he⟩

/-- What is known of the text of an expression, and of what is given to Go for it. -/
structure Ready (letter : Char → Bool) (o : Orders) (p : Nat) (s : Text) (e : Expr) : Prop where
  fine : Fine s
  word : NotWord s
  filled : s ≠ []
  go : ∃ m ts t, prepare o s = some m ∧ m ≠ [] ∧ (∀ c, m.head? = some c → (letter c = true ∨ c = '_') ∨ s.head? = some c) ∧
    (∀ rest, After letter e rest → Translate.tokens letter (m ++ rest) = (Translate.tokens letter rest).map (ts ++ ·)) ∧ Level p ts t ∧ Same t e

def NoMarks (s : Text) : Prop := ∀ w ∈ markWords, ¬ w <:+: s

theorem noMarks_part {s t : Text} (h : NoMarks s) (ht : t <:+: s) : NoMarks t := fun w hw hi => h w hw (hi.trans ht)

theorem fine_quiet {s : Text} (h : ∀ c ∈ s, c ∉ c!" <«>»≧[]:\"`♠") : Fine s where
  closed := plain_closed fun c hc hq => by rcases hq with rfl | rfl <;> exact h _ hc (by decide)
  spade := fun hm => h _ hm (by decide)
  gapEnd := gapless_end (kept_free fun c hc hm => h c hc ((by decide : ∀ c ∈ c!"[:]", c ∈ c!" <«>»≧[]:\"`♠") c hm)).1
  gapStart := gapless_start (kept_free fun c hc hm => h c hc ((by decide : ∀ c ∈ c!"[:]", c ∈ c!" <«>»≧[]:\"`♠") c hm)).1
  lastKept := (kept_free fun c hc hm => h c hc ((by decide : ∀ c ∈ c!"[:]", c ∈ c!" <«>»≧[]:\"`♠") c hm)).2.1
  firstKept := (kept_free fun c hc hm => h c hc ((by decide : ∀ c ∈ c!"[:]", c ∈ c!" <«>»≧[]:\"`♠") c hm)).2.2
  wordEnd := fun p _ hs => h ' ' (hs.subset (by simp)) (by decide)
  wordStart := fun p _ hs => h ' ' (hs.subset (by simp)) (by decide)
  signEnd := fun c hc hs => h c (hs.subset (by simp)) (by clear hs; revert hc; revert c; decide)
  signStart := fun c hc hs => h c (hs.subset (by simp)) (by clear hs; revert hc; revert c; decide)

theorem written_eq (i : Ident) : varSource i = written i := by cases i <;> rfl

theorem same_ident {i j : Ident} (h1 : written i = written j) (h2 : varText i = varText j) : i = j := by
  have two : ∀ n : Text, (varText (.glob n)).length = n.length + 2 := fun n => by
    show (['$', '.'] ++ n).length = _
    rw [List.length_append]
    exact Nat.add_comm 2 _
  have l1 := congrArg List.length h1
  have l2 := congrArg List.length h2
  cases i with
  | glob n =>
    cases j with
    | glob k => exact congrArg _ h1
    | loc k => rw [two] at l2; simp [written, varText] at l1 l2; omega
    | ctx k => rw [two] at l2; simp [written, varText] at l1 l2; omega
  | loc n =>
    cases j with
    | glob k => rw [two] at l2; simp [written, varText] at l1 l2; omega
    | loc k => exact congrArg _ (List.cons.inj h1).2
    | ctx k => exact absurd (List.cons.inj h1).1 (by decide)
  | ctx n =>
    cases j with
    | glob k => rw [two] at l2; simp [written, varText] at l1 l2; omega
    | loc k => exact absurd (List.cons.inj h1).1 (by decide)
    | ctx k => exact congrArg _ (List.cons.inj h1).2

theorem var_chars {letter : Char → Bool} (hl : SignLetters letter) {v code : Text} (h : Variable letter v code) : ∀ c ∈ v, c ∉ c!" <«>»≧[]:\"`♠" := by
  have hv : ∀ c, varChar letter c = true → c ∉ c!" <«>»≧[]:\"`♠" := by
    intro c hc hm
    have : ∀ c ∈ c!" <«>»≧[]:\"`♠", c ∈ c!"$. <>≠÷≦≧«»[]:\"`♠" := by decide
    rw [var_not hl c (this c hm)] at hc
    cases hc
  intro c hc
  cases h with
  | global d n hd hn _ =>
    rcases List.mem_cons.mp hc with rfl | hc
    · refine hv c ?_
      rcases hd with h | rfl
      · simp [varChar, h]
      · simp [varChar]
    · exact hv c (hn c hc)
  | «local» n hn =>
    rcases List.mem_cons.mp hc with rfl | hc
    · decide
    · exact hv c (hn c hc)
  | context n hn =>
    rcases List.mem_cons.mp hc with rfl | hc
    · decide
    · exact hv c (hn c hc)

theorem var_filled {letter : Char → Bool} {v code : Text} (h : Variable letter v code) : v ≠ [] := by cases h <;> simp

theorem ident_clean {i : Ident} (h : IsIdent i) (hm : NoMarks (written i)) : CleanName (nameOf i) := by
  have key : ∀ n : Text, (n = [] ∨ IsName n) → ∀ c ∈ n, quietChar c := by
    intro n hn c hc
    rcases hn with rfl | hn
    · cases hc
    · have := hn.2.1 c hc
      simp only [isNameChar, List.mem_cons, List.not_mem_nil, or_false, not_or] at this
      obtain ⟨_, _, _, _, _, _, _, _, h1, _, h2, _, h3, h4, h5, h6⟩ := this
      refine ⟨h2, h1, ?_⟩
      simp only [List.mem_cons, List.not_mem_nil, or_false, not_or]
      exact ⟨h3, h4, h5, h6⟩
  cases i with
  | glob n => exact ⟨key n (.inr h), hm⟩
  | loc n => exact ⟨key n h, noMarks_part hm ⟨['$'], [], by simp [written]; rfl⟩⟩
  | ctx n => exact ⟨key n h, noMarks_part hm ⟨['.'], [], by simp [written]; rfl⟩⟩

/-- A variable. -/
theorem variable_go {letter : Char → Bool} (hl : SignLetters letter) {o : Orders} (ho : SomeOrder o) {i : Ident} (hv : Variable letter (varSource i) (varText i))
    (hi : IsIdent i) (hm : NoMarks (varSource i)) :
    ∃ m t, prepare o (varSource i) = some m ∧ m ≠ [] ∧ (∀ c, m.head? = some c → letter c = true ∨ c = '_') ∧ GoName letter m ∧ t = .ident m ∧ Same t (.ident i) := by
  obtain ⟨j, L, e1, e2, _, hL, hp, hg⟩ := prepare_marks hl ho hv hm
  have : i = j := same_ident (by rw [← written_eq, e1]) e2
  subst this
  obtain ⟨c, t, e, hc⟩ := hg.first
  refine ⟨flat L, .ident (flat L), hp, ?_, ?_, hg, rfl, .ident hL (ident_clean hi (by rw [← written_eq]; exact hm))⟩
  · rw [e]; simp
  · intro d hd
    rw [e] at hd
    cases hd
    exact hc

theorem digits_prepare {o : Orders} (ho : SomeOrder o) {d : Text} (h : ∀ c ∈ d, c.isDigit = true) : prepare o d = some d := by
  have out : ∀ {c : Char}, c.isDigit = false → c ∉ d := fun hc hm => by rw [h _ hm] at hc; cases hc
  have one : ∀ k ∈ reserved ++ Prepare.signs ++ wordOperators, ∃ c ∈ k.1, c.isDigit = false := by
    have : ∀ k ∈ reserved ++ Prepare.signs ++ wordOperators, (k.1.any fun c => !c.isDigit) = true := by decide +kernel
    intro k hk
    have := this k hk
    simpa [List.any_eq_true] using this
  have none : ∀ k ∈ reserved ++ Prepare.signs ++ wordOperators, replaceAll k.1 k.2 d = d := by
    intro k hk
    obtain ⟨c, hc, hn⟩ := one k hk
    exact replaceAll_free fun hi => out hn (hi.subset hc)
  rw [prepare_plain ho]
  · unfold rewrite
    rw [each_fixed fun k hk => none k (in_words ho hk), dots_free (out (by decide)), each_fixed fun k hk => none k (in_signs ho hk),
      each_fixed fun k hk => none k (in_operators ho hk), index_free (out (by decide)) (out (by decide))]
  · intro c hc
    refine ⟨?_, ?_, ?_⟩ <;> rintro rfl <;> exact out (by decide) hc

theorem quoted_literal {q : Char} {body : Text} (hq : q = '"' ∨ q = '`') (h : ∀ c ∈ body, c ≠ q ∧ literalChar c) : Literal (q :: (body ++ [q])) := by
  have hb : '\\' ∉ body := fun hm => (h _ hm).2.1 (by decide)
  rcases hq with rfl | rfl
  · refine .double body ?_ ?_
    · intro pre post e
      exact absurd rfl (h '"' (by rw [e]; simp)).1
    · rintro ⟨pre, n, e, _⟩
      exact hb (by rw [e, List.replicate_succ]; simp)
  · exact .backtick body fun hm => (h _ hm).1 rfl

theorem fine_quoted {q : Char} {body : Text} (hq : q = '"' ∨ q = '`') (h : ∀ c ∈ body, c ≠ q ∧ literalChar c) : Fine (q :: (body ++ [q])) := by
  have hq' : q ∉ wordChars ∧ q ∉ c!"<«" ∧ q ∉ c!">»≧" ∧ q ≠ '♠' ∧ q ≠ ' ' := by rcases hq with rfl | rfl <;> decide
  obtain ⟨q1, q2, q3, q4, q5⟩ := hq'
  have hlast : (q :: (body ++ [q])).getLast? = some q := by
    show (([q] ++ body) ++ [q]).getLast? = _
    rw [lastOf_append (by simp)]
    rfl
  refine ⟨closed_literal (quoted_literal hq h), ?_, ?_, ?_, ?_, ?_, ?_, ?_, ?_, ?_⟩
  · intro hm
    rcases List.mem_cons.mp hm with e | hm
    · exact q4 e.symm
    · rcases List.mem_append.mp hm with hm | hm
      · exact (h _ hm).2.1 (by decide)
      · exact q4 (List.mem_singleton.mp hm).symm
  · intro u hu hp
    by_cases e : u = []
    · subst e
      exact gapless_free nofun
    · have hs : [u.getLast e] <:+ q :: (body ++ [q]) := List.IsSuffix.trans ⟨u.dropLast, List.dropLast_concat_getLast e⟩ hu
      rw [singleton_suffix_iff, hlast] at hs
      refine absurd (hp (u.getLast e) (List.getLast_mem e)) ?_
      rw [← Option.some.inj hs]
      rcases hq with rfl | rfl <;> simp [Quote]
  · intro u hu hp
    cases u with
    | nil => exact gapless_free nofun
    | cons d u =>
      obtain ⟨e, _⟩ := List.cons_prefix_cons.mp hu
      refine absurd (hp d (List.mem_cons_self ..)) ?_
      rw [e]
      rcases hq with rfl | rfl <;> simp [Quote]
  · intro c hc
    rw [hlast] at hc
    cases hc
    rcases hq with rfl | rfl <;> decide
  · intro c hc
    cases hc
    rcases hq with rfl | rfl <;> decide
  · intro p hp hs
    obtain ⟨t, d, e⟩ : ∃ t d, p.1 = t ++ [d] := by
      rcases List.eq_nil_or_concat p.1 with h | ⟨t, d, h⟩
      · exact absurd h (word_letters p hp).1
      · exact ⟨t, d, by rw [h, List.concat_eq_append]⟩
    have hd := (word_letters p hp).2 d (by rw [e]; simp)
    have : (q :: (body ++ [q])).getLast? = some d := singleton_suffix_iff.mp (List.IsSuffix.trans ⟨' ' :: t, by rw [e]; simp⟩ hs)
    rw [hlast] at this
    cases this
    exact q1 hd
  · intro p hp hs
    obtain ⟨c, t, e⟩ := List.exists_cons_of_ne_nil (word_letters p hp).1
    have hc := (word_letters p hp).2 c (by rw [e]; simp)
    rw [e, List.cons_append, List.cons_prefix_cons] at hs
    exact q1 (hs.1 ▸ hc)
  · intro c hc hs
    rw [singleton_suffix_iff, hlast] at hs
    cases hs
    exact q2 hc
  · intro c hc hs
    rw [singleton_prefix_iff] at hs
    cases hs
    exact q3 hc

theorem quoted_prepare {o : Orders} (ho : SomeOrder o) {q : Char} {body : Text} (hq : q = '"' ∨ q = '`') (h : ∀ c ∈ body, c ≠ q ∧ literalChar c) :
    prepare o (q :: (body ++ [q])) = some (q :: (body ++ [q])) := by
  obtain ⟨A, B, a1, a2, a3⟩ := prepare_literal ho (a := []) (b := []) fine_nil.closed (quoted_literal hq h) (by simpa using (fine_quoted hq h).spade)
  rw [prepare_nil o ho] at a1 a2
  cases a1
  cases a2
  have : replaceAll ['@'] atSign (q :: (body ++ [q])) = q :: (body ++ [q]) := by
    refine replaceAll_free fun hi => ?_
    have hm : '@' ∈ q :: (body ++ [q]) := hi.subset (by simp)
    have hq' : '@' ≠ q := by rcases hq with rfl | rfl <;> decide
    rcases List.mem_cons.mp hm with e | hm
    · exact hq' e
    · rcases List.mem_append.mp hm with hm | hm
      · exact (h _ hm).2.1 (by decide)
      · exact hq' (List.mem_singleton.mp hm)
  simpa [this] using a3

/-! ## Between two texts -/

theorem neutral_symbol {g : Text} (hg : g ∈ exprSymbols) : Neutral g ∧ g ≠ [] ∧ ∀ c ∈ g, c ≠ ' ' := by
  have : ∀ g ∈ exprSymbols, (∀ w ∈ gapWords, contains w g = false) ∧ (∀ c ∈ g, c ∉ wordChars) ∧ g ≠ [] ∧ ∀ c ∈ g, c ≠ ' ' := by decide +kernel
  obtain ⟨h1, h2, h3, h4⟩ := this g hg
  have h1 : Gapless g := fun w hw hi => by
    have := h1 w hw
    rw [contains_iff.mpr hi] at this
    cases this
  exact ⟨⟨(symbol_plain hg).1, (symbol_plain hg).2, h1, h2⟩, h3, h4⟩

/-- An operator in one of its spellings. -/
theorem spelled_facts {x g : Text} (h : Spelled x g) : x ≠ [] ∧ Plain x ∧ '♠' ∉ x ∧ (Gapless x ∧ LastKept x ∧ FirstKept x) ∧ (∀ c, x.head? = some c → c ∉ wordChars) ∧ (∀ c, x.getLast? = some c → c ∉ wordChars) := by
  have plain : ∀ x : Text, (∀ c ∈ x, c ≠ '`' ∧ c ≠ '"') → Plain x := fun x h c hc hq => by
    rcases hq with e | e
    · exact (h c hc).1 e
    · exact (h c hc).2 e
  cases h with
  | @word w g h =>
    have : ∀ p ∈ wordTable, (∀ c ∈ ' ' :: (p.1 ++ [' ']), c ≠ '`' ∧ c ≠ '"') ∧ '♠' ∉ ' ' :: (p.1 ++ [' ']) ∧ ∀ c ∈ ' ' :: (p.1 ++ [' ']), c ∉ c!"[:]" := by decide +kernel
    obtain ⟨h1, h2, h3⟩ := this _ h
    refine ⟨by simp, plain _ h1, h2, kept_free h3, fun c hc => ?_, fun c hc => ?_⟩
    · cases hc; decide
    · have : ((' ' :: w) ++ [' ']).getLast? = some c := hc
      rw [lastOf_append (by simp)] at this
      cases this
      decide
  | sign h =>
    have : ∀ p ∈ signTable, p.1 ≠ [] ∧ (∀ c ∈ p.1, c ≠ '`' ∧ c ≠ '"') ∧ '♠' ∉ p.1 ∧ (∀ c ∈ p.1, c ∉ c!"[:]") ∧ ∀ c ∈ p.1, c ∉ wordChars := by decide +kernel
    obtain ⟨h0, h1, h2, h3, h4⟩ := this _ h
    exact ⟨h0, plain _ h1, h2, kept_free h3, fun c hc => h4 c (head_mem hc), fun c hc => h4 c (last_mem hc)⟩
  | go h =>
    have hg : x ∈ exprSymbols := List.mem_append_left _ (List.mem_map.mpr ⟨_, h, rfl⟩)
    obtain ⟨n1, n2, _⟩ := neutral_symbol hg
    have free : ∀ k ∈ goLevels, ∀ c ∈ k.1, c ∉ c!"[:]" := by decide
    exact ⟨n2, n1.plain, n1.spade, kept_free (free _ h), fun c hc => n1.letters c (head_mem hc), fun c hc => n1.letters c (last_mem hc)⟩

theorem fine_spelled {a x b g : Text} (h : Spelled x g) (ha : Fine a) (hb : Fine b) (na : NotWord a) (nb : NotWord b) (ha' : a ≠ []) (hb' : b ≠ []) : Fine (a ++ (x ++ b)) := by
  obtain ⟨h0, h1, h2, h3, h4, h5⟩ := spelled_facts h
  refine ⟨closed_append ha.closed (closed_append (plain_closed h1) hb.closed), ?_,
    gapEnd_append ha.gapEnd (gapEnd_append (gapless_end h3.1) hb.gapEnd (.inr hb.firstKept)) (.inl ha.lastKept),
    gapStart_append ha.gapStart (gapStart_append (gapless_start h3.1) hb.gapStart (.inr hb.firstKept)) (.inl ha.lastKept),
    kept_both ha.lastKept (kept_both h3.2.1 hb.lastKept), kept_both' ha.firstKept (kept_both' h3.2.2 hb.firstKept), ?_, ?_, ?_, ?_⟩
  · simp [ha.spade, hb.spade, h2]
  · rw [← List.append_assoc]
    refine wordEnd_append hb.wordEnd fun c hc => ?_
    rw [lastOf_append h0] at hc
    exact ⟨h5 c hc, fun _ => nb⟩
  · refine wordStart_append ha.wordStart fun c hc => ?_
    obtain ⟨d, t, rfl⟩ := List.exists_cons_of_ne_nil h0
    exact ⟨h4 c hc, fun _ => na⟩
  · exact signEnd_append (by simp [hb']) (signEnd_append hb' hb.signEnd)
  · exact signStart_append ha' ha.signStart

theorem prepare_spelled {o : Orders} (ho : SomeOrder o) {a x b g A B : Text} (h : Spelled x g) (ha : Fine a) (hb : Fine b) (hA : prepare o a = some A) (hB : prepare o b = some B) :
    prepare o (a ++ (x ++ b)) = some (A ++ (g ++ B)) := by
  have fin : (∃ A B, prepare o a = some A ∧ prepare o b = some B ∧ prepare o (a ++ (x ++ b)) = some (A ++ (g ++ B))) → prepare o (a ++ (x ++ b)) = some (A ++ (g ++ B)) := by
    rintro ⟨A', B', a1, a2, a3⟩
    rw [hA] at a1
    rw [hB] at a2
    cases a1
    cases a2
    exact a3
  obtain ⟨_, h1, h2, h3, _⟩ := spelled_facts h
  cases h with
  | word h =>
    refine fin (prepare_split ho ha.closed hb.closed ha.spade hb.spade h1 h2 fun a' b' ha' hp hb' hp' _ => ?_)
    exact rewrite_parts ho (passes_word ho h (fun p hp hs => ha.wordEnd p hp (hs.trans ha')) fun p hp hs => hb.wordStart p hp (hs.trans hb'))
      (gaps_around ha.gapEnd ha.lastKept hb.gapStart hb.firstKept h3.1 ha' hp hb' hp')
  | sign h =>
    refine fin (prepare_split ho ha.closed hb.closed ha.spade hb.spade h1 h2 fun a' b' ha' hp hb' hp' _ => ?_)
    exact rewrite_sign ho h (fun p hp hs => ha.signEnd p hp (hs.trans ha')) (fun p hp hs => hb.signStart p hp (hs.trans hb'))
  | go h =>
    have hg : x ∈ exprSymbols := List.mem_append_left _ (List.mem_map.mpr ⟨_, h, rfl⟩)
    refine fin (prepare_symbol ho hg ha.closed hb.closed ha.spade hb.spade ha.signEnd hb.signStart
      (fun a' b' ha' hp hb' hp' => gaps_around ha.gapEnd ha.lastKept hb.gapStart hb.firstKept h3.1 ha' hp hb' hp') fun e => ?_)
    have : ∀ q ∈ goLevels, q.1 ≠ c!")" ∧ q.1 ≠ c!"]" := by decide
    rcases e with e | e
    · exact absurd e (this _ h).1
    · exact absurd e (this _ h).2

/-- The signs that can stand next to any expression. -/
def looseSymbols : List Text := [c!"(", c!")", c!",", c!"[", c!"]", c!":", c!"+", c!"-", c!"!", c!"^", c!"&"]

theorem loose_facts : ∀ g ∈ looseSymbols, g ∈ exprSymbols ∧ (∀ c ∈ g, c ∉ c!"<«" ∧ c ∉ c!">»≧") := by decide +kernel

theorem fine_bound {a g b : Text} (hg : g ∈ looseSymbols) (ha : Fine a) (hb : Fine b) (h3 : g ∈ [c!"[", c!":"] → b ≠ []) (h4 : g ∈ [c!"]", c!":"] → a ≠ []) :
    Fine (a ++ (g ++ b)) := by
  obtain ⟨h1, h2⟩ := loose_facts g hg
  obtain ⟨n1, n2, n3⟩ := neutral_symbol h1
  have out : ∀ g ∈ looseSymbols, (g ∈ [c!"[", c!":"] ∨ ∀ c ∈ g, c ∉ c!"[:") ∧ (g ∈ [c!"]", c!":"] ∨ ∀ c ∈ g, c ∉ c!"]:") := by decide
  refine fine_neutral ha hb n1 n2 n3 ?_ ?_ ?_ ?_
  · by_cases h : b = []
    · subst h
      intro c hc hs
      rw [List.append_nil] at hs
      exact (h2 c (hs.subset (by simp))).1 hc
    · exact signEnd_append h hb.signEnd
  · by_cases h : a = []
    · subst h
      intro c hc hs
      exact (h2 c (hs.subset (by simp))).2 hc
    · exact signStart_append h ha.signStart
  · rcases (out g hg).1 with h | h
    · exact keptLast_append (h3 h) hb.lastKept
    · exact kept_both (fun c hc => h c (List.mem_of_getLast? hc)) hb.lastKept
  · rcases (out g hg).2 with h | h
    · exact keptFirst_append (h4 h) ha.firstKept
    · exact kept_both' ha.firstKept fun c hc => h c (List.mem_of_mem_head? hc)

theorem fine_loose {a g b : Text} (hg : g ∈ [c!"(", c!")", c!",", c!"+", c!"-", c!"!", c!"^", c!"&"]) (ha : Fine a) (hb : Fine b) : Fine (a ++ (g ++ b)) := by
  have up : ∀ g ∈ [c!"(", c!")", c!",", c!"+", c!"-", c!"!", c!"^", c!"&"], g ∈ looseSymbols ∧ g ∉ [c!"[", c!":"] ∧ g ∉ [c!"]", c!":"] := by decide
  obtain ⟨h1, h2, h3⟩ := up g hg
  exact fine_bound h1 ha hb (fun h => absurd h h2) fun h => absurd h h3

theorem prepare_loose {o : Orders} (ho : SomeOrder o) {a g b A B : Text} (hg : g ∈ looseSymbols) (ha : Fine a) (hb : Fine b) (hd : g = c!")" ∨ g = c!"]" → b = [])
    (hA : prepare o a = some A) (hB : prepare o b = some B) : prepare o (a ++ (g ++ b)) = some (A ++ (g ++ B)) := by
  obtain ⟨A', B', a1, a2, a3⟩ := prepare_symbol ho (loose_facts g hg).1 ha.closed hb.closed ha.spade hb.spade ha.signEnd hb.signStart
    (fun a' b' ha' hp hb' hp' => gaps_around ha.gapEnd ha.lastKept hb.gapStart hb.firstKept (neutral_symbol (loose_facts g hg).1).1.gaps ha' hp hb' hp')
    fun e => by rw [hd e]; simp
  rw [hA] at a1
  rw [hB] at a2
  cases a1
  cases a2
  exact a3

theorem follow_char {letter : Char → Bool} (hl : SignLetters letter) {c : Char} {rest : Text} (hc : c.toNat < 128 ∧ c.isAlpha = false ∧ c.isDigit = false ∧ c ≠ '_' ∧ c ≠ '.') :
    Follow letter (c :: rest) := by
  intro d hd
  cases hd
  obtain ⟨h1, h2, h3, h4, h5⟩ := hc
  refine ⟨?_, h5⟩
  simp [Translate.nameChar, h3, h4, hl.1.1 c h1, h2]

theorem follow_symbol {letter : Char → Bool} (hl : SignLetters letter) {g rest : Text} (hg : g ∈ exprSymbols) : Follow letter (g ++ rest) := by
  obtain ⟨h1, h2⟩ := symbol_chars g hg
  obtain ⟨c, t, rfl⟩ := List.exists_cons_of_ne_nil h1
  obtain ⟨a1, a2, a3, a4⟩ := h2 c (by simp)
  refine follow_char hl ⟨a1, a2, a3, fun e => a4 (by rw [e]; decide), ?_⟩
  rintro rfl
  have : ∀ g ∈ exprSymbols, '.' ∉ g := by decide +kernel
  exact this _ hg (by simp)

theorem follow_spaces {letter : Char → Bool} (hl : SignLetters letter) {r rest : Text} (hr : Spaces r) (h : Follow letter rest) : Follow letter (r ++ rest) := by
  cases r with
  | nil => exact h
  | cons c r =>
    have := hr c (by simp)
    subst this
    exact follow_char hl (by decide)

/-- What `Ready` says, for an expression between spaces. -/
theorem padded {letter : Char → Bool} (hl : SignLetters letter) {o : Orders} (ho : SomeOrder o) {p : Nat} {l s r : Text} {e : Expr} (h : Ready letter o p s e)
    (h1 : Spaces l) (h2 : Spaces r) : Fine (l ++ (s ++ r)) ∧ ∃ m ts t, prepare o (l ++ (s ++ r)) = some m ∧
      (∀ rest, Follow letter rest → Translate.tokens letter (m ++ rest) = (Translate.tokens letter rest).map (ts ++ ·)) ∧ Level p ts t ∧ Same t e := by
  obtain ⟨m, ts, t, g1, _, _, g4, g5, g6⟩ := h.go
  refine ⟨fine_left h1 (fine_right h2 h.fine h.word) (notWord_right h2 h.word), l ++ (m ++ r), ts, t,
    prepare_left ho (fine_right h2 h.fine h.word) (notWord_right h2 h.word) h1 (prepare_right ho h.fine h.word h2 g1), fun rest hr => ?_, g5, g6⟩
  rw [List.append_assoc, scan_spaces letter h1, List.append_assoc, g4 _ (follow_after (follow_spaces hl h2 hr) _), scan_spaces letter h2]

theorem args_ready {letter : Char → Bool} (hl : SignLetters letter) {o : Orders} (ho : SomeOrder o) : ∀ (args : List Arg), (∀ a ∈ args, Spaces a.left ∧ Spaces a.right) →
    (∀ a ∈ args, Ready letter o 1 a.text a.expr) → Fine (join [','] (args.map fun a => a.left ++ (a.text ++ a.right))) ∧
      ∃ (m : Text) (ns : List (List Translate.Token × Translate.Node × Expr)), prepare o (join [','] (args.map fun a => a.left ++ (a.text ++ a.right))) = some m ∧
        (∀ rest, Follow letter rest → Translate.tokens letter (m ++ rest) = (Translate.tokens letter rest).map (commas (ns.map (·.1)) ++ ·)) ∧
        ns.map (·.2.2) = args.map (·.expr) ∧ (∀ x ∈ ns, Level 1 x.1 x.2.1 ∧ Same x.2.1 x.2.2) := by
  intro args
  induction args with
  | nil =>
    intro _ _
    exact ⟨fine_nil, [], [], prepare_nil o ho, fun rest _ => by simp [commas], rfl, nofun⟩
  | cons a as ih =>
    intro hs hr
    obtain ⟨i1, m, ns, i2, i3, i4, i5⟩ := ih (fun b hb => hs b (List.mem_cons_of_mem _ hb)) fun b hb => hr b (List.mem_cons_of_mem _ hb)
    obtain ⟨j1, m', ts, t, j2, j3, j4, j5⟩ := padded hl ho (hr a (by simp)) (hs a (by simp)).1 (hs a (by simp)).2
    cases as with
    | nil =>
      refine ⟨j1, m', [(ts, t, a.expr)], j2, j3, rfl, ?_⟩
      intro x hx
      rw [List.mem_singleton.mp hx]
      exact ⟨j4, j5⟩
    | cons b bs =>
      have e : join [','] ((a :: b :: bs).map fun a => a.left ++ (a.text ++ a.right)) =
          (a.left ++ (a.text ++ a.right)) ++ (c!"," ++ join [','] ((b :: bs).map fun a => a.left ++ (a.text ++ a.right))) := by
        simp [join]
      rw [e]
      cases ns with
      | nil => cases i4
      | cons y ys =>
        refine ⟨fine_loose (by decide) j1 i1, m' ++ (c!"," ++ m), (ts, t, a.expr) :: y :: ys, prepare_loose ho (by decide) j1 i1 (fun h => absurd h (by decide)) j2 i2,
          fun rest hf => ?_, ?_, ?_⟩
        · rw [List.append_assoc, List.append_assoc, j3 _ (follow_symbol hl (by decide)), tokens_symbol hl (by decide) (apart_delimiter (by decide) _), i3 _ hf]
          simp [commas, Option.map_map, Function.comp_def]
        · simp only [List.map_cons] at i4 ⊢
          rw [i4]
        · intro x hx
          rcases List.mem_cons.mp hx with rfl | hx
          · exact ⟨j4, j5⟩
          · exact i5 x hx

theorem letter_apart {letter : Char → Bool} (hl : SignLetters letter) {c : Char} (h : letter c = true ∨ c = '_') : c ∉ c!"=<>+-*/&|^.:" := by
  intro hm
  rcases h with h | rfl
  · have : ∀ c ∈ c!"=<>+-*/&|^.:", c.toNat < 128 ∧ c.isAlpha = false := by decide
    obtain ⟨h1, h2⟩ := this c hm
    rw [hl.1.1 c h1, h2] at h
    cases h
  · revert hm
    decide

/-- What stands after an operator, once prepared, does not make it longer either. -/
theorem apart_prepared {letter : Char → Bool} (hl : SignLetters letter) {g r b B : Text} (rest : Text) (hg : g ≠ []) (hB : B ≠ [])
    (h : ∀ c, B.head? = some c → (letter c = true ∨ c = '_') ∨ b.head? = some c) (ha : StaysShort g (r ++ b)) : StaysShort g (r ++ (B ++ rest)) := by
  cases r with
  | cons c r => exact fun d hd => ha d hd
  | nil =>
    obtain ⟨c, t, rfl⟩ := List.exists_cons_of_ne_nil hB
    rcases h c rfl with h | h
    · exact apart_char (c := c) rfl (letter_apart hl h) hg
    · intro d hd
      cases hd
      exact ha c h

theorem literal_clean {v : Text} (hc : ∀ c ∈ v, quietChar c) (hm : NoMarks v) : CleanName v := ⟨hc, hm⟩

theorem head_append {a b : Text} (h : a ≠ []) : (a ++ b).head? = a.head? := by
  cases a with
  | nil => exact absurd rfl h
  | cons c a => rfl

theorem noWord_quiet {s : Text} {c : Char} (hm : c ∈ s) (hc : c ∉ wordChars) : NotWord s := notWord_space ⟨c, hm, hc⟩

theorem digit_facts {c : Char} (h : c.isDigit = true) : c ∉ c!" <«>»≧[]:\"`♠" ∧ c ∉ wordChars ∧ quietChar c := by
  have out : ∀ {d : Char}, d.isDigit = false → c ≠ d := fun hd e => by rw [e, hd] at h; cases h
  have a1 : ∀ d ∈ c!" <«>»≧[]:\"`♠", d.isDigit = false := by decide
  have a2 : ∀ d ∈ wordChars, d.isDigit = false := by decide
  have a3 : ∀ d ∈ [dotRep, globalRep, funcCall, dollarRep], d.isDigit = false := by decide
  exact ⟨fun hm => out (a1 c hm) rfl, fun hm => out (a2 c hm) rfl, out (by decide), out (by decide), fun hm => out (a3 c hm) rfl⟩

theorem join_part {args : List Arg} {a : Arg} (h : a ∈ args) : a.text <:+: join [','] (args.map fun a => a.left ++ (a.text ++ a.right)) := by
  have self : a.text <:+: a.left ++ (a.text ++ a.right) := ⟨a.left, a.right, by simp⟩
  induction args with
  | nil => cases h
  | cons b bs ih =>
    cases bs with
    | nil =>
      have := List.mem_singleton.mp h
      subst this
      exact self
    | cons d ds =>
      rcases List.mem_cons.mp h with rfl | h
      · exact self.trans ⟨[], [','] ++ join [','] ((d :: ds).map fun a => a.left ++ (a.text ++ a.right)), by simp [join]⟩
      · exact (ih h).trans ⟨(b.left ++ (b.text ++ b.right)) ++ [','], [], by simp [join]⟩

theorem source_dottable {letter : Char → Bool} {p : Nat} {s : Text} {e : Expr} (h : ExprText letter p s e) (hp : p = 7) (he : ∀ v, inner e ≠ .lit v) : dottable e = true := by
  have levels : ∀ k ∈ goLevels, k.2 ≠ 7 := by decide
  cases h with
  | number => exact absurd rfl (he _)
  | quoted => exact absurd rfl (he _)
  | unary => cases hp
  | binary _ h => exact absurd hp (levels _ h)
  | up h => omega
  | _ => rfl

/-- No expression begins with an equal sign. -/
theorem source_first {letter : Char → Bool} (hl : SignLetters letter) {p : Nat} {s : Text} {e : Expr} (h : ExprText letter p s e) : s ≠ [] ∧ s.head? ≠ some '=' := by
  have app : ∀ {a b : Text}, a ≠ [] ∧ a.head? ≠ some '=' → a ++ b ≠ [] ∧ (a ++ b).head? ≠ some '=' := fun h => ⟨by simp [h.1], by rw [head_append h.1]; exact h.2⟩
  have var : ∀ {v code : Text}, Variable letter v code → v ≠ [] ∧ v.head? ≠ some '=' := fun h => by
    refine ⟨var_filled h, fun e => ?_⟩
    cases h with
    | global d n hd _ _ =>
      cases e
      rcases hd with h | h
      · rw [hl.1.1 _ (by decide)] at h
        revert h
        decide
      · revert h
        decide
    | «local» => cases e
    | context => cases e
  induction h with
  | «variable» i h _ _ => exact var h
  | @number d h1 h2 =>
    refine ⟨h1, fun e => ?_⟩
    have := h2 '=' (head_mem e)
    revert this
    decide
  | @quoted q body h1 _ =>
    refine ⟨by simp, fun e => ?_⟩
    cases e
    revert h1
    decide
  | paren => exact ⟨by simp, by simp⟩
  | call _ h _ _ _ _ => exact app (var h)
  | sel _ _ _ _ _ _ ih => exact app ih
  | method _ _ _ _ _ ih _ => exact app ih
  | index _ _ _ _ ih _ => exact app ih
  | slice _ _ _ _ _ _ _ ih _ _ => exact app ih
  | @unary g l s e h1 _ _ _ _ =>
    exact app ((by decide : ∀ g ∈ [c!"+", c!"-", c!"!", c!"^", c!"&"], g ≠ [] ∧ g.head? ≠ some '=') g h1)
  | binary _ _ _ _ _ _ _ ih _ => exact app ih
  | up _ _ ih => exact ih

/-- The colon of a slice. -/
theorem apart_colon {letter : Char → Bool} (hl : SignLetters letter) {o : Orders} (ho : SomeOrder o) {p : Nat} {l s r m : Text} {e : Expr} (hs : ExprText letter p s e) (h : Ready letter o p s e)
    (h1 : Spaces l) (h2 : Spaces r) (hm : prepare o (l ++ (s ++ r)) = some m) (rest : Text) : StaysShort c!":" (m ++ rest) := by
  have two : ∀ t ∈ Translate.symbols ++ [c!"//", c!"/*"], ':' = t.headD ' ' → t = c!":" ∨ t = c!":=" := by decide +kernel
  intro c hc t ht hp
  obtain ⟨v, hv⟩ := hp
  have hc' : c = '=' := by
    rcases two t ht (by rw [← hv]; rfl) with e | e
    · rw [e] at hv
      cases hv
    · rw [e] at hv
      simp at hv
      exact hv.1
  subst hc'
  obtain ⟨m0, _, _, g1, g2, g3, _⟩ := h.go
  rw [prepare_left ho (fine_right h2 h.fine h.word) (notWord_right h2 h.word) h1 (prepare_right ho h.fine h.word h2 g1)] at hm
  cases hm
  cases l with
  | cons d l =>
    cases hc
    exact absurd (h1 '=' (by simp)) (by decide)
  | nil =>
    rw [List.nil_append, List.append_assoc, head_append g2] at hc
    rcases g3 _ hc with h' | h'
    · refine letter_apart hl h' ?_
      decide
    · exact (source_first hl hs).2 h'

theorem source_ready {letter : Char → Bool} (hl : SignLetters letter) {o : Orders} (ho : SomeOrder o) {p : Nat} {s : Text} {e : Expr} (h : ExprText letter p s e)
    (hm : NoMarks s) : Ready letter o p s e := by
  induction h with
  | «variable» i h1 h2 h3 =>
    obtain ⟨m, t, g1, g2, g3, g4, rfl, g6⟩ := variable_go hl ho h1 h2 hm
    refine ⟨fine_quiet (var_chars hl h1), h3, ?_, m, [.name m], _, g1, g2, fun c hc => .inl (g3 c hc), fun rest hr => scan_name hl g4 fun c hc => (hr c hc).1, .name m, g6⟩
    exact var_filled h1
  | @number d h1 h2 =>
    obtain ⟨c, t, e⟩ := List.exists_cons_of_ne_nil h1
    have hc : c ∈ d := by rw [e]; simp
    refine ⟨fine_quiet fun c hc => (digit_facts (h2 c hc)).1, noWord_quiet hc (digit_facts (h2 c hc)).2.1, h1, d, [.lit d], .lit d, digits_prepare ho h2, h1,
      fun c hc => .inr hc, fun rest hr => scan_number hl h1 h2 (after_follow hr rfl), .lit d, .lit ⟨fun c hc => (digit_facts (h2 c hc)).2.2, hm⟩⟩
  | @quoted q body h1 h2 =>
    have hb : ∀ c ∈ body, c ≠ q ∧ c ≠ '\\' ∧ c ≠ '\n' := fun c hc => by
      refine ⟨(h2 c hc).1, ?_, ?_⟩ <;> rintro rfl <;> exact (h2 _ hc).2.1 (by decide)
    have hq : q ∉ wordChars ∧ quietChar q := by rcases h1 with rfl | rfl <;> refine ⟨by decide, by decide, by decide, by decide⟩
    refine ⟨fine_quoted h1 h2, noWord_quiet (c := q) (by simp) hq.1, by simp, _, [.lit (q :: (body ++ [q]))], .lit (q :: (body ++ [q])), quoted_prepare ho h1 h2, by simp,
      fun c hc => .inr hc, fun rest _ => scan_quoted hl h1 hb rest, .lit _, .lit ⟨fun c hc => ?_, hm⟩⟩
    rcases List.mem_cons.mp hc with rfl | hc
    · exact hq.2
    · rcases List.mem_append.mp hc with hc | hc
      · have := (h2 c hc).2
        refine ⟨?_, ?_, this.2⟩ <;> rintro rfl <;> exact this.1 (by decide)
      · rw [List.mem_singleton.mp hc]
        exact hq.2
  | @paren l s r e h1 h2 _ ih =>
    have ih := ih (noMarks_part hm ⟨'(' :: l, r ++ [')'], by simp⟩)
    obtain ⟨j1, m, ts, t, j2, j3, j4, j5⟩ := padded hl ho ih h1 h2
    have e : '(' :: (l ++ (s ++ (r ++ [')']))) = [] ++ (c!"(" ++ ((l ++ (s ++ r)) ++ (c!")" ++ []))) := by simp
    have f1 : Fine ((l ++ (s ++ r)) ++ (c!")" ++ [])) := fine_loose (by decide) j1 fine_nil
    have p1 := prepare_loose ho (g := c!")") (by decide) j1 fine_nil (fun _ => rfl) j2 (prepare_nil o ho)
    have p2 := prepare_loose ho (g := c!"(") (by decide) fine_nil f1 (fun h => absurd h (by decide)) (prepare_nil o ho) p1
    rw [e]
    refine ⟨fine_loose (by decide) fine_nil f1, noWord_quiet (c := '(') (by simp) (by decide), by simp, _, .sym c!"(" :: (ts ++ [.sym c!")"]), .paren t, p2, by simp,
      fun c hc => .inr hc, fun rest hr => ?_, .paren j4, .paren j5⟩
    have e' : [] ++ (c!"(" ++ (m ++ (c!")" ++ []))) ++ rest = c!"(" ++ (m ++ (c!")" ++ rest)) := by simp
    rw [e', tokens_symbol hl (by decide) (apart_delimiter (by decide) _)]
    rw [j3 _ (by exact follow_symbol (g := c!")") hl (by decide)), tokens_symbol hl (by decide) (apart_delimiter (by decide) _)]
    simp [Option.map_map, Function.comp_def]
  | @call n args h1 h2 h3 _ ih =>
    have hj : join [','] (args.map fun a => a.left ++ (a.text ++ a.right)) <:+: n ++ '(' :: (join [','] (args.map fun a => a.left ++ (a.text ++ a.right)) ++ [')']) :=
      ⟨n ++ ['('], [')'], by simp⟩
    obtain ⟨j1, m, ns, j2, j3, j4, j5⟩ := args_ready hl ho args h3 fun a ha => ih a ha (noMarks_part hm ((join_part ha).trans hj))
    have hn : NoMarks n := noMarks_part hm ⟨[], '(' :: (join [','] (args.map fun a => a.left ++ (a.text ++ a.right)) ++ [')']), by simp⟩
    obtain ⟨m', t, g1, g2, g3, g4, rfl, g6⟩ := variable_go (i := .glob n) hl ho h1 h2 hn
    have f0 : Fine n := fine_quiet (var_chars hl h1)
    have f1 := fine_loose (g := c!")") (by decide) j1 fine_nil
    have p1 := prepare_loose ho (g := c!")") (by decide) j1 fine_nil (fun _ => rfl) j2 (prepare_nil o ho)
    have p2 := prepare_loose ho (g := c!"(") (by decide) f0 f1 (fun h => absurd h (by decide)) g1 p1
    refine ⟨fine_loose (g := c!"(") (by decide) f0 f1, noWord_quiet (c := '(') (by simp) (by decide), by simp, _, _, _, p2, by simp,
      fun c hc => ?_, fun rest hr => ?_, .call (ns.map fun x => (x.1, x.2.1)) (.name m') ?_, ?_⟩
    · rw [head_append g2] at hc
      exact .inl (g3 c hc)
    · rw [List.append_assoc, List.append_assoc, scan_name hl g4 fun c hc => (follow_symbol (g := c!"(") hl (by decide) c hc).1, tokens_symbol hl (by decide) (apart_delimiter (by decide) _),
        List.append_assoc, j3 _ (by exact follow_symbol (g := c!")") hl (by decide)), List.append_nil, tokens_symbol hl (by decide) (apart_delimiter (by decide) _)]
      simp [Option.map_map, Function.comp_def]
    · intro a ha
      obtain ⟨x, hx, rfl⟩ := List.mem_map.mp ha
      exact (j5 x hx).1
    · have := Same.call (ns.map (·.2)) g6 (fun a ha => by
        obtain ⟨x, hx, rfl⟩ := List.mem_map.mp ha
        exact (j5 x hx).2)
      rw [← j4]
      simpa [List.map_map, Function.comp_def] using this
  | @sel s e c n h0 h1 h2 h3 h4 h5 ih =>
    have ih := ih (noMarks_part hm ⟨[], '.' :: n, by simp⟩)
    have hn : NoMarks n := noMarks_part hm ⟨s ++ ['.'], [], by simp⟩
    obtain ⟨m, ts, t, g1, g2, g3, g4, g5, g6⟩ := ih.go
    obtain ⟨i, L, e1, e2, k1, k2, k3, k4⟩ := prepare_marks hl ho h4 hn
    have hi : Ident.glob n = i := same_ident (by rw [← e1]; rfl) e2
    subst hi
    cases k2 with
    | glob k2 =>
    have hq := var_chars hl h4
    have hv : ∀ c ∈ n, c ≠ '.' ∧ c ≠ ' ' ∧ c ≠ '\t' := by
      intro c hc
      have := h5.2.1 c hc
      simp only [isNameChar, List.mem_cons, List.not_mem_nil, or_false, not_or] at this
      exact ⟨this.2.2.2.2.2.2.2.2.2.1, this.1, this.2.1⟩
    have hd : BeforeDot c ∨ c = '$' := by
      rcases h3 with h | rfl | rfl | rfl | rfl
      · exact .inl (.inl (by simp [wordChar, h]))
      · exact .inl (.inl (by decide))
      · exact .inl (.inr (.inl rfl))
      · exact .inl (.inr (.inr rfl))
      · exact .inr rfl
    have fn := fine_quiet hq
    obtain ⟨A, B, a1, a2, a3⟩ := prepare_dot ho hd (singleton_suffix_iff.mpr h2) ih.fine.closed fn.closed ih.fine.spade fn.spade fun hm => (hv _ hm).1 rfl
    rw [g1] at a1
    rw [k3] at a2
    cases a1
    cases a2
    have nd : Neutral c!"." := ⟨fun c hc hq => by
      rw [List.mem_singleton.mp hc] at hq
      rcases hq with h | h <;> revert h <;> decide, by decide, (kept_free (by decide)).1, by decide⟩
    obtain ⟨d, r, hdr, hd1⟩ := k4.first
    refine ⟨fine_neutral (x := c!".") ih.fine fn nd (by decide) (by decide) (signEnd_append (var_filled h4) fn.signEnd) (signStart_append ih.filled ih.fine.signStart)
        (keptLast_append (var_filled h4) fn.lastKept) (keptFirst_append ih.filled ih.fine.firstKept),
      noWord_quiet (c := '.') (by simp) (by decide), by simp, _, ts ++ [.sym c!".", .name (flat L)], .sel t (flat L), a3, by simp, fun c hc => ?_, fun rest hr => ?_, .sel _ g5,
      .sel g6 k2 (ident_clean (i := .glob n) h5 hn) fun c hc => (hv c hc).2⟩
    · rw [head_append g2] at hc
      rw [head_append ih.filled]
      exact g3 c hc
    · rw [List.append_assoc, List.append_assoc, g4 _ ?_, tokens_sign hl (by decide) ?_, scan_name hl k4 fun c hc => (hr c hc).1]
      · simp [Option.map_map, Function.comp_def]
      · rw [hdr]
        exact apart_char (c := d) rfl (letter_apart hl hd1) (by decide)
      · intro x hx
        cases hx
        refine ⟨?_, fun h => ?_⟩
        · have := hl.1.1 '.' (by decide)
          simp [Translate.nameChar, this]
        · rw [source_dottable h0 rfl h1] at h
          cases h
  | @method s e n args h0 h2 h3 _ ih ih' =>
    have hj : join [','] (args.map fun a => a.left ++ (a.text ++ a.right)) <:+: s ++ '(' :: (join [','] (args.map fun a => a.left ++ (a.text ++ a.right)) ++ [')']) :=
      ⟨s ++ ['('], [')'], by simp⟩
    obtain ⟨j1, m, ns, j2, j3, j4, j5⟩ := args_ready hl ho args h3 fun a ha => ih' a ha (noMarks_part hm ((join_part ha).trans hj))
    have ih := ih (noMarks_part hm ⟨[], '(' :: (join [','] (args.map fun a => a.left ++ (a.text ++ a.right)) ++ [')']), by simp⟩)
    obtain ⟨m', ts, t, g1, g2, g3, g4, g5, g6⟩ := ih.go
    have f1 := fine_loose (g := c!")") (by decide) j1 fine_nil
    have p1 := prepare_loose ho (g := c!")") (by decide) j1 fine_nil (fun _ => rfl) j2 (prepare_nil o ho)
    have p2 := prepare_loose ho (g := c!"(") (by decide) ih.fine f1 (fun h => absurd h (by decide)) g1 p1
    refine ⟨fine_loose (g := c!"(") (by decide) ih.fine f1, noWord_quiet (c := '(') (by simp) (by decide), by simp, _, _, _, p2, by simp,
      fun c hc => ?_, fun rest hr => ?_, .call (ns.map fun x => (x.1, x.2.1)) g5 ?_, ?_⟩
    · rw [head_append g2] at hc
      rw [head_append ih.filled]
      exact g3 c hc
    · rw [List.append_assoc, List.append_assoc, g4 _ (follow_after (follow_symbol hl (by decide)) _), tokens_symbol hl (by decide) (apart_delimiter (by decide) _),
        List.append_assoc, j3 _ (by exact follow_symbol (g := c!")") hl (by decide)), List.append_nil, tokens_symbol hl (by decide) (apart_delimiter (by decide) _)]
      simp [Option.map_map, Function.comp_def]
    · intro a ha
      obtain ⟨x, hx, rfl⟩ := List.mem_map.mp ha
      exact (j5 x hx).1
    · have := Same.call (ns.map (·.2)) g6 (fun a ha => by
        obtain ⟨x, hx, rfl⟩ := List.mem_map.mp ha
        exact (j5 x hx).2)
      rw [← j4]
      simpa [List.map_map, Function.comp_def] using this
  | @index s e l t r i _ h1 h2 _ ih ih' =>
    have ih := ih (noMarks_part hm ⟨[], '[' :: (l ++ (t ++ (r ++ [']']))), by simp⟩)
    have ih' := ih' (noMarks_part hm ⟨s ++ '[' :: l, r ++ [']'], by simp⟩)
    obtain ⟨m, ts, x, g1, g2, g3, g4, g5, g6⟩ := ih.go
    obtain ⟨j1, m', us, y, j2, j3, j4, j5⟩ := padded hl ho ih' h1 h2
    have e : s ++ '[' :: (l ++ (t ++ (r ++ [']']))) = s ++ (c!"[" ++ ((l ++ (t ++ r)) ++ (c!"]" ++ []))) := by simp
    have f1 : Fine ((l ++ (t ++ r)) ++ (c!"]" ++ [])) := fine_bound (by decide) j1 fine_nil (fun h => absurd h (by decide)) fun _ => by simp [ih'.filled]
    have p1 := prepare_loose ho (g := c!"]") (by decide) j1 fine_nil (fun _ => rfl) j2 (prepare_nil o ho)
    have p2 := prepare_loose ho (g := c!"[") (by decide) ih.fine f1 (fun h => absurd h (by decide)) g1 p1
    rw [e]
    refine ⟨fine_bound (by decide) ih.fine f1 (fun _ => by simp) fun _ => ih.filled, noWord_quiet (c := '[') (by simp) (by decide), by simp, _, _, _, p2, by simp,
      fun c hc => ?_, fun rest hr => ?_, .index g5 j4, .index g6 j5⟩
    · rw [head_append g2] at hc
      rw [head_append ih.filled]
      exact g3 c hc
    · have e' : m ++ (c!"[" ++ (m' ++ (c!"]" ++ []))) ++ rest = m ++ (c!"[" ++ (m' ++ (c!"]" ++ rest))) := by simp
      rw [e', g4 _ (follow_after (follow_symbol hl (by decide)) _), tokens_symbol hl (by decide) (apart_delimiter (by decide) _),
        j3 _ (by exact follow_symbol (g := c!"]") hl (by decide)), tokens_symbol hl (by decide) (apart_delimiter (by decide) _)]
      simp [Option.map_map, Function.comp_def]
  | @slice s e l t r i l' t' r' j _ h1 h2 h3 h4 _ h0 ih ih' ih'' =>
    have ih := ih (noMarks_part hm ⟨[], '[' :: (l ++ (t ++ (r ++ ':' :: (l' ++ (t' ++ (r' ++ [']'])))))), by simp⟩)
    have ih' := ih' (noMarks_part hm ⟨s ++ '[' :: l, r ++ ':' :: (l' ++ (t' ++ (r' ++ [']']))), by simp⟩)
    have ih'' := ih'' (noMarks_part hm ⟨s ++ '[' :: (l ++ (t ++ (r ++ ':' :: l'))), r' ++ [']'], by simp⟩)
    obtain ⟨m, ts, x, g1, g2, g3, g4, g5, g6⟩ := ih.go
    obtain ⟨j1, m', us, y, j2, j3, j4, j5⟩ := padded hl ho ih' h1 h2
    obtain ⟨k1, m'', vs, z, k2, k3, k4, k5⟩ := padded hl ho ih'' h3 h4
    have e : s ++ '[' :: (l ++ (t ++ (r ++ ':' :: (l' ++ (t' ++ (r' ++ [']'])))))) =
        s ++ (c!"[" ++ ((l ++ (t ++ r)) ++ (c!":" ++ ((l' ++ (t' ++ r')) ++ (c!"]" ++ []))))) := by simp
    have f1 : Fine ((l' ++ (t' ++ r')) ++ (c!"]" ++ [])) := fine_bound (by decide) k1 fine_nil (fun h => absurd h (by decide)) fun _ => by simp [ih''.filled]
    have f2 : Fine ((l ++ (t ++ r)) ++ (c!":" ++ ((l' ++ (t' ++ r')) ++ (c!"]" ++ [])))) := fine_bound (by decide) j1 f1 (fun _ => by simp) fun _ => by simp [ih'.filled]
    have p1 := prepare_loose ho (g := c!"]") (by decide) k1 fine_nil (fun _ => rfl) k2 (prepare_nil o ho)
    have p2 := prepare_loose ho (g := c!":") (by decide) j1 f1 (fun h => absurd h (by decide)) j2 p1
    have p3 := prepare_loose ho (g := c!"[") (by decide) ih.fine f2 (fun h => absurd h (by decide)) g1 p2
    rw [e]
    refine ⟨fine_bound (by decide) ih.fine f2 (fun _ => by simp) fun _ => ih.filled, noWord_quiet (c := '[') (by simp) (by decide), by simp, _, _, _, p3, by simp,
      fun c hc => ?_, fun rest hr => ?_, .slice g5 j4 k4, .slice g6 j5 k5⟩
    · rw [head_append g2] at hc
      rw [head_append ih.filled]
      exact g3 c hc
    · have e' : m ++ (c!"[" ++ (m' ++ (c!":" ++ (m'' ++ (c!"]" ++ []))))) ++ rest = m ++ (c!"[" ++ (m' ++ (c!":" ++ (m'' ++ (c!"]" ++ rest))))) := by simp
      rw [e', g4 _ (follow_after (follow_symbol hl (by decide)) _), tokens_symbol hl (by decide) (apart_delimiter (by decide) _),
        j3 _ (by exact follow_symbol (g := c!":") hl (by decide)), tokens_symbol hl (by decide) (apart_colon hl ho h0 ih'' h3 h4 k2 _),
        k3 _ (by exact follow_symbol (g := c!"]") hl (by decide)), tokens_symbol hl (by decide) (apart_delimiter (by decide) _)]
      simp [Option.map_map, Function.comp_def]
  | @unary g l s e h1 h2 h3 _ ih =>
    have ih := ih (noMarks_part hm ⟨g ++ l, [], by simp⟩)
    obtain ⟨m, ts, t, g1, g2, g3, g4, g5, g6⟩ := ih.go
    have hg : g ∈ looseSymbols := (by decide : ∀ g ∈ [c!"+", c!"-", c!"!", c!"^", c!"&"], g ∈ looseSymbols) g h1
    obtain ⟨k1, k2⟩ := loose_facts g hg
    have hne : g ≠ [] := (neutral_symbol k1).2.1
    obtain ⟨d, x, hd⟩ := List.exists_cons_of_ne_nil hne
    have f1 := fine_left h2 ih.fine ih.word
    have p2 := prepare_loose ho hg fine_nil f1 (fun h => absurd h ((by decide : ∀ g ∈ [c!"+", c!"-", c!"!", c!"^", c!"&"], ¬ (g = c!")" ∨ g = c!"]")) g h1)) (prepare_nil o ho) (prepare_left ho ih.fine ih.word h2 g1)
    refine ⟨by exact fine_loose (a := []) (List.mem_append_right [c!"(", c!")", c!","] h1) fine_nil f1, noWord_quiet (c := d) (by rw [hd]; simp) ((neutral_symbol k1).1.letters d (by rw [hd]; simp)), by simp [hne], _, .sym g :: ts, .unary g t, p2,
      by simp [hne], fun c hc => .inr ?_, fun rest hr => ?_, .unary h1 g5, .unary g6⟩
    · rw [hd] at hc ⊢
      exact hc
    · show Translate.tokens letter ((g ++ (l ++ m)) ++ rest) = _
      rw [List.append_assoc, List.append_assoc, tokens_symbol hl k1 (apart_prepared hl rest hne g2 g3 h3), scan_spaces letter h2, g4 rest (follow_after (after_follow hr rfl) _)]
      simp [Option.map_map, Function.comp_def]
  | @binary a l x r b g p e e' h1 h2 h3 h4 h5 _ _ ih ih' =>
    have ih := ih (noMarks_part hm ⟨[], l ++ (x ++ (r ++ b)), by simp⟩)
    have ih' := ih' (noMarks_part hm ⟨a ++ (l ++ (x ++ r)), [], by simp⟩)
    obtain ⟨m, ts, t, g1, g2, g3, g4, g5, g6⟩ := ih.go
    obtain ⟨m', ts', t', k1, k2, k3, k4, k5, k6⟩ := ih'.go
    have hg : g ∈ exprSymbols := List.mem_append_left _ (List.mem_map.mpr ⟨_, h2, rfl⟩)
    have f1 := fine_right h3 ih.fine ih.word
    have f2 := fine_left h4 ih'.fine ih'.word
    have e : a ++ (l ++ (x ++ (r ++ b))) = (a ++ l) ++ (x ++ (r ++ b)) := by simp
    have p1 := prepare_spelled ho h1 f1 f2 (prepare_right ho ih.fine ih.word h3 g1) (prepare_left ho ih'.fine ih'.word h4 k1)
    rw [e]
    obtain ⟨s1, _, _, _, s2, _⟩ := spelled_facts h1
    obtain ⟨d, y, hd⟩ := List.exists_cons_of_ne_nil s1
    refine ⟨fine_spelled h1 f1 f2 (notWord_right h3 ih.word) (notWord_left h4 ih'.word) (by simp [ih.filled]) (by simp [ih'.filled]),
      noWord_quiet (c := d) (by rw [hd]; simp) (s2 d (by rw [hd]; rfl)), by simp [ih.filled], _, ts ++ .sym g :: ts', .binary g t t', p1, by simp [g2], fun c hc => ?_,
      fun rest hr => ?_, .binary h2 g5 k5, .binary g6 k6⟩
    · rw [List.append_assoc, head_append g2] at hc
      rw [List.append_assoc, head_append ih.filled]
      exact g3 c hc
    · have e' : m ++ l ++ (g ++ (r ++ m')) ++ rest = m ++ (l ++ (g ++ (r ++ (m' ++ rest)))) := by simp
      rw [e', g4 _ (follow_after (follow_spaces hl h3 (follow_symbol hl hg)) _), scan_spaces letter h3, tokens_symbol hl hg (apart_prepared hl rest (neutral_symbol hg).2.1 k2 k3 h5),
        scan_spaces letter h4, k4 rest (follow_after (after_follow hr rfl) _)]
      simp [Option.map_map, Function.comp_def]
  | up h1 _ ih =>
    obtain ⟨r1, r2, r3, m, ts, t, g1, g2, g3, g4, g5, g6⟩ := ih hm
    exact ⟨r1, r2, r3, m, ts, t, g1, g2, g3, g4, .up h1 g5, g6⟩

theorem levels_functions : ∀ k ∈ goLevels, (functionOf k.1).isSome = true := by decide

theorem closeQuote_body {q : Char} {body : Text} (h : ∀ c ∈ body, c ≠ q ∧ c ≠ '\\') : closeQuote q (body ++ [q]) = some (body ++ [q], []) := by
  induction body with
  | nil =>
    rw [List.nil_append, closeQuote.eq_def]
    split
    · contradiction
    · rename_i e
      simp at e
    · rename_i e
      cases e
      simp
  | cons c t ih =>
    have ih := ih fun d hd => h d (List.mem_cons_of_mem _ hd)
    have hc := h c (by simp)
    rw [List.cons_append, closeQuote.eq_def]
    split
    · contradiction
    · rename_i e
      exact absurd (List.cons.inj e).1 hc.2
    · rename_i e
      cases e
      rw [if_neg hc.1, ih]
      rfl

/-- The expressions of these texts are among those whose code is known. -/
theorem source_covered {letter : Char → Bool} {p : Nat} {s : Text} {e : Expr} (h : ExprText letter p s e) : Covered e ∧ contextCall e = false := by
  induction h with
  | «variable» i _ h2 _ => exact ⟨.ident h2, rfl⟩
  | @number d h1 h2 =>
    refine ⟨.lit ⟨fun c hc hm => ?_, .inl ?_⟩, rfl⟩
    · have := (digit_facts (h2 c hc)).2.2
      rcases List.mem_cons.mp hm with e | hm
      · exact this.1 e
      · rcases List.mem_cons.mp hm with e | hm
        · exact this.2.1 e
        · exact this.2.2 hm
    · obtain ⟨c, t, rfl⟩ := List.exists_cons_of_ne_nil h1
      refine ⟨h2 c (by simp), fun c hc hm => ?_⟩
      have : ∀ c ∈ [' ', '\t', '(', ')', '"', '`', '\'', '\\'], c.isDigit = false := by decide
      have := this c hm
      rw [h2 c hc] at this
      cases this
  | @quoted q body h1 h2 =>
    refine ⟨.lit ⟨fun c hc hm => ?_, .inr ⟨q, body ++ [q], h1.imp id .inl, rfl, ?_⟩⟩, rfl⟩
    · have : c = q ∨ c ∈ body := by
        rcases List.mem_cons.mp hc with h | h
        · exact .inl h
        · exact (List.mem_append.mp h).symm.imp List.mem_singleton.mp id
      rcases this with rfl | h
      · revert hm
        rcases h1 with rfl | rfl <;> decide
      · have := (h2 c h).2
        rcases List.mem_cons.mp hm with rfl | hm
        · exact this.1 (by decide)
        · rcases List.mem_cons.mp hm with rfl | hm
          · exact this.1 (by decide)
          · exact this.2 hm
    · exact closeQuote_body fun c hc => ⟨(h2 c hc).1, fun e => (h2 c hc).2.1 (by rw [e]; decide)⟩
  | paren _ _ _ ih => exact ⟨.paren ih.1, ih.2⟩
  | call args _ h2 _ _ ih => exact ⟨.call (.ident h2) rfl (by simpa using fun a ha => (ih a ha).1) (by simpa using fun a ha => (ih a ha).2), by cases args <;> rfl⟩
  | sel _ h1 _ _ _ h5 ih => exact ⟨.sel ih.1 ih.2 h1 h5, rfl⟩
  | method args _ h1 _ _ ih ih' =>
    refine ⟨.call ih.1 rfl (by simpa using fun a ha => (ih' a ha).1) (by simpa using fun a ha => (ih' a ha).2), ?_⟩
    cases args with
    | nil => rfl
    | cons a as =>
      rcases h1 with h1 | h1
      · exact h1
      · cases h1
  | index _ _ _ _ ih ih' => exact ⟨.index ih.1 ih.2 ih'.1 ih'.2, rfl⟩
  | slice _ _ _ _ _ _ _ ih ih' ih'' => exact ⟨.slice ih.1 ih.2 ih'.1 ih'.2 ih''.1 ih''.2, rfl⟩
  | @unary g l s e h1 _ _ _ ih =>
    exact ⟨.unary ((by decide : ∀ g ∈ [c!"+", c!"-", c!"!", c!"^", c!"&"], (functionOf g).isSome = true) g h1) ih.1 ih.2, rfl⟩
  | binary _ h2 _ _ _ _ _ ih ih' => exact ⟨.binary (levels_functions _ h2) ih.1 ih.2 ih'.1 ih'.2, rfl⟩
  | up _ _ ih => exact ih

end Verif.Lemmas
