import Verif.Spec.TemplateGrammar
/-!
# Lemmas for the translation of razor expressions
-/

namespace Verif.Razor
open Spec

/-! ## The final text of a fragment -/

/-- What each character becomes in the final text. -/
def sigma (c : Char) : Text :=
  if c = dollarRep then ['$'] else if c = dotRep then ['.'] else if c = globalRep then ['$', '.'] else if c = funcCall then [] else [c]

/-- The final text. -/
def rho (t : Text) : Text := t.flatMap sigma

theorem rho_append (a b : Text) : rho (a ++ b) = rho a ++ rho b := by simp [rho]
theorem rho_cons (c : Char) (b : Text) : rho (c :: b) = sigma c ++ rho b := by simp [rho]
theorem rho_nil : rho [] = [] := rfl

theorem sigma_plain {c : Char} (h : c ∉ [dotRep, globalRep, funcCall, dollarRep]) : sigma c = [c] := by
  simp at h
  simp [sigma, h]

theorem rho_plain {t : Text} (h : ∀ c ∈ t, c ∉ [dotRep, globalRep, funcCall, dollarRep]) : rho t = t := by
  induction t with
  | nil => rfl
  | cons c t ih =>
    rw [rho_cons, sigma_plain (h c (by simp)), ih (fun x hx => h x (by simp [hx]))]
    rfl

theorem final_eq (group : Text → Text) (t : Text) (h : '$' ∉ t) :
    (expand group (restoreMarks t)).filter (fun c => c != funcCall) = rho t := by
  unfold expand
  induction t with
  | nil => rfl
  | cons c t ih =>
    have hc : c ≠ '$' := fun e => h (by simp [e])
    have ih := ih (fun e => h (by simp [e]))
    have e : restoreMarks (c :: t) = (if c = dollarRep then ['$', '$'] else if c = dotRep then ['.']
        else if c = globalRep then ['$', '$', '.'] else [c]) ++ restoreMarks t := by
      simp [restoreMarks]
    have fd : ('$' : Char) ≠ funcCall := by decide
    have fp : ('.' : Char) ≠ funcCall := by decide
    have pd : ('.' : Char) ≠ '$' := by decide
    rw [e, rho_cons]
    by_cases h1 : c = dollarRep
    · simp [h1, sigma, expandAux, Text.hasPrefix, Text.dropPrefix?, ih, fd]
    · by_cases h2 : c = dotRep
      · simp [h2, sigma, expandAux, ih, fp, pd, show dotRep ≠ dollarRep by decide]
      · by_cases h3 : c = globalRep
        · simp [h3, sigma, expandAux, Text.hasPrefix, Text.dropPrefix?, ih, fd, fp, show globalRep ≠ dollarRep by decide,
            show globalRep ≠ dotRep by decide]
        · by_cases h4 : c = funcCall
          · simp [h4, sigma, expandAux, ih, show funcCall ≠ dollarRep by decide, show funcCall ≠ dotRep by decide,
              show funcCall ≠ globalRep by decide, show funcCall ≠ '$' by decide]
          · simp [h1, h2, h3, h4, sigma, expandAux, ih, hc]

theorem render_eq (group : Text → Text) {e : Expr} {t : Text} (he : nodeValue e = some t) (h : '$' ∉ t) :
    render group e = some (rho t) := by
  unfold render
  rw [he]
  simp only [Option.map_some]
  rw [final_eq group t h]

/-! ## Parsing -/

/-- What may follow an operand. -/
def EndOp : Text → Prop
  | [] => True
  | c :: _ => c = ' ' ∨ c = ')'

/-- What may follow a command. -/
def EndCmd : Text → Prop
  | [] => True
  | c :: _ => c = ')'

/-- `t` is read as one operand. -/
def IsOp (t : Text) (tr : Tree) : Prop :=
  t ≠ [] ∧ ∀ n rest, 3 * t.length ≤ n → EndOp rest → operand n (t ++ rest) = some (tr, rest)

/-- `t` is read as a command. -/
def IsCmd (t : Text) (tr : Tree) : Prop := ∀ n rest, 3 * t.length + 2 ≤ n → EndCmd rest → command n (t ++ rest) = some (tr, rest)

theorem EndCmd.op {r : Text} (h : EndCmd r) : EndOp r := by
  cases r with
  | nil => trivial
  | cons c r => exact Or.inr h

theorem takeWhile_stop {p : Char → Bool} (w rest : Text) (h : ∀ c ∈ w, p c = true) (hr : rest.head?.all (fun c => !p c) = true) :
    (w ++ rest).takeWhile p = w ∧ (w ++ rest).dropWhile p = rest := by
  induction w with
  | nil =>
    cases rest with
    | nil => exact ⟨rfl, rfl⟩
    | cons c r =>
      simp at hr
      simp [hr]
  | cons c w ih =>
    have := ih (fun x hx => h x (by simp [hx]))
    simp [h c (by simp), this.1, this.2]

theorem endOp_stop {r : Text} (h : EndOp r) : r.head?.all (fun c => !(fun c => !wordStop c) c) = true := by
  cases r with
  | nil => rfl
  | cons c r => rcases h with rfl | rfl <;> rfl

theorem isOp_word {w : Text} (hne : w ≠ []) (h : ∀ c ∈ w, c ∉ [' ', '(', ')', '"', '`', '\'']) : IsOp w (.atom w) := by
  refine ⟨hne, fun n rest hn hr => ?_⟩
  cases w with
  | nil => exact absurd rfl hne
  | cons c w =>
    obtain ⟨n, rfl⟩ : ∃ m, n = m + 1 := ⟨n - 1, by simp at hn; omega⟩
    have hc := h c (by simp)
    simp at hc
    have hs : ∀ x ∈ c :: w, (!wordStop x) = true := by
      intro x hx
      have := h x hx
      simp at this
      simp [wordStop, this]
    have tw := takeWhile_stop (c :: w) rest hs (endOp_stop hr)
    have hc1 : wordStop c = false := by simpa using hs c (by simp)
    simp only [List.cons_append] at tw
    simp only [operand, List.cons_append, hc.2.1, hc.2.2.2.1, hc.2.2.2.2.1, hc.2.2.2.2.2, hc1, or_self, if_false,
      Bool.false_eq_true, tw.1, tw.2]

theorem closeQuote_append {q : Char} {s b r : Text} (rest : Text) (hqb : q ≠ '\\') (h : closeQuote q s = some (b, r)) :
    closeQuote q (s ++ rest) = some (b, r ++ rest) := by
  fun_induction closeQuote q s generalizing b r with
  | case1 => simp at h
  | case2 c s hq ih =>
    rw [Option.map_eq_some_iff] at h
    obtain ⟨⟨b', r'⟩, h1, h2⟩ := h
    simp at h2
    obtain ⟨rfl, rfl⟩ := h2
    have := ih h1
    simp only [List.cons_append] at this ⊢
    rw [closeQuote, if_pos hq, this]
    rfl
  | case3 c s hq ih =>
    rw [Option.map_eq_some_iff] at h
    obtain ⟨⟨b', r'⟩, h1, h2⟩ := h
    simp at h2
    obtain ⟨rfl, rfl⟩ := h2
    have := ih h1
    simp only [List.cons_append] at this ⊢
    rw [closeQuote, if_neg hq, this]
    rfl
  | case4 s hne =>
    simp at h
    obtain ⟨rfl, rfl⟩ := h
    simp only [List.cons_append]
    rw [closeQuote]
    · simp
    · intro c' s' e1 _
      exact hqb e1
  | case5 c s hne hq ih =>
    rw [Option.map_eq_some_iff] at h
    obtain ⟨⟨b', r'⟩, h1, h2⟩ := h
    simp at h2
    obtain ⟨rfl, rfl⟩ := h2
    have := ih h1
    simp only [List.cons_append]
    rw [closeQuote]
    · rw [if_neg hq, this]; rfl
    · intro c' s' e1 e2
      cases s with
      | nil => simp [closeQuote] at h1
      | cons d s => exact hne d s e1 rfl

theorem isOp_quoted {q : Char} {s : Text} (hq : q = '"' ∨ q = '`' ∨ q = '\'') (h : closeQuote q s = some (s, [])) :
    IsOp (q :: s) (.atom (q :: s)) := by
  refine ⟨by simp, fun n rest hn hr => ?_⟩
  obtain ⟨n, rfl⟩ : ∃ m, n = m + 1 := ⟨n - 1, by simp at hn; omega⟩
  have hb : q ≠ '\\' := by rcases hq with rfl | rfl | rfl <;> decide
  have := closeQuote_append rest hb h
  have hp : q ≠ '(' := by rcases hq with rfl | rfl | rfl <;> decide
  simp only [List.cons_append, operand, if_neg hp, if_pos hq, this, List.nil_append, Option.map_some]

theorem isOp_paren {t : Text} {tr : Tree} (h : IsCmd t tr) : IsOp ('(' :: (t ++ [')'])) tr := by
  refine ⟨by simp, fun n rest hn hr => ?_⟩
  simp at hn
  obtain ⟨n, rfl⟩ : ∃ m, n = m + 1 := ⟨n - 1, by omega⟩
  have := h n (')' :: rest) (by omega) rfl
  simp only [List.cons_append, List.append_assoc, List.nil_append, operand, if_true, this]
  cases rest with
  | nil => rfl
  | cons c r => rcases hr with rfl | rfl <;> rfl

theorem isOp_field {t w : Text} {tr : Tree} (h : IsCmd t tr) (hw : ∀ c ∈ w, wordStop c = false) :
    IsOp ('(' :: (t ++ ')' :: '.' :: w)) (.field tr w) := by
  refine ⟨by simp, fun n rest hn hr => ?_⟩
  simp at hn
  obtain ⟨n, rfl⟩ : ∃ m, n = m + 1 := ⟨n - 1, by omega⟩
  have := h n (')' :: '.' :: (w ++ rest)) (by omega) rfl
  have tw := takeWhile_stop w rest (p := fun c => !wordStop c) (fun c hc => by simp [hw c hc]) (endOp_stop hr)
  simp only [List.cons_append, List.append_assoc, operand, if_true, this, tw.1, tw.2]

theorem arguments_end {n : Nat} {rest : Text} (hn : 1 ≤ n) (hr : EndCmd rest) : arguments n rest = some ([], rest) := by
  obtain ⟨n, rfl⟩ : ∃ m, n = m + 1 := ⟨n - 1, by omega⟩
  cases rest with
  | nil => rfl
  | cons c r =>
    have : c = ')' := hr
    subst this
    rfl

theorem isCmd_op {t : Text} {tr : Tree} (h : IsOp t tr) : IsCmd t tr := by
  intro n rest hn hr
  obtain ⟨n, rfl⟩ : ∃ m, n = m + 1 := ⟨n - 1, by omega⟩
  simp only [command]
  rw [h.2 n rest (by omega) hr.op]
  simp only
  rw [arguments_end (by omega) hr]

/-- Arguments, each preceded by a space. -/
def spaced : List Text → Text
  | [] => []
  | a :: as => ' ' :: (a ++ spaced as)

theorem spaced_join (a : Text) (as : List Text) : ' ' :: Text.join [' '] (a :: as) = spaced (a :: as) := by
  induction as generalizing a with
  | nil => simp [Text.join, spaced]
  | cons b as ih =>
    rw [Text.join_cons_cons]
    have := ih b
    simp only [spaced] at this ⊢
    rw [← this]
    simp

/-- Operands read one by one. -/
inductive AreOps : List Text → List Tree → Prop
  | nil : AreOps [] []
  | cons {t tr ts trs} : IsOp t tr → AreOps ts trs → AreOps (t :: ts) (tr :: trs)

theorem endOp_spaced (as : List Text) (rest : Text) (hr : EndCmd rest) : EndOp (spaced as ++ rest) := by
  cases as with
  | nil => exact hr.op
  | cons a as => exact Or.inl rfl

theorem arguments_spaced {as : List Text} {trs : List Tree} (h : AreOps as trs) (n : Nat) (rest : Text)
    (hn : 3 * (spaced as).length + 1 ≤ n) (hr : EndCmd rest) : arguments n (spaced as ++ rest) = some (trs, rest) := by
  induction h generalizing n with
  | nil => exact arguments_end (by omega) hr
  | @cons t tr ts trs h1 h2 ih =>
    simp [spaced] at hn
    obtain ⟨n, rfl⟩ : ∃ m, n = m + 1 := ⟨n - 1, by omega⟩
    simp only [spaced, List.cons_append, List.append_assoc, arguments]
    rw [h1.2 n _ (by omega) (endOp_spaced ts rest hr)]
    simp only
    rw [ih n (by omega)]
    rfl

theorem isCmd_call {f : Text} {trf : Tree} {as : List Text} {trs : List Tree} (hf : IsOp f trf) (h : AreOps as trs) (hne : trs ≠ []) :
    IsCmd (f ++ spaced as) (.call trf trs) := by
  intro n rest hn hr
  obtain ⟨n, rfl⟩ : ∃ m, n = m + 1 := ⟨n - 1, by omega⟩
  simp at hn
  have hfl : 0 < f.length := List.length_pos_iff.2 hf.1
  simp only [command, List.append_assoc]
  rw [hf.2 n _ (by omega) (endOp_spaced as rest hr)]
  simp only
  rw [arguments_spaced h n rest (by omega) hr]
  cases trs with
  | nil => exact absurd rfl hne
  | cons _ _ => rfl

theorem parsePipeline_of {t : Text} {tr : Tree} (h : IsCmd t tr) : parsePipeline t = some tr := by
  unfold parsePipeline
  have := h (3 * t.length + 2) [] (Nat.le_refl _) trivial
  rw [List.append_nil] at this
  rw [this]

/-! ## Operators -/

/-- The table of operators. -/
def opTable : List (String × String) :=
  [("==", "eq"), ("!=", "ne"), ("<", "lt"), ("<=", "le"), (">", "gt"), (">=", "ge"), ("+", "add"), ("-", "sub"), ("/", "div"),
   ("*", "mul"), ("%", "mod"), ("||", "or"), ("&&", "and"), ("!", "not"), ("<<", "lshift"), (">>", "rshift"), ("|", "bor"),
   ("&", "band"), ("^", "bxor"), ("&^", "bclear")]

theorem functionOf_eq (op : Text) :
    functionOf op = opTable.findSome? (fun (o, f) => if o.toList = op then some f.toList else none) := rfl

theorem operatorName_eq (op : Text) : operatorName op = functionOf op := by
  have key : ∀ l : List (String × String), (l.map (fun p => (p.1.toList, p.2.toList))).lookup op =
      l.findSome? (fun (o, f) => if o.toList = op then some f.toList else none) := by
    intro l
    induction l with
    | nil => rfl
    | cons p l ih =>
      simp only [List.map_cons, List.lookup, List.findSome?, ih]
      by_cases h : p.1.toList = op
      · simp [h]
      · have : (op == p.1.toList) = false := by simpa using fun e => h e.symm
        simp [h, this]
  rw [functionOf_eq, ← key]
  rfl

/-- The names of the template functions. -/
def FnWord (w : Text) : Prop := w ≠ [] ∧ ∀ c ∈ w, c.isLower = true

instance (w : Text) : Decidable (FnWord w) := inferInstanceAs (Decidable (_ ∧ _))

theorem functionOf_spec {op f : Text} (h : functionOf op = some f) : FnWord f ∧ (f = T "sub" ↔ op = T "-") ∧ (f = T "mul" ↔ op = T "*") := by
  rw [functionOf_eq] at h
  obtain ⟨⟨o, g⟩, hm, hf⟩ := List.exists_of_findSome?_eq_some h
  simp only at hf
  split at hf
  · rename_i ho
    simp only [Option.some.injEq] at hf
    subst hf
    subst ho
    have all : ∀ p ∈ opTable, FnWord p.2.toList ∧ (p.2.toList = T "sub" ↔ p.1.toList = T "-") ∧
        (p.2.toList = T "mul" ↔ p.1.toList = T "*") := by decide
    exact all _ hm
  · cases hf

theorem FnWord.not_mem {w : Text} (h : FnWord w) {c : Char} (hc : c.isLower = false) : c ∉ w := by
  intro hm
  have := h.2 c hm
  rw [hc] at this
  cases this

/-! ## Words -/

/-- A text that stands for one operand without quotes. -/
def Word (t : Text) : Prop := (∃ c ∈ t, c ≠ funcCall) ∧ ∀ c ∈ t, c ∉ [' ', '\t', '(', ')', '"', '`', '\'', '\\']

theorem mem_rho {t : Text} {c : Char} (h : c ∈ rho t) : c = '$' ∨ c = '.' ∨ c ∈ t := by
  unfold rho at h
  obtain ⟨d, hd, hc⟩ := List.mem_flatMap.1 h
  unfold sigma at hc
  split at hc
  · simp at hc; exact Or.inl hc
  · split at hc
    · simp at hc; exact Or.inr (Or.inl hc)
    · split at hc
      · simp at hc; rcases hc with h | h
        · exact Or.inl h
        · exact Or.inr (Or.inl h)
      · split at hc
        · simp at hc
        · simp at hc; subst hc; exact Or.inr (Or.inr hd)

theorem Word.rho_ne {t : Text} (h : Word t) : rho t ≠ [] := by
  obtain ⟨c, hc, hf⟩ := h.1
  have : sigma c ≠ [] := by
    unfold sigma
    split
    · simp
    · split
      · simp
      · split
        · simp
        · simp
  intro e
  unfold rho at e
  rw [List.flatMap_eq_nil_iff] at e
  exact this (e c hc)

theorem Word.rho_chars {t : Text} (h : Word t) : ∀ c ∈ rho t, c ∉ [' ', '\t', '(', ')', '"', '`', '\'', '\\'] := by
  intro c hc
  rcases mem_rho hc with rfl | rfl | hc
  · decide
  · decide
  · exact h.2 c hc

theorem Word.op {t : Text} (h : Word t) : IsOp (rho t) (.atom (rho t)) := by
  apply isOp_word h.rho_ne
  intro c hc
  have := h.rho_chars c hc
  simp at this ⊢
  simp [this]

theorem hasPrefix_cons {c d : Char} {t : Text} : Text.hasPrefix [c] (d :: t) = decide (c = d) := by
  unfold Text.hasPrefix
  by_cases h : c = d <;> simp [Text.dropPrefix?, h]

theorem hasPrefix_nil {c : Char} : Text.hasPrefix [c] [] = false := rfl

theorem Word.wrap {t : Text} (h : Word t) : wrap t = t := by
  unfold Razor.wrap
  have : t.any (fun c => c == ' ' || c == '\t') = false := by
    rw [List.any_eq_false]
    intro c hc
    have := h.2 c hc
    simp at this
    simp [this]
  rw [this]
  simp

/-- The text contains a blank. -/
def Blank (t : Text) : Prop := t.any (fun c => c == ' ' || c == '\t') = true

theorem blank_of_mem {t : Text} (h : ' ' ∈ t) : Blank t := by
  unfold Blank
  rw [List.any_eq_true]
  exact ⟨' ', h, by decide⟩

theorem wrap_compound {t : Text} (h1 : Text.hasPrefix ['"'] t = false) (h2 : Blank t) (h3 : Text.hasPrefix [dotRep] t = false) :
    wrap t = '(' :: (t ++ [')']) := by
  unfold wrap
  unfold Blank at h2
  have b : Text.hasPrefix [dotRep] (t.takeWhile (fun c => c != ' ')) = false := by
    cases t with
    | nil => rfl
    | cons c t =>
      rw [hasPrefix_cons] at h3
      rw [List.takeWhile_cons]
      split
      · rw [hasPrefix_cons]; exact h3
      · rfl
  simp [h1, h2, b]

theorem wrapped_inv {t : Text} (h : wrap t = '(' :: (t ++ [')'])) : Text.hasPrefix ['"'] t = false ∧ Blank t := by
  have hne : ¬ (t = '(' :: (t ++ [')'])) := by
    intro e
    have := congrArg List.length e
    simp at this
    omega
  unfold wrap at h
  split at h
  · exact absurd h hne
  · rename_i hc
    simp only [Bool.or_eq_true, not_or, Bool.not_eq_true', Bool.not_eq_false] at hc
    exact ⟨by simpa using hc.1, hc.2⟩

/-- The expression is a number. -/
def numeric (e : Expr) : Bool :=
  match inner e with
  | .lit v => startsDigit v
  | _ => false

/-- The forms of the text of an expression. -/
inductive Shape (e : Expr) (t : Text) : Prop
  | word : Word t → meaning e = .atom (rho t) → Shape e t
  | quote : wrap t = t → IsOp (rho t) (meaning e) → startsCtx e = false → (∃ v, inner e = .lit v) → startsDigit t = false → Shape e t
  | wrapped : wrap t = '(' :: (t ++ [')']) → startsCtx e = false → ((∀ v, inner e ≠ .lit v) → ∀ a, meaning e ≠ .atom a) → Shape e t
  | method : contextCall e = true → startsCtx e = false → Shape e t

/-- What the induction proves about an expression and its text. -/
structure Good (e : Expr) (t : Text) : Prop where
  nv : nodeValue e = some t
  dollar : '$' ∉ t
  star : '*' ∉ t
  digit : startsDigit (wrap t) = numeric e
  dot : Text.hasPrefix [dotRep] t = true → startsCtx e = true ∨ contextCall e = true
  cmd : IsCmd (rho t) (meaning e)
  shape : Shape e t
  head : isHead e = true → IsOp (rho t) (meaning e)
  path : isPath e = true → Word t ∧ meaning e = .atom (rho t)

theorem rho_wrapped (t : Text) : rho ('(' :: (t ++ [')'])) = '(' :: (rho t ++ [')']) := by
  rw [rho_cons, rho_append, rho_cons, rho_nil]
  rfl

theorem Good.op {e : Expr} {t : Text} (g : Good e t) (hc : contextCall e = false) : IsOp (rho (wrap t)) (meaning e) := by
  cases g.shape with
  | word hw hm => rw [hw.wrap, hm]; exact hw.op
  | quote h1 h2 _ _ _ => rw [h1]; exact h2
  | wrapped h _ _ => rw [h, rho_wrapped]; exact isOp_paren g.cmd
  | method h _ => rw [hc] at h; cases h

theorem mem_wrap {t : Text} {c : Char} (h : c ∈ wrap t) : c = '(' ∨ c = ')' ∨ c ∈ t := by
  unfold wrap at h
  split at h
  · exact Or.inr (Or.inr h)
  · simp only at h
    split at h
    · exact Or.inr (Or.inr h)
    · simp at h
      rcases h with h | h | h <;> simp [h]

theorem Good.dollar' {e : Expr} {t : Text} (g : Good e t) : '$' ∉ wrap t := by
  intro h
  rcases mem_wrap h with h | h | h
  · exact absurd h (by decide)
  · exact absurd h (by decide)
  · exact g.dollar h

theorem Good.star' {e : Expr} {t : Text} (g : Good e t) : '*' ∉ wrap t := by
  intro h
  rcases mem_wrap h with h | h | h
  · exact absurd h (by decide)
  · exact absurd h (by decide)
  · exact g.star h

theorem rho_spaced (as : List Text) : rho (spaced as) = spaced (as.map rho) := by
  induction as with
  | nil => rfl
  | cons a as ih =>
    simp only [spaced, List.map_cons]
    rw [rho_cons, rho_append, ih]
    rfl

theorem not_mem_spaced {c : Char} (hc : c ≠ ' ') {as : List Text} (h : ∀ a ∈ as, c ∉ a) : c ∉ spaced as := by
  induction as with
  | nil => simp [spaced]
  | cons a as ih =>
    simp only [spaced, List.mem_cons, List.mem_append, not_or]
    exact ⟨hc, h a (by simp), ih (fun b hb => h b (by simp [hb]))⟩

theorem FnWord.rho {w : Text} (h : FnWord w) : rho w = w := by
  apply rho_plain
  intro c hc
  have := h.2 c hc
  intro hm
  simp at hm
  rcases hm with rfl | rfl | rfl | rfl <;> revert this <;> decide

theorem FnWord.op {w : Text} (h : FnWord w) : IsOp w (.atom w) := by
  apply isOp_word h.1
  intro c hc hm
  have := h.2 c hc
  simp at hm
  rcases hm with rfl | rfl | rfl | rfl | rfl | rfl <;> revert this <;> decide

/-- The text of a command that is a function applied to operands. -/
theorem good_compound {e : Expr} {t : Text} (nv : nodeValue e = some t) (hd : '$' ∉ t) (hs : '*' ∉ t)
    (hq : Text.hasPrefix ['"'] t = false) (hsp : Blank t) (hdot : Text.hasPrefix [dotRep] t = false) (cmd : IsCmd (rho t) (meaning e))
    (hnum : numeric e = false) (hctx : startsCtx e = false) (hm : ∀ a, meaning e ≠ .atom a)
    (hh : isHead e = true → IsOp (rho t) (meaning e)) (hp : isPath e = true → Word t ∧ meaning e = .atom (rho t)) : Good e t where
  nv := nv
  dollar := hd
  star := hs
  digit := by rw [wrap_compound hq hsp hdot, hnum]; rfl
  dot := by intro h; rw [hdot] at h; cases h
  cmd := cmd
  shape := .wrapped (wrap_compound hq hsp hdot) hctx (fun _ => hm)
  head := hh
  path := hp

theorem good_fn {e : Expr} {w : Text} (hw : FnWord w) {as : List Text} {trs : List Tree} (hne : as ≠ [])
    (nv : nodeValue e = some (w ++ spaced as)) (hops : AreOps (as.map rho) trs) (hd : ∀ a ∈ as, '$' ∉ a) (hs : ∀ a ∈ as, '*' ∉ a)
    (hm : meaning e = .call (.atom w) trs) (hnum : numeric e = false) (hctx : startsCtx e = false) (hh : isHead e = false)
    (hp : isPath e = false) : Good e (w ++ spaced as) := by
  obtain ⟨c, w', rfl⟩ := List.exists_cons_of_ne_nil hw.1
  have hc := hw.2 c (by simp)
  have n1 : ('"' : Char) ≠ c := by rintro rfl; revert hc; decide
  have n2 : dotRep ≠ c := by rintro rfl; revert hc; decide
  apply good_compound nv
  · intro h
    rcases List.mem_append.1 h with h | h
    · exact hw.not_mem (by decide) h
    · exact not_mem_spaced (by decide) hd h
  · intro h
    rcases List.mem_append.1 h with h | h
    · exact hw.not_mem (by decide) h
    · exact not_mem_spaced (by decide) hs h
  · rw [List.cons_append, hasPrefix_cons]; simpa using n1
  · apply blank_of_mem
    cases as with
    | nil => exact absurd rfl hne
    | cons a as => simp [spaced]
  · rw [List.cons_append, hasPrefix_cons]; simpa using n2
  · rw [rho_append, hw.rho, rho_spaced, hm]
    apply isCmd_call hw.op hops
    cases as with
    | nil => exact absurd rfl hne
    | cons a as => cases hops; simp
  · exact hnum
  · exact hctx
  · intro a; rw [hm]; simp
  · intro h; rw [hh] at h; cases h
  · intro h; rw [hp] at h; cases h

/-- An operation whose text is one word. -/
theorem good_word {e : Expr} {t : Text} (nv : nodeValue e = some t) (hd : '$' ∉ t) (hs : '*' ∉ t) (hw : Word t)
    (hm : meaning e = .atom (rho t)) (hdig : startsDigit t = numeric e)
    (hdot : Text.hasPrefix [dotRep] t = true → startsCtx e = true ∨ contextCall e = true) : Good e t where
  nv := nv
  dollar := hd
  star := hs
  digit := by rw [hw.wrap]; exact hdig
  dot := hdot
  cmd := by rw [hm]; exact isCmd_op hw.op
  shape := .word hw hm
  head := fun _ => by rw [hm]; exact hw.op
  path := fun _ => ⟨hw, hm⟩

theorem nodeValue_inner (e : Expr) : nodeValue e = nodeValue (inner e) ∧ meaning e = meaning (inner e) := by
  match e with
  | .paren x =>
    have := nodeValue_inner x
    simp only [nodeValue, meaning, inner]
    exact this
  | .unary .. => exact ⟨rfl, rfl⟩
  | .binary .. => exact ⟨rfl, rfl⟩
  | .ident .. => exact ⟨rfl, rfl⟩
  | .lit .. => exact ⟨rfl, rfl⟩
  | .sel .. => exact ⟨rfl, rfl⟩
  | .call .. => exact ⟨rfl, rfl⟩
  | .star .. => exact ⟨rfl, rfl⟩
  | .index .. => exact ⟨rfl, rfl⟩
  | .slice .. => exact ⟨rfl, rfl⟩
  | .other => exact ⟨rfl, rfl⟩

theorem Good.inner_ne_star {e z : Expr} {t : Text} (g : Good e t) : inner e ≠ .star z := by
  intro h
  have := g.nv
  rw [(nodeValue_inner e).1, h] at this
  simp only [nodeValue, Option.bind_eq_bind, Option.bind_eq_some_iff] at this
  obtain ⟨x, _, hx⟩ := this
  simp at hx
  exact g.star (by rw [← hx]; simp)

/-! ## The cases of the induction -/

theorem _root_.Verif.Spec.IsName.char {n : Text} (h : IsName n) {c : Char} (hc : c ∈ n) : isNameChar c := h.2.1 c hc

theorem _root_.Verif.Spec.IsName.rho {n : Text} (h : IsName n) : rho n = n := by
  apply rho_plain
  intro c hc hm
  have := h.char hc
  simp [isNameChar] at this
  simp at hm
  simp [this] at hm

theorem _root_.Verif.Spec.IsName.not {n : Text} (h : IsName n) {c : Char} (hc : ¬ isNameChar c) : c ∉ n := fun hm => hc (h.char hm)

theorem _root_.Verif.Spec.IsName.stop {n : Text} (h : IsName n) : ∀ c ∈ n, c ∉ [' ', '\t', '(', ')', '"', '`', '\'', '\\'] := by
  intro c hc hm
  have := h.char hc
  simp [isNameChar] at this
  simp at hm
  simp [this] at hm

theorem _root_.Verif.Spec.IsName.word {n : Text} (h : IsName n) : Word n := by
  refine ⟨?_, h.stop⟩
  obtain ⟨c, w, rfl⟩ := List.exists_cons_of_ne_nil h.1
  refine ⟨c, by simp, ?_⟩
  rintro rfl
  exact h.not (c := funcCall) (by decide) (by simp)

theorem word_cons {m : Char} {n : Text} (hm : m ≠ funcCall) (hs : m ∉ [' ', '\t', '(', ')', '"', '`', '\'', '\\']) (h : n = [] ∨ IsName n) :
    Word (m :: n) := by
  refine ⟨⟨m, by simp, hm⟩, ?_⟩
  intro c hc
  rcases List.mem_cons.1 hc with rfl | hc
  · exact hs
  · rcases h with rfl | h
    · cases hc
    · exact h.stop c hc

theorem rho_name {n : Text} (h : n = [] ∨ IsName n) : rho n = n := by
  rcases h with rfl | h
  · rfl
  · exact h.rho

theorem name_not {n : Text} (h : n = [] ∨ IsName n) {c : Char} (hc : ¬ isNameChar c) : c ∉ n := by
  rcases h with rfl | h
  · simp
  · exact h.not hc

theorem identValue_glob {n : Text} (h : IsName n) : identValue (.glob n) = globalRep :: n := by
  have h1 : Text.hasPrefix [dotRep] n = false := by
    obtain ⟨c, w, rfl⟩ := List.exists_cons_of_ne_nil h.1
    rw [hasPrefix_cons]
    simp
    rintro rfl
    exact h.not (c := dotRep) (by decide) (by simp)
  have h2 : Text.hasPrefix [dollarRep] n = false := by
    obtain ⟨c, w, rfl⟩ := List.exists_cons_of_ne_nil h.1
    rw [hasPrefix_cons]
    simp
    rintro rfl
    exact h.not (c := dollarRep) (by decide) (by simp)
  have h3 : List.elem funcCall n = false := by
    have := h.not (c := funcCall) (by decide)
    simpa using this
  simp only [identValue, Ident.name, h1, h2, h3]; rfl

theorem good_ident {i : Ident} (h : IsIdent i) : ∃ t, Good (.ident i) t := by
  cases i with
  | glob n =>
    have hn : IsName n := h
    refine ⟨globalRep :: n, good_word ?_ ?_ ?_ (word_cons (by decide) (by decide) (Or.inr hn)) ?_ rfl ?_⟩
    · simp only [nodeValue, identValue_glob hn]
    · simp only [List.mem_cons, not_or]; exact ⟨by decide, hn.not (by decide)⟩
    · simp only [List.mem_cons, not_or]; exact ⟨by decide, hn.not (by decide)⟩
    · rw [rho_cons, hn.rho]; rfl
    · rw [hasPrefix_cons]; intro hh; exact absurd hh (by decide)
  | loc n =>
    have hn : n = [] ∨ IsName n := h
    refine ⟨dollarRep :: n, good_word ?_ ?_ ?_ (word_cons (by decide) (by decide) hn) ?_ rfl ?_⟩
    · simp [nodeValue, identValue, Ident.name, hasPrefix_cons]
    · simp only [List.mem_cons, not_or]; exact ⟨by decide, name_not hn (by decide)⟩
    · simp only [List.mem_cons, not_or]; exact ⟨by decide, name_not hn (by decide)⟩
    · rw [rho_cons, rho_name hn]; rfl
    · rw [hasPrefix_cons]; intro hh; exact absurd hh (by decide)
  | ctx n =>
    have hn : n = [] ∨ IsName n := h
    refine ⟨dotRep :: n, good_word ?_ ?_ ?_ (word_cons (by decide) (by decide) hn) ?_ rfl ?_⟩
    · simp [nodeValue, identValue, Ident.name, hasPrefix_cons]
    · simp only [List.mem_cons, not_or]; exact ⟨by decide, name_not hn (by decide)⟩
    · simp only [List.mem_cons, not_or]; exact ⟨by decide, name_not hn (by decide)⟩
    · rw [rho_cons, rho_name hn]; rfl
    · intro _; exact Or.inl rfl

theorem good_lit {v : Text} (h : IsLiteral v) : Good (.lit v) v := by
  have hd : '$' ∉ v := fun hm => absurd (h.1 _ hm) (by decide)
  have hs : '*' ∉ v := fun hm => absurd (h.1 _ hm) (by decide)
  have hr : rho v = v := rho_plain (fun c hc hm => h.1 c hc (by simp at hm ⊢; simp [hm]))
  have hdot : Text.hasPrefix [dotRep] v = false := by
    cases v with
    | nil => rfl
    | cons c v =>
      rw [hasPrefix_cons]
      simp
      rintro rfl
      exact absurd (h.1 dotRep (by simp)) (by decide)
  rcases h.2 with ⟨h1, h2⟩ | ⟨q, s, hq, rfl, hc⟩
  · refine good_word rfl hd hs ⟨?_, h2⟩ (by rw [hr]; rfl) rfl (by rw [hdot]; simp)
    cases v with
    | nil => cases h1
    | cons c v =>
      refine ⟨c, by simp, ?_⟩
      rintro rfl
      exact absurd (h.1 funcCall (by simp)) (by decide)
  · have hdig : startsDigit (q :: s) = false := by rcases hq with rfl | rfl | rfl <;> rfl
    have hop : IsOp (rho (q :: s)) (meaning (.lit (q :: s))) := by rw [hr]; exact isOp_quoted hq hc
    have hw : wrap (q :: s) = q :: s ∨ wrap (q :: s) = '(' :: ((q :: s) ++ [')']) := by
      by_cases a : Text.hasPrefix ['"'] (q :: s) = true
      · left; simp [wrap, a]
      · by_cases b : Blank (q :: s)
        · right; exact wrap_compound (by simpa using a) b hdot
        · left
          unfold wrap
          unfold Blank at b
          rw [if_pos]
          simp only [Bool.or_eq_true]
          right
          simpa using b
    exact {
      nv := rfl
      dollar := hd
      star := hs
      digit := by
        rcases hw with e | e
        · rw [e]; rfl
        · rw [e]; exact hdig.symm
      dot := by rw [hdot]; simp
      cmd := isCmd_op hop
      shape := by
        rcases hw with e | e
        · exact .quote e hop rfl ⟨_, rfl⟩ hdig
        · exact .wrapped e rfl (fun hv => absurd rfl (hv _))
      head := fun hh => by cases hh
      path := fun hh => by cases hh }

theorem startsDigit_append {a b : Text} (h : a ≠ []) : startsDigit (a ++ b) = startsDigit a := by
  cases a with
  | nil => exact absurd rfl h
  | cons c a => rfl

theorem hasPrefix_append_ne {c : Char} {a b : Text} (h : a ≠ []) : Text.hasPrefix [c] (a ++ b) = Text.hasPrefix [c] a := by
  cases a with
  | nil => exact absurd rfl h
  | cons d a => rw [List.cons_append, hasPrefix_cons, hasPrefix_cons]

theorem Word.ne {t : Text} (h : Word t) : t ≠ [] := by
  obtain ⟨c, hc, _⟩ := h.1
  exact List.ne_nil_of_mem hc

theorem numeric_false {x : Expr} (h : ∀ v, inner x ≠ .lit v) : numeric x = false := by
  unfold numeric
  split
  · rename_i v hv; exact absurd hv (h v)
  · rfl

theorem sel_name {n : Text} (h : IsName n) : Text.trimPrefix [globalRep] (wrap (identValue (.glob n))) = n := by
  rw [identValue_glob h, (word_cons (by decide) (by decide) (Or.inr h)).wrap]
  simp [Text.trimPrefix, Text.dropPrefix?]

theorem good_sel {x : Expr} {t name : Text} (g : Good x t) (hc : contextCall x = false) (hl : ∀ v, inner x ≠ .lit v) (hn : IsName name) :
    ∃ u, Good (.sel x name) u := by
  have nv : nodeValue (.sel x name) = some (wrap t ++ '.' :: name) := by
    simp only [nodeValue, g.nv, sel_name hn]; rfl
  refine ⟨wrap t ++ '.' :: name, ?_⟩
  have hd : '$' ∉ wrap t ++ '.' :: name := by
    simp only [List.mem_append, List.mem_cons, not_or]; exact ⟨g.dollar', by decide, hn.not (by decide)⟩
  have hs : '*' ∉ wrap t ++ '.' :: name := by
    simp only [List.mem_append, List.mem_cons, not_or]; exact ⟨g.star', by decide, hn.not (by decide)⟩
  have hr : rho ('.' :: name) = '.' :: name := by rw [rho_cons, hn.rho]; rfl
  cases g.shape with
  | word hw hm =>
    rw [hw.wrap] at nv hd hs ⊢
    apply good_word nv hd hs
    · refine ⟨?_, ?_⟩
      · obtain ⟨c, hc, hf⟩ := hw.1; exact ⟨c, by simp [hc], hf⟩
      · intro c hc
        simp only [List.mem_append, List.mem_cons] at hc
        rcases hc with hc | rfl | hc
        · exact hw.2 c hc
        · decide
        · exact hn.stop c hc
    · simp only [meaning, hm, fieldOf, rho_append, hr]
    · rw [startsDigit_append hw.ne]
      have := g.digit
      rw [hw.wrap, numeric_false hl] at this
      exact this
    · rw [hasPrefix_append_ne hw.ne]
      intro h
      rcases g.dot h with h | h
      · exact Or.inl h
      · rw [hc] at h; cases h
  | quote _ _ _ h _ => obtain ⟨v, hv⟩ := h; exact absurd hv (hl v)
  | wrapped h hctx hm =>
    have hm := hm hl
    obtain ⟨hq, hb⟩ := wrapped_inv h
    rw [h] at nv hd hs ⊢
    have hmean : meaning (.sel x name) = .field (meaning x) name := by
      simp only [meaning]
      cases e : meaning x with
      | atom a => exact absurd e (hm a)
      | field _ _ => rfl
      | call _ _ => rfl
    have hop : IsOp (rho ('(' :: (t ++ [')']) ++ '.' :: name)) (meaning (.sel x name)) := by
      rw [hmean, rho_append, rho_wrapped, hr]
      have := isOp_field (w := name) g.cmd (by
        intro c hc
        have := hn.stop c hc
        simp at this
        simp [wordStop, this])
      simpa using this
    apply good_compound nv hd hs
    · rfl
    · unfold Blank at hb ⊢
      rw [List.any_eq_true] at hb ⊢
      obtain ⟨c, hc, hp⟩ := hb
      exact ⟨c, by simp [hc], hp⟩
    · rfl
    · exact isCmd_op hop
    · rfl
    · exact hctx
    · intro a; rw [hmean]; simp
    · intro _; exact hop
    · intro hp
      obtain ⟨hw, _⟩ := g.path hp
      unfold Blank at hb
      rw [List.any_eq_true] at hb
      obtain ⟨c, hc, hbl⟩ := hb
      have := hw.2 c hc
      simp at this
      simp [this] at hbl
  | method h _ => rw [hc] at h; cases h

theorem good_paren {x : Expr} {t : Text} (g : Good x t) : Good (.paren x) t where
  nv := by simp only [nodeValue]; exact g.nv
  dollar := g.dollar
  star := g.star
  digit := g.digit
  dot := g.dot
  cmd := by simp only [meaning]; exact g.cmd
  shape := by
    cases g.shape with
    | word a b => exact .word a (by simp only [meaning]; exact b)
    | quote a b c d e => exact .quote a (by simp only [meaning]; exact b) c d e
    | wrapped a b c => exact .wrapped a b (by simp only [meaning]; exact c)
    | method a b => exact .method a b
  head := fun h => by cases h
  path := fun h => by cases h

theorem all2 {p : Text → Prop} {a b : Text} (ha : p a) (hb : p b) : ∀ x ∈ [a, b], p x := by
  intro x hx
  simp at hx
  rcases hx with rfl | rfl <;> assumption

theorem all3 {p : Text → Prop} {a b c : Text} (ha : p a) (hb : p b) (hc : p c) : ∀ x ∈ [a, b, c], p x := by
  intro x hx
  simp at hx
  rcases hx with rfl | rfl | rfl <;> assumption

theorem AreOps.one {a : Text} {t : Tree} (h : IsOp a t) : AreOps [a] [t] := .cons h .nil
theorem AreOps.two {a b : Text} {t u : Tree} (h : IsOp a t) (h' : IsOp b u) : AreOps [a, b] [t, u] := .cons h (.one h')
theorem AreOps.three {a b c : Text} {t u v : Tree} (h : IsOp a t) (h' : IsOp b u) (h'' : IsOp c v) : AreOps [a, b, c] [t, u, v] :=
  .cons h (.two h' h'')

theorem good_unary {op : Text} {x : Expr} {t : Text} (ho : (functionOf op).isSome) (g : Good x t) (hc : contextCall x = false) :
    ∃ u, Good (.unary op x) u := by
  obtain ⟨f, hf⟩ := Option.isSome_iff_exists.1 ho
  obtain ⟨hw, hsub, _⟩ := functionOf_spec hf
  have hop := g.op hc
  by_cases hm : op = T "-"
  · have fsub : f = T "sub" := hsub.2 hm
    subst hm
    by_cases hdig : startsDigit (wrap t) = true
    · have hnum := hdig
      rw [g.digit] at hnum
      unfold numeric at hnum
      split at hnum
      · rename_i v hv
        have tv : t = v := by
          have := g.nv
          rw [(nodeValue_inner x).1, hv] at this
          simp only [nodeValue, Option.some.injEq] at this
          exact this.symm
        have mv : meaning x = .atom v := by rw [(nodeValue_inner x).2, hv]; rfl
        subst tv
        have hword : Word t ∧ rho t = t := by
          cases g.shape with
          | word a b => rw [mv] at b; simp only [Tree.atom.injEq] at b; exact ⟨a, b.symm⟩
          | quote a _ _ _ e => rw [a, e] at hdig; cases hdig
          | wrapped a _ _ => rw [a] at hdig; cases hdig
          | method a _ => rw [hc] at a; cases a
        rw [hword.1.wrap] at hdig
        refine ⟨'-' :: t, good_word ?_ ?_ ?_ ?_ ?_ rfl ?_⟩
        · simp only [nodeValue, operatorName_eq, hf, g.nv, fsub, Option.map_some, Option.bind_eq_bind, Option.bind_some, if_true, hword.1.wrap, hdig]
        · simp only [List.mem_cons, not_or]; exact ⟨by decide, g.dollar⟩
        · simp only [List.mem_cons, not_or]; exact ⟨by decide, g.star⟩
        · refine ⟨⟨'-', by simp, by decide⟩, ?_⟩
          intro c hc
          rcases List.mem_cons.1 hc with rfl | hc
          · decide
          · exact hword.1.2 c hc
        · simp only [meaning, unaryTree, hv, hdig, rho_cons, hword.2]; rfl
        · rw [hasPrefix_cons]; intro hh; exact absurd hh (by decide)
      · cases hnum
    · have hnum := hdig
      rw [g.digit] at hnum
      have z : FnWord (T "sub") := by decide
      refine ⟨T "sub" ++ spaced [T "0", wrap t], good_fn z (trs := [.atom (T "0"), meaning x]) (by simp) ?_ ?_ ?_ ?_ ?_ rfl rfl rfl rfl⟩
      · simp only [nodeValue, operatorName_eq, hf, g.nv, fsub, Option.map_some, Option.bind_eq_bind, Option.bind_some, if_true, if_neg hdig]
        simp [T, spaced]
      · exact .two (isOp_word (w := T "0") (by decide) (by decide)) hop
      · exact all2 (p := fun a => _ ∉ a) (by decide) (g.dollar')
      · exact all2 (p := fun a => _ ∉ a) (by decide) (g.star')
      · simp only [meaning, unaryTree, if_true]
        split
        · rename_i v hv
          unfold numeric at hnum
          rw [hv] at hnum
          simp only at hnum
          rw [if_neg hnum]
        · rfl
  · have fne : f ≠ T "sub" := fun e => hm (hsub.1 e)
    refine ⟨f ++ spaced [wrap t], good_fn hw (trs := [meaning x]) (by simp) ?_ (.one hop) ?_ ?_ ?_ rfl rfl rfl rfl⟩
    · simp only [nodeValue, operatorName_eq, hf, g.nv, Option.map_some, Option.bind_eq_bind, Option.bind_some, if_neg fne]
      simp [spaced]
    · intro a ha; simp at ha; rw [ha]; exact g.dollar'
    · intro a ha; simp at ha; rw [ha]; exact g.star'
    · simp only [meaning, unaryTree, if_neg hm, hf]; rfl

theorem good_binary {op : Text} {x y : Expr} {t u : Text} (ho : (functionOf op).isSome) (g : Good x t) (hc : contextCall x = false)
    (g' : Good y u) (hc' : contextCall y = false) : ∃ u, Good (.binary op x y) u := by
  obtain ⟨f, hf⟩ := Option.isSome_iff_exists.1 ho
  obtain ⟨hw, _, hmul⟩ := functionOf_spec hf
  refine ⟨f ++ spaced [wrap t, wrap u], good_fn hw (trs := [meaning x, meaning y]) (by simp) ?_ (.two (g.op hc) (g'.op hc')) ?_ ?_ ?_
    rfl rfl rfl rfl⟩
  · have ns : ¬ (f = T "mul" ∧ '*' ∈ wrap u) := fun h => g'.star' h.2
    simp only [nodeValue, operatorName_eq, hf, g.nv, g'.nv, Option.map_some, Option.bind_eq_bind, Option.bind_some, if_neg ns]
    simp [spaced]
  · exact all2 (p := fun a => _ ∉ a) (g.dollar') (g'.dollar')
  · exact all2 (p := fun a => _ ∉ a) (g.star') (g'.star')
  · simp only [meaning, binaryTree]
    split
    · rename_i hm
      have : f = T "mul" := hmul.2 hm
      subst this
      split
      · rename_i z hz; exact absurd hz g'.inner_ne_star
      · rfl
    · rw [hf]; rfl

theorem wrap_cases (t : Text) : wrap t = t ∨ wrap t = '(' :: (t ++ [')']) := by
  unfold wrap
  simp only
  split
  · exact Or.inl rfl
  · split
    · exact Or.inl rfl
    · exact Or.inr rfl

theorem filter_star {t : Text} (h : '*' ∉ t) : t.filter (fun c => c != '*') = t := by
  rw [List.filter_eq_self]
  intro c hc
  simp
  rintro rfl
  exact h hc

theorem good_power {x y z : Expr} {t u : Text} (g : Good x t) (hc : contextCall x = false) (hy : inner y = .star z) (g' : Good z u)
    (hc' : contextCall z = false) : ∃ u, Good (.binary (T "*") x y) u := by
  have hny : nodeValue y = some ('*' :: wrap u) := by
    rw [(nodeValue_inner y).1, hy]
    simp only [nodeValue, g'.nv]; rfl
  have hmy : meaning y = meaning z := by
    rw [(nodeValue_inner y).2, hy]; simp only [meaning]
  have hop := g'.op hc'
  obtain ⟨w, hw, hwop, hwd, hws⟩ : ∃ w, (wrap ('*' :: wrap u)).filter (fun c => c != '*') = w ∧ IsOp (rho w) (meaning z) ∧
      '$' ∉ w ∧ '*' ∉ w := by
    rcases wrap_cases ('*' :: wrap u) with e | e
    · refine ⟨wrap u, ?_, hop, g'.dollar', g'.star'⟩
      rw [e]
      simp [filter_star g'.star']
    · refine ⟨'(' :: (wrap u ++ [')']), ?_, ?_, ?_, ?_⟩
      · rw [e]
        simp [filter_star g'.star']
      · rw [rho_wrapped]; exact isOp_paren (isCmd_op hop)
      · simp only [List.mem_cons, List.mem_append, List.not_mem_nil, or_false, not_or]; exact ⟨by decide, g'.dollar', by decide⟩
      · simp only [List.mem_cons, List.mem_append, List.not_mem_nil, or_false, not_or]; exact ⟨by decide, g'.star', by decide⟩
  have hstar : '*' ∈ wrap ('*' :: wrap u) := by
    rcases wrap_cases ('*' :: wrap u) with e | e <;> rw [e] <;> simp
  have hw' : FnWord (T "power") := by decide
  refine ⟨T "power" ++ spaced [wrap t, w], good_fn hw' (trs := [meaning x, meaning y]) (by simp) ?_ (.two (g.op hc) (by rw [hmy]; exact hwop))
    ?_ ?_ ?_ rfl rfl rfl rfl⟩
  · have hop : operatorName (T "*") = some (T "mul") := rfl
    simp only [nodeValue, hop, g.nv, hny, Option.map_some, Option.bind_eq_bind, Option.bind_some, hstar, and_self, if_true, hw]
    simp [spaced, T]
  · exact all2 (p := fun a => _ ∉ a) (g.dollar') (hwd)
  · exact all2 (p := fun a => _ ∉ a) (g.star') (hws)
  · simp only [meaning, binaryTree, if_true, hy]

theorem good_index {x i : Expr} {t u : Text} (g : Good x t) (hc : contextCall x = false) (g' : Good i u) (hc' : contextCall i = false) :
    ∃ u, Good (.index x i) u := by
  have hw : FnWord (T "slice") := by decide
  refine ⟨T "slice" ++ spaced [wrap t, wrap u], good_fn hw (trs := [meaning x, meaning i]) (by simp) ?_ (.two (g.op hc) (g'.op hc')) ?_ ?_
    (by simp only [meaning]) rfl rfl rfl rfl⟩
  · simp only [nodeValue, g.nv, g'.nv, Option.map_some, Option.bind_eq_bind, Option.bind_some]
    simp [spaced, T]
  · exact all2 (p := fun a => _ ∉ a) (g.dollar') (g'.dollar')
  · exact all2 (p := fun a => _ ∉ a) (g.star') (g'.star')

theorem good_slice {x l h : Expr} {t u v : Text} (g : Good x t) (hc : contextCall x = false) (g' : Good l u) (hc' : contextCall l = false)
    (g'' : Good h v) (hc'' : contextCall h = false) : ∃ u, Good (.slice x l h) u := by
  have hw : FnWord (T "slice") := by decide
  refine ⟨T "slice" ++ spaced [wrap t, wrap u, wrap v], good_fn hw (trs := [meaning x, meaning l, meaning h]) (by simp) ?_
    (.three (g.op hc) (g'.op hc') (g''.op hc'')) ?_ ?_ (by simp only [meaning]) rfl rfl rfl rfl⟩
  · simp only [nodeValue, g.nv, g'.nv, g''.nv, Option.map_some, Option.bind_eq_bind, Option.bind_some]
    simp [spaced, T]
  · exact all3 (p := fun a => _ ∉ a) (g.dollar') (g'.dollar') (g''.dollar')
  · exact all3 (p := fun a => _ ∉ a) (g.star') (g'.star') (g''.star')

/-! ## Calls -/

/-- The name of the function of a call, in the text. -/
def headText (t : Text) : Text := if '.' ∈ t then t else Text.trimPrefix [globalRep] t

theorem nodeValue_call {f : Expr} {t : Text} {args : List Expr} {ts : List Text} (e : Bool) (hf : nodeValue f = some t)
    (ha : nodeValues args = some ts) :
    nodeValue (.call f args e) = some (if ts = [] then headText t ++ [funcCall]
      else if e then T "ellipsis " ++ quoted (headText t ++ [funcCall]) ++ ' ' :: Text.join [' '] ts
      else headText t ++ [funcCall] ++ ' ' :: Text.join [' '] ts) := by
  simp only [nodeValue, hf, ha, Option.bind_eq_bind, Option.bind_some]
  change (if ts = [] then some (headText t ++ [funcCall]) else if e then _ else some (headText t ++ [funcCall] ++ _)) = _
  split
  · rfl
  · split <;> rfl

/-- What is known of the name of the function of a call. -/
structure GoodHead (f : Expr) (h : Text) : Prop where
  op : IsOp (rho h) (headTree f (meaning f))
  dollar : '$' ∉ h
  star : '*' ∉ h
  quote : Text.hasPrefix ['"'] h = false
  dot : Text.hasPrefix [dotRep] h = true → startsCtx f = true
  shape : (Word h ∧ headTree f (meaning f) = .atom (rho h) ∧ startsDigit h = false) ∨
    (Blank h ∧ startsCtx f = false ∧ ∀ a, headTree f (meaning f) ≠ .atom a)
  path : isPath f = true → Word h ∧ headTree f (meaning f) = .atom (rho h)

theorem Word.quote {t : Text} (h : Word t) : Text.hasPrefix ['"'] t = false := by
  cases t with
  | nil => rfl
  | cons c t =>
    rw [hasPrefix_cons]
    have := h.2 c (by simp)
    simp at this
    simp
    intro e
    exact this.2.2.2.2.1 e.symm

/-- A head written as it is. -/
theorem goodHead_same {f : Expr} {t : Text} (g : Good f t) (hh : isHead f = true) (ht : headTree f (meaning f) = meaning f)
    (hc : contextCall f = false) (hl : ∀ v, inner f ≠ .lit v) : GoodHead f t where
  op := by rw [ht]; exact g.head hh
  dollar := g.dollar
  star := g.star
  quote := by
    cases g.shape with
    | word hw _ => exact hw.quote
    | quote _ _ _ h _ => obtain ⟨v, hv⟩ := h; exact absurd hv (hl v)
    | method h _ => rw [hc] at h; cases h
    | wrapped h _ _ => exact (wrapped_inv h).1
  dot := by
    intro h
    rcases g.dot h with h | h
    · exact h
    · rw [hc] at h; cases h
  shape := by
    rw [ht]
    cases g.shape with
    | word hw hm =>
      left
      refine ⟨hw, hm, ?_⟩
      have := g.digit
      rw [hw.wrap] at this
      rw [this]; exact numeric_false hl
    | quote _ _ _ h _ => obtain ⟨v, hv⟩ := h; exact absurd hv (hl v)
    | method h _ => rw [hc] at h; cases h
    | wrapped h hctx hm => exact Or.inr ⟨(wrapped_inv h).2, hctx, hm hl⟩
  path := fun h => by rw [ht]; exact g.path h

theorem trimPrefix_ne {c d : Char} {t : Text} (h : c ≠ d) : Text.trimPrefix [c] (d :: t) = d :: t := by
  simp [Text.trimPrefix, Text.dropPrefix?, h]

theorem goodHead {f : Expr} {t : Text} (g : Good f t) (hcov : Covered f) (hh : isHead f = true) : GoodHead f (headText t) := by
  cases f with
  | ident i =>
    cases hcov with
    | ident hi =>
      have hv := g.nv
      cases i with
      | glob n =>
        have hn : IsName n := hi
        simp only [nodeValue, identValue_glob hn, Option.some.injEq] at hv
        have e : headText t = n := by
          rw [← hv]
          unfold headText
          rw [if_neg]
          · simp [Text.trimPrefix, Text.dropPrefix?]
          · simp only [List.mem_cons, not_or]; exact ⟨by decide, hn.not (by decide)⟩
        rw [e]
        have hm : headTree (.ident (.glob n)) (meaning (.ident (.glob n))) = .atom (rho n) := by rw [hn.rho]; rfl
        refine ⟨?_, hn.not (by decide), hn.not (by decide), hn.word.quote, ?_, Or.inl ⟨hn.word, hm, hn.2.2⟩, fun _ => ⟨hn.word, hm⟩⟩
        · rw [hm]; exact hn.word.op
        · intro h
          obtain ⟨c, w, rfl⟩ := List.exists_cons_of_ne_nil hn.1
          rw [hasPrefix_cons] at h
          simp at h
          subst h
          exact absurd (by simp) (hn.not (c := dotRep) (by decide))
      | loc n =>
        have hn : n = [] ∨ IsName n := hi
        simp [nodeValue, identValue, Ident.name, hasPrefix_cons] at hv
        have e : headText t = t := by
          unfold headText
          split
          · rfl
          · rw [← hv]; exact trimPrefix_ne (by decide)
        rw [e]
        exact goodHead_same g hh rfl rfl (by intro v; simp [inner])
      | ctx n =>
        have hn : n = [] ∨ IsName n := hi
        simp [nodeValue, identValue, Ident.name, hasPrefix_cons] at hv
        have e : headText t = t := by
          unfold headText
          split
          · rfl
          · rw [← hv]; exact trimPrefix_ne (by decide)
        rw [e]
        exact goodHead_same g hh rfl rfl (by intro v; simp [inner])
  | sel x n =>
    have e : headText t = t := by
      unfold headText
      rw [if_pos]
      have hv := g.nv
      simp only [nodeValue, Option.bind_eq_bind, Option.bind_eq_some_iff] at hv
      obtain ⟨y, _, hy⟩ := hv
      simp at hy
      rw [← hy]
      simp
    rw [e]
    exact goodHead_same g hh rfl rfl (by intro v; simp [inner])
  | _ => cases hh

theorem good_args {args : List Expr} (h : ∀ a ∈ args, ∃ t, Good a t) (hc : ∀ a ∈ args, contextCall a = false) :
    ∃ ts, nodeValues args = some ts ∧ AreOps (ts.map rho) (meanings args) ∧ (∀ t ∈ ts, '$' ∉ t) ∧ (∀ t ∈ ts, '*' ∉ t) ∧
      (ts = [] ↔ args = []) := by
  induction args with
  | nil => exact ⟨[], rfl, .nil, by simp, by simp, by simp⟩
  | cons a as ih =>
    obtain ⟨t, g⟩ := h a (by simp)
    obtain ⟨ts, h1, h2, h3, h4, _⟩ := ih (fun b hb => h b (by simp [hb])) (fun b hb => hc b (by simp [hb]))
    refine ⟨wrap t :: ts, ?_, ?_, ?_, ?_, by simp⟩
    · simp only [nodeValues, g.nv, h1, Option.map_some, Option.bind_eq_bind, Option.bind_some]
    · exact .cons (g.op (hc a (by simp))) h2
    · intro x hx
      rcases List.mem_cons.1 hx with rfl | hx
      · exact g.dollar'
      · exact h3 x hx
    · intro x hx
      rcases List.mem_cons.1 hx with rfl | hx
      · exact g.star'
      · exact h4 x hx

theorem not_mem_snoc {c : Char} {h : Text} (hc : c ≠ funcCall) (hh : c ∉ h) : c ∉ h ++ [funcCall] := by
  simp [hc, hh]

theorem rho_snoc (h : Text) : rho (h ++ [funcCall]) = rho h := by
  rw [rho_append]
  have : rho [funcCall] = [] := by decide
  rw [this, List.append_nil]

theorem headTree_ne {t : Text} {tr : Tree} (h : IsOp (rho t) tr) : t ≠ [] := by
  rintro rfl
  exact h.1 rfl

theorem Blank.append {a : Text} (b : Text) (h : Blank a) : Blank (a ++ b) := by
  unfold Blank at h ⊢
  rw [List.any_append, h]
  rfl

theorem good_call_nil {f : Expr} {h : Text} {e : Bool} (nv : nodeValue (.call f [] e) = some (h ++ [funcCall])) (g : GoodHead f h) :
    Good (.call f [] e) (h ++ [funcCall]) := by
  have hm : meaning (.call f [] e) = headTree f (meaning f) := by
    cases e <;> simp [meaning, meanings, callTree]
  have hne := headTree_ne g.op
  have hd := not_mem_snoc (by decide) g.dollar
  have hs := not_mem_snoc (by decide) g.star
  have hdot : Text.hasPrefix [dotRep] (h ++ [funcCall]) = true → startsCtx (.call f [] e) = true := by
    rw [hasPrefix_append_ne hne]; exact g.dot
  rcases g.shape with ⟨hw, ha, hdig⟩ | ⟨hb, hctx, ha⟩
  · apply good_word nv hd hs
    · refine ⟨?_, ?_⟩
      · obtain ⟨c, hc, hf⟩ := hw.1; exact ⟨c, by simp [hc], hf⟩
      · intro c hc
        rcases List.mem_append.1 hc with hc | hc
        · exact hw.2 c hc
        · simp at hc; subst hc; decide
    · rw [hm, ha, rho_snoc]
    · rw [startsDigit_append hne, hdig]; rfl
    · exact fun h => Or.inl (hdot h)
  · apply good_compound nv hd hs
    · rw [hasPrefix_append_ne hne]; exact g.quote
    · exact hb.append _
    · cases e' : Text.hasPrefix [dotRep] (h ++ [funcCall]) with
      | false => rfl
      | true =>
        have := hdot e'
        rw [show startsCtx (.call f [] e) = startsCtx f from rfl, hctx] at this
        cases this
    · rw [hm, rho_snoc]; exact isCmd_op g.op
    · rfl
    · exact hctx
    · intro a; rw [hm]; exact ha a
    · intro hh; cases hh
    · intro hh; cases hh

theorem good_call {f : Expr} {t : Text} {args : List Expr} (g : Good f t) (hcov : Covered f) (hh : isHead f = true)
    (h : ∀ a ∈ args, ∃ t, Good a t) (hc : ∀ a ∈ args, contextCall a = false) : ∃ u, Good (.call f args false) u := by
  have gh := goodHead g hcov hh
  obtain ⟨ts, h1, h2, h3, h4, h5⟩ := good_args h hc
  have nv := nodeValue_call false g.nv h1
  cases args with
  | nil =>
    have : ts = [] := h5.2 rfl
    subst this
    exact ⟨_, good_call_nil nv gh⟩
  | cons a as =>
    cases ts with
    | nil => simp at h5
    | cons b bs =>
      simp only [List.cons_ne_nil, if_false, Bool.false_eq_true] at nv
      rw [spaced_join] at nv
      have hne := headTree_ne gh.op
      have hne' : headText t ++ [funcCall] ≠ [] := by simp
      have hm : meaning (.call f (a :: as) false) = .call (headTree f (meaning f)) (meanings (a :: as)) := by
        simp [meaning, meanings, callTree]
      have hd : '$' ∉ headText t ++ [funcCall] ++ spaced (b :: bs) := by
        rw [List.mem_append]; rintro (hx | hx)
        · exact not_mem_snoc (by decide) gh.dollar hx
        · exact not_mem_spaced (by decide) h3 hx
      have hs : '*' ∉ headText t ++ [funcCall] ++ spaced (b :: bs) := by
        rw [List.mem_append]; rintro (hx | hx)
        · exact not_mem_snoc (by decide) gh.star hx
        · exact not_mem_spaced (by decide) h4 hx
      have cmd : IsCmd (rho (headText t ++ [funcCall] ++ spaced (b :: bs))) (meaning (.call f (a :: as) false)) := by
        rw [rho_append, rho_snoc, rho_spaced, hm]
        exact isCmd_call gh.op h2 (by simp [meanings])
      have hpre : ∀ c, Text.hasPrefix [c] (headText t ++ [funcCall] ++ spaced (b :: bs)) = Text.hasPrefix [c] (headText t) := by
        intro c
        rw [hasPrefix_append_ne hne', hasPrefix_append_ne hne]
      refine ⟨headText t ++ [funcCall] ++ spaced (b :: bs), ?_⟩
      cases hdot : Text.hasPrefix [dotRep] (headText t) with
      | true =>
        have hctx := gh.dot hdot
        refine ⟨nv, hd, hs, ?_, fun _ => Or.inr hctx, cmd, .method hctx rfl, fun hx => (by cases hx), fun hx => (by cases hx)⟩
        have key : startsDigit (headText t ++ [funcCall] ++ spaced (b :: bs)) = false := by
          rw [startsDigit_append hne', startsDigit_append hne]
          cases hht : headText t with
          | nil => rfl
          | cons c w =>
            rw [hht, hasPrefix_cons] at hdot
            simp at hdot
            subst hdot
            rfl
        rcases wrap_cases (headText t ++ [funcCall] ++ spaced (b :: bs)) with e | e <;> rw [e]
        · exact key
        · rfl
      | false =>
        apply good_compound nv hd hs
        · rw [hpre]; exact gh.quote
        · apply blank_of_mem; simp [spaced]
        · rw [hpre]; exact hdot
        · exact cmd
        · rfl
        · rfl
        · intro x; rw [hm]; simp
        · intro hx; cases hx
        · intro hx; cases hx

theorem closeQuote_plain {s : Text} (h : ∀ c ∈ s, c ≠ '"' ∧ c ≠ '\\') : closeQuote '"' (s ++ ['"']) = some (s ++ ['"'], []) := by
  induction s with
  | nil => rfl
  | cons c s ih =>
    have hc := h c (by simp)
    have := ih (fun x hx => h x (by simp [hx]))
    simp only [List.cons_append]
    rw [closeQuote]
    · rw [if_neg hc.1, this]; rfl
    · intro c' s' e1 _
      exact hc.2 e1

theorem quoted_plain {s : Text} (h : ∀ c ∈ s, c ≠ '"' ∧ c ≠ '\\') : quoted s = '"' :: (s ++ ['"']) := by
  unfold quoted
  have : s.flatMap (fun c => if c = '"' ∨ c = '\\' then ['\\', c] else [c]) = s := by
    induction s with
    | nil => rfl
    | cons c s ih =>
      have hc := h c (by simp)
      rw [List.flatMap_cons, ih (fun x hx => h x (by simp [hx]))]
      simp [hc.1, hc.2]
  rw [this]

theorem isHead_of_path {f : Expr} (h : isPath f = true) : isHead f = true := by
  cases f <;> first | rfl | cases h

theorem good_ellipsis {f : Expr} {t : Text} {args : List Expr} (g : Good f t) (hcov : Covered f) (hp : isPath f = true)
    (h : ∀ a ∈ args, ∃ t, Good a t) (hc : ∀ a ∈ args, contextCall a = false) : ∃ u, Good (.call f args true) u := by
  have gh := goodHead g hcov (isHead_of_path hp)
  obtain ⟨ts, h1, h2, h3, h4, h5⟩ := good_args h hc
  have nv := nodeValue_call true g.nv h1
  cases args with
  | nil =>
    have : ts = [] := h5.2 rfl
    subst this
    exact ⟨_, good_call_nil nv gh⟩
  | cons a as =>
    cases ts with
    | nil => simp at h5
    | cons b bs =>
      simp only [List.cons_ne_nil, if_false, if_true] at nv
      rw [spaced_join] at nv
      obtain ⟨hw, hm⟩ := gh.path hp
      have hq : quoted (headText t ++ [funcCall]) = '"' :: (headText t ++ [funcCall] ++ ['"']) := by
        apply quoted_plain
        intro c hc
        rcases List.mem_append.1 hc with hc | hc
        · have := hw.2 c hc
          simp at this
          exact ⟨this.2.2.2.2.1, this.2.2.2.2.2.2.2⟩
        · simp at hc; subst hc; decide
      have hr : rho ('"' :: (headText t ++ [funcCall] ++ ['"'])) = '"' :: (rho (headText t) ++ ['"']) := by
        rw [rho_cons, rho_append, rho_snoc]; rfl
      refine ⟨T "ellipsis" ++ spaced (quoted (headText t ++ [funcCall]) :: b :: bs), good_fn (by decide)
        (trs := .atom ('"' :: (rho (headText t) ++ ['"'])) :: meanings (a :: as)) (by simp) ?_ ?_ ?_ ?_ ?_ rfl rfl rfl rfl⟩
      · rw [nv]; simp [spaced, T]
      · refine .cons ?_ h2
        rw [hq, hr]
        apply isOp_quoted (Or.inl rfl)
        apply closeQuote_plain
        intro c hc
        have := hw.rho_chars c hc
        simp at this
        exact ⟨this.2.2.2.2.1, this.2.2.2.2.2.2.2⟩
      · intro x hx
        rcases List.mem_cons.1 hx with rfl | hx
        · rw [hq]
          simp only [List.mem_cons, List.mem_append, List.not_mem_nil, or_false, not_or]
          exact ⟨by decide, ⟨gh.dollar, by decide⟩, by decide⟩
        · exact h3 x hx
      · intro x hx
        rcases List.mem_cons.1 hx with rfl | hx
        · rw [hq]
          simp only [List.mem_cons, List.mem_append, List.not_mem_nil, or_false, not_or]
          exact ⟨by decide, ⟨gh.star, by decide⟩, by decide⟩
        · exact h4 x hx
      · simp only [meaning, meanings, hm, callTree]

/-- The invariant holds for every covered expression. -/
theorem good_of_covered {e : Expr} (h : Covered e) : ∃ t, Good e t := by
  induction h with
  | unary ho _ hc ih => obtain ⟨t, g⟩ := ih; exact good_unary ho g hc
  | binary ho _ hc _ hc' ih ih' => obtain ⟨t, g⟩ := ih; obtain ⟨u, g'⟩ := ih'; exact good_binary ho g hc g' hc'
  | power _ hc hy _ hc' ih ih' => obtain ⟨t, g⟩ := ih; obtain ⟨u, g'⟩ := ih'; exact good_power g hc hy g' hc'
  | ident hi => exact good_ident hi
  | lit hv => exact ⟨_, good_lit hv⟩
  | sel _ hc hl hn ih => obtain ⟨t, g⟩ := ih; exact good_sel g hc hl hn
  | paren _ ih => obtain ⟨t, g⟩ := ih; exact ⟨t, good_paren g⟩
  | call hf hh _ hc ih iha => obtain ⟨t, g⟩ := ih; exact good_call g hf hh iha hc
  | ellipsis hf hh _ hc ih iha => obtain ⟨t, g⟩ := ih; exact good_ellipsis g hf hh iha hc
  | index _ hc _ hc' ih ih' => obtain ⟨t, g⟩ := ih; obtain ⟨u, g'⟩ := ih'; exact good_index g hc g' hc'
  | slice _ hc _ hc' _ hc'' ih ih' ih'' =>
    obtain ⟨t, g⟩ := ih; obtain ⟨u, g'⟩ := ih'; obtain ⟨v, g''⟩ := ih''; exact good_slice g hc g' hc' g'' hc''

end Verif.Razor
