import Verif.Lemmas.RazorAssignMatch
import Verif.Lemmas.RazorParenLines
/-!
# The rules of the commands, one after the other
-/

namespace Verif.Lemmas
open Verif Regex Spec Engine Razor Table Prepare _root_.Verif.Insert

/-! ## The characters of a command -/

theorem infix_skip {f y z : Text} (hy : ∀ c ∈ y, c ∉ f) (h : f <:+: y ++ z) : f <:+: z := by
  induction y with
  | nil => exact h
  | cons c y ih =>
    rcases infix_glue (a := []) (hy c (List.mem_cons_self ..)) h with h | h
    · rw [List.infix_nil.mp h]
      exact List.nil_infix
    · exact ih (fun d hd => hy d (List.mem_cons_of_mem _ hd)) h

theorem blank_or {c : Char} (h : isBlank c = true) : c = ' ' ∨ c = '\t' := by
  simpa [isBlank] using h

/-- The characters of the words. -/
theorem command_chars {m : Text} (h : CommandWord m) : ∀ c ∈ m, c.isAlpha = true ∨ isBlank c = true := by
  cases h with
  | word m hm => exact (by decide : ∀ m ∈ [c!"if", c!"with", c!"range", c!"block", c!"define"], ∀ c ∈ m, c.isAlpha = true ∨ isBlank c = true) m hm
  | elseIf w _ hw =>
    intro c hc
    simp only [List.mem_append] at hc
    rcases hc with hc | hc | hc
    · exact .inl ((by decide : ∀ c ∈ c!"else", c.isAlpha = true) c hc)
    · exact .inr (hw c hc)
    · exact .inl ((by decide : ∀ c ∈ c!"if", c.isAlpha = true) c hc)

theorem command_no {m : Text} (h : CommandWord m) {c : Char} (h1 : c.isAlpha = false) (h2 : isBlank c = false) : c ∉ m := by
  intro hm
  rcases command_chars h c hm with h | h
  · rw [h1] at h
    cases h
  · rw [h2] at h
    cases h

/-- The characters of an assignment. -/
theorem assignment_chars {letter : Char → Bool} {x : Text} (h : Assignment letter x) : ∀ c ∈ x, varChar letter c = true ∨ c ∈ c!"$ \t,:=" := by
  have hb : ∀ {v : Text}, (∀ c ∈ v, isBlank c = true) → ∀ c ∈ v, c ∈ c!"$ \t,:=" := fun hv c hc => by
    rcases blank_or (hv c hc) with rfl | rfl <;> decide
  have hs : ∀ {v : Text}, Separators v → ∀ c ∈ v, c ∈ c!"$ \t,:=" := fun hv c hc => (by decide : ∀ c ∈ c!" \t,", c ∈ c!"$ \t,:=") c (hv c hc)
  cases h with
  | none => simp
  | one n w v hn hw hv =>
    intro c hc
    simp only [List.mem_append, List.mem_cons, List.not_mem_nil, or_false] at hc
    rcases hc with rfl | hc | hc | (rfl | rfl) | hc
    · exact .inr (by decide)
    · exact .inl (hn.2 c hc)
    · exact .inr (hs hw c hc)
    · exact .inr (by decide)
    · exact .inr (by decide)
    · exact .inr (hb hv c hc)
  | two n w n' w' v hn hw hn' hw' hv =>
    intro c hc
    simp only [List.mem_append, List.mem_cons, List.not_mem_nil, or_false] at hc
    rcases hc with rfl | hc | hc | rfl | hc | hc | (rfl | rfl) | hc
    · exact .inr (by decide)
    · exact .inl (hn.2 c hc)
    · exact .inr (hs hw c hc)
    · exact .inr (by decide)
    · exact .inl (hn'.2 c hc)
    · exact .inr (hs hw' c hc)
    · exact .inr (by decide)
    · exact .inr (by decide)
    · exact .inr (hb hv c hc)

theorem assignment_no {letter : Char → Bool} (hl : SignLetters letter) {x : Text} (h : Assignment letter x) {c : Char} (hc : c ∈ c!"@;{.\n)[\"") : c ∉ x := by
  intro hm
  have ha : letter c = c.isAlpha := hl.1.1 c ((by decide : ∀ c ∈ c!"@;{.\n)[\"", c.toNat < 128) c hc)
  rcases assignment_chars h c hm with h | h
  · unfold varChar at h
    rw [ha] at h
    exact absurd h ((by decide : ∀ c ∈ c!"@;{.\n)[\"", ¬ (c.isAlpha || c.isDigit || c == '_') = true) c hc)
  · exact (by decide : ∀ c ∈ c!"@;{.\n)[\"", c ∉ c!"$ \t,:=") c hc h

/-- How an assignment ends. -/
theorem assignment_end {letter : Char → Bool} {x : Text} (h : Assignment letter x) : x = [] ∨ ∃ y v, x = y ++ ':' :: '=' :: v ∧ ∀ c ∈ v, isBlank c = true := by
  cases h with
  | none => exact .inl rfl
  | one n w v _ _ hv => exact .inr ⟨'$' :: (n ++ w), v, by simp, hv⟩
  | two n w n' w' v _ _ _ _ hv => exact .inr ⟨'$' :: (n ++ (w ++ '$' :: (n' ++ w'))), v, by simp, hv⟩

theorem infix_assigned {letter : Char → Bool} {f x z : Text} (hx : Assignment letter x) (h1 : ∀ c ∈ c!": \t", c ∉ f) (h2 : f.head? ≠ some '=') (h : f <:+: x ++ z) :
    f <:+: x ∨ f <:+: z := by
  rcases assignment_end hx with rfl | ⟨y, v, rfl, hv⟩
  · exact .inr h
  · have e : y ++ ':' :: '=' :: v ++ z = y ++ ':' :: ('=' :: (v ++ z)) := by simp
    rw [e] at h
    rcases infix_glue (h1 _ (by decide)) h with h | h
    · exact .inl (h.trans (List.prefix_append _ _).isInfix)
    · right
      have hvz : f <:+: v ++ z := by
        obtain ⟨a, b, h⟩ := h
        cases a with
        | nil =>
          cases f with
          | nil => exact List.nil_infix
          | cons c f =>
            simp only [List.nil_append, List.cons_append, List.cons.injEq] at h
            exact absurd (by rw [h.1]; rfl) h2
        | cons c a =>
          simp only [List.cons_append, List.cons.injEq] at h
          exact ⟨a, b, h.2⟩
      exact infix_skip (fun c hc => by rcases blank_or (hv c hc) with rfl | rfl <;> exact h1 _ (by decide)) hvz

/-! ## The texts after each rule -/

/-- What precedes a command, an `else` or an `end`. -/
structure Before (first : Bool) (a : Text) : Prop where
  before : '@' ∉ a
  comment : NotCommented a
  quote : NotQuoted a
  line : first = true ∨ '\n' ∈ a
  unmarked : ¬ Engine.callMark <:+: a

/-- The text of a command, after the delimiter. -/
def cmdText (r : Text × Text × Text) (m g w x s b : Text) : Text := r.1 ++ (m ++ (g ++ '(' :: (w ++ (x ++ (s ++ ')' :: b)))))

/-- The code of a command. -/
def cmdCode (r : Text × Text × Text) (m x c : Text) : Text := wordCode (m ++ ' ' :: (x ++ c)) r.2.1 r.2.2

structure Cmd (letter : Char → Bool) (m g w x s b t v : Text) (r : Text × Text × Text) (e : Expr) : Prop where
  signs : r ∈ reduceSigns
  word : CommandWord m
  gap : ∀ d ∈ g, isBlank d = true
  blanks : ∀ d ∈ w, isBlank d = true
  assign : Assignment letter x
  ins : Insertable letter s e
  plain : ∀ d ∈ c!";{[", d ∉ s
  value : Razor.nodeValue e = some v
  after : ∀ d ∈ b, isBlank d = true
  rest : t = [] ∨ t.head? = some '\n'
  unmarked : ¬ Engine.callMark <:+: x

/-! ### Assignments -/

/-- The text of an assignment, after the delimiter. -/
def asgText (q : Text × Text × Option Text) (n w o w' s : Text) : Text := q.1 ++ (n ++ (w ++ (o ++ (w' ++ s))))

/-- The value is an argument if the variable is a key. -/
def asgOperand (q : Text × Text × Option Text) (v : Text) : Text := if q.2.2 = none then v else Razor.wrap v

/-- What precedes the value. -/
def asgFront (q : Text × Text × Option Text) (n o : Text) : Text :=
  match q.2.2 with
  | none => '$' :: (n ++ ' ' :: o)
  | some h => c!"set " ++ (h ++ (c!" \"" ++ (n ++ c!"\"")))

/-- What precedes the code: the check of the variable. -/
def asgLead (check : Option Text) (q : Text × Text × Option Text) (n o : Text) : Text :=
  match q.2.2, check with
  | some _, some f => if o = c!"=" then wordCode (existsCheck f (q.2.1 ++ n)) c!"-" [] else []
  | _, _ => []

def asgCode (check : Option Text) (q : Text × Text × Option Text) (n o c : Text) : Text := asgLead check q n o ++ wordCode (asgFront q n o ++ ' ' :: c) c!"-" []

structure Asg (letter : Char → Bool) (n w o w' s o' x t v : Text) (q : Text × Text × Option Text) (e : Expr) : Prop where
  place : q ∈ places
  name : PlaceName letter q.1 n
  blanks : ∀ d ∈ w, isBlank d = true
  value : ValueText (q.2.1 ++ n) s o o' x
  gap : w = [] → ∀ d ∈ c!"+-*%", o.head? ≠ some d
  blanks' : ∀ d ∈ w', isBlank d = true
  ne : s ≠ []
  first : ∀ d, s.head? = some d → isBlank d = false
  ins : Insertable letter x e
  bracket : '[' ∉ x
  call : q.2.2 ≠ none → contextCall e = false
  nv : Razor.nodeValue e = some v
  rest : t = [] ∨ t.head? = some '\n'
  unmarked : ¬ Engine.callMark <:+: n

theorem value_signs {v s o o' x : Text} (h : ValueText v s o o' x) : o ∈ assignSigns ∧ o ≠ c!"~=" ∧ o' ∈ [c!":=", c!"="] ∧ s <:+: x := by
  cases h with
  | same o ho =>
    obtain ⟨h1, h2⟩ := (by decide : ∀ o ∈ [c!":=", c!"="], o ∈ assignSigns ∧ o ≠ c!"~=") o ho
    exact ⟨h1, h2, ho, List.infix_refl _⟩
  | operation x hx =>
    obtain ⟨h1, h2⟩ := (by decide : ∀ x ∈ assignOperators, x ++ c!"=" ∈ assignSigns ∧ x ++ c!"=" ≠ c!"~=") x hx
    exact ⟨h1, h2, by decide, ⟨v ++ ' ' :: (x ++ c!" ("), c!")", by simp⟩⟩

theorem name_no {letter : Char → Bool} (hl : PlainLetters letter) {g n : Text} (h : PlaceName letter g n) {c : Char} (hc : c ∈ c!"@.[`<{!\"()$ \t\n,:=-;}") : c ∉ n := by
  intro hm
  have := h.chars c hm
  unfold varChar at this
  rw [hl.1 c ((by decide : ∀ c ∈ c!"@.[`<{!\"()$ \t\n,:=-;}", c.toNat < 128) c hc)] at this
  exact absurd this ((by decide : ∀ c ∈ c!"@.[`<{!\"()$ \t\n,:=-;}", ¬ (c.isAlpha || c.isDigit || c == '_') = true) c hc)

theorem front_chars {letter : Char → Bool} {n w o w' s o' x t v : Text} {q : Text × Text × Option Text} {e : Expr}
    (h : Asg letter n w o w' s o' x t v q e) {c : Char} (hc : c ∈ asgFront q n o') : c ∈ n ∨ c ∈ c!"$ :=set.\"" := by
  have hh := (by decide : ∀ q ∈ places, ∀ h, q.2.2 = some h → ∀ c ∈ h, c ∈ c!"$ :=set.\"") q h.place
  have ho := (by decide : ∀ o ∈ [c!":=", c!"="], ∀ c ∈ o, c ∈ c!"$ :=set.\"") o' (value_signs h.value).2.2.1
  unfold asgFront at hc
  split at hc
  · simp only [List.mem_cons, List.mem_append] at hc
    rcases hc with rfl | hc | rfl | hc
    · exact .inr (by decide)
    · exact .inl hc
    · exact .inr (by decide)
    · exact .inr (ho c hc)
  · next hq =>
    rw [List.mem_append, List.mem_append, List.mem_append, List.mem_append] at hc
    rcases hc with hc | hc | hc | hc | hc
    · exact .inr ((by decide : ∀ c ∈ c!"set ", c ∈ c!"$ :=set.\"") c hc)
    · exact .inr (hh _ hq c hc)
    · exact .inr ((by decide : ∀ c ∈ c!" \"", c ∈ c!"$ :=set.\"") c hc)
    · exact .inl hc
    · exact .inr ((by decide : ∀ c ∈ c!"\"", c ∈ c!"$ :=set.\"") c hc)

/-- The characters of the check. -/
def checkChars : Text := c!"assertWarning (not (isNil $.)) \" does not exist, use := to declare new variable\""

theorem check_chars {mode : Razor.Validation} {f : Text} (hf : checkOf mode = some f) {q : Text × Text × Option Text} (hq : q ∈ places) {n : Text} {c : Char}
    (hc : c ∈ existsCheck f (q.2.1 ++ n)) : c ∈ n ∨ c ∈ checkChars := by
  have h1 : ∀ c ∈ f, c ∈ checkChars := by
    cases mode with
    | disabled => cases hf
    | warning =>
      cases hf
      decide
    | strict =>
      cases hf
      decide
  have h2 := (by decide : ∀ q ∈ places, ∀ c ∈ q.2.1, c ∈ checkChars) q hq
  unfold existsCheck at hc
  simp only [List.mem_append] at hc
  rcases hc with hc | hc | (hc | hc) | hc | (hc | hc) | hc
  · exact .inr (h1 c hc)
  · exact .inr ((by decide : ∀ c ∈ c!" (not (isNil ", c ∈ checkChars) c hc)
  · exact .inr (h2 c hc)
  · exact .inl hc
  · exact .inr ((by decide : ∀ c ∈ c!")) \"", c ∈ checkChars) c hc)
  · exact .inr (h2 c hc)
  · exact .inl hc
  · exact .inr ((by decide : ∀ c ∈ c!" does not exist, use := to declare new variable\"", c ∈ checkChars) c hc)

theorem lead_cases (mode : Razor.Validation) (q : Text × Text × Option Text) (n o : Text) :
    asgLead (checkOf mode) q n o = [] ∨ ∃ f, checkOf mode = some f ∧ asgLead (checkOf mode) q n o = wordCode (existsCheck f (q.2.1 ++ n)) c!"-" [] := by
  unfold asgLead
  split
  · next hf =>
    split
    · exact .inr ⟨_, hf, rfl⟩
    · exact .inl rfl
  · exact .inl rfl

theorem operand_free {letter : Char → Bool} {f g : Text} (hf : Foreign f g) {n w o w' s o' x t v : Text} {q : Text × Text × Option Text} {e : Expr}
    (h : Asg letter n w o w' s o' x t v q e) (hx : ¬ g <:+: x) : ¬ f <:+: mu (asgOperand q v) := by
  have := code_free hf h.ins.source hx v h.nv
  unfold asgOperand
  split
  · exact this
  · exact hf.wrapped this

theorem asg_chars {letter : Char → Bool} (hl : SignLetters letter) {mode : Razor.Validation} {n w o w' s o' x t v : Text} {q : Text × Text × Option Text} {e : Expr}
    (h : Asg letter n w o w' s o' x t v q e) : '@' ∉ asgText q n w o w' s ∧ '@' ∉ asgCode (checkOf mode) q n o' (mu (asgOperand q v)) := by
  obtain ⟨h1, h2, h3, h4⟩ := value_signs h.value
  have hx := source_src hl h.ins.source
  have hb : ∀ {y : Text}, (∀ d ∈ y, isBlank d = true) → '@' ∉ y := fun hy hm => absurd (hy _ hm) (by decide)
  have hn := name_no hl.1 h.name (c := '@') (by decide)
  refine ⟨?_, ?_⟩
  · have g1 := (by decide : ∀ q ∈ places, '@' ∉ q.1) q h.place
    have g2 := (by decide : ∀ o ∈ assignSigns, '@' ∉ o) o h1
    have g3 : '@' ∉ s := fun hm => hx.at_ (h4.subset hm)
    simp [asgText, g1, g2, g3, hn, hb h.blanks, hb h.blanks']
  · have hc : '@' ∉ mu (asgOperand q v) := fun hi => operand_free (foreign_later _ (by decide)) h (fun hi => hx.at_ (hi.subset (by decide))) (one_infix hi)
    have hf : '@' ∉ asgFront q n o' := fun hi => by
      rcases front_chars h hi with hi | hi
      · exact hn hi
      · exact absurd hi (by decide)
    have g1 := wordCode_at (r := (c!"-", c!"-", [])) (by decide) (word := asgFront q n o' ++ ' ' :: mu (asgOperand q v)) (by simp [hc, hf])
    unfold asgCode
    rcases lead_cases mode q n o' with e | ⟨f, hf, e⟩
    · rw [e]
      exact g1
    · have g2 := wordCode_at (r := (c!"-", c!"-", [])) (by decide) (word := existsCheck f (q.2.1 ++ n)) (fun hi => by
        rcases check_chars hf h.place hi with hi | hi
        · exact hn hi
        · exact absurd hi (by decide))
      rw [e]
      intro hi
      rcases List.mem_append.mp hi with hi | hi
      · exact g2 hi
      · exact g1 hi

theorem asgCode_brace (check : Option Text) (q : Text × Text × Option Text) (n o c u : Text) : ∃ y, asgCode check q n o c ++ u = '{' :: y := by
  unfold asgCode asgLead
  split
  · split
    · exact ⟨_, by rw [List.append_assoc, wordCode_brace]⟩
    · exact ⟨_, by rw [List.append_assoc, List.nil_append, wordCode_brace]⟩
  · exact ⟨_, by rw [List.append_assoc, List.nil_append, wordCode_brace]⟩

/-- A source, the text after the rules of commands, after the one of `else`, after the one of `end` and after the one of
assignments. -/
inductive BlockSteps (letter : Char → Bool) (mode : Razor.Validation) : Bool → Text → Text → Text → Text → Text → Prop
  | plain {f a} : '@' ∉ a → ¬ Engine.callMark <:+: a → BlockSteps letter mode f a a a a a
  | expr {f a w s d t u1 u2 u3 u4 v r e} : Part letter a w s d t v r e → BlockSteps letter mode false t u1 u2 u3 u4 →
      BlockSteps letter mode f (a ++ '@' :: (parenText r w s d ++ t)) (a ++ '@' :: (parenText r w s d ++ u1)) (a ++ '@' :: (parenText r w s d ++ u2))
        (a ++ '@' :: (parenText r w s d ++ u3)) (a ++ '@' :: (parenText r w s d ++ u4))
  | command {f a m g w x s b t u1 u2 u3 u4 v r e} : Before f a → Cmd letter m g w x s b t v r e → BlockSteps letter mode false t u1 u2 u3 u4 →
      BlockSteps letter mode f (a ++ '@' :: (cmdText r m g w x s b ++ t)) (a ++ (cmdCode r m x (mu v) ++ u1)) (a ++ (cmdCode r m x (mu v) ++ u2))
        (a ++ (cmdCode r m x (mu v) ++ u3)) (a ++ (cmdCode r m x (mu v) ++ u4))
  | els {f a t u1 u2 u3 u4} {r : Text × Text × Text} : Before f a → r ∈ reduceSigns → NotHost letter t → NotIf t → BlockSteps letter mode false t u1 u2 u3 u4 →
      BlockSteps letter mode f (a ++ '@' :: (r.1 ++ (c!"else" ++ t))) (a ++ '@' :: (r.1 ++ (c!"else" ++ u1))) (a ++ (wordCode c!"else" r.2.1 r.2.2 ++ u2))
        (a ++ (wordCode c!"else" r.2.1 r.2.2 ++ u3)) (a ++ (wordCode c!"else" r.2.1 r.2.2 ++ u4))
  | fin {f a w t u1 u2 u3 u4} {r : Text × Text × Text} : Before f a → r ∈ reduceSigns → NotHost letter (w ++ t) → (∀ c ∈ w, dropChar c = true) →
      (∀ u, PrefixLike t u → Closes (w ++ u) u) → BlockSteps letter mode false t u1 u2 u3 u4 →
      BlockSteps letter mode f (a ++ '@' :: (r.1 ++ (c!"end" ++ (w ++ t)))) (a ++ '@' :: (r.1 ++ (c!"end" ++ (w ++ u1)))) (a ++ '@' :: (r.1 ++ (c!"end" ++ (w ++ u2))))
        (a ++ (wordCode c!"end" r.2.1 r.2.2 ++ u3)) (a ++ (wordCode c!"end" r.2.1 r.2.2 ++ u4))
  | assign {f a n w o w' s o' x t v u1 u2 u3 u4 e q} : Before f a → Asg letter n w o w' s o' x t v q e → BlockSteps letter mode false t u1 u2 u3 u4 →
      BlockSteps letter mode f (a ++ '@' :: (asgText q n w o w' s ++ t)) (a ++ '@' :: (asgText q n w o w' s ++ u1)) (a ++ '@' :: (asgText q n w o w' s ++ u2))
        (a ++ '@' :: (asgText q n w o w' s ++ u3)) (a ++ (asgCode (checkOf mode) q n o' (mu (asgOperand q v)) ++ u4))

theorem block_steps {letter : Char → Bool} (mode : Razor.Validation) {f : Bool} {t out : Text} (h : Blocks letter none (fun _ _ => True) f t out) (hm : ¬ Engine.callMark <:+: t) :
    ∃ u1 u2 u3 u4, BlockSteps letter mode f t u1 u2 u3 u4 := by
  induction h with
  | plain f a ha => exact ⟨a, a, a, a, .plain ha hm⟩
  | expr f a w s c rest rest' out e r h1 h2 h3 h4 h5 h6 h7 _ h9 h10 _ ih =>
    obtain ⟨d, d1, rfl, d3⟩ := remains_dropped h10
    obtain ⟨v, hv⟩ := good_of_covered (source_covered h7.source).1
    have e1 : a ++ '@' :: (r.1 ++ '(' :: (w ++ (s ++ ')' :: (d ++ rest')))) = a ++ '@' :: (parenText r w s d ++ rest') := by simp [parenText]
    rw [e1] at hm ⊢
    obtain ⟨u1, u2, u3, u4, ih⟩ := ih (fun hi => hm (hi.trans ⟨a ++ '@' :: parenText r w s d, [], by simp⟩))
    exact ⟨_, _, _, _, .expr ⟨h1, h2, h3, h4, h5, h6, h7, hv.nv, d1, d3, h9, fun hi => hm (hi.trans (List.prefix_append _ _).isInfix)⟩ ih⟩
  | command f a m g w x s c b rest out e r h1 h2 h3 h4 h5 h6 h7 h8 h9 h10 h11 _ h13 h14 _ ih =>
    obtain ⟨v, hv⟩ := good_of_covered (source_covered h10.source).1
    have e1 : a ++ '@' :: (r.1 ++ (m ++ (g ++ '(' :: (w ++ (x ++ (s ++ ')' :: (b ++ rest))))))) = a ++ '@' :: (cmdText r m g w x s b ++ rest) := by simp [cmdText]
    rw [e1] at hm ⊢
    obtain ⟨u1, u2, u3, u4, ih⟩ := ih (fun hi => hm (hi.trans ⟨a ++ '@' :: cmdText r m g w x s b, [], by simp⟩))
    exact ⟨_, _, _, _, .command ⟨h1, h2, h3, h4, fun hi => hm (hi.trans (List.prefix_append _ _).isInfix)⟩
      ⟨h5, h6, h7, h8, h9, h10, h11, hv.nv, h13, h14, fun hi => hm (hi.trans ⟨a ++ '@' :: (r.1 ++ (m ++ (g ++ '(' :: w))), s ++ ')' :: (b ++ rest), by simp [cmdText]⟩)⟩ ih⟩
  | els f a rest out r h1 h2 h3 h4 h5 h6 h7 _ ih =>
    obtain ⟨u1, u2, u3, u4, ih⟩ := ih (fun hi => hm (hi.trans ⟨a ++ '@' :: (r.1 ++ c!"else"), [], by simp⟩))
    exact ⟨_, _, _, _, .els ⟨h1, h2, h3, h4, fun hi => hm (hi.trans (List.prefix_append _ _).isInfix)⟩ h5 h6 h7 ih⟩
  | fin f a rest rest' out r h1 h2 h3 h4 h5 h6 h7 _ ih =>
    obtain ⟨w, w1, rfl, w3⟩ := closes_dropped h7
    obtain ⟨u1, u2, u3, u4, ih⟩ := ih (fun hi => hm (hi.trans ⟨a ++ '@' :: (r.1 ++ (c!"end" ++ w)), [], by simp⟩))
    exact ⟨_, _, _, _, .fin ⟨h1, h2, h3, h4, fun hi => hm (hi.trans (List.prefix_append _ _).isInfix)⟩ h5 h6 w1 w3 ih⟩
  | assign f a n w o w' s o' x c rest out e q h1 h2 h3 h4 h5 h6 h7 h8 h9 h10 h11 h12 h13 h14 h15 _ h17 _ ih =>
    obtain ⟨v, hv⟩ := good_of_covered (source_covered h13.source).1
    have e1 : a ++ '@' :: (q.1 ++ (n ++ (w ++ (o ++ (w' ++ (s ++ rest)))))) = a ++ '@' :: (asgText q n w o w' s ++ rest) := by simp [asgText]
    rw [e1] at hm ⊢
    obtain ⟨u1, u2, u3, u4, ih⟩ := ih (fun hi => hm (hi.trans ⟨a ++ '@' :: asgText q n w o w' s, [], by simp⟩))
    exact ⟨_, _, _, _, .assign ⟨h1, h2, h3, h4, fun hi => hm (hi.trans (List.prefix_append _ _).isInfix)⟩
      ⟨h5, h6, h7, h8, h9, h10, h11, h12, h13, h14, h15, hv.nv, h17, fun hi => hm (hi.trans ⟨a ++ '@' :: q.1, w ++ (o ++ (w' ++ (s ++ rest))), by simp [asgText]⟩)⟩ ih⟩

theorem block_like {letter : Char → Bool} {mode : Razor.Validation} {f : Bool} {t u1 u2 u3 u4 : Text} (h : BlockSteps letter mode f t u1 u2 u3 u4) : PrefixLike t u1 ∧ PrefixLike t u2 ∧ PrefixLike t u3 ∧ PrefixLike t u4 := by
  induction h with
  | plain _ _ => exact ⟨fun _ _ h => h, fun _ _ h => h, fun _ _ h => h, fun _ _ h => h⟩
  | @expr f a w s d t u1 u2 u3 u4 v r e _ _ ih =>
    have e1 : ∀ u, a ++ '@' :: (parenText r w s d ++ u) = (a ++ '@' :: parenText r w s d) ++ u := by simp
    simp only [e1]
    exact ⟨prefixLike_front _ ih.1, prefixLike_front _ ih.2.1, prefixLike_front _ ih.2.2.1, prefixLike_front _ ih.2.2.2⟩
  | command _ _ _ _ =>
    unfold cmdCode
    simp only [wordCode_brace]
    exact ⟨prefixLike_code _ _ _, prefixLike_code _ _ _, prefixLike_code _ _ _, prefixLike_code _ _ _⟩
  | @els f a t u1 u2 u3 u4 r _ _ _ _ _ ih =>
    have e1 : ∀ u, a ++ '@' :: (r.1 ++ (c!"else" ++ u)) = (a ++ '@' :: (r.1 ++ c!"else")) ++ u := by simp
    refine ⟨?_, ?_, ?_, ?_⟩
    · rw [e1, e1]
      exact prefixLike_front _ ih.1
    · rw [wordCode_brace]
      exact prefixLike_code _ _ _
    · rw [wordCode_brace]
      exact prefixLike_code _ _ _
    · rw [wordCode_brace]
      exact prefixLike_code _ _ _
  | @fin f a w t u1 u2 u3 u4 r _ _ _ _ _ _ ih =>
    have e1 : ∀ u, a ++ '@' :: (r.1 ++ (c!"end" ++ (w ++ u))) = (a ++ '@' :: (r.1 ++ (c!"end" ++ w))) ++ u := by simp
    refine ⟨?_, ?_, ?_, ?_⟩
    · rw [e1, e1]
      exact prefixLike_front _ ih.1
    · rw [e1, e1]
      exact prefixLike_front _ ih.2.1
    · rw [wordCode_brace]
      exact prefixLike_code _ _ _
    · rw [wordCode_brace]
      exact prefixLike_code _ _ _
  | @assign f a n w o w' s o' x t v u1 u2 u3 u4 e q _ _ _ ih =>
    have e1 : ∀ u, a ++ '@' :: (asgText q n w o w' s ++ u) = (a ++ '@' :: asgText q n w o w' s) ++ u := by simp
    refine ⟨?_, ?_, ?_, ?_⟩
    · rw [e1, e1]
      exact prefixLike_front _ ih.1
    · rw [e1, e1]
      exact prefixLike_front _ ih.2.1
    · rw [e1, e1]
      exact prefixLike_front _ ih.2.2.1
    · obtain ⟨y, hy⟩ := asgCode_brace (checkOf mode) q n o' (mu (asgOperand q v)) u4
      rw [hy]
      exact prefixLike_code _ _ _

/-- The beginnings of the lines remain. -/
theorem block_head {letter : Char → Bool} {mode : Razor.Validation} {f : Bool} {t u1 u2 u3 u4 : Text} (h : BlockSteps letter mode f t u1 u2 u3 u4)
    (ht : t = [] ∨ t.head? = some '\n') : u3 = [] ∨ u3.head? = some '\n' := by
  have key : ∀ {a y z : Text}, (a ++ '@' :: y = [] ∨ (a ++ '@' :: y).head? = some '\n') → a ++ z = [] ∨ (a ++ z).head? = some '\n' := by
    intro a y z h
    cases a with
    | nil => rcases h with h | h <;> cases h
    | cons c a =>
      right
      rcases h with h | h
      · cases h
      · exact h
  cases h with
  | plain _ _ => exact ht
  | _ => exact key ht

theorem cmd_chars {letter : Char → Bool} (hl : SignLetters letter) {m g w x s b t v : Text} {r : Text × Text × Text} {e : Expr} (h : Cmd letter m g w x s b t v r e) :
    '@' ∉ cmdText r m g w x s b ∧ '@' ∉ cmdCode r m x (mu v) := by
  have hs := source_src hl h.ins.source
  have hb : ∀ {y : Text}, (∀ d ∈ y, isBlank d = true) → '@' ∉ y := fun hy hm => absurd (hy _ hm) (by decide)
  have hm := command_no h.word (c := '@') (by decide) (by decide)
  have hx := assignment_no hl h.assign (c := '@') (by decide)
  refine ⟨?_, ?_⟩
  · simp [cmdText, (sign_at h.signs).1, hm, hb h.gap, hb h.blanks, hx, hs.at_, hb h.after]
  · refine wordCode_at h.signs ?_
    have : '@' ∉ mu v := fun hi => code_free (foreign_later _ (by decide)) h.ins.source (fun hi => hs.at_ (hi.subset (by decide))) v h.value (one_infix hi)
    simp [hm, hx, this]

/-! ## The shape of the source -/

theorem notCommented_char {c : Char} {w a : Text} (h1 : isBlank c = false) (h2 : ∀ m ∈ commentSigns, c ∉ m) (h : NotCommented a) : NotCommented (w ++ c :: a) := by
  intro u m v hm hv he
  have hmv : c ∉ m ++ v := by
    intro hi
    rcases List.mem_append.mp hi with hi | hi
    · exact h2 m hm hi
    · have := hv _ hi
      rw [h1] at this
      cases this
  rcases List.append_eq_append_iff.mp he with ⟨x, h1, h2⟩ | ⟨x, h1, h2⟩
  · cases x with
    | nil =>
      rw [List.nil_append] at h2
      exact hmv (by rw [← h2]; simp)
    | cons d x =>
      simp only [List.cons_append, List.cons.injEq] at h2
      exact h x m v hm hv h2.2
  · exact hmv (by rw [h2]; simp)

/-- A text is followed by another one. -/
theorem shape_next {letter : Char → Bool} {a y t : Text} (ha : '@' ∉ a) (hy : '@' ∉ y) (h1 : NotCommented a) (h2 : AfterSign letter (y ++ t) ∨ AssignNext letter (y ++ t))
    (h3 : ∀ u v, t = u ++ '@' :: v → NotCommented u → NotCommented (a ++ '@' :: (y ++ u))) (h : BlockShape letter t) : BlockShape letter (a ++ '@' :: (y ++ t)) := by
  intro u v hu
  rcases first_at ha hu with ⟨rfl, rfl⟩ | ⟨z, rfl, hz⟩
  · exact ⟨h1, h2⟩
  · rcases List.append_eq_append_iff.mp hz with ⟨m, h4, h5⟩ | ⟨m, h4, h5⟩
    · obtain ⟨g1, g2⟩ := h m v h5
      refine ⟨?_, g2⟩
      rw [h4]
      exact h3 m v h5 g1
    · cases m with
      | nil =>
        rw [List.append_nil] at h4
        obtain ⟨g1, g2⟩ := h [] v h5.symm
        refine ⟨?_, g2⟩
        rw [← h4, ← List.append_nil y]
        exact h3 [] v h5.symm g1
      | cons c m =>
        simp only [List.cons_append, List.cons.injEq] at h5
        exact absurd (by rw [h4, ← h5.1]; simp) hy

theorem notHost_paren {letter : Char → Bool} (hl : PlainLetters letter) {g y : Text} (hg : ∀ d ∈ g, isBlank d = true) : NotHost letter (g ++ '(' :: y) := by
  have hb : ∀ c ∈ c!" \t(", hostChar letter c = false ∧ c ≠ '.' := by
    intro c hc
    have ha : letter c = c.isAlpha := hl.1 c ((by decide : ∀ c ∈ c!" \t(", c.toNat < 128) c hc)
    unfold hostChar varChar
    rw [ha]
    exact (by decide : ∀ c ∈ c!" \t(", (c.isAlpha || c.isDigit || c == '_' || c == '-') = false ∧ c ≠ '.') c hc
  intro f c e hf hc hq
  obtain ⟨d, q, hd, he⟩ : ∃ d q, d ∈ c!" \t(" ∧ g ++ '(' :: y = d :: q := by
    cases g with
    | nil => exact ⟨'(', y, by decide, rfl⟩
    | cons d g => exact ⟨d, g ++ '(' :: y, by rcases blank_or (hg d (List.mem_cons_self ..)) with rfl | rfl <;> decide, rfl⟩
  rw [he] at hq
  cases f with
  | nil =>
    simp only [List.nil_append, List.cons.injEq] at hq
    exact (hb d hd).2 hq.1
  | cons x f =>
    simp only [List.cons_append, List.cons.injEq] at hq
    have := hf x (List.mem_cons_self ..)
    rw [← hq.1, (hb d hd).1] at this
    cases this

theorem cmd_after {letter : Char → Bool} (hl : SignLetters letter) {m g w x s b t v : Text} {r : Text × Text × Text} {e : Expr} (h : Cmd letter m g w x s b t v r e) :
    AfterSign letter (cmdText r m g w x s b ++ t) := by
  have hs := source_src hl h.ins.source
  refine ⟨r.1, m ++ (g ++ '(' :: (w ++ (x ++ (s ++ ')' :: (b ++ t))))), by simp [cmdText], paren_signs h.signs, ?_⟩
  have hplain : LinePlain (w ++ (x ++ (s ++ ')' :: (b ++ t)))) := by
    have hb : ∀ {y : Text}, (∀ d ∈ y, isBlank d = true) → ∀ d ∈ c!"@;{", d ∉ y := fun hy d hd hm => by
      rcases blank_or (hy d hm) with rfl | rfl <;> exact absurd hd (by decide)
    have e1 : w ++ (x ++ (s ++ ')' :: (b ++ t))) = (w ++ (x ++ (s ++ ')' :: b))) ++ t := by simp
    have hno : ∀ d ∈ c!"@;{", d ∉ w ++ (x ++ (s ++ ')' :: b)) := by
      intro d hd hm
      simp only [List.mem_append, List.mem_cons] at hm
      rcases hm with hm | hm | hm | hm | hm
      · exact hb h.blanks d hd hm
      · exact assignment_no hl h.assign ((by decide : ∀ d ∈ c!"@;{", d ∈ c!"@;{.\n)[\"") d hd) hm
      · rcases (by decide : ∀ d ∈ c!"@;{", d = '@' ∨ d ∈ c!";{[") d hd with rfl | hd
        · exact hs.at_ hm
        · exact h.plain d hd hm
      · exact (by decide : ∀ d ∈ c!"@;{", d ≠ ')') d hd hm
      · exact hb h.after d hd hm
    rw [e1]
    intro u d z hu hd
    rcases List.append_eq_append_iff.mp hu with ⟨q, h1, h2⟩ | ⟨q, h1, h2⟩
    · cases q with
      | nil =>
        rw [List.nil_append] at h2
        rcases h.rest with ht | ht
        · rw [ht] at h2
          cases h2
        · rw [h2] at ht
          cases ht
          exact absurd hd (by decide)
      | cons c q =>
        rcases h.rest with ht | ht
        · rw [ht] at h2
          cases h2
        · rw [h2] at ht
          cases ht
          rw [h1]
          simp
    · cases q with
      | nil =>
        rw [List.nil_append] at h2
        rcases h.rest with ht | ht
        · rw [ht] at h2
          cases h2
        · rw [← h2] at ht
          cases ht
          exact absurd hd (by decide)
      | cons c q =>
        simp only [List.cons_append, List.cons.injEq] at h2
        exact absurd (by rw [h1, h2.1]; simp) (hno d hd)
  cases h.word with
  | word m hm =>
    rcases (by decide : ∀ m ∈ [c!"if", c!"with", c!"range", c!"block", c!"define"], m ∈ [c!"if", c!"with", c!"range"] ∨ m ∈ [c!"else", c!"end", c!"block", c!"define"]) m hm with hm | hm
    · exact .command m g _ hm h.gap hplain
    · exact .word m _ hm (notHost_paren hl.1 h.gap)
  | elseIf w' _ hw' =>
    have e1 : ∀ y, (c!"else" ++ (w' ++ c!"if")) ++ y = c!"else" ++ ((w' ++ c!"if") ++ y) := by simp
    rw [e1]
    refine .word _ _ (by decide) (notHost_word (notHost_paren hl.1 h.gap) ?_)
    intro hm
    rcases List.mem_append.mp hm with hm | hm
    · exact absurd (hw' _ hm) (by decide)
    · exact absurd hm (by decide)

theorem asg_after {letter : Char → Bool} {n w o w' s o' x t v : Text} {q : Text × Text × Option Text} {e : Expr} (h : Asg letter n w o w' s o' x t v q e) (u : Text) :
    AssignNext letter (asgText q n w o w' s ++ u) := by
  obtain ⟨h1, h2, _, _⟩ := value_signs h.value
  obtain ⟨c, n', rfl, hc⟩ := h.name.first
  obtain ⟨d, o₁, rfl, hd⟩ := sign_first h1 h2
  rcases (by decide : ∀ q ∈ places, q.1 = [] ∨ ∃ c ∈ c!"$.", q.1.head? = some c) q h.place with e1 | ⟨c', hc', e1⟩
  · have e2 : asgText q (c :: n') w (d :: o₁) w' s ++ u = c :: (n' ++ (w ++ d :: (o₁ ++ (w' ++ (s ++ u))))) := by simp [asgText, e1]
    rw [e2]
    refine .name _ _ hc ⟨n', w, d, _, rfl, fun c hc => h.name.chars c (List.mem_cons_of_mem _ hc), h.blanks, hd, fun hw hm => ?_⟩
    exact h.gap hw '-' (by decide) (by rw [hm]; rfl)
  · obtain ⟨z, hz⟩ : ∃ z, q.1 = c' :: z := by
      cases hq : q.1 with
      | nil => rw [hq] at e1; cases e1
      | cons d z =>
        rw [hq] at e1
        cases e1
        exact ⟨z, rfl⟩
    unfold asgText
    rw [hz]
    refine .sign _ _ ?_
    simpa using hc'

theorem block_shape {letter : Char → Bool} (hl : SignLetters letter) {mode : Razor.Validation} {f : Bool} {t u1 u2 u3 u4 : Text} (h : BlockSteps letter mode f t u1 u2 u3 u4) : BlockShape letter t := by
  induction h with
  | plain ha _ => exact fun u v he => absurd (by rw [he]; simp) ha
  | @expr f a w s d t u1 u2 u3 u4 v r e hq _ ih =>
    refine shape_next hq.before (part_chars hl hq).1 hq.comment (.inl ?_) (fun u _ _ hu => notCommented_part hq hu) ih
    exact ⟨r.1, '(' :: (w ++ (s ++ ')' :: (d ++ t))), by simp [parenText], paren_signs hq.signs, .paren _⟩
  | @command f a m g w x s b t u1 u2 u3 u4 v r e ha hq _ ih =>
    refine shape_next ha.before (cmd_chars hl hq).1 ha.comment (.inl (cmd_after hl hq)) (fun u _ _ hu => ?_) ih
    have h1 : NotCommented (b ++ u) := notCommented_front ⟨fun hm => absurd (hq.after _ hm) (by decide), fun hm => absurd (hq.after _ hm) (by decide)⟩ hu
    have := notCommented_paren (w := a ++ '@' :: (r.1 ++ (m ++ (g ++ '(' :: (w ++ (x ++ s)))))) h1
    simpa [cmdText] using this
  | @els f a t u1 u2 u3 u4 r ha hr hh hi _ ih =>
    have := shape_next (y := r.1 ++ c!"else") ha.before (by simp [(sign_at hr).1]) ha.comment (.inl ⟨r.1, c!"else" ++ t, by simp, paren_signs hr, .word _ _ (by decide) hh⟩) (fun u _ _ hu => by
      have := notCommented_char (c := 'e') (w := a ++ '@' :: (r.1 ++ c!"els")) (by decide) (by decide) hu
      simpa using this) ih
    simpa using this
  | @fin f a w t u1 u2 u3 u4 r ha hr hh hw _ _ ih =>
    have hd := drop_chars hw
    have := shape_next (y := r.1 ++ (c!"end" ++ w)) ha.before (by simp [(sign_at hr).1, hd.1]) ha.comment (.inl ⟨r.1, c!"end" ++ (w ++ t), by simp, paren_signs hr, .word _ _ (by decide) hh⟩)
      (fun u _ _ hu => by
        have := notCommented_char (c := 'd') (w := a ++ '@' :: (r.1 ++ c!"en")) (by decide) (by decide) (notCommented_front (w := w) ⟨hd.2.1, hd.2.2.1⟩ hu)
        simpa using this) ih
    simpa using this
  | @assign f a n w o w' s o' x t v u1 u2 u3 u4 e q ha hq _ ih =>
    refine shape_next ha.before (asg_chars (mode := mode) hl hq).1 ha.comment (.inr (asg_after hq t)) (fun u z hz hu => ?_) ih
    obtain ⟨u', rfl⟩ : ∃ u', u = '\n' :: u' := by
      cases u with
      | nil => rcases hq.rest with h | h <;> rw [hz] at h <;> cases h
      | cons c u =>
        rcases hq.rest with h | h
        · rw [hz] at h
          cases h
        · rw [hz] at h
          cases h
          exact ⟨u, rfl⟩
    have h1 : NotCommented u' := fun y m k hm hk he => hu ('\n' :: y) m k hm hk (by rw [he]; simp)
    have := notCommented_char (c := '\n') (w := a ++ '@' :: asgText q n w o w' s) (by decide) (by decide) h1
    simpa using this

end Verif.Lemmas
