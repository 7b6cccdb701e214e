import Verif.Model.RazorAssign
import Verif.Spec.AssignSpec
/-!
# C37: razor assignments target the intended variable
-/

namespace Verif.Props
open Spec Razor

/-- The names of a path. -/
def Names (parts : List Text) : Prop := ∀ p ∈ parts, isName p = true

theorem Names.get {parts : List Text} (h : Names parts) (p : Text) (hp : p ∈ parts) : p ≠ [] ∧ ∀ c ∈ p, c ≠ '.' ∧ c ≠ '$' := by
  have := h p hp
  cases p with
  | nil => simp [isName] at this
  | cons d s =>
    refine ⟨by simp, fun c hc => ?_⟩
    simp only [isName, Bool.and_eq_true, List.all_eq_true] at this
    have := this.2 c hc
    constructor <;> (rintro rfl; revert this; decide)

theorem join_ne {parts : List Text} (h : Names parts) (hne : parts ≠ []) : Text.join ['.'] parts ≠ [] := by
  cases parts with
  | nil => exact absurd rfl hne
  | cons a as =>
    cases as with
    | nil => simpa [Text.join] using (h.get a (by simp)).1
    | cons b bs => rw [Text.join_cons_cons]; simp

theorem join_snoc {init : List Text} (last : Text) (hne : init ≠ []) :
    Text.join ['.'] (init ++ [last]) = Text.join ['.'] init ++ '.' :: last := by
  induction init with
  | nil => exact absurd rfl hne
  | cons a as ih =>
    cases as with
    | nil => simp [Text.join]
    | cons b bs =>
      have := ih (by simp)
      simp only [List.cons_append] at this ⊢
      rw [Text.join_cons_cons, this, Text.join_cons_cons]
      simp

theorem join_head {parts : List Text} (h : Names parts) {c : Char} (hc : (Text.join ['.'] parts).head? = some c) : c ≠ '.' ∧ c ≠ '$' := by
  cases parts with
  | nil => simp [Text.join] at hc
  | cons a as =>
    obtain ⟨h1, h2⟩ := h.get a (by simp)
    obtain ⟨d, a', rfl⟩ := List.exists_cons_of_ne_nil h1
    have : (Text.join ['.'] ((d :: a') :: as)).head? = some d := by
      cases as with
      | nil => simp [Text.join]
      | cons b bs => rw [Text.join_cons_cons]; simp
    rw [this] at hc
    cases hc
    exact h2 c (by simp)

theorem join_last {parts : List Text} (h : Names parts) : (Text.join ['.'] parts).getLast? ≠ some '.' := by
  rcases List.eq_nil_or_concat parts with rfl | ⟨init, last, rfl⟩
  · simp [Text.join]
  · rw [List.concat_eq_append] at *
    have hl := h.get last (by simp)
    have key : last.getLast? ≠ some '.' := fun e => (hl.2 '.' (List.mem_of_getLast? e)).1 rfl
    obtain ⟨d, last', rfl⟩ := List.exists_cons_of_ne_nil hl.1
    by_cases hi : init = []
    · subst hi; simpa [Text.join] using key
    · rw [join_snoc _ hi, List.getLast?_append]
      simp only [List.getLast?_cons_cons]
      intro e
      rw [Option.or_eq_some_iff] at e
      rcases e with e | ⟨e, _⟩
      · exact key e
      · simp at e

theorem split_join {parts : List Text} (h : Names parts) (hne : parts ≠ []) : Text.splitC '.' (Text.join ['.'] parts) = parts :=
  Text.splitC_join hne (fun p hp hc => ((h.get p hp).2 _ hc).1 rfl)

theorem namesOf_join {parts : List Text} (h : Names parts) (hne : parts ≠ []) : namesOf (Text.join ['.'] parts) = some parts := by
  have : parts.all isName = true := List.all_eq_true.mpr h
  simp [namesOf, split_join h hne, this]

theorem placeOf_global {parts : List Text} (h : Names parts) (hne : parts ≠ []) :
    placeOf (T "$." ++ Text.join ['.'] parts) = some ⟨.global, parts⟩ := by
  show (namesOf (Text.join ['.'] parts)).map (Place.mk Root.global) = _
  rw [namesOf_join h hne]
  rfl

theorem placeOf_context {parts : List Text} (h : Names parts) (hne : parts ≠ []) :
    placeOf ('.' :: Text.join ['.'] parts) = some ⟨.context, parts⟩ := by
  have hj := join_ne h hne
  have hs := namesOf_join h hne
  revert hj hs
  generalize Text.join ['.'] parts = s
  intro hj hs
  cases s with
  | nil => exact absurd rfl hj
  | cons c s => simp [placeOf, hs]

theorem placeOf_local {parts : List Text} (h : Names parts) (hne : parts ≠ []) :
    placeOf ('$' :: Text.join ['.'] parts) = some (Kind.local_.place parts) := by
  have hj := join_ne h hne
  have hs := namesOf_join h hne
  have hh := @join_head _ h
  revert hj hs hh
  generalize Text.join ['.'] parts = s
  intro hj hs hh
  cases s with
  | nil => exact absurd rfl hj
  | cons c s =>
    have := (hh (c := c) rfl).1
    cases parts with
    | nil => exact absurd rfl hne
    | cons x path => simp [placeOf, this, hs, Kind.place]

theorem placeOf_dot : placeOf (T ".") = some ⟨.context, []⟩ := rfl
theorem placeOf_dollar : placeOf (T "$") = some ⟨.global, []⟩ := rfl

/-- The value carried by a piece of code. -/
def codeValue : Code → Text
  | .assign _ _ v => v
  | .set _ _ v => v
  | .check _ _ => []

/-- The code is an assignment of a variable, with `:=` or not. -/
def isAssign : Code → Option Bool
  | .assign _ d _ => some d
  | _ => none

/-- How the current value of the target is written in an expression. -/
def readText (k : Kind) (id : Text) : Text :=
  match k with
  | .global => T "$." ++ id
  | .context => T "." ++ id
  | .local_ => T "$" ++ id

theorem object_global {init : List Text} {last : Text} (hn : Names (init ++ [last])) :
    let object := if Text.join ['.'] init = [] then T "$" else T "$." ++ Text.join ['.'] init
    placeOf object = some ⟨.global, init⟩ ∧
      (if object.getLast? = some '.' then object else object ++ T ".") ++ last = T "$." ++ Text.join ['.'] (init ++ [last]) := by
  have hni : Names init := fun p hp => hn p (by simp [hp])
  by_cases hi : init = []
  · subst hi
    exact ⟨rfl, by simp [Text.join, T]⟩
  · have hj := join_ne hni hi
    have hl := join_last hni
    simp only [if_neg hj]
    refine ⟨placeOf_global hni hi, ?_⟩
    rw [join_snoc _ hi]
    have : (T "$." ++ Text.join ['.'] init).getLast? ≠ some '.' := by
      rw [List.getLast?_append]
      intro e
      rw [Option.or_eq_some_iff] at e
      rcases e with e | ⟨e, _⟩
      · exact hl e
      · simp at e; exact hj e
    rw [if_neg this]
    simp [T]

theorem object_context {init : List Text} {last : Text} (hn : Names (init ++ [last])) :
    let object := '.' :: Text.join ['.'] init
    placeOf object = some ⟨.context, init⟩ ∧
      (if object.getLast? = some '.' then object else object ++ T ".") ++ last = '.' :: Text.join ['.'] (init ++ [last]) := by
  have hni : Names init := fun p hp => hn p (by simp [hp])
  by_cases hi : init = []
  · subst hi
    exact ⟨rfl, by simp [Text.join]⟩
  · have hj := join_ne hni hi
    have hl := join_last hni
    refine ⟨placeOf_context hni hi, ?_⟩
    rw [join_snoc _ hi]
    have : ('.' :: Text.join ['.'] init).getLast? ≠ some '.' := by
      obtain ⟨c, s, hs⟩ := List.exists_cons_of_ne_nil hj
      rw [hs, List.getLast?_cons_cons, ← hs]
      exact hl
    simp only [if_neg this]
    simp [T]

/-- The generated code, for each kind. -/
theorem assignCode_eq (mode : Validation) (left right : Text) {tp : Text} {k : Kind} (hk : kindOf tp = some k)
    {init : List Text} {last : Text} (hn : Names (init ++ [last])) {assign : Text} (ha : assign = T ":=" ∨ assign = T "=") (v : Text) :
    ∃ final : Code, ∃ checks : List Code,
      assignCode mode left right (decide (tp = T "@$.") || decide (tp = T "@") || decide (tp = T "@."))
        (if decide (tp = T "@{") || decide (tp = T "@$") then List.elem '.' (Text.join ['.'] (init ++ [last])) else true)
        (if tp = T "@$." then T "@" else tp) (Text.join ['.'] (init ++ [last])) assign v =
        (checks ++ [final]).flatMap (Code.print left right) ∧
      final.writes = some (k.place (init ++ [last])) ∧ codeValue final = v ∧
      isAssign final = (if k = .local_ ∧ init = [] then some (decide (assign = T ":=")) else none) ∧
      (if k = .local_ ∨ assign = T ":=" ∨ mode = .disabled then checks = []
        else ∃ c, checks = [.check (decide (mode = .strict)) c] ∧ placeOf c = some (k.place (init ++ [last]))) := by
  have hne : init ++ [last] ≠ [] := by simp
  have hs := split_join hn hne
  have hni : Names init := fun p hp => hn p (by simp [hp])
  have hd : (init ++ [last]).dropLast = init := by simp
  have hl : (init ++ [last]).getLastD [] = last := by simp
  have hdot : List.elem '.' (Text.join ['.'] (init ++ [last])) = decide (init ≠ []) := by
    by_cases h : init = []
    · subst h
      have : '.' ∉ last := fun h => ((Names.get hn last (by simp)).2 '.' h).1 rfl
      simpa [Text.join] using this
    · rw [join_snoc _ h]
      simp [h]
  have hcases : (tp = T "@" ∧ k = .global) ∨ (tp = T "@$." ∧ k = .global) ∨ (tp = T "@." ∧ k = .context) ∨
      (tp = T "@$" ∧ k = .local_) ∨ (tp = T "@{" ∧ k = .local_) := by
    unfold kindOf at hk
    split at hk
    · rename_i h; cases hk; rcases h with h | h <;> simp [h]
    · split at hk
      · rename_i h; cases hk; simp [h]
      · split at hk
        · rename_i h; cases hk; rcases h with h | h <;> simp [h]
        · cases hk
  have global : ∀ tp', tp'.getLast? ≠ some '.' → ∃ final : Code, ∃ checks : List Code,
      assignCode mode left right true true tp' (Text.join ['.'] (init ++ [last])) assign v = (checks ++ [final]).flatMap (Code.print left right) ∧
      final.writes = some (Kind.global.place (init ++ [last])) ∧ codeValue final = v ∧ isAssign final = none ∧
      (if assign = T ":=" ∨ mode = .disabled then checks = []
        else ∃ c, checks = [.check (decide (mode = .strict)) c] ∧ placeOf c = some (Kind.global.place (init ++ [last]))) := by
    intro tp' htp
    obtain ⟨h1, h2⟩ := object_global hn
    unfold assignCode
    simp only [hs, hd, hl, if_neg htp, Bool.not_true, Bool.and_false, Bool.false_eq_true, if_false]
    revert h1 h2
    generalize (if Text.join ['.'] init = [] then T "$" else T "$." ++ Text.join ['.'] init) = object
    intro h1 h2
    by_cases hc : assign = T ":=" ∨ mode = .disabled
    · exact ⟨.set object last v, [], by simp [hc, Code.print], by simp [Code.writes, h1, Kind.place], rfl, rfl, by simp [hc]⟩
    · refine ⟨.set object last v, [.check (decide (mode = .strict)) (T "$." ++ Text.join ['.'] (init ++ [last]))], ?_,
        by simp [Code.writes, h1, Kind.place], rfl, rfl, ?_⟩
      · simp only [if_neg hc, h2]
        have hm : mode = .warning ∨ mode = .strict := by
          cases mode <;> simp_all
        rcases hm with rfl | rfl <;> simp [Code.print, T]
      · simp only [if_neg hc]
        exact ⟨_, rfl, placeOf_global hn hne⟩
  have local_ : ∀ tp', ∃ final : Code, ∃ checks : List Code,
      assignCode mode left right false (decide (init ≠ [])) tp' (Text.join ['.'] (init ++ [last])) assign v =
        (checks ++ [final]).flatMap (Code.print left right) ∧
      final.writes = some (Kind.local_.place (init ++ [last])) ∧ codeValue final = v ∧
      isAssign final = (if init = [] then some (decide (assign = T ":=")) else none) ∧ checks = [] := by
    intro tp'
    unfold assignCode
    by_cases hi : init = []
    · subst hi
      refine ⟨.assign last (decide (assign = T ":=")) v, [], ?_, by simp [Code.writes, Kind.place], rfl, by simp [isAssign], rfl⟩
      have e : Text.join ['.'] ([] ++ [last]) = last := by simp [Text.join]
      rw [e]
      rcases ha with rfl | rfl
      · simp [Code.print, T]
      · simp [Code.print, T]
    · simp only [hs, hd, hl, hi, ne_eq, not_false_eq_true, decide_true, Bool.not_true, Bool.and_false, Bool.false_eq_true, if_false,
        Bool.not_false, if_true]
      refine ⟨.set ('$' :: Text.join ['.'] init) last v, [], ?_, ?_, rfl, rfl, rfl⟩
      · simp [Code.print, T]
      · simp only [Code.writes, placeOf_local hni hi, Option.map_some]
        cases init with
        | nil => exact absurd rfl hi
        | cons x xs => simp [Kind.place]
  rcases hcases with ⟨rfl, rfl⟩ | ⟨rfl, rfl⟩ | ⟨rfl, rfl⟩ | ⟨rfl, rfl⟩ | ⟨rfl, rfl⟩
  · obtain ⟨f, c, h1, h2, h3, h4, h5⟩ := global (T "@") (by decide)
    exact ⟨f, c, h1, h2, h3, by simpa using h4, by simpa using h5⟩
  · obtain ⟨f, c, h1, h2, h3, h4, h5⟩ := global (T "@") (by decide)
    exact ⟨f, c, h1, h2, h3, by simpa using h4, by simpa using h5⟩
  · obtain ⟨h1, h2⟩ := object_context hn
    have e1 : (decide (T "@." = T "@$.") || decide (T "@." = T "@") || decide (T "@." = T "@.")) = true := by decide
    have e2 : (decide (T "@." = T "@{") || decide (T "@." = T "@$")) = false := by decide
    have e3 : (if T "@." = T "@$." then T "@" else T "@.") = T "@." := by decide
    have e4 : (T "@.").getLast? = some '.' := by decide
    rw [e1, e2, e3]
    unfold assignCode
    simp only [hs, hd, hl, e4, Bool.not_true, Bool.and_false, Bool.false_eq_true, if_false, if_true]
    revert h1 h2
    generalize '.' :: Text.join ['.'] init = object
    intro h1 h2
    by_cases hc : assign = T ":=" ∨ mode = .disabled
    · exact ⟨.set object last v, [], by simp [hc, Code.print], by simp [Code.writes, h1, Kind.place], rfl, rfl, by simp [hc]⟩
    · refine ⟨.set object last v, [.check (decide (mode = .strict)) ('.' :: Text.join ['.'] (init ++ [last]))], ?_,
        by simp [Code.writes, h1, Kind.place], rfl, rfl, ?_⟩
      · simp only [if_neg hc, h2]
        have hm : mode = .warning ∨ mode = .strict := by
          cases mode <;> simp_all
        rcases hm with rfl | rfl <;> simp [Code.print, T]
      · have : ¬ (Kind.context = .local_ ∨ assign = T ":=" ∨ mode = .disabled) := by simpa using hc
        simp only [if_neg this]
        exact ⟨_, rfl, placeOf_context hn hne⟩
  · obtain ⟨f, c, h1, h2, h3, h4, h5⟩ := local_ (T "@$")
    rw [hdot]
    exact ⟨f, c, h1, h2, h3, by simpa using h4, by simpa using h5⟩
  · obtain ⟨f, c, h1, h2, h3, h4, h5⟩ := local_ (T "@{")
    rw [hdot]
    exact ⟨f, c, h1, h2, h3, by simpa using h4, by simpa using h5⟩

/-- C37, for the default razor delimiter and names of the template language (the full property also asks for other razor delimiters and names
with dashes, for which it is false, see below). The translated expression is the one written, or for a compound operator the operation applied to the current
value of the same place; the generated code writes the intended place; the existence check is about that place, and is there exactly for
global and context entries, when the operator is not `:=` and the validation is not disabled. -/
theorem C37_assign_partial (parse : Bool → Text → Option Text) (mode : Validation) (left right : Text) (acceptError : Bool) {tp : Text} {k : Kind}
    (hk : kindOf tp = some k) {parts : List Text} (hp : IsPath parts) {expr assign : Text} (he : expr ≠ []) (ha : assign ≠ []) :
    ∃ r : Text, placeOf r = some (k.place parts) ∧
    ∃ argument : Bool, (argument = false ↔ k = .local_ ∧ parts.length = 1) ∧
    let source := if assign = T ":=" ∨ assign = T "=" then expr else r ++ T " " ++ assign.dropLast ++ T " (" ++ expr ++ T ")"
    (parse argument source = none → acceptError = false →
      assignExpression parse mode left right acceptError tp (Text.join ['.'] parts) expr assign = none) ∧
    ∀ v, (parse argument source = some v ∨ (parse argument source = none ∧ acceptError = true ∧ v = source)) →
      ∃ final : Code, ∃ checks : List Code,
        assignExpression parse mode left right acceptError tp (Text.join ['.'] parts) expr assign =
          some ((checks ++ [final]).flatMap (Code.print left right)) ∧
        final.writes = some (k.place parts) ∧ codeValue final = v ∧
        isAssign final = (if argument then none else some (decide (assign = T ":="))) ∧
        (if k = .local_ ∨ assign = T ":=" ∨ mode = .disabled then checks = []
          else ∃ c, checks = [.check (decide (mode = .strict)) c] ∧ placeOf c = some (k.place parts)) := by
  obtain ⟨hne, hn⟩ := hp
  have hj := join_ne hn hne
  obtain ⟨init, last, rfl⟩ : ∃ init last, parts = init ++ [last] := by
    rcases List.eq_nil_or_concat parts with rfl | ⟨init, last, h⟩
    · exact absurd rfl hne
    · exact ⟨init, last, by rw [h, List.concat_eq_append]⟩
  have hdot : List.elem '.' (Text.join ['.'] (init ++ [last])) = decide (init ≠ []) := by
    by_cases h : init = []
    · subst h
      have : '.' ∉ last := fun h => ((Names.get hn last (by simp)).2 '.' h).1 rfl
      simpa [Text.join] using this
    · rw [join_snoc _ h]
      simp [h]
  have hcond : ¬ (tp = [] ∨ Text.join ['.'] (init ++ [last]) = [] ∨ expr = [] ∨ assign = []) := by
    have : tp ≠ [] := by rintro rfl; simp [kindOf, T] at hk
    simp only [this, hj, he, ha, or_self, not_false_eq_true]
  refine ⟨readText k (Text.join ['.'] (init ++ [last])), ?_, ?_⟩
  · cases k
    · exact placeOf_global hn hne
    · exact placeOf_context hn hne
    · exact placeOf_local hn hne
  refine ⟨!(decide (k = .local_) && decide (init = [])), by cases k <;> simp, ?_⟩
  have hint : (if decide (tp = T "@{") || decide (tp = T "@$") then List.elem '.' (Text.join ['.'] (init ++ [last])) else true) =
      !(decide (k = .local_) && decide (init = [])) := by
    rw [hdot]
    unfold kindOf at hk
    split at hk
    · rename_i h; cases hk; rcases h with rfl | rfl <;> rfl
    · split at hk
      · rename_i h; cases hk; subst h; rfl
      · split at hk
        · rename_i h; cases hk
          rcases h with rfl | rfl
          · simp [T]
          · simp [T]
        · cases hk
  have hexp : expandOperator (if tp = T "@$." then T "@" else tp) (Text.join ['.'] (init ++ [last])) expr assign =
      (if assign = T ":=" then T ":=" else T "=", if assign = T ":=" ∨ assign = T "=" then expr
        else readText k (Text.join ['.'] (init ++ [last])) ++ T " " ++ assign.dropLast ++ T " (" ++ expr ++ T ")") := by
    unfold expandOperator
    by_cases h1 : assign = T ":="
    · simp [h1]
    · by_cases h2 : assign = T "="
      · simp [h2]
      · have h3 : ¬ (assign = T ":=" ∨ assign = T "=") := by simp [h1, h2]
        simp only [if_neg h3, if_neg h1]
        unfold kindOf at hk
        split at hk
        · rename_i h; cases hk; rcases h with rfl | rfl <;> simp [readText, T]
        · split at hk
          · rename_i h; cases hk; subst h; simp [readText, T]
          · split at hk
            · rename_i h; cases hk; rcases h with rfl | rfl <;> simp [readText, T]
            · cases hk
  have hasg : ((if assign = T ":=" then T ":=" else T "=") = T ":=" ∨ (if assign = T ":=" then T ":=" else T "=") = T "=") := by
    by_cases h1 : assign = T ":=" <;> simp [h1]
  have hasg2 : ((if assign = T ":=" then T ":=" else T "=") = T ":=") ↔ assign = T ":=" := by
    by_cases h1 : assign = T ":="
    · simp [h1]
    · simp only [h1, iff_false]; decide
  intro source
  have hout : assignExpression parse mode left right acceptError tp (Text.join ['.'] (init ++ [last])) expr assign =
      match parse (!(decide (k = .local_) && decide (init = []))) source with
      | some e => some (assignCode mode left right (decide (tp = T "@$.") || decide (tp = T "@") || decide (tp = T "@."))
        (if decide (tp = T "@{") || decide (tp = T "@$") then List.elem '.' (Text.join ['.'] (init ++ [last])) else true)
        (if tp = T "@$." then T "@" else tp) (Text.join ['.'] (init ++ [last])) (if assign = T ":=" then T ":=" else T "=") e)
      | none => if acceptError then some (assignCode mode left right (decide (tp = T "@$.") || decide (tp = T "@") || decide (tp = T "@."))
        (if decide (tp = T "@{") || decide (tp = T "@$") then List.elem '.' (Text.join ['.'] (init ++ [last])) else true)
        (if tp = T "@$." then T "@" else tp) (Text.join ['.'] (init ++ [last])) (if assign = T ":=" then T ":=" else T "=") source) else none := by
    unfold assignExpression
    simp only [if_neg hcond, hexp]
    rw [hint]
    cases parse (!(decide (k = .local_) && decide (init = []))) source <;> rfl
  constructor
  · intro h1 h2
    rw [hout, h1, h2]
    rfl
  · intro v hv
    obtain ⟨f, c, h1, h2, h3, h4, h5⟩ := assignCode_eq mode left right hk hn hasg v
    refine ⟨f, c, ?_, h2, h3, ?_, ?_⟩
    · rw [hout, ← h1]
      rcases hv with h | ⟨h, ha, rfl⟩
      · rw [h]
      · rw [h, ha]; rfl
    · rw [h4]
      simp only [hasg2]
      by_cases hi : init = [] <;> cases k <;> simp [hi]
    · simp only [hasg2] at h5
      exact h5

/-- The example shows `@a.b += x` in strict mode. -/
example : assignExpression (fun _ e => some e) .strict (T "{{") (T "}}") false (T "@") (T "a.b") (T "x") (T "+=") =
    some (T "{{- assert (not (isNil $.a.b)) \"$.a.b does not exist, use := to declare new variable\" }}{{- set $.a \"b\" $.a.b + (x) }}") ∧
    kindOf (T "@") = some .global ∧ IsPath [T "a", T "b"] := by decide +kernel

/-- C37 is false with another razor delimiter: `#a.b := 1` writes the entry `b` of the local variable `a`. -/
theorem C37_not_delimiter_global :
    assignExpression (fun _ e => some e) .strict (T "{{") (T "}}") false (T "#") (T "a.b") (T "1") (T ":=") =
      some ((Code.set (T "$a") (T "b") (T "1")).print (T "{{") (T "}}")) ∧
    (Code.set (T "$a") (T "b") (T "1")).writes = some ⟨.var (T "a"), [T "b"]⟩ ∧
    Kind.global.place [T "a", T "b"] = ⟨.global, [T "a", T "b"]⟩ := by decide +kernel

/-- C37 is false with another razor delimiter: `#$x := 1` writes a global entry instead of a local variable. -/
theorem C37_not_delimiter_local :
    assignExpression (fun _ e => some e) .strict (T "{{") (T "}}") false (T "#$") (T "x") (T "1") (T ":=") =
      some ((Code.set (T "$") (T "x") (T "1")).print (T "{{") (T "}}")) ∧
    (Code.set (T "$") (T "x") (T "1")).writes = some ⟨.global, [T "x"]⟩ := by decide +kernel

/-- C37 is false for the names with dashes that razor accepts: the check and the value of `@my-var += 2` read `$.my-var`, which designates
nothing, although the entry written is the right one. -/
theorem C37_not_dashes :
    assignExpression (fun _ e => some e) .strict (T "{{") (T "}}") false (T "@") (T "my-var") (T "2") (T "+=") =
      some ((Code.check true (T "$.my-var")).print (T "{{") (T "}}") ++
        (Code.set (T "$") (T "my-var") (T "$.my-var + (2)")).print (T "{{") (T "}}")) ∧
    placeOf (T "$.my-var") = none ∧
    (Code.set (T "$") (T "my-var") (T "$.my-var + (2)")).writes = some (Kind.global.place [T "my-var"]) := by decide +kernel

/-- With another razor delimiter no assignment is ever checked. -/
theorem C37_not_delimiter_check (parse : Bool → Text → Option Text) (mode : Validation) (left right : Text) (acceptError : Bool)
    (tp id expr assign : Text) (h : kindOf tp = none) :
    assignExpression parse mode left right acceptError tp id expr assign =
      assignExpression parse .disabled left right acceptError tp id expr assign := by
  have hg : (decide (tp = T "@$.") || decide (tp = T "@") || decide (tp = T "@.")) = false := by
    unfold kindOf at h
    split at h
    · cases h
    · split at h
      · cases h
      · rename_i h1 h2
        simp only [not_or] at h1
        simp [h1.1, h1.2, h2]
  unfold assignExpression
  simp only [hg]
  rfl

end Verif.Props
