import Verif.Model.TextFuncs
import Verif.Spec.TextFuncsSpec
import Verif.Props.Strings
import Verif.Lemmas.Path
import Verif.Lemmas.Numbers
/-!
# C100: indentation by templates, C101: assertions, C102: characters
-/

namespace Verif.Props
open Verif Verif.Value Verif.Text Verif.Spec Verif.TextFuncs

theorem spreadTo_iff (args es : List Value) : SpreadTo args es ↔ es = Numbers.convertArgs args := by
  constructor
  · intro h
    cases h with
    | one v h1 h2 =>
      unfold Numbers.convertArgs Numbers.asList
      cases v <;> first | rfl | exact absurd rfl h1 | exact absurd rfl (h2 _)
    | _ => rfl
  · rintro rfl
    match args with
    | [] => exact .none
    | [v] =>
      show SpreadTo [v] (Numbers.asList v)
      cases v <;> first | exact .list _ | exact .nil | exact .one _ nofun nofun
    | v :: w :: l => exact .many v w l

private theorem lines_join (ts : List Text) (h : ts ≠ []) : splitC '\n' (join ['\n'] ts) = (ts.map (splitC '\n')).flatten := by
  induction ts with
  | nil => exact absurd rfl h
  | cons t ts ih =>
    cases ts with
    | nil => simp [join]
    | cons u us =>
      have : join ['\n'] (t :: u :: us) = t ++ '\n' :: join ['\n'] (u :: us) := by simp [join]
      rw [this, Lemmas.splitC_cut, ih (by simp)]
      rfl

/-- C100. `sIndent`: the lines of the result are the lines of the texts of the elements that the arguments designate, in order, each with the indentation before it. -/
theorem C100_spacer (spacer : Text) (h : '\n' ∉ spacer) (args es : List Value) (hd : SpreadTo args es) (hne : es ≠ []) :
    splitC '\n' (sIndent spacer args) = (es.map fun v => (splitC '\n' (sprint v)).map (spacer ++ ·)).flatten := by
  rw [(spreadTo_iff args es).1 hd] at hne ⊢
  unfold sIndent lined
  rw [C22_indent_lines _ _ h, lines_join _ (by simpa using hne), List.map_flatten, List.map_map, List.map_map]
  rfl

/-- C100. Nothing gives a line with the indentation alone. -/
theorem C100_nothing (spacer : Text) (args : List Value) (hd : SpreadTo args []) : sIndent spacer args = spacer := by
  unfold sIndent lined
  rw [← (spreadTo_iff args []).1 hd]
  simp [join, Strings.indent, splitC]

/-- C100. `indent` is the same with a number of spaces, `nIndent` puts an end of line before; a negative number is an error. -/
theorem C100_indent (args : List Value) :
    (∀ n : Nat, indent n args = some (sIndent (List.replicate n ' ') args) ∧ nIndent n args = some ('\n' :: sIndent (List.replicate n ' ') args)) ∧
    ∀ n : Int, n < 0 → indent n args = none ∧ nIndent n args = none := by
  refine ⟨fun n => ?_, fun n h => ?_⟩
  · have : indent n args = some (sIndent (List.replicate n ' ') args) := by
      unfold indent
      rw [if_neg (by omega)]
      rfl
    exact ⟨this, by unfold nIndent; rw [this]; rfl⟩
  · have : indent n args = none := by unfold indent; rw [if_pos h]
    exact ⟨this, by unfold nIndent; rw [this]; rfl⟩

example : indent 2 [.list [.str (T "a\nb"), .int 3]] = some (T "  a\n  b\n  3") ∧
    nIndent 1 [.str (T "x"), .list [.int 1, .int 2]] = some (T "\n x\n [1 2]") ∧ SpreadTo [.list [.str (T "a\nb"), .int 3]] [.str (T "a\nb"), .int 3] :=
  ⟨by decide, by decide, .list _⟩

private theorem digits_chars {s : Text} {a n : Nat} (h : Numbers.digitsLoop 10 s a = some n) : ∀ c ∈ s, c.isDigit = true := by
  induction s generalizing a with
  | nil => simp
  | cons d s ih =>
    unfold Numbers.digitsLoop at h
    split at h
    · rename_i v hv
      split at h
      · rename_i hlt
        intro c hc
        rcases List.mem_cons.1 hc with rfl | hc
        · unfold Numbers.digitVal at hv
          simp only at hv
          split at hv
          · rename_i h1
            simp only [Char.isDigit, Bool.and_eq_true, decide_eq_true_eq]
            exact h1
          · split at hv
            · simp at hv; omega
            · split at hv
              · simp at hv; omega
              · simp at hv
        · exact ih h c hc
      · simp at h
    · simp at h

private theorem parseInt_chars {s : Text} {n : Int} (h : Numbers.parseInt 10 s = some n) : ∀ c ∈ s, c.isDigit = true ∨ c = '-' ∨ c = '+' := by
  have uint : ∀ {t : Text} {m : Nat}, Numbers.parseUint 10 t = some m → ∀ c ∈ t, c.isDigit = true := by
    intro t m h
    unfold Numbers.parseUint at h
    split at h
    · simp at h
    · split at h
      · rename_i hd; exact digits_chars hd
      · simp at h
  unfold Numbers.parseInt at h
  split at h
  rename_i neg digits hm
  split at h
  · simp at h
  · rename_i m hu
    have := uint hu
    intro c hc
    split at hm
    · obtain ⟨_, rfl⟩ := Prod.mk.inj hm
      rcases List.mem_cons.1 hc with rfl | hc
      · exact .inr (.inr rfl)
      · exact .inl (this c hc)
    · obtain ⟨_, rfl⟩ := Prod.mk.inj hm
      rcases List.mem_cons.1 hc with rfl | hc
      · exact .inr (.inl rfl)
      · exact .inl (this c hc)
    · obtain ⟨_, rfl⟩ := Prod.mk.inj hm
      exact .inl (this c hc)

/-- C100. `center` and `wrap` accept as width exactly what is printed as an integer of 64 bits. -/
theorem C100_width (format : List Value → Text) (width : Value) (args : List Value) :
    (∀ w : Int, -2 ^ 63 ≤ w → w < 2 ^ 63 → sprint width = intText w →
      center format width args = some (Strings.center (format args) w) ∧ wrap format width args = some (Strings.wrap (format args) w)) ∧
    ((∃ c ∈ sprint width, ¬ (c.isDigit ∨ c = '-' ∨ c = '+')) → center format width args = none ∧ wrap format width args = none) := by
  refine ⟨fun w h1 h2 hw => ?_, fun ⟨c, hc, hn⟩ => ?_⟩
  · unfold center wrap
    rw [hw, Numbers.parseInt_intText ⟨h1, h2⟩]
    exact ⟨rfl, rfl⟩
  · have : Numbers.parseInt 10 (sprint width) = none := by
      cases h : Numbers.parseInt 10 (sprint width) with
      | none => rfl
      | some n => exact absurd (parseInt_chars h c hc) hn
    unfold center wrap
    rw [this]
    exact ⟨rfl, rfl⟩

example : center (fun _ => T "ab") (.str (T "6")) [] = some (T "  ab  ") ∧ wrap (fun _ => T "a b") (.str (T "2x")) [] = none := by decide

theorem falseTest_iff (v : GoVal) : sprigEmpty v = true ↔ FalseTest v := by
  constructor
  · intro h
    cases v <;> simp only [sprigEmpty, Bool.not_eq_true', decide_eq_true_eq, List.length_eq_zero_iff, reduceCtorEq] at h <;> (try subst h) <;> constructor
  · intro h
    cases h <;> simp [sprigEmpty]

theorem isZero_eq (v : GoVal) : isZero v = sprigEmpty v := by
  unfold isZero sprigDefault
  cases h : sprigEmpty v
  · simp only [Bool.false_eq_true, if_false]
    split
    · simp [sprigEmpty] at h
    · rfl
  · rfl

/-- C101. `assert` is an error exactly for the values that are taken for false: the error has the message that is given, or `Assertion failed`. Otherwise it gives the empty text. -/
theorem C101_assert (format : List GoVal → Text) (test : GoVal) (args : List GoVal) :
    (¬ FalseTest test → assertError format test args = .text []) ∧
    (FalseTest test → args ≠ [] → assertError format test args = .error (format args)) ∧
    (FalseTest test → args = [] → assertError format test args = .error (format [.str false (T "Assertion failed")])) := by
  rw [← falseTest_iff]
  unfold assertError
  rw [isZero_eq]
  refine ⟨fun h => if_neg h, fun h ha => ?_, fun h ha => ?_⟩
  · rw [if_pos h]
    unfold message
    split
    · exact absurd rfl ha
    · rfl
  · subst ha
    rw [if_pos h]
    rfl

/-- C101. `assertWarning` never stops the template and writes nothing: it logs the message once, exactly for the same values. -/
theorem C101_warning (format : List GoVal → Text) (test : GoVal) (args : List GoVal) :
    (assertWarning format test args).1 = [] ∧ (¬ FalseTest test → (assertWarning format test args).2 = []) ∧
    ∀ m, assertError format test args = .error m → (assertWarning format test args).2 = [m] := by
  rw [← falseTest_iff]
  unfold assertWarning assertError
  rw [isZero_eq]
  cases h : sprigEmpty test
  · refine ⟨rfl, fun _ => rfl, fun m hm => ?_⟩
    simp at hm
  · refine ⟨rfl, fun hc => absurd rfl hc, fun m hm => ?_⟩
    simp only [if_true, raise, Reply.error.injEq] at hm ⊢
    rw [hm]

/-- C101. `raise` is always an error. -/
theorem C101_raise (format : List GoVal → Text) (args : List GoVal) : raise format args = .error (format args) := rfl

/-- C101. Texts that are not empty are not false, whatever they say, nor are structures without any content. -/
theorem C101_not_false (format : List GoVal → Text) (args : List GoVal) :
    assertError format (.str false (T "false")) args = .text [] ∧ assertError format (.str false (T "0")) args = .text [] ∧
    assertError format (.struct []) args = .text [] := ⟨rfl, rfl, rfl⟩

example : FalseTest (.slice .any []) ∧ ¬ FalseTest (.slice .any [.nil]) ∧
    assertError (fun a => T "n=" ++ (toString a.length).toList) (.slice .any []) [.nil, .nil] = .error (T "n=2") :=
  ⟨.slice _, nofun, by decide⟩

private theorem char_of (n : Int) (h1 : -2 ^ 63 ≤ n) (h2 : n < 2 ^ 63) :
    ((Numbers.toInt (.int n)).map fun n => Value.str [Char.ofNat (n % 256).toNat]) = some (.str [Char.ofNat (n % 256).toNat]) := by
  unfold Numbers.toInt
  rw [show sprint (.int n) = intText n from rfl, Numbers.parseInt_intText ⟨h1, h2⟩]
  rfl

/-- C102. `char` gives the character of the number, if this is less than 256. -/
theorem C102_char (n : Nat) (h : n < 256) : toChar (.int n) = some (.str [Char.ofNat n]) := by
  have := char_of n (by omega) (by omega)
  rw [Int.emod_eq_of_lt (by omega) (by omega), Int.toNat_natCast] at this
  exact this

/-- C102. A list of several numbers gives the list of their characters. -/
theorem C102_list (ns : List Nat) (h : ∀ n ∈ ns, n < 256) (h2 : 2 ≤ ns.length) :
    toChar (.list (ns.map fun n : Nat => .int n)) = some (.list (ns.map fun n => .str [Char.ofNat n])) := by
  have key : ∀ ns : List Nat, (∀ n ∈ ns, n < 256) → ((ns.map fun n : Nat => Value.int n).mapM fun a => (Numbers.toInt a).map fun n => Value.str [Char.ofNat (n % 256).toNat]) =
      some (ns.map fun n => .str [Char.ofNat n]) := by
    intro ns h
    induction ns with
    | nil => rfl
    | cons n ns ih =>
      have h1 := C102_char n (h n (by simp))
      have h1 : ((Numbers.toInt (.int n)).map fun n => Value.str [Char.ofNat (n % 256).toNat]) = some (.str [Char.ofNat n]) := h1
      rw [List.map_cons, List.mapM_cons, h1, ih fun m hm => h m (by simp [hm])]
      rfl
  match ns, h2 with
  | a :: b :: l, _ =>
    exact congrArg (Option.map Value.list) (key (a :: b :: l) h)

/-- C102. The number of any other integer loses its multiples of 256. -/
theorem C102_wrapped (n : Int) (h1 : -2 ^ 63 ≤ n) (h2 : n < 2 ^ 63) : toChar (.int n) = some (.str [Char.ofNat (n % 256).toNat]) := char_of n h1 h2

/-- C102 does not hold for larger numbers: 8364, the number of the euro sign, gives another character. -/
theorem C102_not_large : toChar (.int 8364) = some (.str ['¬']) ∧ toChar (.int (-191)) = some (.str ['A']) ∧ (Char.ofNat 8364 = '€') := by
  exact ⟨C102_wrapped 8364 (by decide) (by decide), C102_wrapped (-191) (by decide) (by decide), by decide⟩

example : toChar (.list [.int 72, .int 105]) = some (.list [.str ['H'], .str ['i']]) := C102_list [72, 105] (by decide) (by decide)

end Verif.Props
