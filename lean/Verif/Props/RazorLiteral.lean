import Verif.Lemmas.RazorLiteral
/-!
# C40: multi-line raw strings survive the razor translation; C41: concurrent translations
-/

namespace Verif.Props
open Razor Spec Lemmas

/-- What the last rules of the translation do to a text: triple backticks and `${` take the place of their marks. -/
def unmark (t : Text) : Text := Text.replaceAll replMark (T "${") (Text.replaceAll tripleMark (T "```") t)

/-- Every content is made of texts and raw strings, then maybe a backtick that is never closed. -/
theorem C40_pieces (content : Text) : ∃ (ps : List Piece) (tail : Text), content = ps.flatMap Piece.write ++ tail ∧
    (tail = [] ∨ ∃ t, tail = '`' :: t ∧ '`' ∉ t) ∧ ∀ p ∈ ps, '`' ∉ p.body := by
  have key : ∀ n (content : Text), content.length ≤ n → ∃ (ps : List Piece) (tail : Text), content = ps.flatMap Piece.write ++ tail ∧
      (tail = [] ∨ ∃ t, tail = '`' :: t ∧ '`' ∉ t) ∧ ∀ p ∈ ps, '`' ∉ p.body := by
    intro n
    induction n with
    | zero =>
      intro content h
      exact ⟨[], [], by simpa using h, Or.inl rfl, by simp⟩
    | succ n ih =>
      intro content h
      cases content with
      | nil => exact ⟨[], [], rfl, Or.inl rfl, by simp⟩
      | cons c s =>
        by_cases hc : c = '`'
        · subst hc
          by_cases hs : '`' ∈ s
          · obtain ⟨a, b, rfl, ha⟩ := List.eq_append_cons_of_mem hs
            obtain ⟨ps, tail, h1, h2, h3⟩ := ih b (by simp at h; omega)
            refine ⟨.raw a :: ps, tail, by simp [Piece.write, h1], h2, ?_⟩
            intro p hp
            rcases List.mem_cons.1 hp with rfl | hp
            · exact ha
            · exact h3 p hp
          · exact ⟨[], '`' :: s, rfl, Or.inr ⟨s, rfl, hs⟩, by simp⟩
        · obtain ⟨ps, tail, h1, h2, h3⟩ := ih s (by simpa using h)
          refine ⟨.plain [c] :: ps, tail, by simp [Piece.write, h1], h2, ?_⟩
          intro p hp
          rcases List.mem_cons.1 hp with rfl | hp
          · simpa [Piece.body, eq_comm] using hc
          · exact h3 p hp
  exact key content.length content (Nat.le_refl _)

/-- C40, for contents without triple backticks or marks of the translation: whatever was processed before (`buf`), and whatever the other
rules (`mid`) do to the texts around the marks that replace the multi-line strings, these strings are in the result, unchanged and in the same order. -/
theorem C40_strings_partial (mid : Text → Text) (buf : List Text) (ps : List Piece) (tail : Text)
    (ht : tail = [] ∨ ∃ t, tail = '`' :: t ∧ '`' ∉ t) (hb : ∀ p ∈ ps, '`' ∉ p.body)
    (h3 : Free (T "```") (ps.flatMap Piece.write ++ tail)) (hm : ∀ s, Piece.raw s ∈ ps → ¬ protectString <+: s ++ ['`']) :
    ∃ markers : List Text, markers.length = (longStrings ps).length ∧ (∀ m ∈ markers, ∃ n : Nat, m = T "`_=LONG_STRING=" ++ Nat.toDigits 10 n ++ T "`") ∧
      weave (around tail ps) (longStrings ps) = ps.flatMap Piece.write ++ tail ∧
      ∀ texts : List Text, texts.length = (longStrings ps).length + 1 →
        mid (weave (around tail ps) markers) = weave texts markers →
        (∀ t ∈ texts, Free ('`' :: protectString) (unmark t)) →
        (translate mid buf (ps.flatMap Piece.write ++ tail)).map Prod.snd = some (weave (texts.map unmark) (longStrings ps)) := by
  refine ⟨marks buf.length (longStrings ps).length, by simp [marks], ?_, weave_around tail ps, ?_⟩
  · intro m hm
    obtain ⟨n, _, rfl⟩ := List.mem_map.1 hm
    exact ⟨n, rfl⟩
  intro texts hl hmid hf
  have h3' : Text.replaceAll (T "```") tripleMark (ps.flatMap Piece.write ++ tail) = ps.flatMap Piece.write ++ tail := by
    apply Text.replaceAll_of_not_contains
    cases hc : Text.contains (T "```") (ps.flatMap Piece.write ++ tail) with
    | false => rfl
    | true => exact absurd (Text.contains_iff.1 hc) h3
  unfold translate
  rw [h3', protectAux_pieces tail ht ps hb hm buf]
  simp only [Option.bind_some]
  rw [hmid, replaceAll_weave (by decide) (by decide) (by decide), replaceAll_weave (by decide) (by decide) (by decide), List.map_map]
  obtain ⟨buf', h⟩ := restoreLongAux_weave (longStrings ps) buf (texts.map unmark) (by simpa using hl) (by
    intro t ht
    obtain ⟨t', ht', rfl⟩ := List.mem_map.1 ht
    exact hf t' ht')
  have : (Text.replaceAll replMark (T "${") ∘ Text.replaceAll tripleMark (T "```")) = unmark := rfl
  rw [this, h]
  rfl

/-- The example shows a content with a short and a long string, a buffer left by another template, and rules that change the text around. -/
example :
    (translate (Text.replaceAll (T "x") (T "yy")) [T "old"] (T "x `s` x `long\nx` x")).map Prod.snd = some (T "yy `s` yy `long\nx` yy") ∧
    longStrings [.plain (T "x "), .raw (T "s"), .plain (T " x "), .raw (T "long\nx"), .plain (T " x")] = [T "`long\nx`"] := by decide +kernel

/-- C40 when the other rules change nothing: the content is found again. -/
theorem C40_identity_partial (buf : List Text) (ps : List Piece) (tail : Text)
    (ht : tail = [] ∨ ∃ t, tail = '`' :: t ∧ '`' ∉ t) (hb : ∀ p ∈ ps, '`' ∉ p.body)
    (h3 : Free (T "```") (ps.flatMap Piece.write ++ tail)) (hm : ∀ s, Piece.raw s ∈ ps → ¬ protectString <+: s ++ ['`'])
    (hf : ∀ t ∈ around tail ps, unmark t = t ∧ Free ('`' :: protectString) t) :
    (translate id buf (ps.flatMap Piece.write ++ tail)).map Prod.snd = some (ps.flatMap Piece.write ++ tail) := by
  obtain ⟨markers, _, _, h2, h⟩ := C40_strings_partial id buf ps tail ht hb h3 hm
  have hlen : ∀ ps : List Piece, (around tail ps).length = (longStrings ps).length + 1 := by
    intro ps
    induction ps with
    | nil => rfl
    | cons p ps ih =>
      rw [around]
      by_cases hp : p.long = true
      · rw [if_pos hp]; simp [longStrings, hp] at ih ⊢; omega
      · rw [if_neg hp]
        have : longStrings (p :: ps) = longStrings ps := by simp [longStrings, hp]
        rw [this]
        split
        · rename_i t ts e; rw [e] at ih; exact ih
        · rename_i e; exact absurd e (around_ne _ _)
  have := h (around tail ps) (hlen ps) rfl (fun t ht => by rw [(hf t ht).1]; exact (hf t ht).2)
  have e : (around tail ps).map unmark = around tail ps := by
    conv => rhs; rw [← List.map_id (around tail ps)]
    exact List.map_congr_left (fun t ht => (hf t ht).1)
  rw [e, h2] at this
  exact this

/-- C40 is false with triple backticks in a multi-line raw string: their mark is left in the result. -/
theorem C40_not_triple :
    (translate id [] (T "`a\n```b`")).map Prod.snd = some (T "`a\n_=!TRIPLE_BT!=_b`") := by decide +kernel

/-- C40 is false for a raw string that looks like a mark: the translation panics. -/
theorem C40_not_mark : translate id [] (T "`_=LONG_STRING=0`") = none := by decide +kernel

/-- A string whose mark is written twice by the other rules is lost the second time. -/
theorem C40_not_twice : (translate (fun s => s ++ s) [] (T "`a\nb`")).map Prod.snd = some (T "`a\nb`") := by decide +kernel

/-! ## Several goroutines -/

/-- C41 is false: two goroutines that read the buffer before any of them writes it end with the same string. -/
theorem C41_not_append :
    ∃ schedule : List Nat,
      let p := (Process.start [] (fun i => if i = 0 then [T "`a\n`"] else if i = 1 then [T "`b\n`"] else [])).run schedule
      (p.goroutines 0).todo = [] ∧ (p.goroutines 0).marks = [] ∧ (p.goroutines 0).got = [T "`b\n`"] ∧
      (p.goroutines 1).todo = [] ∧ (p.goroutines 1).marks = [] ∧ (p.goroutines 1).got = [[]] :=
  ⟨[0, 1, 0, 1, 0, 1, 0, 1], by decide +kernel⟩

/-- C41 is false: a goroutine can also panic, when the buffer it used is overwritten by a shorter one. -/
theorem C41_not_panic :
    ∃ schedule : List Nat,
      let p := (Process.start [] (fun i => if i = 0 then [T "`a\n`"] else if i = 1 then [T "`b\n`", T "`c\n`"] else [])).run schedule
      (p.goroutines 1).panicked = true :=
  ⟨[0, 1, 1, 1, 1, 1, 1, 0, 1, 1], by decide +kernel⟩

/-- C41, when no goroutine is interrupted between the reading of the buffer and the reading of its new length (three steps): for any number of
goroutines and strings and any other interleaving, no goroutine panics and each one that has finished got its own strings. The full property,
for all schedules, is false (see above). -/
theorem C41_own_strings_partial (buf : List Text) (strings : Nat → List Text) (turns : List Nat) (i : Nat) :
    let p := (Process.start buf strings).run (turns.flatMap (fun i => [i, i, i]))
    (p.goroutines i).panicked = false ∧
    ((p.goroutines i).todo = [] → (p.goroutines i).marks = [] → (p.goroutines i).got = strings i) := by
  have key : ∀ (turns : List Nat) (p : Process), Safe strings p → Safe strings (p.run (turns.flatMap (fun i => [i, i, i]))) := by
    intro turns
    induction turns with
    | nil => intro p h; exact h
    | cons t ts ih =>
      intro p h
      have : p.run ((t :: ts).flatMap (fun i => [i, i, i])) = (((p.step t).step t).step t).run (ts.flatMap (fun i => [i, i, i])) := rfl
      rw [this]
      apply ih
      cases ht : (p.goroutines t).todo with
      | nil =>
        obtain ⟨h1, e1⟩ := safe_restore h t ht
        obtain ⟨h2, e2⟩ := safe_restore h1 t e1
        exact (safe_restore h2 t e2).1
      | cons s rest => exact safe_save h t ht
  intro p
  have h := key turns _ (safe_start buf strings)
  refine ⟨(h.idle i).2.2, fun h1 h2 => ?_⟩
  obtain ⟨ss, h3, h4⟩ := h.own i
  change (p.goroutines i).marks.map _ = _ at h4
  change _ = (p.goroutines i).got ++ ss ++ (p.goroutines i).todo at h3
  rw [h2] at h4
  have : ss = [] := by simpa using h4.symm
  rw [h3, this, h1]
  simp

/-- The example shows three goroutines, the strings of two of them saved in turn. -/
example :
    let p := (Process.start [T "old"] (fun i => if i < 2 then [T "a\n", T "b\n"] else [T "c\n"])).run
      ([0, 1, 2, 1, 0, 2, 0, 1].flatMap (fun i => [i, i, i]))
    (p.goroutines 0).got = [T "a\n", T "b\n"] ∧ (p.goroutines 1).got = [T "a\n", T "b\n"] ∧ (p.goroutines 2).got = [T "c\n"] := by
  decide +kernel

private abbrev somePieces : List Piece := [.plain (T "x "), .raw (T "s"), .plain (T " x "), .raw (T "long\nx"), .plain (T " x")]

private theorem somePieces_raw : ∀ s, Piece.raw s ∈ somePieces → ¬ protectString <+: s ++ ['`'] := by
  intro s hs
  simp only [somePieces, List.mem_cons, List.not_mem_nil, or_false, Piece.raw.injEq, reduceCtorEq, false_or] at hs
  rcases hs with rfl | rfl <;> decide +kernel

example (buf : List Text) : (translate id buf (T "x `s` x `long\nx` x")).map Prod.snd = some (T "x `s` x `long\nx` x") :=
  C40_identity_partial buf somePieces [] (.inl rfl) (by decide) (by unfold Free; rw [← Text.contains_iff]; decide +kernel) somePieces_raw (by
    have : around [] somePieces = [T "x `s` x ", T " x"] := by decide +kernel
    rw [this]
    simp only [List.mem_cons, List.not_mem_nil, or_false, forall_eq_or_imp, forall_eq]
    refine ⟨⟨by decide +kernel, ?_⟩, by decide +kernel, ?_⟩ <;> (unfold Free; rw [← Text.contains_iff]; decide +kernel))

/-- Rules that write something before and after the content. -/
example (buf : List Text) : (translate (fun s => T "<" ++ s ++ T ">") buf (T "x `s` x `long\nx` x")).map Prod.snd = some (T "<x `s` x `long\nx` x>") := by
  obtain ⟨markers, h1, _, _, h⟩ := C40_strings_partial (fun s => T "<" ++ s ++ T ">") buf somePieces [] (.inl rfl) (by decide)
    (by unfold Free; rw [← Text.contains_iff]; decide +kernel) somePieces_raw
  obtain ⟨m, rfl⟩ := List.length_eq_one_iff.1 (h1.trans (by decide +kernel : (longStrings somePieces).length = 1))
  have ha : around [] somePieces = [T "x `s` x ", T " x"] := by decide +kernel
  refine h [T "<x `s` x ", T " x>"] (by decide +kernel) (by rw [ha]; simp [weave, T]) ?_
  simp only [List.mem_cons, List.not_mem_nil, or_false, forall_eq_or_imp, forall_eq]
  refine ⟨?_, ?_⟩ <;> (unfold Free; rw [← Text.contains_iff]; decide +kernel)


end Verif.Props
