import Verif.Lemmas.RazorNameRun
import Verif.Lemmas.HclMark
/-!
# Searches with the expressions of razor
-/

namespace Verif.Lemmas
open Verif Regex Spec Engine Razor Table

/-! ## Greedy searches -/

theorem run_seq_eq {β : Type} (letter : Char → Bool) (a b : Re) (p : Option Char) (s : Text) (c : Caps) (k : Cont β) :
    run letter (.seq a b) p s c k = run letter a p s c (fun p s c => run letter b p s c k) := rfl

theorem run_group_eq {β : Type} (letter : Char → Bool) (n : Text) (a : Re) (p : Option Char) (s : Text) (c : Caps) (k : Cont β) :
    run letter (.group n a) p s c k = run letter a p s c (fun p' s' c' => k p' s' ((n, s.take (s.length - s'.length)) :: c')) := rfl

theorem run_opt_eq {β : Type} (letter : Char → Bool) (a : Re) (p : Option Char) (s : Text) (c : Caps) (k : Cont β) :
    run letter (.opt true a) p s c k = (run letter a p s c k).or (k p s c) := rfl

theorem run_alt_eq {β : Type} (letter : Char → Bool) (a b : Re) (p : Option Char) (s : Text) (c : Caps) (k : Cont β) :
    run letter (.alt a b) p s c k = (run letter a p s c k).or (run letter b p s c k) := rfl

theorem run_cls_cons {β : Type} {letter : Char → Bool} {K : Cls} {ch : Char} (h : K.has letter ch = true) (p : Option Char) (t : Text) (c : Caps)
    (k : Cont β) : run letter (.cls K) p (ch :: t) c k = k (some ch) t c := if_pos h

theorem run_lit_cons {β : Type} (letter : Char → Bool) (ch : Char) (p : Option Char) (t : Text) (c : Caps) (k : Cont β) :
    run letter (lit ch) p (ch :: t) c k = k (some ch) t c := by
  rw [run_lit]
  exact if_pos rfl

theorem run_lit_ne {β : Type} (letter : Char → Bool) {ch d : Char} (h : d ≠ ch) (p : Option Char) (t : Text) (c : Caps) (k : Cont β) :
    run letter (lit ch) p (d :: t) c k = none := by
  rw [run_lit]
  exact if_neg h

/-- A greedy repetition of a class takes all that it can, if the rest agrees. -/
theorem starLoop_cls {β : Type} {letter : Char → Bool} {K : Cls} {k : Cont β} {v : Text} {c : Caps} {r : β}
    (hv : ∀ ch, v.head? = some ch → K.has letter ch = false) :
    ∀ (u : Text) (n : Nat) (p : Option Char), (u ++ v).length ≤ n → (∀ ch ∈ u, K.has letter ch = true) → k (lastOr p u) v c = some r →
      starLoop (fun p s c k => run letter (.cls K) p s c k) true n p (u ++ v) c k = some r := by
  intro u
  induction u with
  | nil =>
    intro n p _ _ hk
    cases n with
    | zero => exact hk
    | succ n =>
      unfold starLoop
      rw [if_pos rfl]
      have : ∀ k' : Cont β, run letter (.cls K) p v c k' = none := by
        intro k'
        cases v with
        | nil => rfl
        | cons ch t =>
          simp only [run, oneChar]
          rw [if_neg (by rw [hv ch rfl]; decide)]
      rw [List.nil_append, this]
      exact hk
  | cons ch u ih =>
    intro n p hn hu hk
    cases n with
    | zero => simp at hn
    | succ n =>
      unfold starLoop
      rw [if_pos rfl]
      rw [List.cons_append, run_cls_cons (hu ch (List.mem_cons_self ..)), if_pos (by simp)]
      have h1 : k (lastOr (some ch) u) v c = some r := by
        rw [← lastOr_single p ch, lastOr_append]
        exact hk
      have := ih n (some ch) (by simpa using hn) (fun d hd => hu d (List.mem_cons_of_mem _ hd)) h1
      rw [this]
      rfl

theorem run_star_cls {β : Type} {letter : Char → Bool} {K : Cls} {k : Cont β} {u v : Text} {p : Option Char} {c : Caps} {r : β}
    (hu : ∀ ch ∈ u, K.has letter ch = true) (hv : ∀ ch, v.head? = some ch → K.has letter ch = false) (hk : k (lastOr p u) v c = some r) :
    run letter (.star true (.cls K)) p (u ++ v) c k = some r :=
  starLoop_cls hv u _ p (Nat.le_refl _) hu hk

theorem fit_star_all {letter : Char → Bool} {K : Cls} {g : Bool} {p : Option Char} {x q : Text} {c c' : Caps}
    (h : Fit letter (.star g (.cls K)) p x q c c') : ∀ ch ∈ x, K.has letter ch = true := by
  generalize hr : Re.star g (.cls K) = e at h
  induction h with
  | done => simp
  | more _ h₁ _ _ ih₂ =>
    cases hr
    cases h₁ with
    | cls hk =>
      intro ch hch
      rcases List.mem_append.mp hch with h | h
      · rw [List.mem_singleton.mp h]
        exact hk
      · exact ih₂ rfl ch h
  | _ => cases hr

/-! ## The signs after the delimiter -/

/-- The signs after the delimiter. -/
theorem run_reduce_all {r : Text × Text × Text} (h : r ∈ reduceSigns) : ∃ d : Caps, groupOf d c!"reduce1" = r.2.1 ∧ groupOf d c!"reduce2" = r.2.2 ∧ groupOf d c!"assign" = [] ∧
    groupOf d c!"reduce" = r.1 ∧
    ∀ {β : Type} (letter : Char → Bool) (p : Option Char) (ch : Char) (t : Text) (k : Cont β) (res : β), ch ≠ '-' → ch ≠ '_' →
      (∀ p', k p' (ch :: t) d = some res) → run letter reduceRe p (r.1 ++ ch :: t) [] k = some res := by
  simp only [reduceSigns, List.mem_cons, List.not_mem_nil, or_false] at h
  have one : ∀ (ch d : Char) (t : Text), List.take ((ch :: d :: t).length - (d :: t).length) (ch :: d :: t) = [ch] := by
    intro ch d t
    rw [show (ch :: d :: t).length - (d :: t).length = 1 by simp]
    rfl
  rcases h with rfl | rfl | rfl | rfl | rfl
  · refine ⟨[(c!"reduce", []), (c!"reduce2", [])], rfl, rfl, rfl, rfl, ?_⟩
    intro β letter p ch t k res hd hu hk
    unfold reduceRe
    simp only [List.nil_append]
    rw [run_group_eq, run_seq_eq, run_opt_eq, run_group_eq, run_alt_eq, run_group_eq, run_lit_ne _ hd, run_lit_ne _ hu, Option.none_or,
      Option.none_or, run_group_eq, run_opt_eq, run_lit_ne _ hd, Option.none_or]
    simp only [Nat.sub_self, List.take_zero]
    exact hk p
  · refine ⟨[(c!"reduce", c!"-"), (c!"reduce2", []), ([], c!"-"), (c!"reduce1", c!"-")], rfl, rfl, rfl, rfl, ?_⟩
    intro β letter p ch t k res hd hu hk
    unfold reduceRe
    simp only [List.cons_append, List.nil_append]
    rw [run_group_eq, run_seq_eq, run_opt_eq, run_group_eq, run_alt_eq, run_group_eq, run_lit_cons, run_group_eq, run_opt_eq,
      run_lit_ne _ hd, Option.none_or]
    simp only [Nat.sub_self, List.take_zero, one]
    rw [hk]
    rfl
  · refine ⟨[(c!"reduce", c!"--"), (c!"reduce2", c!"-"), ([], c!"-"), (c!"reduce1", c!"-")], rfl, rfl, rfl, rfl, ?_⟩
    intro β letter p ch t k res hd hu hk
    unfold reduceRe
    simp only [List.cons_append, List.nil_append]
    have two : List.take (('-' :: '-' :: ch :: t).length - (ch :: t).length) ('-' :: '-' :: ch :: t) = c!"--" := by
      rw [show ('-' :: '-' :: ch :: t).length - (ch :: t).length = 2 by simp]
      rfl
    have first : List.take (('-' :: '-' :: ch :: t).length - ('-' :: ch :: t).length) ('-' :: '-' :: ch :: t) = c!"-" := by
      rw [show ('-' :: '-' :: ch :: t).length - ('-' :: ch :: t).length = 1 by simp]
      rfl
    rw [run_group_eq, run_seq_eq, run_opt_eq, run_group_eq, run_alt_eq, run_group_eq, run_lit_cons, run_group_eq, run_opt_eq,
      run_lit_cons]
    simp only [one, two, first]
    rw [hk]
    rfl
  · refine ⟨[(c!"reduce", c!"_"), (c!"reduce2", []), ([], c!"_")], rfl, rfl, rfl, rfl, ?_⟩
    intro β letter p ch t k res hd hu hk
    unfold reduceRe
    simp only [List.cons_append, List.nil_append]
    rw [run_group_eq, run_seq_eq, run_opt_eq, run_group_eq, run_alt_eq, run_group_eq, run_lit_ne _ (by decide), Option.none_or, run_lit_cons, run_group_eq,
      run_opt_eq, run_lit_ne _ hd, Option.none_or]
    simp only [Nat.sub_self, List.take_zero, one]
    rw [hk]
    rfl
  · refine ⟨[(c!"reduce", c!"_-"), (c!"reduce2", c!"-"), ([], c!"_")], rfl, rfl, rfl, rfl, ?_⟩
    intro β letter p ch t k res hd hu hk
    unfold reduceRe
    simp only [List.cons_append, List.nil_append]
    have two : List.take (('_' :: '-' :: ch :: t).length - (ch :: t).length) ('_' :: '-' :: ch :: t) = c!"_-" := by
      rw [show ('_' :: '-' :: ch :: t).length - (ch :: t).length = 2 by simp]
      rfl
    have first : List.take (('_' :: '-' :: ch :: t).length - ('-' :: ch :: t).length) ('_' :: '-' :: ch :: t) = c!"_" := by
      rw [show ('_' :: '-' :: ch :: t).length - ('-' :: ch :: t).length = 1 by simp]
      rfl
    rw [run_group_eq, run_seq_eq, run_opt_eq, run_group_eq, run_alt_eq, run_group_eq, run_lit_ne _ (by decide), Option.none_or, run_lit_cons, run_group_eq,
      run_opt_eq, run_lit_cons]
    simp only [one, two, first]
    rw [hk]
    rfl

theorem run_reduce_assign {r : Text × Text × Text} (h : r ∈ reduceSigns) : ∃ d : Caps, groupOf d c!"reduce1" = r.2.1 ∧ groupOf d c!"reduce2" = r.2.2 ∧ groupOf d c!"assign" = [] ∧
    ∀ {β : Type} (letter : Char → Bool) (p : Option Char) (ch : Char) (t : Text) (k : Cont β) (res : β), ch ≠ '-' → ch ≠ '_' →
      (∀ p', k p' (ch :: t) d = some res) → run letter reduceRe p (r.1 ++ ch :: t) [] k = some res := by
  obtain ⟨d, h1, h2, h3, _, h4⟩ := run_reduce_all h
  exact ⟨d, h1, h2, h3, h4⟩

theorem run_reduce {r : Text × Text × Text} (h : r ∈ reduceSigns) : ∃ d : Caps, groupOf d c!"reduce1" = r.2.1 ∧ groupOf d c!"reduce2" = r.2.2 ∧
    ∀ {β : Type} (letter : Char → Bool) (p : Option Char) (ch : Char) (t : Text) (k : Cont β) (res : β), ch ≠ '-' → ch ≠ '_' →
      (∀ p', k p' (ch :: t) d = some res) → run letter reduceRe p (r.1 ++ ch :: t) [] k = some res := by
  obtain ⟨d, h1, h2, _, h3⟩ := run_reduce_assign h
  exact ⟨d, h1, h2, h3⟩

theorem fit_reduce {letter : Char → Bool} {p : Option Char} {x q : Text} {c c' : Caps} (h : Fit letter reduceRe p x q c c') :
    x ∈ reduceSigns.map (·.1) := by
  obtain ⟨_, _, h⟩ := fit_group h
  obtain ⟨x1, x2, _, rfl, h1, h2⟩ := fit_seq h
  have e1 : x1 = [] ∨ x1 = c!"-" ∨ x1 = c!"_" := by
    cases h1 with
    | none => exact .inl rfl
    | one h1 =>
      obtain ⟨_, _, h1⟩ := fit_group h1
      cases h1 with
      | left h1 =>
        obtain ⟨_, _, h1⟩ := fit_group h1
        exact .inr (.inl (fit_lit h1).1)
      | right h1 => exact .inr (.inr (fit_lit h1).1)
  have e2 : x2 = [] ∨ x2 = c!"-" := by
    obtain ⟨_, _, h2⟩ := fit_group h2
    cases h2 with
    | none => exact .inl rfl
    | one h2 => exact .inr (fit_lit h2).1
  rcases e1 with rfl | rfl | rfl <;> rcases e2 with rfl | rfl <;> decide

theorem sign_at {r : Text × Text × Text} (h : r ∈ reduceSigns) : '@' ∉ r.1 ∧ '@' ∉ r.2.1 ∧ '@' ∉ r.2.2 := by
  revert r
  decide

theorem wordCode_at {r : Text × Text × Text} (h : r ∈ reduceSigns) {word : Text} (hw : '@' ∉ word) : '@' ∉ wordCode word r.2.1 r.2.2 := by
  obtain ⟨_, h1, h2⟩ := sign_at h
  simp [wordCode, h1, h2, hw]

theorem wordCode_brace (word x y t : Text) : wordCode word x y ++ t = '{' :: ('{' :: (x ++ (c!" " ++ (word ++ (c!" " ++ (y ++ (c!"}}" ++ t))))))) := by
  simp [wordCode]

/-! ## The replacement of what follows a delimiter -/

/-- Characters before the delimiter are kept. -/
theorem replaceAux_before {letter : Char → Bool} {e : Re} (he : ∀ p ch t, ch ≠ '@' → matchAt letter e p (ch :: t) = none) {out : Text → Caps → Text}
    (a q : Text) (h : '@' ∉ a) : ∀ p, Regex.replaceAux letter e out 0 p (a ++ q) = a ++ Regex.replaceAux letter e out 0 (lastOr p a) q := by
  induction a with
  | nil =>
    intro p
    rfl
  | cons c a ih =>
    intro p
    rw [List.mem_cons, not_or] at h
    rw [List.cons_append, Regex.replaceAux, he _ _ _ (fun hc => h.1 hc.symm)]
    simp only
    rw [ih h.2, List.cons_append, ← lastOr_single p c, lastOr_append]
    rfl

theorem replaceAux_plain {letter : Char → Bool} {e : Re} (he : ∀ p ch t, ch ≠ '@' → matchAt letter e p (ch :: t) = none) {out : Text → Caps → Text}
    (a : Text) (h : '@' ∉ a) (p : Option Char) : Regex.replaceAux letter e out 0 p a = a := by
  have := replaceAux_before he (out := out) a [] h p
  rw [List.append_nil] at this
  rw [this]
  simp [Regex.replaceAux]

/-- A delimiter where nothing matches is kept, with what follows up to the next one. -/
theorem replaceAux_over {letter : Char → Bool} {e : Re} (he : ∀ p ch t, ch ≠ '@' → matchAt letter e p (ch :: t) = none) {out : Text → Caps → Text}
    {a x q q' : Text} (ha : '@' ∉ a) (hx : '@' ∉ x) (hm : ∀ p, matchAt letter e p ('@' :: (x ++ q)) = none)
    (hq : ∀ p, Regex.replaceAux letter e out 0 p q = q') (p : Option Char) :
    Regex.replaceAux letter e out 0 p (a ++ '@' :: (x ++ q)) = a ++ '@' :: (x ++ q') := by
  rw [replaceAux_before he _ _ ha, Regex.replaceAux, hm]
  simp only
  rw [replaceAux_before he _ _ hx, hq]

/-- One that matches is replaced. -/
theorem replaceAux_match {letter : Char → Bool} {e : Re} (he : ∀ p ch t, ch ≠ '@' → matchAt letter e p (ch :: t) = none) {out : Text → Caps → Text}
    {a x q q' code : Text} (ha : '@' ∉ a) (hm : ∀ p, ∃ caps, matchAt letter e p ('@' :: (x ++ q)) = some (x.length + 1, caps) ∧
      ∀ m, out m caps = code) (hq : ∀ p, Regex.replaceAux letter e out 0 p q = q') (p : Option Char) :
    Regex.replaceAux letter e out 0 p (a ++ '@' :: (x ++ q)) = a ++ (code ++ q') := by
  obtain ⟨caps, h1, h2⟩ := hm (lastOr p a)
  rw [replaceAux_before he _ _ ha, Regex.replaceAux, h1]
  simp only
  rw [h2, replaceAux_skipped, hq]

theorem rule_one {letter : Char → Bool} (parser : Replacement → Text → Text) {i : Nat} {name replace : Text} {e : Re}
    (he : (table.drop i).take 1 = [(name, replace, 0, e)]) {t t' : Text}
    (h : ∀ out : Text → Caps → Text, (∀ x caps, out x caps = expand (groupOf caps) replace) → ∀ p, Regex.replaceAux letter e out 0 p t = t') :
    (((generate defaultDelims).drop i).take 1).foldl (applyRule letter parser) t = t' := by
  have hlen := congrArg List.length (congrArg (fun l => List.take 1 (List.drop i l)) table_eq)
  simp only [← List.map_drop, ← List.map_take, List.length_map, he] at hlen
  obtain ⟨r, hrule⟩ := List.length_eq_one_iff.mp hlen
  obtain ⟨e', hmem, hc⟩ := rules_compiled i 1 r (by rw [hrule]; exact List.mem_singleton.mpr rfl)
  rw [he] at hmem
  rw [List.mem_singleton.mp hmem] at hc
  rw [hrule, List.foldl_cons, List.foldl_nil, applyRule_compiled hc]
  refine h _ (fun x caps => ?_) none
  unfold output
  rw [if_pos hc.2.2.1, hc.2.1]

/-! ## Texts with the same beginnings -/

/-- Up to the first brace of the second one, the texts are the same. -/
def PrefixLike (b b1 : Text) : Prop := ∀ x, '{' ∉ x → x <+: b1 → x <+: b

theorem prefixLike_front (a : Text) {b b1 : Text} (h : PrefixLike b b1) : PrefixLike (a ++ b) (a ++ b1) := by
  induction a with
  | nil => exact h
  | cons c a ih =>
    intro x hx hp
    cases x with
    | nil => exact List.nil_prefix
    | cons d x =>
      rw [List.cons_append, List.cons_prefix_cons] at hp ⊢
      rw [List.mem_cons, not_or] at hx
      exact ⟨hp.1, ih x hx.2 hp.2⟩

theorem prefixLike_code (a b c : Text) : PrefixLike (a ++ b) (a ++ '{' :: c) := by
  rintro x hx ⟨y, hy⟩
  rcases List.append_eq_append_iff.mp hy with ⟨a', h1, h2⟩ | ⟨a', h1, h2⟩
  · exact ⟨a' ++ b, by rw [h1]; simp⟩
  · cases a' with
    | nil =>
      rw [h1, List.append_nil]
      exact List.prefix_append ..
    | cons d a' =>
      simp only [List.cons_append, List.cons.injEq] at h2
      rw [h1, ← h2.1] at hx
      simp at hx

theorem prefixLike_head {b b1 : Text} (h : PrefixLike b b1) {c : Char} (hc : c ≠ '{') (h1 : b1.head? = some c) : b.head? = some c := by
  cases b1 with
  | nil => cases h1
  | cons d b1 =>
    cases h1
    obtain ⟨y, hy⟩ := h [c] (by simpa using fun h => hc h.symm) ⟨b1, rfl⟩
    rw [← hy]
    rfl

theorem prefixLike_ne {b b1 : Text} (h : PrefixLike b b1) {x : Text} (hx : '{' ∉ x) (hn : ∀ e, b ≠ x ++ e) (e : Text) : b1 ≠ x ++ e := by
  intro he
  obtain ⟨y, hy⟩ := h x hx ⟨e, he.symm⟩
  exact hn y hy.symm

theorem brace_not_blank {w : Text} (h : ∀ c ∈ w, isBlank c = true) : '{' ∉ w := by
  intro hi
  exact absurd (h _ hi) (by decide)

theorem brace_not_var {letter : Char → Bool} (hl : PlainLetters letter) : varChar letter '{' = false := by
  unfold varChar
  rw [hl.1 _ (by decide)]
  decide

theorem brace_not_wide {letter : Char → Bool} (hl : PlainLetters letter) {f : Text} (h : ∀ c ∈ f, wideChar letter c = true) : '{' ∉ f := by
  intro hi
  have := h _ hi
  unfold wideChar at this
  rw [brace_not_var hl] at this
  exact absurd this (by decide)

theorem ends_like {letter : Char → Bool} (hl : PlainLetters letter) {b b1 : Text} (h : PrefixLike b b1) (he : Ends letter b) : Ends letter b1 := by
  refine ⟨?_, ?_, ?_, ?_⟩
  · intro c hc
    by_cases hb : c = '{'
    · subst hb
      exact ⟨brace_not_var hl, by decide⟩
    · exact he.next c (prefixLike_head h hb hc)
  · intro w e hw hb
    refine prefixLike_ne h (x := w ++ ['(']) (by simp [brace_not_blank hw]) (fun e he' => he.noCall w e hw (by simpa using he')) e (by simpa using hb)
  · intro f e hf hb
    refine prefixLike_ne h (x := f ++ ['[']) (by simp [brace_not_wide hl hf]) (fun e he' => he.noIndex f e hf (by simpa using he')) e (by simpa using hb)
  · intro f w o e hf hw ho hb
    have h1 : ∀ o ∈ assignSigns, '{' ∉ o := by decide
    refine prefixLike_ne h (x := f ++ (w ++ o)) (by simp [brace_not_wide hl hf, brace_not_blank hw, h1 o ho])
      (fun e he' => he.noAssign f w o e hf hw ho (by simpa using he')) e (by simpa using hb)

/-- What is dropped with a semicolon. -/
def Dropped (w : Text) : Prop := w = [] ∨ ∃ v, (∀ c ∈ v, isBlank c = true) ∧ w = v ++ [';']

theorem remains_dropped {b b' : Text} (h : Remains b b') : ∃ w, Dropped w ∧ b = w ++ b' ∧ ∀ u, PrefixLike b' u → Remains (w ++ u) u := by
  rcases h with ⟨w, hw, rfl⟩ | ⟨rfl, hn⟩
  · refine ⟨w ++ [';'], .inr ⟨w, hw, rfl⟩, by simp, fun u _ => .inl ⟨w, hw, by simp⟩⟩
  · refine ⟨[], .inl rfl, rfl, fun u hu => .inr ⟨rfl, fun w e hw he => ?_⟩⟩
    refine prefixLike_ne hu (x := w ++ [';']) (by simp [brace_not_blank hw]) (fun e he' => hn w e hw (by simpa using he')) e (by simpa using he)

/-- The characters of what is dropped after an `end`. -/
def dropChar (c : Char) : Bool := isBlank c || c == ';' || c.isAlpha

theorem dropped_chars {w : Text} (h : Dropped w) : ∀ c ∈ w, dropChar c = true := by
  rcases h with rfl | ⟨v, hv, rfl⟩
  · simp
  · intro c hc
    rcases List.mem_append.mp hc with hc | hc
    · simp [dropChar, hv c hc]
    · rw [List.mem_singleton.mp hc]
      decide

theorem drop_chars {w : Text} (h : ∀ c ∈ w, dropChar c = true) : '@' ∉ w ∧ '#' ∉ w ∧ '/' ∉ w ∧ '"' ∉ w ∧ '{' ∉ w := by
  refine ⟨?_, ?_, ?_, ?_, ?_⟩ <;> exact fun hi => absurd (h _ hi) (by decide)

end Verif.Lemmas
