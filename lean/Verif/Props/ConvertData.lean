import Verif.Spec.ConvertSpec
/-!
# C56: conversion of data
-/

namespace Verif
namespace Props
open Spec Convert Text

/-! ## The order of the formats -/

/-- C56. The result does not depend on the order of registration. -/
theorem C56_order (untyped : Bool) (cs cs' : GoMap Converter) (hd : (cs.map Prod.fst).Nodup) (hp : cs.Perm cs') (data : Text) (out : GoVal) :
    convert untyped cs data out = convert untyped cs' data out := by
  have hs := sortBy_perm_invariant Prod.fst hp hd
  have key : ∀ data out, '=' ∉ data → convert untyped cs data out = convert untyped cs' data out := by
    intro data out h
    rw [convert.eq_def untyped cs, convert.eq_def untyped cs', if_neg h, if_neg h, hs]
  rw [convert.eq_def untyped cs, convert.eq_def untyped cs', hs]
  simp only [key _ _ (simplify_free data)]

private theorem inOrder_eq {cs l : GoMap Converter} (hd : (cs.map Prod.fst).Nodup) (h : InOrder cs l) : sortBy Prod.fst cs = l := by
  refine sorted_perm_unique Prod.fst ((sortBy_perm _ _).trans h.1.symm) (sortBy_sorted _ _) ?_ ?_
  · refine h.2.imp ?_
    intro a b hab
    rw [lt_iff] at hab
    exact hab.1
  · exact ((sortBy_perm Prod.fst cs).map Prod.fst).nodup_iff.2 hd

private theorem tryAll_refused {data : Text} {l : List (Text × Converter)} {out out' : GoVal} {errs : Errors} (h : Refused data l out errs out')
    (rest : List (Text × Converter)) (acc : Errors) : tryAll data (l ++ rest) acc out = tryAll data rest (acc ++ errs) out' := by
  induction h generalizing acc with
  | nil => simp
  | cons k c l out e o errs o' hc _ ih =>
    rw [List.cons_append, tryAll, hc]
    simp only
    rw [ih, List.append_assoc]
    rfl

private theorem tryAll_first {data : Text} {l : List (Text × Converter)} {out v : GoVal} {errs : Errors} {k : Text} (h : FirstAccepts data l out errs k v) :
    tryAll data l [] out = (true, errs, v) := by
  obtain ⟨pre, c, post, o, rfl, hr, hc⟩ := h
  rw [tryAll_refused hr, tryAll, hc]
  simp

private theorem tryAll_none {data : Text} {l : List (Text × Converter)} {out out' : GoVal} {errs : Errors} (h : Refused data l out errs out') :
    tryAll data l [] out = (false, errs, out') := by
  have := tryAll_refused h [] []
  rw [List.append_nil] at this
  rw [this, tryAll]
  simp

/-- C56. Every run of the formats ends with the first one that accepts the data, or with all of them refusing it. -/
theorem C56_cases (data : Text) (l : List (Text × Converter)) (out : GoVal) :
    (∃ errs k v, FirstAccepts data l out errs k v) ∨ ∃ errs out', Refused data l out errs out' := by
  induction l generalizing out with
  | nil => exact .inr ⟨[], out, .nil _⟩
  | cons x l ih =>
    obtain ⟨k, c⟩ := x
    rcases hc : c data out with ⟨e, o⟩
    cases e with
    | none => exact .inl ⟨[], k, o, [], c, l, out, rfl, .nil _, hc⟩
    | some e =>
      rcases ih o with ⟨errs, k', v, pre, c', post, o', rfl, hr, hc'⟩ | ⟨errs, o', hr⟩
      · exact .inl ⟨(k, e) :: errs, k', v, (k, c) :: pre, c', post, o', rfl, .cons _ _ _ _ _ _ _ _ hc hr, hc'⟩
      · exact .inr ⟨_, _, .cons _ _ _ _ _ _ _ _ hc hr⟩

private theorem isText_iff {v : GoVal} {data : Text} : isText v data = true ↔ v = .str false data := by
  unfold isText
  split
  · simp
  · rename_i h
    constructor
    · intro h; cases h
    · intro h'; exact absurd h' (h data)

private theorem onlyText_iff {v : GoVal} {data : Text} : (isText v data && data.any (fun c => c ∈ T "=:{}")) = true ↔ OnlyText data v := by
  rw [Bool.and_eq_true, isText_iff, OnlyText]
  simp

private theorem accepted_pos {u : Bool} {again : Option (GoVal → Result)} {data : Text} {errs : Errors} {out : GoVal} (h : u = true ∧ OnlyText data out) :
    accepted u again data errs out = match again with
      | none => (some errs, .nil)
      | some f => match f out with
        | (none, out') => if isText out' data then (some errs, .nil) else (none, out')
        | (some _, _) => (some errs, .nil) := by
  have hc : (u && isText out data && data.any (fun c => c ∈ T "=:{}")) = true := by
    rw [Bool.and_assoc, Bool.and_eq_true]
    exact ⟨h.1, onlyText_iff.2 h.2⟩
  unfold accepted
  rw [if_pos hc]
  rcases again with _ | f
  · rfl
  · rcases f out with ⟨_ | _, _⟩ <;> rfl

private theorem accepted_neg {u : Bool} {again : Option (GoVal → Result)} {data : Text} {errs : Errors} {out : GoVal} (h : ¬ (u = true ∧ OnlyText data out)) :
    accepted u again data errs out = (none, out) := by
  unfold accepted
  rw [if_neg]
  rw [Bool.and_assoc, Bool.and_eq_true]
  intro h'
  exact h ⟨h'.1, onlyText_iff.1 h'.2⟩

/-- C56. The result is that of the first format that accepts the data in the order of the names, unless this format only sees a text in data that looks like
more. -/
theorem C56_first (untyped : Bool) (cs l : GoMap Converter) (hd : (cs.map Prod.fst).Nodup) (hl : InOrder cs l) (data : Text) (out : GoVal) (errs : Errors)
    (k : Text) (v : GoVal) (h : FirstAccepts data l out errs k v) (ht : ¬ (untyped = true ∧ OnlyText data v)) : convert untyped cs data out = (none, v) := by
  rw [convert, inOrder_eq hd hl, tryAll_first h]
  exact accepted_neg ht

/-- C56. When that format only sees a text, the result is that of the simplified form if there is an equal sign in the data and it gives something else; otherwise
it is an error, and the variable is reset. -/
theorem C56_text (cs l : GoMap Converter) (hd : (cs.map Prod.fst).Nodup) (hl : InOrder cs l) (data : Text) (out : GoVal) (errs : Errors) (k : Text) (v : GoVal)
    (h : FirstAccepts data l out errs k v) (ht : OnlyText data v) :
    (∀ w, '=' ∈ data → convert true cs (simplify data) v = (none, w) → w ≠ .str false data → convert true cs data out = (none, w)) ∧
    ((∀ w, '=' ∈ data → convert true cs (simplify data) v = (none, w) → w = .str false data) → convert true cs data out = (some errs, .nil)) := by
  rw [convert.eq_def true cs data, inOrder_eq hd hl, tryAll_first h, conclude, accepted_pos ⟨rfl, ht⟩]
  constructor
  · intro w he hw hn
    rw [if_pos he]
    simp only [hw]
    rw [if_neg (fun h => hn (isText_iff.1 h))]
  · intro hall
    by_cases he : '=' ∈ data
    · rw [if_pos he]
      simp only
      rcases hw : convert true cs (simplify data) v with ⟨e, w⟩
      cases e with
      | none =>
        simp only
        rw [if_pos (isText_iff.2 (hall w he hw))]
      | some e => rfl
    · rw [if_neg he]

private theorem isListOrNothing_iff {v : GoVal} : isListOrNothing v = true ↔ v = .nil ∨ ∃ ty es, v = .slice ty es := by
  cases v <;> simp [isListOrNothing]

/-- C56. When all the formats refuse the data, the simplified form decides if there is an equal sign in the data and the variable holds nothing or a list;
otherwise the result is an error. -/
theorem C56_refused (untyped : Bool) (cs l : GoMap Converter) (hd : (cs.map Prod.fst).Nodup) (hl : InOrder cs l) (hne : cs ≠ []) (data : Text)
    (out out' : GoVal) (errs : Errors) (h : Refused data l out errs out') :
    (∀ w, '=' ∈ data → (out' = .nil ∨ ∃ ty es, out' = .slice ty es) → convert untyped cs (simplify data) out' = (none, w) →
      convert untyped cs data out = (none, w)) ∧
    (('=' ∈ data → (out' = .nil ∨ ∃ ty es, out' = .slice ty es) → ∃ e w, convert untyped cs (simplify data) out' = (some e, w)) →
      (convert untyped cs data out).1 = some errs) := by
  have hne' : errs ≠ [] := by
    cases h with
    | nil => exact absurd (List.Perm.nil_eq hl.1).symm hne
    | cons => simp
  obtain ⟨e, es, rfl⟩ := List.exists_cons_of_ne_nil hne'
  rw [convert.eq_def untyped cs data, inOrder_eq hd hl, tryAll_none h, conclude, refused.eq_def]
  constructor
  · intro w he ho hw
    rw [if_pos he, if_pos (isListOrNothing_iff.2 ho)]
    simp only [hw]
  · intro hall
    by_cases ho : isListOrNothing out' = true
    · rw [if_pos ho]
      by_cases he : '=' ∈ data
      · rw [if_pos he]
        obtain ⟨e', w, hw⟩ := hall he (isListOrNothing_iff.1 ho)
        simp only [hw]
      · rw [if_neg he]
    · rw [if_neg ho]

/-! ## The simplified form -/

private theorem blank_iff {c : Char} : isBlank c = true ↔ c = ' ' ∨ c = '\t' := by simp [isBlank]

private theorem equals_blanks {a : Text} (ha : Blanks a) (p t : Text) : equals p false (a ++ t) = equals (p ++ a) false t := by
  induction a generalizing p with
  | nil => simp
  | cons c a ih =>
    rw [List.cons_append, equals, if_pos (blank_iff.2 (ha c (by simp)))]
    simp only [Bool.false_eq_true, if_false]
    rw [ih (fun c hc => ha c (List.mem_cons_of_mem _ hc)), List.append_assoc]
    rfl

private theorem equals_after {a : Text} (ha : Blanks a) (t : Text) : equals [] true (a ++ t) = equals [] true t := by
  induction a with
  | nil => rfl
  | cons c a ih =>
    rw [List.cons_append, equals, if_pos (blank_iff.2 (ha c (by simp)))]
    simp only [if_true]
    exact ih (fun c hc => ha c (List.mem_cons_of_mem _ hc))

private theorem equals_chars {w : Text} (hw : ∀ c ∈ w, c ≠ ' ' ∧ c ≠ '\t' ∧ c ≠ '=' ∧ c ≠ ':') (t : Text) : equals [] false (w ++ t) = w ++ equals [] false t := by
  induction w with
  | nil => rfl
  | cons c w ih =>
    have hc := hw c (by simp)
    rw [List.cons_append, equals, if_neg (by rw [blank_iff]; exact fun h => h.elim hc.1 hc.2.1), if_neg hc.2.2.1,
      ih (fun c hc => hw c (List.mem_cons_of_mem _ hc))]
    rfl

private theorem equals_word {w : Text} (hw : SimpleWord w) (p : Text) (b : Bool) (t : Text) : equals p b (w ++ t) = p ++ w ++ equals [] false t := by
  obtain ⟨hne, hw⟩ := hw
  cases w with
  | nil => exact absurd rfl hne
  | cons c w =>
    have hc := hw c (by simp)
    rw [List.cons_append, equals, if_neg (by rw [blank_iff]; exact fun h => h.elim hc.1 hc.2.1), if_neg hc.2.2.1,
      equals_chars (fun c hc => hw c (List.mem_cons_of_mem _ hc))]
    simp

private theorem equals_sign (p t : Text) (b : Bool) : equals p b ('=' :: t) = ':' :: equals [] true t := by
  rw [equals]; rfl

private theorem blanks_word {w : Text} (hw : SimpleWord w) (b : Bool) (t : Text) : blanks b (w ++ t) = w ++ blanks false t := by
  obtain ⟨hne, hw⟩ := hw
  revert hne
  induction w generalizing b with
  | nil => exact fun hne => absurd rfl hne
  | cons c w ih =>
    intro _
    have hc := hw c (by simp)
    rw [List.cons_append, blanks, if_neg (by rw [blank_iff]; exact fun h => h.elim hc.1 hc.2.1)]
    by_cases h0 : w = []
    · subst h0; rfl
    · rw [ih false (fun c hc => hw c (List.mem_cons_of_mem _ hc)) h0]
      rfl

private theorem blanks_true {a : Text} (ha : Blanks a) (t : Text) : blanks true (a ++ t) = blanks true t := by
  induction a with
  | nil => rfl
  | cons c a ih =>
    rw [List.cons_append, blanks, if_pos (blank_iff.2 (ha c (by simp)))]
    simp only [if_true]
    exact ih (fun c hc => ha c (List.mem_cons_of_mem _ hc))

private theorem blanks_blanks {a : Text} (ha : Blanks a) (hne : a ≠ []) (t : Text) : blanks false (a ++ t) = '\n' :: blanks true t := by
  cases a with
  | nil => exact absurd rfl hne
  | cons c a =>
    rw [List.cons_append, blanks, if_pos (blank_iff.2 (ha c (by simp)))]
    simp only [Bool.false_eq_true, if_false]
    rw [blanks_true (fun c hc => ha c (List.mem_cons_of_mem _ hc))]

private theorem colon_word {w : Text} (hw : SimpleWord w) : w.flatMap (fun c => if c = ':' then T ": " else [c]) = w := by
  replace hw := hw.2
  induction w with
  | nil => rfl
  | cons c w ih =>
    rw [List.flatMap_cons, if_neg (hw c (by simp)).2.2.2, ih (fun c hc => hw c (List.mem_cons_of_mem _ hc))]
    rfl

private theorem assigns_blanks {data : Text} {ps : List (Text × Text)} (h : Assigns data ps) (p : Text) (b : Bool) :
    equals p false data = p ++ equals [] false data ∧ blanks b (equals [] false data) = blanks false (equals [] false data) := by
  cases h with
  | one k v x y hk hv hx hy =>
    constructor
    · rw [List.append_assoc, equals_word hk, equals_word hk, List.nil_append, List.append_assoc]
    · rw [List.append_assoc, equals_word hk, List.nil_append, blanks_word hk, blanks_word hk]
  | more k v x y z rest ps hk hv hx hy hz hne hr =>
    constructor
    · rw [List.append_assoc, equals_word hk, equals_word hk, List.nil_append, List.append_assoc]
    · rw [List.append_assoc, equals_word hk, List.nil_append, blanks_word hk, blanks_word hk]

/-- C56. The simplified form is converted as one line `name: value` for each assignment, in order. -/
theorem C56_simplified (data : Text) (ps : List (Text × Text)) (h : Assigns data ps) :
    simplify data = ps.flatMap (fun p => p.1 ++ T ": " ++ p.2 ++ T "\n") := by
  unfold simplify
  rw [colons_eq]
  induction h with
  | one k v x y hk hv hx hy =>
    rw [List.append_assoc, equals_word hk, equals_blanks hx, equals_sign, equals_after hy]
    have := equals_word hv [] true []
    rw [List.append_nil] at this
    rw [this, List.nil_append, List.nil_append, blanks_word hk]
    simp only [equals, List.append_nil]
    have e : blanks false (':' :: v) = ':' :: v := by
      have := blanks_word hv false []
      rw [List.append_nil] at this
      rw [blanks, if_neg (by decide), this]
      simp [blanks]
    rw [e, List.flatMap_append, List.flatMap_cons, colon_word hk, colon_word hv]
    simp
  | more k v x y z rest ps hk hv hx hy hz hne hr ih =>
    rw [List.append_assoc, equals_word hk, equals_blanks hx, equals_sign, List.append_assoc, List.append_assoc, List.append_assoc, equals_after hy, equals_word hv,
      equals_blanks hz, (assigns_blanks hr _ true).1, List.nil_append, List.nil_append, List.nil_append, blanks_word hk, blanks, if_neg (by decide),
      blanks_word hv, blanks_blanks hz hne, (assigns_blanks hr [] true).2]
    simp only [List.flatMap_append, List.flatMap_cons, colon_word hk, colon_word hv]
    rw [← ih]
    simp [T]

/-! ## Where data is lost -/

/-- C56. The simplified form changes values with colons: `url=http://x` is read as `url: http: //x`. -/
theorem C56_not_colon : simplify (T "url=http://x") = T "url: http: //x\n" := by decide +kernel

/-- C56. The simplified form breaks quoted values at blanks. -/
theorem C56_not_quotes : simplify (T "a=\"b c\" d=e") = T "a: \"b\nc\"\nd: e\n" := by decide +kernel

/-- C56. Without formats any data is accepted and the variable keeps its value. -/
theorem C56_not_formats (data : Text) (out : GoVal) : convert false [] data out = (none, out) := by
  rw [convert]
  exact accepted_neg (by simp)

/-- C56. A plain text with a colon is refused although a format accepts it. -/
theorem C56_not_text : ∃ yaml : Converter, (∀ data out, yaml data out = (none, .str false data)) ∧
    convert true [(T "yaml", yaml)] (T "http://x") .nil = (some [], .nil) := by
  refine ⟨fun data _ => (none, .str false data), fun _ _ => rfl, ?_⟩
  refine (C56_text [(T "yaml", fun data _ => (none, .str false data))] _ (by simp) ⟨List.Perm.refl _, by simp⟩ (T "http://x") .nil [] (T "yaml") _
    ⟨[], _, [], _, rfl, .nil _, rfl⟩ ⟨rfl, ':', by decide, by decide⟩).2 ?_
  intro w he
  exact absurd he (by decide)

/-! ## Cases that meet the hypotheses -/

private def json : Converter := fun data out => if data = T "{}" then (none, .map .coll []) else (some (T "not JSON"), out)
private def yaml : Converter := fun data out =>
  if data = T "a: 1\n" then (none, .map .coll [(T "a", .int .int 1)]) else if data = T "[" then (some (T "not YAML"), out) else (none, .str false data)

theorem equals_pending (pending c : Text) (h : Blanks c) : equals pending false c = pending ++ c := by
  induction c generalizing pending with
  | nil => simp [equals]
  | cons x c ih =>
    have hx : isBlank x = true := by rcases h x (by simp) with rfl | rfl <;> decide
    rw [equals, if_pos hx, if_neg (by simp), ih _ (fun y hy => h y (by simp [hy]))]
    simp

theorem equals_end (pending : Text) (after : Bool) (t c : Text) (x : Char) (h1 : isBlank x = false) (h2 : x ≠ '=') (h : Blanks c) :
    equals pending after (t ++ x :: c) = equals pending after (t ++ [x]) ++ c := by
  induction t generalizing pending after with
  | nil =>
    simp only [List.nil_append, equals, h1, Bool.false_eq_true, if_false, if_neg h2]
    rw [equals_pending _ _ h]
    simp
  | cons y t ih =>
    simp only [List.cons_append, equals]
    split
    · split <;> exact ih _ _
    · split <;> rw [ih] <;> simp

theorem blanks_none (c : Text) (h : Blanks c) : blanks true c = [] := by
  induction c with
  | nil => rfl
  | cons x c ih =>
    have hx : isBlank x = true := by rcases h x (by simp) with rfl | rfl <;> decide
    rw [blanks, if_pos hx, if_pos rfl, ih (fun y hy => h y (by simp [hy]))]

theorem blanks_end (b : Bool) (t c : Text) (x : Char) (h1 : isBlank x = false) (h : Blanks c) (hc : c ≠ []) :
    blanks b (t ++ x :: c) = blanks b (t ++ [x]) ++ ['\n'] := by
  induction t generalizing b with
  | nil =>
    simp only [List.nil_append, blanks, h1, Bool.false_eq_true, if_false]
    cases c with
    | nil => exact absurd rfl hc
    | cons y c =>
      have hy : isBlank y = true := by rcases h y (by simp) with rfl | rfl <;> decide
      rw [blanks, if_pos hy, if_neg (by simp), blanks_none _ (fun z hz => h z (by simp [hz]))]
      rfl
  | cons y t ih =>
    simp only [List.cons_append, blanks]
    split
    · split <;> rw [ih] <;> simp
    · rw [ih]; simp

theorem equals_last (pending : Text) (after : Bool) (t : Text) (x : Char) (h1 : isBlank x = false) (h2 : x ≠ '=') :
    ∃ t', equals pending after (t ++ [x]) = t' ++ [x] := by
  induction t generalizing pending after with
  | nil => exact ⟨pending, by simp [equals, h1, h2]⟩
  | cons y t ih =>
    simp only [List.cons_append, equals]
    split
    · split <;> exact ih _ _
    · split
      · obtain ⟨t', h⟩ := ih [] true
        exact ⟨':' :: t', by rw [h]; simp⟩
      · obtain ⟨t', h⟩ := ih [] false
        exact ⟨pending ++ y :: t', by rw [h]; simp⟩

theorem assigns_end (data : Text) (ps : List (Text × Text)) (h : Assigns data ps) : ∃ t x, data = t ++ [x] ∧ isBlank x = false ∧ x ≠ '=' := by
  induction h with
  | one k v a b _ hv _ _ =>
    obtain ⟨v', x, rfl⟩ : ∃ v' x, v = v' ++ [x] := ⟨v.dropLast, v.getLast hv.1, (List.dropLast_concat_getLast hv.1).symm⟩
    have := hv.2 x (by simp)
    exact ⟨k ++ a ++ '=' :: (b ++ v'), x, by simp, by simp [isBlank, this.1, this.2.1], this.2.2.1⟩
  | more k v a b c rest ps _ _ _ _ _ _ _ ih =>
    obtain ⟨t, x, rfl, h1, h2⟩ := ih
    exact ⟨k ++ a ++ '=' :: (b ++ v ++ c ++ t), x, by simp, h1, h2⟩

/-- C56. Blanks at the end of the simplified form only add an empty line. -/
theorem C56_trailing (data blank : Text) (ps : List (Text × Text)) (h : Assigns data ps) (hb : Blanks blank) (hn : blank ≠ []) :
    simplify (data ++ blank) = ps.flatMap (fun p => p.1 ++ T ": " ++ p.2 ++ T "\n") ++ T "\n" := by
  rw [← C56_simplified data ps h]
  obtain ⟨t, x, rfl, h1, h2⟩ := assigns_end data ps h
  unfold simplify
  rw [List.append_assoc, List.singleton_append, equals_end _ _ _ _ _ h1 h2 hb]
  obtain ⟨t', ht⟩ := equals_last [] false t x h1 h2
  rw [ht, List.append_assoc, List.singleton_append, blanks_end _ _ _ _ h1 hb hn, colons_eq, colons_eq, List.flatMap_append]
  simp
  rfl

example : simplify (T "a = 1 \t") = T "a: 1\n\n" := by decide +kernel

example : Assigns (T "a = 1  b=2") [(T "a", T "1"), (T "b", T "2")] ∧ simplify (T "a = 1  b=2") = T "a: 1\nb: 2\n" := by
  have w : ∀ c : Char, (c ≠ ' ' ∧ c ≠ '\t' ∧ c ≠ '=' ∧ c ≠ ':') → SimpleWord [c] := by
    intro c hc
    refine ⟨by simp, ?_⟩
    intro d hd
    rw [List.mem_singleton] at hd
    subst hd
    exact hc
  have b : Blanks [] := by intro c hc; cases hc
  have s : Blanks [' '] := by intro c hc; exact .inl (List.mem_singleton.1 hc)
  refine ⟨?_, by decide +kernel⟩
  refine .more ['a'] ['1'] [' '] [' '] [' ', ' '] (T "b=2") _ (w _ (by decide)) (w _ (by decide)) s s ?_ (by simp) ?_
  · intro c hc
    simp only [List.mem_cons, List.not_mem_nil, or_false, or_self] at hc
    exact .inl hc
  · exact .one ['b'] ['2'] [] [] (w _ (by decide)) (w _ (by decide)) b b

example : InOrder [(T "yaml", yaml), (T "!json", json)] [(T "!json", json), (T "yaml", yaml)] :=
  ⟨List.Perm.swap _ _ _, by simp only [List.pairwise_cons]; exact ⟨by decide, by simp, List.Pairwise.nil⟩⟩

example : FirstAccepts (T "a=1") [(T "!json", json), (T "yaml", yaml)] .nil [(T "!json", T "not JSON")] (T "yaml") (.str false (T "a=1")) ∧
    OnlyText (T "a=1") (.str false (T "a=1")) ∧ simplify (T "a=1") = T "a: 1\n" :=
  ⟨⟨[(T "!json", json)], yaml, [], .nil, rfl, .cons _ _ _ _ _ _ _ _ rfl (.nil _), rfl⟩, ⟨rfl, '=', by decide, by decide⟩, by decide +kernel⟩

example : Refused (T "[") [(T "!json", json), (T "yaml", yaml)] .nil [(T "!json", T "not JSON"), (T "yaml", T "not YAML")] .nil :=
  .cons _ _ _ _ _ _ _ _ rfl (.cons _ _ _ _ _ _ _ _ rfl (.nil _))

example : convert true [(T "yaml", yaml), (T "!json", json)] (T "{}") .nil = convert true [(T "!json", json), (T "yaml", yaml)] (T "{}") .nil :=
  C56_order true _ _ (by decide) (List.Perm.swap _ _ _) _ _
example : convert true [(T "yaml", yaml), (T "!json", json)] (T "word") .nil = (none, .str false (T "word")) :=
  C56_first true _ [(T "!json", json), (T "yaml", yaml)] (by decide)
    ⟨List.Perm.swap _ _ _, by simp only [List.pairwise_cons]; exact ⟨by decide, by simp, List.Pairwise.nil⟩⟩ _ _ [(T "!json", T "not JSON")] (T "yaml") _
    ⟨[(T "!json", json)], yaml, [], .nil, rfl, .cons _ _ _ _ _ _ _ _ rfl (.nil _), rfl⟩
    (by rintro ⟨_, _, c, hc, h⟩; revert c; decide +kernel)
example : ('=' ∈ T "a=1") ∧ convert true [(T "yaml", yaml), (T "!json", json)] (T "a=1") .nil = (none, .map .coll [(T "a", .int .int 1)]) := by
  have hl : InOrder [(T "yaml", yaml), (T "!json", json)] [(T "!json", json), (T "yaml", yaml)] :=
    ⟨List.Perm.swap _ _ _, by simp only [List.pairwise_cons]; exact ⟨by decide, by simp, List.Pairwise.nil⟩⟩
  refine ⟨by decide, ?_⟩
  refine (C56_text _ _ (by decide) hl (T "a=1") .nil [(T "!json", T "not JSON")] (T "yaml") _
    ⟨[(T "!json", json)], yaml, [], .nil, rfl, .cons _ _ _ _ _ _ _ _ rfl (.nil _), rfl⟩ ⟨rfl, '=', by decide, by decide⟩).1 _ (by decide) ?_ (by simp)
  rw [show simplify (T "a=1") = T "a: 1\n" by decide +kernel]
  exact C56_first true _ _ (by decide) hl _ _ [(T "!json", T "not JSON")] (T "yaml") _
    ⟨[(T "!json", json)], yaml, [], .str false (T "a=1"), rfl, .cons _ _ _ _ _ _ _ _ rfl (.nil _), rfl⟩ (by rintro ⟨_, h, _⟩; cases h)
example : (convert true [(T "yaml", yaml), (T "!json", json)] (T "[") .nil).1 = some [(T "!json", T "not JSON"), (T "yaml", T "not YAML")] :=
  (C56_refused true _ [(T "!json", json), (T "yaml", yaml)] (by decide)
    ⟨List.Perm.swap _ _ _, by simp only [List.pairwise_cons]; exact ⟨by decide, by simp, List.Pairwise.nil⟩⟩ (by simp) (T "[") .nil .nil _
    (.cons _ _ _ _ _ _ _ _ rfl (.cons _ _ _ _ _ _ _ _ rfl (.nil _)))).2 (fun h => absurd h (by decide))


end Props
end Verif
