import Verif.Lemmas.RazorSliceRule
/-!
# An index in a razor template, rule by rule
-/

namespace Verif.Lemmas
open Verif Regex Spec Engine Razor Table Prepare _root_.Verif.Insert

/-! ## The arguments -/

theorem item_zero (letter : Char → Bool) : IndexItem letter c!"0" zero where
  ins := ⟨.up (by decide) (.up (by decide) (.up (by decide) (.up (by decide) (.up (by decide) (.up (by decide) (.number (by decide) (by decide))))))),
    by decide, by decide, by decide⟩
  call := rfl
  chars := by decide

theorem item_minusOne (letter : Char → Bool) : IndexItem letter c!"-1" minusOne where
  ins := ⟨.up (by decide) (.up (by decide) (.up (by decide) (.up (by decide) (.up (by decide)
    (.unary (g := c!"-") (l := []) (s := c!"1") (by decide) (by decide) (by unfold StaysShort; decide) (.up (by decide) (.number (by decide) (by decide)))))))),
    by decide, by decide, by decide⟩
  call := rfl
  chars := by decide

/-- An argument of the function: its text, its expression, and its value. -/
structure Item (letter : Char → Bool) (i : Text) (p : Text × Expr × Text) : Prop where
  item : IndexItem letter p.1 p.2.1
  good : Good p.2.1 p.2.2
  place : p.1 <:+: i ∨ p.1 ∈ [c!"0", c!"-1"]

theorem Item.of {letter : Char → Bool} {i s : Text} {e : Expr} (h : IndexItem letter s e) (hp : s <:+: i ∨ s ∈ [c!"0", c!"-1"]) : ∃ v, Item letter i (s, e, v) := by
  obtain ⟨v, hv⟩ := good_of_covered (source_covered h.ins.source).1
  exact ⟨v, h, hv, hp⟩

theorem item_code {letter : Char → Bool} (hl : SignLetters letter) {o : Orders} (ho : SomeOrder o) {i : Text} {p : Text × Expr × Text} (h : Item letter i p) :
    itemCode letter o p.1 = some (mu (wrap p.2.2)) := by
  unfold itemCode
  rw [if_neg (source_src hl h.item.ins.source).ne, operand_code hl ho h.item.ins h.good.nv]
  rfl

theorem items_code {letter : Char → Bool} (hl : SignLetters letter) {o : Orders} (ho : SomeOrder o) {i : Text} : ∀ {l : List (Text × Expr × Text)}, (∀ p ∈ l, Item letter i p) →
    (l.map (·.1)).mapM (itemCode letter o) = some (l.map fun p => mu (wrap p.2.2))
  | [], _ => rfl
  | p :: l, h => by
    simp only [List.map_cons, List.mapM_cons, item_code hl ho (h p (List.mem_cons_self ..)), Option.bind_eq_bind, Option.bind_some,
      items_code hl ho (fun q hq => h q (List.mem_cons_of_mem _ hq)), Option.pure_def]

theorem items_values {letter : Char → Bool} {i : Text} : ∀ {l : List (Text × Expr)}, (∀ p ∈ l, IndexItem letter p.1 p.2) → (∀ p ∈ l, p.1 <:+: i) →
    ∃ l' : List (Text × Expr × Text), l'.map (·.1) = l.map (·.1) ∧ l'.map (·.2.1) = l.map (·.2) ∧ ∀ p ∈ l', Item letter i p
  | [], _, _ => ⟨[], rfl, rfl, nofun⟩
  | p :: l, h, hi => by
    obtain ⟨l', h1, h2, h3⟩ := items_values (l := l) (fun q hq => h q (List.mem_cons_of_mem _ hq)) (fun q hq => hi q (List.mem_cons_of_mem _ hq))
    obtain ⟨v, hv⟩ := Item.of (h p (List.mem_cons_self ..)) (.inl (hi p (List.mem_cons_self ..)))
    refine ⟨(p.1, p.2, v) :: l', by simp [h1], by simp [h2], ?_⟩
    rintro q hq
    rcases List.mem_cons.mp hq with rfl | hq
    · exact hv
    · exact h3 q hq

/-- The call that the brackets stand for. -/
theorem index_call {letter : Char → Bool} (hl : SignLetters letter) {i f : Text} {es : List Expr} (h : IndexText letter i f es) :
    ∃ l : List (Text × Expr × Text), l ≠ [] ∧ es = l.map (·.2.1) ∧ (∀ p ∈ l, Item letter i p) ∧ f ∈ [c!"slice", c!"extract"] ∧
      ∀ o, SomeOrder o → indexCall (itemCode letter o) ('[' :: (i ++ [']'])) = some (f, l.map fun p => mu (wrap p.2.2)) := by
  have hne : ∀ {s e}, IndexItem letter s e → s ≠ [] := fun h => (source_src hl h.ins.source).ne
  have hch : ∀ {s e}, IndexItem letter s e → ∀ c ∈ s, c ∉ ['[', ']', ':'] := fun h c hc hm => h.chars c hc (by revert hm; simp; tauto)
  have two : ∀ {a b : Text} {i : Text} {s t : Text} {e e' : Expr}, i = a ++ ':' :: b → firstBound a = s → lastBound a b = t → (∀ c ∈ a, c ∉ ['[', ']', ':']) →
      (∀ c ∈ b, c ∉ ['[', ']', ':']) → IndexItem letter s e → IndexItem letter t e' → (s <:+: i ∨ s ∈ [c!"0", c!"-1"]) → (t <:+: i ∨ t ∈ [c!"0", c!"-1"]) →
      ∃ l : List (Text × Expr × Text), l ≠ [] ∧ [e, e'] = l.map (·.2.1) ∧ (∀ p ∈ l, Item letter i p) ∧ c!"slice" ∈ [c!"slice", c!"extract"] ∧
        ∀ o, SomeOrder o → indexCall (itemCode letter o) ('[' :: (i ++ [']'])) = some (c!"slice", l.map fun p => mu (wrap p.2.2)) := by
    intro a b i s t e e' hi hs ht ha hb h1 h2 p1 p2
    obtain ⟨v, hv⟩ := Item.of h1 p1
    obtain ⟨w, hw⟩ := Item.of h2 p2
    refine ⟨[(s, e, v), (t, e', w)], by simp, rfl, ?_, by decide, fun o ho => ?_⟩
    · intro p hp
      simp only [List.mem_cons, List.not_mem_nil, or_false] at hp
      rcases hp with rfl | rfl
      · exact hv
      · exact hw
    · have e1 : i ++ [']'] = a ++ ':' :: (b ++ [']']) := by rw [hi]; simp
      rw [e1, Props.C36_call_slice _ ha hb, hs, ht]
      have c1 := item_code hl ho hv
      have c2 := item_code hl ho hw
      simp only at c1 c2
      rw [c1, c2]
      rfl
  cases h with
  | elements l hl0 h =>
    obtain ⟨l', h1, h2, h3⟩ := items_values (i := Text.join c!"," (l.map (·.1))) h (fun p hp => infix_join _ (List.mem_map_of_mem (f := (·.1)) hp))
    refine ⟨l', ?_, h2.symm, h3, by decide, fun o ho => ?_⟩
    · rintro rfl
      simp only [List.map_nil] at h1
      exact hl0 (List.map_eq_nil_iff.mp h1.symm)
    · have := Props.C36_call_extract (itemCode letter o) (is := l.map (·.1)) (by simpa using hl0) ?_ ?_
      · have e1 : (c!"," : Text) = [','] := rfl
        rw [e1, this, ← h1, items_code hl ho h3]
        rfl
      · intro hm
        have : ([] : Text) ∈ l.map (·.1) := by rw [hm]; simp
        obtain ⟨p, hp, hp'⟩ := List.mem_map.mp this
        exact hne (h p hp) hp'
      · intro s hs c hc
        obtain ⟨p, hp, rfl⟩ := List.mem_map.mp hs
        intro hm
        exact (h p hp).chars c hc (by revert hm; simp; tauto)
  | @between s t e e' h h' =>
    exact two rfl (if_neg (hne h)) (if_pos (hne h')) (hch h) (hch h') h h' (.inl (List.prefix_append _ _).isInfix) (.inl ⟨s ++ [':'], [], by simp⟩)
  | @upTo t e h => exact two (a := []) rfl rfl (if_pos (hne h)) nofun (hch h) (item_zero letter) h (.inr (by decide)) (.inl ⟨[':'], [], by simp⟩)
  | @since s e h =>
    by_cases hn : isNegative s = true
    · rw [if_pos hn]
      exact two (b := []) rfl (if_neg (hne h)) (by simp [lastBound, hn, T]) (hch h) nofun h (item_zero letter) (.inl (List.prefix_append _ _).isInfix) (.inr (by decide))
    · rw [if_neg hn]
      exact two (b := []) rfl (if_neg (hne h)) (by simp [lastBound, hn, T]) (hch h) nofun h (item_minusOne letter) (.inl (List.prefix_append _ _).isInfix) (.inr (by decide))
  | all => exact two (a := []) (b := []) rfl rfl rfl nofun nofun (item_zero letter) (item_minusOne letter) (.inr (by decide)) (.inr (by decide))

/-! ## The code of the call -/

/-- The codes of the arguments. -/
def itemsCode (l : List (Text × Expr × Text)) : Text := Text.join c!" " (l.map fun p => mu (wrap p.2.2))

/-- The code of the call. -/
def sliceCode (f name : Text) (j : Text) : Text := f ++ (c!" $." ++ (name ++ ' ' :: j))

theorem join_free {f : Text} (hne : f ≠ []) (hs : ' ' ∉ f) : ∀ {l : List Text}, (∀ x ∈ l, ¬ f <:+: x) → ¬ f <:+: Text.join c!" " l
  | [], _ => fun hi => hne (List.infix_nil.mp hi)
  | [x], h => h x (by simp)
  | x :: y :: l, h => by
    rw [Text.join_cons_cons]
    intro hi
    have e1 : x ++ c!" " ++ Text.join c!" " (y :: l) = x ++ ' ' :: Text.join c!" " (y :: l) := by simp
    rw [e1] at hi
    rcases infix_glue hs hi with hi | hi
    · exact h x (by simp) hi
    · exact join_free hne hs (fun z hz => h z (List.mem_cons_of_mem _ hz)) hi

theorem items_free {letter : Char → Bool} {f i : Text} (hf : Foreign f f) (hd : ∀ s ∈ [c!"0", c!"-1"], ¬ f <:+: s) (hi : ¬ f <:+: i) {l : List (Text × Expr × Text)}
    (h : ∀ p ∈ l, Item letter i p) : ¬ f <:+: itemsCode l := by
  refine join_free hf.ne (hf.sep _ (by decide)) (fun x hx => ?_)
  obtain ⟨p, hp, rfl⟩ := List.mem_map.mp hx
  have hq := h p hp
  refine hf.wrapped (code_free hf hq.item.ins.source ?_ _ hq.good.nv)
  rcases hq.place with h' | h'
  · exact fun hf => hi (hf.trans h')
  · exact hd _ h'

theorem foreign_brace : Foreign c!"{" c!"{" := by
  constructor <;> decide +kernel

theorem items_brace {letter : Char → Bool} {i : Text} {l : List (Text × Expr × Text)} (h : ∀ p ∈ l, Item letter i p) : '{' ∉ itemsCode l := by
  intro hm
  refine join_free (f := c!"{") (by decide) (by decide) (fun x hx => ?_) (one_infix hm)
  obtain ⟨p, hp, rfl⟩ := List.mem_map.mp hx
  have hq := h p hp
  refine foreign_brace.wrapped (code_free foreign_brace hq.item.ins.source ?_ _ hq.good.nv)
  exact fun hi => hq.item.chars '{' (hi.subset (by decide)) (by decide)

theorem doubled_all : ∀ j : Text, Doubled (Text.replaceAll c!"$" c!"$$" j) j
  | [] => .nil
  | c :: j => by
    have ih := doubled_all j
    simp only [Text.replaceAll, reduceCtorEq, if_false] at ih ⊢
    by_cases h : c = '$'
    · subst h
      simpa [Text.replaceAux, Text.hasPrefix, Text.dropPrefix?] using Doubled.dollar ih
    · have e : Text.replaceAux c!"$" c!"$$" 0 (c :: j) = c :: Text.replaceAux c!"$" c!"$$" 0 j := by
        simp [Text.replaceAux, Text.hasPrefix, Text.dropPrefix?, Ne.symm h]
      rw [e]
      exact .same h ih

theorem doubled_mem {c : Char} {a b : Text} (h : Doubled a b) (hm : c ∈ a) : c ∈ b := by
  induction h with
  | nil => exact hm
  | same _ _ ih =>
    rcases List.mem_cons.mp hm with rfl | hm
    · simp
    · exact List.mem_cons_of_mem _ (ih hm)
  | dollar _ ih =>
    simp only [List.mem_cons] at hm ⊢
    rcases hm with rfl | rfl | hm
    · exact .inl rfl
    · exact .inl rfl
    · exact .inr (ih hm)

theorem expand_slice (caps : Caps) {f j j' : Text} (hf : f ∈ [c!"slice", c!"extract"]) (hj : '{' ∉ j) (h : Doubled j' j) :
    expand (groupOf caps) (Text.replaceAll c!"${slicer}" f (Text.replaceAll c!"${index}" j' c!"{{${reduce1} ${slicer} $$.${name} ${index} ${reduce2}}}")) =
      wordCode (sliceCode f (groupOf caps c!"name") j) (groupOf caps c!"reduce1") (groupOf caps c!"reduce2") := by
  have e : Text.replaceAll c!"${index}" j' c!"{{${reduce1} ${slicer} $$.${name} ${index} ${reduce2}}}" =
      c!"{{${reduce1} ${slicer} $$.${name}" ++ (c!" " ++ (j' ++ (c!" " ++ c!"${reduce2}}}"))) := by
    simp [Text.replaceAll, Text.replaceAux, Text.hasPrefix, Text.dropPrefix?]
  have hj' : ¬ c!"${slicer}" <:+: j' := fun hi => hj (doubled_mem h (hi.subset (by decide)))
  rw [e, replaceAll_around (by decide) (by decide) (by decide), replaceAll_around (by decide) (by decide) (by decide), replaceAll_free hj']
  have e1 : Text.replaceAll c!"${slicer}" f c!"{{${reduce1} ${slicer} $$.${name}" = c!"{{${reduce1} " ++ (f ++ c!" $$.${name}") := by
    simp [Text.replaceAll, Text.replaceAux, Text.hasPrefix, Text.dropPrefix?]
  have e2 : Text.replaceAll c!"${slicer}" f c!"${reduce2}}}" = c!"${reduce2}}}" := by
    simp [Text.replaceAll, Text.replaceAux, Text.hasPrefix, Text.dropPrefix?]
  rw [e1, e2]
  unfold expand
  simp only [List.mem_cons, List.not_mem_nil, or_false] at hf
  rcases hf with rfl | rfl <;>
    simp [expandAux, Razor.groupName, nameChar, Text.hasPrefix, Text.dropPrefix?, expand_doubled h, wordCode, sliceCode]

/-! ## The rule -/

/-- The text of an index, after the delimiter, with what is dropped after it. -/
def sliceText (r : Text × Text × Text) (name i d : Text) : Text := r.1 ++ (name ++ '[' :: (i ++ ']' :: d))

theorem slice_parsed {letter : Char → Bool} (hl : SignLetters letter) {o : Orders} (ho : SomeOrder o) {r : Text × Text × Text} (hr : r ∈ reduceSigns) {name i d f : Text}
    {l : List (Text × Expr × Text)} (hn : VarName letter name) (hi : i ≠ []) (hline : '\n' ∉ i) (hd : Dropped d) (hf : f ∈ [c!"slice", c!"extract"])
    (hl' : ∀ p ∈ l, Item letter i p) (hcall : indexCall (itemCode letter o) ('[' :: (i ++ [']'])) = some (f, l.map fun p => mu (wrap p.2.2))) :
    indexedParser letter o true sliceRe c!"{{${reduce1} ${slicer} $$.${name} ${index} ${reduce2}}}" ('@' :: sliceText r name i d) =
      wordCode (sliceCode f name (itemsCode l)) r.2.1 r.2.2 := by
  have hb : NoBracket d := by
    rcases hd with rfl | ⟨v, hv, rfl⟩
    · intro u v he
      simp at he
    · intro u w he
      have : ']' ∈ v ++ c!";" := by rw [he]; simp
      rcases List.mem_append.mp this with h | h
      · exact absurd (hv _ h) (by decide)
      · exact absurd h (by decide)
  obtain ⟨caps, m1, m2, m3, m4, m5, m6, m7⟩ := matchAt_slice hl.1 hr hn hi hline hb (remains_end hd) none
  have hg : groups letter sliceRe ('@' :: sliceText r name i d) = caps := by
    unfold groups sliceText
    rw [m1]
  have hsub : ∀ replace, substitute letter sliceRe replace ('@' :: sliceText r name i d) = expand (groupOf caps) replace := by
    intro replace
    unfold substitute replaceRe sliceText
    rw [Regex.replaceAux, m1]
    simp only [List.length_cons, List.length_nil, Nat.sub_zero]
    have := replaceAux_skipped letter sliceRe (fun _ caps => expand (groupOf caps) replace) (r.1 ++ (name ++ '[' :: (i ++ ']' :: d))) [] (some '@')
    rw [List.append_nil] at this
    rw [this, Regex.replaceAux, List.append_nil]
  unfold indexedParser
  simp only [hg, m3, m7, insertIndex, insertSelection, hcall, if_true, Option.map_some, Option.bind_some, reduceCtorEq, if_false]
  unfold expressionParser
  simp only [hg, m6, if_true, hsub]
  have := expand_slice caps hf (items_brace hl') (doubled_all (itemsCode l))
  rw [m2, m4, m5] at this
  exact this

theorem slice_out {letter : Char → Bool} {parser : Replacement → Text → Text} (hp : Slices letter parser) :
    ∃ out : Text → Caps → Text,
      (∀ x caps, ∃ o, SomeOrder o ∧ out x caps = indexedParser letter o true sliceRe c!"{{${reduce1} ${slicer} $$.${name} ${index} ${reduce2}}}" x) ∧
      ∀ t, (((generate defaultDelims).drop 103).take 1).foldl (applyRule letter parser) t = Regex.replaceAux letter sliceRe out 0 none t := by
  have hlen := congrArg List.length (congrArg (fun l => List.take 1 (List.drop 103 l)) table_eq)
  simp only [← List.map_drop, ← List.map_take, List.length_map, slice_entry] at hlen
  obtain ⟨r, hrule⟩ := List.length_eq_one_iff.mp hlen
  obtain ⟨e', hmem, hc⟩ := rules_compiled 103 1 r (by rw [hrule]; exact List.mem_singleton.mpr rfl)
  rw [slice_entry] at hmem
  rw [List.mem_singleton.mp hmem] at hc
  refine ⟨output parser r, fun x caps => ?_, fun t => ?_⟩
  · obtain ⟨c1, c2, c3, c4⟩ := hc
    obtain ⟨o, o1, o2, o3, ho⟩ := hp r sliceRe x (by rw [c1]; decide) c4
    refine ⟨o, ⟨o1, o2, o3⟩, ?_⟩
    unfold output
    have c3' : r.parser = 1 := c3
    rw [if_neg (by rw [c3']; decide), if_neg, ho, c2, c3']
    · rfl
    · rw [c1]
      exact (by decide : ¬ c!"Global variables with slice - @var[...]" = emailName)
  · rw [hrule, List.foldl_cons, List.foldl_nil, applyRule_compiled hc]
    rfl

theorem slice_begins (letter : Char → Bool) (p : Option Char) (ch : Char) (t : Text) (h : ch ≠ '@') : matchAt letter sliceRe p (ch :: t) = none :=
  begins_at (by decide +kernel) p ch t h

theorem index_line {letter : Char → Bool} (hl : SignLetters letter) {i f : Text} {es : List Expr} (h : IndexText letter i f es) : i ≠ [] ∧ '\n' ∉ i ∧ '@' ∉ i := by
  have key : ∀ {s e}, IndexItem letter s e → s ≠ [] ∧ '\n' ∉ s ∧ '@' ∉ s := fun h =>
    have := source_src hl h.ins.source
    ⟨this.ne, this.line, this.at_⟩
  cases h with
  | elements l hl0 h =>
    clear hl
    refine ⟨?_, ?_⟩
    · obtain ⟨p, l, rfl⟩ := List.exists_cons_of_ne_nil hl0
      have := (key (h p (by simp))).1
      cases l with
      | nil => simpa [Text.join] using this
      | cons q l =>
        simp only [List.map_cons]
        rw [Text.join_cons_cons]
        simp
    · clear hl0
      have : ∀ c, c ≠ ',' → (∀ p ∈ l, c ∉ p.1) → c ∉ Text.join c!"," (l.map (·.1)) := by
        intro c hc hp
        clear h
        induction l with
        | nil => simp [Text.join]
        | cons p l ih =>
          cases l with
          | nil => simpa [Text.join] using hp p (by simp)
          | cons q l =>
            have := ih (fun p hm => hp p (List.mem_cons_of_mem _ hm))
            simp only [List.map_cons] at this ⊢
            rw [Text.join_cons_cons]
            simp [hc, hp p (by simp), this]
      exact ⟨this _ (by decide) fun p hp => (key (h p hp)).2.1, this _ (by decide) fun p hp => (key (h p hp)).2.2⟩
  | between h h' => simp [(key h), (key h')]
  | upTo h => simp [(key h)]
  | since h => simp [(key h)]
  | all => decide

theorem rule_slice {letter : Char → Bool} (hl : SignLetters letter) {parser : Replacement → Text → Text} (hp : Slices letter parser) {a : Text} {r : Text × Text × Text}
    {name i f b b' : Text} {l : List (Text × Expr × Text)} (ha : '@' ∉ a) (hr : r ∈ reduceSigns) (hn : VarName letter name) (hi : i ≠ []) (hline : '\n' ∉ i)
    (hb : NoBracket b) (hat : '@' ∉ b) (hrem : Remains b b') (hf : f ∈ [c!"slice", c!"extract"]) (hl' : ∀ p ∈ l, Item letter i p)
    (hcall : ∀ o, SomeOrder o → indexCall (itemCode letter o) ('[' :: (i ++ [']'])) = some (f, l.map fun p => mu (wrap p.2.2))) :
    (((generate defaultDelims).drop 103).take 1).foldl (applyRule letter parser) (a ++ '@' :: (r.1 ++ (name ++ '[' :: (i ++ ']' :: b)))) =
      a ++ (wordCode (sliceCode f name (itemsCode l)) r.2.1 r.2.2 ++ b') := by
  obtain ⟨d, hd, rfl, _⟩ := remains_dropped hrem
  obtain ⟨out, h1, h2⟩ := slice_out hp
  have e1 : a ++ '@' :: (r.1 ++ (name ++ '[' :: (i ++ ']' :: (d ++ b')))) = a ++ '@' :: (sliceText r name i d ++ b') := by simp [sliceText]
  rw [e1, h2]
  refine replaceAux_matched (slice_begins letter) ha (fun p => ?_) (replaceAux_plain (slice_begins letter) _ fun hm => hat (List.mem_append_right _ hm)) none
  obtain ⟨caps, m1, _⟩ := matchAt_slice hl.1 hr hn hi hline hb hrem p
  refine ⟨caps, ?_, ?_⟩
  · have e2 : '@' :: (sliceText r name i d ++ b') = '@' :: (r.1 ++ (name ++ '[' :: (i ++ ']' :: (d ++ b')))) := by simp [sliceText]
    rw [e2, m1]
    congr 2
    simp only [sliceText, List.length_cons, List.length_append]
    omega
  · obtain ⟨o, ho, eo⟩ := h1 ('@' :: sliceText r name i d) caps
    rw [eo]
    exact slice_parsed hl ho hr hn hi hline hd hf hl' (hcall o ho)

/-! ## After the rule -/

/-- The rules after that of the indices, on a text that has no more delimiters. -/
theorem rules_after_slice {letter : Char → Bool} (parser : Replacement → Text → Text) {t : Text} (hat : '@' ∉ t)
    (hno : ∀ f ∈ [c!"`", c!"\"<<", c!"\"{{", c!"_=!"], ¬ f <:+: t) : ((generate defaultDelims).drop 104).foldl (applyRule letter parser) t = t := by
  rw [split_rules 104 55, rules_idle parser 104 55 [['@']] (by decide +kernel)]
  · rw [split_rules 159 1]
    have hraw : ∀ r ∈ ((generate defaultDelims).drop 159).take 1, applyRule letter parser t r = t := by
      intro r hr
      obtain ⟨e, he, hc⟩ := rules_compiled 159 1 r hr
      obtain ⟨hp, hq⟩ := raw_table e he
      rw [applyRule_compiled hc]
      refine replaceRe_none (fun p x q caps hf _ hx => ?_)
      obtain ⟨l, hl'⟩ := List.isPrefixOf_iff_prefix.mp hq
      have hfollow := pieces_sound hf
      rw [← hl'] at hfollow
      obtain ⟨y, hy⟩ := follows_prefix hfollow
      have hy' : x = '"' :: '{' :: '{' :: y := hy.symm
      refine hno c!"\"{{" (by decide) (List.IsInfix.trans ⟨[], y, ?_⟩ hx)
      rw [hy']
      rfl
    rw [foldl_idle parser _ hraw]
    have : (generate defaultDelims).drop (159 + 1) = ((generate defaultDelims).drop 160).take 5 := by
      rw [List.take_of_length_le]
      simp [generate_length]
    rw [this, rules_idle parser 160 5 [c!"\"<<", c!"_=!", c!"`"] (by decide +kernel)]
    intro f hf
    exact hno f (by revert f; decide)
  · intro f hf
    rw [List.mem_singleton.mp hf]
    exact fun hi => hat (hi.subset (List.mem_singleton.mpr rfl))

theorem name_sign {letter : Char → Bool} (hl : PlainLetters letter) {name : Text} (hn : VarName letter name) {c : Char} (hc : c ∈ c!"@`\"<{!= ()'") : c ∉ name := by
  intro hm
  have := hn.chars c hm
  unfold varChar at this
  rw [hl.1 c ((by decide : ∀ c ∈ c!"@`\"<{!= ()'", c.toNat < 128) c hc)] at this
  revert this
  exact (by decide : ∀ c ∈ c!"@`\"<{!= ()'", ¬ (c.isAlpha || c.isDigit || c == '_') = true) c hc

/-- The signs of the last rules are not in the code. -/
theorem slice_free {letter : Char → Bool} (hl : SignLetters letter) {f a name i g b : Text} {r : Text × Text × Text} {l : List (Text × Expr × Text)}
    (hf : f ∈ [c!"@", c!"`", c!"\"<<", c!"\"{{", c!"_=!"]) (hr : r ∈ reduceSigns) (hn : VarName letter name) (hg : g ∈ [c!"slice", c!"extract"])
    (hl' : ∀ p ∈ l, Item letter i p) (hq : NotQuoted a) (ha : ¬ f <:+: a) (hi : ¬ f <:+: i) (hb : ¬ f <:+: b) :
    ¬ f <:+: a ++ (wordCode (sliceCode g name (itemsCode l)) r.2.1 r.2.2 ++ b) := by
  have hne : f ≠ [] := (by decide : ∀ f ∈ [c!"@", c!"`", c!"\"<<", c!"\"{{", c!"_=!"], f ≠ []) f hf
  have hsep := (by decide : ∀ f ∈ [c!"@", c!"`", c!"\"<<", c!"\"{{", c!"_=!"], ∀ x ∈ c!" }-.$", x ∉ f) f hf
  have hbr := (by decide : ∀ f ∈ [c!"@", c!"`", c!"\"<<", c!"\"{{", c!"_=!"], f = c!"\"{{" ∨ '{' ∉ f) f hf
  obtain ⟨c₀, hc₀, hc₁⟩ := (by decide : ∀ f ∈ [c!"@", c!"`", c!"\"<<", c!"\"{{", c!"_=!"], ∃ c ∈ f, c ∈ c!"@`\"<{!= ()'") f hf
  intro h
  rcases infix_pieces hr hne (fun x hx => hsep x ((by decide : ∀ x ∈ c!" }-", x ∈ c!" }-.$") x hx)) h with h | h | h
  · have : f <:+: a := by
      rcases hbr with rfl | hb
      · exact quoted_front hq h
      · rcases infix_glue hb h with h | h
        · exact h
        · exact absurd h (infix_none hne (fun c hc => by
            rw [List.mem_singleton.mp hc]
            exact hb))
    exact ha this
  · have e1 : sliceCode g name (itemsCode l) = g ++ ' ' :: ([] ++ '$' :: ([] ++ '.' :: (name ++ ' ' :: itemsCode l))) := by simp [sliceCode]
    rw [e1] at h
    rcases infix_glue (hsep _ (by decide)) h with h | h
    · exact (by decide : ∀ f ∈ [c!"@", c!"`", c!"\"<<", c!"\"{{", c!"_=!"], ∀ g ∈ [c!"slice", c!"extract"], ¬ f <:+: g) f hf g hg h
    · rcases infix_glue (hsep _ (by decide)) h with h | h
      · exact hne (List.infix_nil.mp h)
      · rcases infix_glue (hsep _ (by decide)) h with h | h
        · exact hne (List.infix_nil.mp h)
        · rcases infix_glue (hsep _ (by decide)) h with h | h
          · exact name_sign hl.1 hn hc₁ (h.subset hc₀)
          · exact items_free (foreign_later f hf) ((by decide : ∀ f ∈ [c!"@", c!"`", c!"\"<<", c!"\"{{", c!"_=!"], ∀ s ∈ [c!"0", c!"-1"], ¬ f <:+: s) f hf) hi hl' h
  · exact hb h

/-! ## The marks of the calls -/

/-- The codes of the arguments at the end. -/
def itemsDone (l : List (Text × Expr × Text)) : Text := Text.join c!" " (l.map fun p => rho (wrap p.2.2))

theorem items_marks {letter : Char → Bool} (hl : SignLetters letter) {i : Text} : ∀ {l : List (Text × Expr × Text)}, (∀ p ∈ l, Item letter i p) →
    Text.replaceAll Engine.callMark [] (itemsCode l) = itemsDone l
  | [], _ => rfl
  | [p], h => by
    have hp := h p (by simp)
    exact wrap_marks (marks_removed hl hp.item.ins hp.good.nv).1
  | p :: q :: l, h => by
    have hp := h p (by simp)
    have ih := items_marks hl (l := q :: l) (fun x hx => h x (List.mem_cons_of_mem _ hx))
    have e1 : itemsCode (p :: q :: l) = mu (wrap p.2.2) ++ (c!" " ++ itemsCode (q :: l)) := by
      unfold itemsCode
      simp only [List.map_cons]
      rw [Text.join_cons_cons]
      simp
    have e2 : itemsDone (p :: q :: l) = rho (wrap p.2.2) ++ (c!" " ++ itemsDone (q :: l)) := by
      unfold itemsDone
      simp only [List.map_cons]
      rw [Text.join_cons_cons]
      simp
    rw [e1, e2, replaceAll_around (by decide) (by decide) (by decide), ih, wrap_marks (marks_removed hl hp.item.ins hp.good.nv).1]

theorem slice_marks {letter : Char → Bool} (hl : SignLetters letter) {a name i g b : Text} {r : Text × Text × Text} {l : List (Text × Expr × Text)}
    (hr : r ∈ reduceSigns) (hg : g ∈ [c!"slice", c!"extract"]) (hl' : ∀ p ∈ l, Item letter i p) (ha : ¬ Engine.callMark <:+: a) (hn : ¬ Engine.callMark <:+: name)
    (hb : ¬ Engine.callMark <:+: b) :
    Text.replaceAll Engine.callMark [] (a ++ (wordCode (sliceCode g name (itemsCode l)) r.2.1 r.2.2 ++ b)) =
      a ++ (wordCode (sliceCode g name (itemsDone l)) r.2.1 r.2.2 ++ b) := by
  obtain ⟨s1, s2⟩ := sign_parts hr
  have hg' : ¬ Engine.callMark <:+: g := (by decide : ∀ g ∈ [c!"slice", c!"extract"], ¬ Engine.callMark <:+: g) g hg
  have e1 : ∀ j, a ++ (wordCode (sliceCode g name j) r.2.1 r.2.2 ++ b) =
      a ++ ((c!"{{" ++ r.2.1 ++ c!" ") ++ (g ++ (c!" $." ++ (name ++ (c!" " ++ (j ++ ((c!" " ++ r.2.2 ++ c!"}}") ++ b))))))) := by simp [wordCode, sliceCode]
  have hc : ∀ c ∈ c!"{ }-", c ∉ callMark := by decide
  rw [e1, e1, replaceAll_around (by decide) (by simp), replaceAll_around (by decide) (by decide) (by decide), replaceAll_around (by decide) (by decide) (by decide),
    replaceAll_around (by decide) (by simp), replaceAll_free ha, replaceAll_free hg', replaceAll_free hn, replaceAll_free hb, items_marks hl hl']
  · intro c hm
    simp only [List.mem_append] at hm
    rcases hm with (hm | hm) | hm
    · exact hc c (by rw [List.mem_singleton.mp hm]; decide)
    · exact hc c (by rw [s2 c hm]; decide)
    · exact hc c ((by decide : ∀ x ∈ c!"}}", x ∈ c!"{ }-") c hm)
  · intro c hm
    simp only [List.mem_append] at hm
    rcases hm with (hm | hm) | hm
    · exact hc c ((by decide : ∀ x ∈ c!"{{", x ∈ c!"{ }-") c hm)
    · exact hc c (by rw [s1 c hm]; decide)
    · exact hc c (by rw [List.mem_singleton.mp hm]; decide)

/-- What the code of the call means. -/
theorem slice_meaning {letter : Char → Bool} (hl : SignLetters letter) {name i g : Text} {l : List (Text × Expr × Text)} (hn : VarName letter name)
    (hg : g ∈ [c!"slice", c!"extract"]) (hne : l ≠ []) (hl' : ∀ p ∈ l, Item letter i p) :
    parsePipeline (sliceCode g name (itemsDone l)) = some (.call (.atom g) (.atom (c!"$." ++ name) :: l.map fun p => meaning p.2.1)) := by
  have hops : ∀ {l : List (Text × Expr × Text)}, (∀ p ∈ l, Item letter i p) → AreOps (l.map fun p => rho (wrap p.2.2)) (l.map fun p => meaning p.2.1) := by
    intro l
    induction l with
    | nil => exact fun _ => .nil
    | cons p l ih => exact fun h => .cons ((h p (by simp)).good.op (h p (by simp)).item.call) (ih fun q hq => h q (List.mem_cons_of_mem _ hq))
  have e1 : sliceCode g name (itemsDone l) = g ++ Razor.spaced ((c!"$." ++ name) :: l.map fun p => rho (wrap p.2.2)) := by
    obtain ⟨p, l, rfl⟩ := List.exists_cons_of_ne_nil hne
    simp only [List.map_cons]
    rw [← Razor.spaced_join, Text.join_cons_cons]
    simp [sliceCode, itemsDone]
  rw [e1]
  refine parsePipeline_of (isCmd_call (isOp_word ?_ ?_) (.cons (isOp_word (by simp) ?_) (hops hl')) (by simp))
  · exact (by decide : ∀ g ∈ [c!"slice", c!"extract"], g ≠ []) g hg
  · exact (by decide : ∀ g ∈ [c!"slice", c!"extract"], ∀ c ∈ g, c ∉ [' ', '(', ')', '"', '`', '\'']) g hg
  · intro c hc hm
    rcases List.mem_append.mp hc with hc | hc
    · revert hm
      exact (by decide : ∀ c ∈ c!"$.", c ∉ [' ', '(', ')', '"', '`', '\'']) c hc
    · exact name_sign hl.1 hn ((by decide : ∀ c ∈ [' ', '(', ')', '"', '`', '\''], c ∈ c!"@`\"<{!= ()'") c hm) hc

end Verif.Lemmas
