import Verif.Lemmas.RazorParenMatch
import Verif.Lemmas.RazorParenFree
/-!
# What the text of an expression begins with, ends with and contains
-/

namespace Verif.Lemmas
open Verif Regex Spec Engine Razor Table

theorem headOf_append {a b : Text} (ha : a ≠ []) : (a ++ b).head? = a.head? := by
  obtain ⟨c, a, rfl⟩ := List.exists_cons_of_ne_nil ha
  rfl

/-- A parenthesis or a quote opens before any parenthesis closes. -/
def OpenFirst (s : Text) : Prop := ∀ u v, s = u ++ ')' :: v → ∃ c ∈ u, c ∈ c!"(\"`"

theorem openFirst_append {a b : Text} (ha : OpenFirst a) (hb : OpenFirst b) : OpenFirst (a ++ b) := by
  intro u v h
  rcases List.append_eq_append_iff.mp h with ⟨x, h1, h2⟩ | ⟨x, h1, h2⟩
  · obtain ⟨c, hc, hc'⟩ := hb x v h2
    exact ⟨c, by rw [h1]; simp [hc], hc'⟩
  · cases x with
    | nil =>
      simp only [List.nil_append, List.append_nil] at h1 h2
      obtain ⟨c, hc, _⟩ := hb [] v h2.symm
      cases hc
    | cons d x =>
      simp only [List.cons_append, List.cons.injEq] at h2
      exact ha u x (by rw [h1, ← h2.1])

theorem openFirst_free {a : Text} (h : ')' ∉ a) : OpenFirst a := fun u v he => absurd (by rw [he]; simp) h

theorem openFirst_open {c : Char} (hc : c ∈ c!"(\"`") (a : Text) : OpenFirst (c :: a) := by
  intro u v he
  cases u with
  | nil =>
    simp only [List.nil_append, List.cons.injEq] at he
    rw [he.1] at hc
    exact absurd hc (by decide)
  | cons d u =>
    simp only [List.cons_append, List.cons.injEq] at he
    exact ⟨c, by rw [he.1]; simp, hc⟩

/-- What is known of the text of an expression. -/
structure Src (s : Text) : Prop where
  ne : s ≠ []
  first : ∀ d, s.head? = some d → isBlank d = false
  last : ∀ d, s.getLast? = some d → isBlank d = false
  at_ : '@' ∉ s
  line : '\n' ∉ s
  opens : OpenFirst s

/-- What may be between, before or after. -/
def Inside (x : Text) : Prop := '@' ∉ x ∧ '\n' ∉ x ∧ OpenFirst x

theorem inside_append {a b : Text} (ha : Inside a) (hb : Inside b) : Inside (a ++ b) := by
  refine ⟨?_, ?_, openFirst_append ha.2.2 hb.2.2⟩ <;> simp [ha.1, ha.2.1, hb.1, hb.2.1]

theorem inside_chars {x : Text} (h : ∀ c ∈ x, c ∉ c!"@\n)") : Inside x :=
  ⟨fun hm => h _ hm (by decide), fun hm => h _ hm (by decide), openFirst_free fun hm => h _ hm (by decide)⟩

theorem inside_spaces {l : Text} (h : Spaces l) : Inside l := inside_chars fun c hc => by rw [h c hc]; decide

theorem Src.inside {s : Text} (h : Src s) : Inside s := ⟨h.at_, h.line, h.opens⟩

theorem src_of {s : Text} (hi : Inside s) (hne : s ≠ []) (hf : ∀ d, s.head? = some d → isBlank d = false) (hl : ∀ d, s.getLast? = some d → isBlank d = false) : Src s :=
  ⟨hne, hf, hl, hi.1, hi.2.1, hi.2.2⟩

/-- A text that begins with an expression. -/
theorem src_begins {s x : Text} (h : Src s) (hx : Inside x) (hl : ∀ d, x.getLast? = some d → isBlank d = false) : Src (s ++ x) := by
  refine src_of (inside_append h.inside hx) (by simp [h.ne]) (fun d hd => h.first d ?_) (fun d hd => ?_)
  · rw [headOf_append h.ne] at hd
    exact hd
  · cases x with
    | nil => exact h.last d (by simpa using hd)
    | cons c x => exact hl d (by rw [lastOf_append (by simp)] at hd; exact hd)

theorem var_plain {letter : Char → Bool} (hl : SignLetters letter) {c : Char} (h : varChar letter c = true) : isBlank c = false ∧ c ∉ c!"@\n)(\"`" := by
  refine ⟨?_, fun hm => ?_⟩
  · cases hb : isBlank c with
    | false => rfl
    | true =>
      exfalso
      simp only [isBlank, Bool.or_eq_true, beq_iff_eq] at hb
      rcases hb with rfl | rfl <;> exact absurd (var_ascii hl h (by decide)) (by decide)
  · have : ∀ d ∈ c!"@\n)(\"`", d.toNat < 128 ∧ (d.isAlpha || d.isDigit || d == '_') = false := by decide
    obtain ⟨h1, h2⟩ := this c hm
    rw [var_ascii hl h h1] at h2
    cases h2

theorem src_variable {letter : Char → Bool} (hl : SignLetters letter) {v code : Text} (h : Variable letter v code) : Src v := by
  have key : ∀ {v : Text}, v ≠ [] → (∀ c ∈ v, c = '$' ∨ c = '.' ∨ varChar letter c = true) → Src v := by
    intro v hne hc
    have all : ∀ c ∈ v, isBlank c = false ∧ c ∉ c!"@\n)" := by
      intro c hm
      rcases hc c hm with rfl | rfl | h
      · decide
      · decide
      · obtain ⟨h1, h2⟩ := var_plain hl h
        exact ⟨h1, fun hm => h2 (by revert hm; simp; rintro (h | h | h) <;> simp [h])⟩
    exact src_of (inside_chars fun c hm => (all c hm).2) hne (fun d hd => (all d (head_mem hd)).1) (fun d hd => (all d (last_mem hd)).1)
  cases h with
  | global c n hc hn _ =>
    refine key (by simp) (fun d hd => .inr (.inr ?_))
    rcases List.mem_cons.mp hd with rfl | hd
    · rcases hc with hc | rfl
      · simp [varChar, hc]
      · simp [varChar]
    · exact hn d hd
  | «local» n hn =>
    refine key (by simp) (fun d hd => ?_)
    rcases List.mem_cons.mp hd with rfl | hd
    · exact .inl rfl
    · exact .inr (.inr (hn d hd))
  | context n hn =>
    refine key (by simp) (fun d hd => ?_)
    rcases List.mem_cons.mp hd with rfl | hd
    · exact .inr (.inl rfl)
    · exact .inr (.inr (hn d hd))

theorem inside_join {l : List Text} (h : ∀ t ∈ l, Inside t) : Inside (Text.join [','] l) := by
  induction l with
  | nil => exact inside_chars (by simp [Text.join])
  | cons t l ih =>
    cases l with
    | nil => exact h t (by simp)
    | cons u l =>
      have e : Text.join [','] (t :: u :: l) = t ++ ([','] ++ Text.join [','] (u :: l)) := by simp [Text.join]
      rw [e]
      exact inside_append (h t (by simp)) (inside_append (inside_chars (by decide)) (ih fun t ht => h t (List.mem_cons_of_mem _ ht)))

theorem last_end {x : Text} {c : Char} (hc : isBlank c = false) : ∀ d, (x ++ [c]).getLast? = some d → isBlank d = false := by
  intro d hd
  rw [lastOf_append (by simp)] at hd
  cases hd
  exact hc

/-- The text between parentheses, with them. -/
theorem inside_paren {x : Text} (h1 : '@' ∉ x) (h2 : '\n' ∉ x) : Inside ('(' :: (x ++ [')'])) := ⟨by simp [h1], by simp [h2], openFirst_open (by decide) _⟩

theorem inside_args {args : List Arg} (h : ∀ a ∈ args, Spaces a.left ∧ Spaces a.right) (ha : ∀ a ∈ args, Src a.text) :
    Inside (Text.join [','] (args.map fun a => a.left ++ (a.text ++ a.right))) := by
  refine inside_join fun t ht => ?_
  obtain ⟨a, hm, rfl⟩ := List.mem_map.mp ht
  exact inside_append (inside_spaces (h a hm).1) (inside_append (ha a hm).inside (inside_spaces (h a hm).2))

theorem source_src {letter : Char → Bool} (hl : SignLetters letter) {p : Nat} {s : Text} {e : Expr} (hs : ExprText letter p s e) : Src s := by
  induction hs with
  | «variable» i h1 _ _ => exact src_variable hl h1
  | @number d h1 h2 =>
    have all : ∀ c ∈ d, isBlank c = false ∧ c ∉ c!"@\n)" := by
      intro c hc
      have hd := h2 c hc
      have : ∀ x ∈ c!" \t@\n)", x.isDigit = false := by decide
      refine ⟨?_, fun hm => ?_⟩
      · cases hb : isBlank c with
        | false => rfl
        | true =>
          simp only [isBlank, Bool.or_eq_true, beq_iff_eq] at hb
          rw [this c (by rcases hb with rfl | rfl <;> decide)] at hd
          cases hd
      · rw [this c (by revert hm; simp; rintro (h | h | h) <;> simp [h])] at hd
        cases hd
    exact src_of (inside_chars fun c hm => (all c hm).2) h1 (fun d hd => (all d (head_mem hd)).1) (fun d hd => (all d (last_mem hd)).1)
  | @quoted q body hq hb =>
    have hq' : q ∈ c!"(\"`" ∧ isBlank q = false ∧ q ≠ '@' ∧ q ≠ '\n' := by rcases hq with rfl | rfl <;> decide
    refine src_of ⟨?_, ?_, openFirst_open hq'.1 _⟩ (by simp) (by rintro _ ⟨⟩; exact hq'.2.1) (by
      rw [← List.cons_append]
      exact last_end hq'.2.1)
    · simp only [List.mem_cons, List.mem_append, List.not_mem_nil, or_false]
      rintro (h | h | h)
      · exact hq'.2.2.1 h.symm
      · exact (hb _ h).2.1 (by decide)
      · exact hq'.2.2.1 h.symm
    · simp only [List.mem_cons, List.mem_append, List.not_mem_nil, or_false]
      rintro (h | h | h)
      · exact hq'.2.2.2 h.symm
      · exact (hb _ h).2.1 (by decide)
      · exact hq'.2.2.2 h.symm
  | @paren l s r e h1 h2 _ ih =>
    have hi := inside_append (inside_spaces h1) (inside_append ih.inside (inside_spaces h2))
    have := inside_paren hi.1 hi.2.1
    simp only [List.append_assoc] at this
    refine src_of this (by simp) (by rintro _ ⟨⟩; rfl) ?_
    have e : '(' :: (l ++ (s ++ (r ++ [')']))) = ('(' :: (l ++ (s ++ r))) ++ [')'] := by simp
    rw [e]
    exact last_end rfl
  | @call n args h1 _ h3 _ ih =>
    have hi := inside_args h3 ih
    refine src_begins (src_variable hl h1) (inside_paren hi.1 hi.2.1) ?_
    rw [← List.cons_append]
    exact last_end rfl
  | @sel s e c n _ _ _ _ h5 _ ih =>
    have hn := src_variable hl h5
    refine src_begins ih (inside_append (a := ['.']) (inside_chars (by decide)) hn.inside) (fun d hd => hn.last d ?_)
    rw [← List.singleton_append, lastOf_append hn.ne] at hd
    exact hd
  | @method s e n args _ _ h3 _ ih ih' =>
    have hi := inside_args h3 ih'
    refine src_begins ih (inside_paren hi.1 hi.2.1) ?_
    rw [← List.cons_append]
    exact last_end rfl
  | @index s e l t r i _ h2 h3 _ ih ih' =>
    have hi := inside_append (a := ['[']) (inside_chars (by decide)) (inside_append (inside_spaces h2) (inside_append ih'.inside
      (inside_append (inside_spaces h3) (inside_chars (x := [']']) (by decide)))))
    refine src_begins ih hi ?_
    have e : '[' :: (l ++ (t ++ (r ++ [']']))) = ('[' :: (l ++ (t ++ r))) ++ [']'] := by simp
    rw [e]
    exact last_end rfl
  | @slice s e l t r i l' t' r' j _ h2 h3 h4 h5 _ _ ih ih' ih'' =>
    have hi := inside_append (a := ['[']) (inside_chars (by decide)) (inside_append (inside_spaces h2) (inside_append ih'.inside
      (inside_append (inside_spaces h3) (inside_append (a := [':']) (inside_chars (by decide)) (inside_append (inside_spaces h4) (inside_append ih''.inside
        (inside_append (inside_spaces h5) (inside_chars (x := [']']) (by decide)))))))))
    refine src_begins ih hi ?_
    have e : '[' :: (l ++ (t ++ (r ++ ':' :: (l' ++ (t' ++ (r' ++ [']'])))))) = ('[' :: (l ++ (t ++ (r ++ ':' :: (l' ++ (t' ++ r')))))) ++ [']'] := by simp
    rw [e]
    exact last_end rfl
  | @unary g l s e hg h2 _ _ ih =>
    have hg' : (∀ c ∈ g, c ∉ c!"@\n)") ∧ g ≠ [] ∧ ∀ c ∈ g, isBlank c = false :=
      (by decide : ∀ g ∈ [c!"+", c!"-", c!"!", c!"^", c!"&"], (∀ c ∈ g, c ∉ c!"@\n)") ∧ g ≠ [] ∧ ∀ c ∈ g, isBlank c = false) g hg
    refine src_of (inside_append (inside_chars hg'.1) (inside_append (inside_spaces h2) ih.inside)) (by simp [hg'.2.1]) (fun d hd => ?_) (fun d hd => ih.last d ?_)
    · rw [headOf_append hg'.2.1] at hd
      exact hg'.2.2 d (head_mem hd)
    · rw [← List.append_assoc, lastOf_append ih.ne] at hd
      exact hd
  | @binary a l x r b g p e e' hx _ h3 h4 _ _ _ ih ih' =>
    have hx' : ∀ c ∈ x, c ∉ c!"@\n)" := by
      cases hx with
      | @word w g hw =>
        intro c hc
        have := (by decide +kernel : ∀ p ∈ wordTable, ∀ c ∈ p.1, c ∉ c!"@\n)") _ hw
        simp only [List.mem_cons, List.mem_append, List.not_mem_nil, or_false] at hc
        rcases hc with rfl | hc | rfl
        · decide
        · exact this c hc
        · decide
      | sign hw => exact (by decide +kernel : ∀ p ∈ signTable, ∀ c ∈ p.1, c ∉ c!"@\n)") _ hw
      | go hw => exact (by decide +kernel : ∀ p ∈ goLevels, ∀ c ∈ p.1, c ∉ c!"@\n)") _ hw
    refine src_begins ih (inside_append (inside_spaces h3) (inside_append (inside_chars hx') (inside_append (inside_spaces h4) ih'.inside))) (fun d hd => ih'.last d ?_)
    rw [← List.append_assoc, ← List.append_assoc, lastOf_append ih'.ne] at hd
    exact hd
  | up _ _ ih => exact ih

/-- The text is a name with its fields, or the rule of names does not take it. -/
theorem src_sel {letter : Char → Bool} (hl : SignLetters letter) {s : Text} (h : Src s) (hn : ¬ SelName letter s) : NotSel letter s := by
  intro n w e hs hw he
  have hclean : ∀ c ∈ n ++ w, c ∉ c!"(\"`" := by
    intro c hc hm
    rcases List.mem_append.mp hc with hc | hc
    · obtain ⟨c₀, t, rfl, h0, ht⟩ := hs
      have : varChar letter c = true ∨ c = '.' := by
        rcases List.mem_cons.mp hc with rfl | hc
        · rcases h0 with h0 | rfl
          · exact .inl (by simp [varChar, h0])
          · exact .inl (by simp [varChar])
        · exact ht c hc
      rcases this with h | rfl
      · refine (var_plain hl h).2 ?_
        revert hm
        simp
        rintro (h | h | h) <;> simp [h]
      · exact absurd hm (by decide)
    · have := hw c hc
      simp only [isBlank, Bool.or_eq_true, beq_iff_eq] at this
      rcases this with rfl | rfl <;> exact absurd hm (by decide)
  have he : s ++ [')'] = (n ++ w) ++ ')' :: e := by simpa using he
  rcases List.append_eq_append_iff.mp he with ⟨x, h1, h2⟩ | ⟨x, h1, h2⟩
  · have hx : x = [] := by
      cases x with
      | nil => rfl
      | cons d x =>
        simp only [List.cons_append, List.cons.injEq] at h2
        have := congrArg List.length h2.2
        simp at this
    subst hx
    rw [List.append_nil] at h1
    cases hr : w.getLast? with
    | none =>
      rw [List.getLast?_eq_none_iff.mp hr, List.append_nil] at h1
      exact hn (h1 ▸ hs)
    | some d =>
      have hd : s.getLast? = some d := by
        rw [← h1, lastOf_append (by rintro rfl; cases hr), hr]
      have := h.last d hd
      rw [hw d (last_mem hr)] at this
      cases this
  · cases x with
    | nil =>
      rw [List.append_nil] at h1
      cases hr : w.getLast? with
      | none =>
        rw [List.getLast?_eq_none_iff.mp hr, List.append_nil] at h1
        exact hn (h1 ▸ hs)
      | some d =>
        have hd : s.getLast? = some d := by
          rw [h1, lastOf_append (by rintro rfl; cases hr), hr]
        have := h.last d hd
        rw [hw d (last_mem hr)] at this
        cases this
    | cons d x =>
      simp only [List.cons_append, List.cons.injEq] at h2
      obtain ⟨c, hc, hm⟩ := h.opens (n ++ w) x (by rw [h1, h2.1])
      exact hclean c hc hm

end Verif.Lemmas
