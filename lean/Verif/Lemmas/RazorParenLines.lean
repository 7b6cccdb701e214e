import Verif.Lemmas.RazorParenLine
/-!
# Several expressions between parentheses on one line
-/

namespace Verif.Lemmas
open Verif Regex Spec Engine Razor Table Prepare _root_.Verif.Insert

/-! ## The code of a name has no parenthesis -/

theorem wrap_plain {t : Text} (h : ∀ c ∈ t, isBlank c = false) : wrap t = t := by
  unfold wrap
  rw [if_pos]
  simp only [Bool.or_eq_true, Bool.not_eq_true', List.any_eq_false]
  refine .inr fun c hc => ?_
  have := h c hc
  simpa [isBlank] using this

theorem plain_code {letter : Char → Bool} (hl : SignLetters letter) {p : Nat} {s : Text} {e : Expr} (h : ExprText letter p s e) :
    (∀ c ∈ s, varChar letter c = true ∨ c = '.') → ∀ t, nodeValue e = some t → ')' ∉ mu t ∧ ∀ c ∈ t, isBlank c = false := by
  have hno : ∀ {c : Char}, c.toNat < 128 → (c.isAlpha || c.isDigit || c == '_') = false → c ≠ '.' → ∀ {s : Text}, c ∈ s → ¬ ∀ c ∈ s, varChar letter c = true ∨ c = '.' := by
    intro c h1 h2 h3 s hc hs
    rcases hs c hc with h | h
    · rw [var_ascii hl h h1] at h2
      cases h2
    · exact h3 h
  have hblank : ∀ {c : Char}, varChar letter c = true ∨ c = '.' → isBlank c = false ∧ c ≠ ')' := by
    rintro c (h | rfl)
    · obtain ⟨h1, h2⟩ := var_plain hl h
      exact ⟨h1, fun e => h2 (by rw [e]; decide)⟩
    · decide
  induction h with
  | «variable» i h1 h2 _ =>
    intro hs t ht
    simp only [nodeValue, Option.some.injEq] at ht
    subst ht
    have clean : ∀ {n : Text}, n = [] ∨ IsName n → ∀ c ∈ n, c ∉ [dotRep, globalRep, funcCall, dollarRep] := by
      rintro n (rfl | hi)
      · simp
      · exact fun c hc hm => hi.2.1 c hc (by simp at hm ⊢; simp [hm])
    cases i with
    | glob n =>
      have hn : ∀ c ∈ n, varChar letter c = true ∨ c = '.' := hs
      rw [identValue_glob h2, mu_cons, mu_plain (clean (.inr h2))]
      refine ⟨?_, ?_⟩
      · intro hm
        rcases List.mem_append.mp hm with hm | hm
        · exact absurd hm (by decide)
        · exact (hblank (hn _ hm)).2 rfl
      · intro c hc
        rcases List.mem_cons.mp hc with rfl | hc
        · decide
        · exact (hblank (hn _ hc)).1
    | loc n => exact absurd hs (hno (c := '$') (by decide) (by decide) (by decide) (List.mem_cons_self ..))
    | ctx n =>
      have hn : ∀ c ∈ n, varChar letter c = true ∨ c = '.' := fun c hc => hs c (List.mem_cons_of_mem _ hc)
      have : identValue (.ctx n) = dotRep :: n := by simp [identValue, Ident.name, Text.hasPrefix, Text.dropPrefix?]
      rw [this, mu_cons, mu_plain (clean h2)]
      refine ⟨?_, ?_⟩
      · intro hm
        rcases List.mem_append.mp hm with hm | hm
        · exact absurd hm (by decide)
        · exact (hblank (hn _ hm)).2 rfl
      · intro c hc
        rcases List.mem_cons.mp hc with rfl | hc
        · decide
        · exact (hblank (hn _ hc)).1
  | @number d _ h2 =>
    intro hs t ht
    cases ht
    rw [mu_plain fun c hc hm => ?_]
    · exact ⟨fun hm => (hblank (hs _ hm)).2 rfl, fun c hc => (hblank (hs c hc)).1⟩
    · have := h2 c hc
      simp at hm
      rcases hm with rfl | rfl | rfl | rfl <;> revert this <;> decide
  | @quoted q body hq _ =>
    intro hs
    rcases hq with rfl | rfl <;> exact absurd hs (hno (by decide) (by decide) (by decide) (List.mem_cons_self ..))
  | paren _ _ _ _ => exact fun hs => absurd hs (hno (c := '(') (by decide) (by decide) (by decide) (by simp))
  | call _ _ _ _ _ _ => exact fun hs => absurd hs (hno (c := '(') (by decide) (by decide) (by decide) (by simp))
  | @sel s e c n _ _ _ _ _ hi ih =>
    intro hs t ht
    simp only [nodeValue, sel_name hi] at ht
    cases hv : nodeValue e with
    | none => simp [hv] at ht
    | some v =>
      simp [hv] at ht
      subst ht
      obtain ⟨i1, i2⟩ := ih (fun c hc => hs c (by simp [hc])) v hv
      rw [wrap_plain i2, mu_append, mu_char (by decide), mu_plain (t := n) fun c hc hm => hi.2.1 c hc (by simp at hm ⊢; simp [hm])]
      refine ⟨?_, ?_⟩
      · intro hm
        simp only [List.mem_append, List.mem_cons] at hm
        rcases hm with hm | hm | hm
        · exact i1 hm
        · exact absurd hm (by decide)
        · exact (hblank (hs _ (by simp [hm]))).2 rfl
      · intro c hc
        simp only [List.mem_append, List.mem_cons] at hc
        rcases hc with hc | rfl | hc
        · exact i2 c hc
        · decide
        · exact (hblank (hs c (by simp [hc]))).1
  | method _ _ _ _ _ _ _ => exact fun hs => absurd hs (hno (c := '(') (by decide) (by decide) (by decide) (by simp))
  | index _ _ _ _ _ _ => exact fun hs => absurd hs (hno (c := '[') (by decide) (by decide) (by decide) (by simp))
  | slice _ _ _ _ _ _ _ _ _ _ => exact fun hs => absurd hs (hno (c := '[') (by decide) (by decide) (by decide) (by simp))
  | @unary g l s e hg _ _ _ _ =>
    intro hs
    have : ∃ c ∈ g, c.toNat < 128 ∧ (c.isAlpha || c.isDigit || c == '_') = false ∧ c ≠ '.' :=
      (by decide : ∀ g ∈ [c!"+", c!"-", c!"!", c!"^", c!"&"], ∃ c ∈ g, c.toNat < 128 ∧ (c.isAlpha || c.isDigit || c == '_') = false ∧ c ≠ '.') g hg
    obtain ⟨c, hc, h1, h2, h3⟩ := this
    exact absurd hs (hno h1 h2 h3 (by simp [hc]))
  | @binary a l x r b g p e e' hx _ _ _ _ _ _ _ _ =>
    intro hs
    exfalso
    have key : ∀ {c}, c ∈ x → c ∈ a ++ (l ++ (x ++ (r ++ b))) := fun hc => by simp [hc]
    cases hx with
    | word _ => exact absurd hs (hno (c := ' ') (by decide) (by decide) (by decide) (key (List.mem_cons_self ..)))
    | sign hw =>
      have : ∃ c ∈ x, varChar letter c = false ∧ c ≠ '.' := by
        have h1 : ∀ c, c.toNat < 128 → (c.isAlpha || c.isDigit || c == '_') = false → varChar letter c = false := by
          intro c g1 g2
          cases hv : varChar letter c with
          | false => rfl
          | true => rw [var_ascii hl hv g1] at g2; cases g2
        simp only [signTable, List.mem_cons, Prod.mk.injEq, List.not_mem_nil, or_false] at hw
        rcases hw with ⟨rfl, _⟩ | ⟨rfl, _⟩ | ⟨rfl, _⟩ | ⟨rfl, _⟩ | ⟨rfl, _⟩ | ⟨rfl, _⟩ | ⟨rfl, _⟩
        · exact ⟨'<', by decide, h1 _ (by decide) (by decide), by decide⟩
        · exact ⟨'≠', by decide, by unfold varChar; rw [hl.2.1]; decide, by decide⟩
        · exact ⟨'÷', by decide, by unfold varChar; rw [hl.1.2.1]; decide, by decide⟩
        · exact ⟨'≦', by decide, by unfold varChar; rw [hl.2.2.1]; decide, by decide⟩
        · exact ⟨'≧', by decide, by unfold varChar; rw [hl.2.2.2.1]; decide, by decide⟩
        · exact ⟨'«', by decide, by unfold varChar; rw [hl.1.2.2.1]; decide, by decide⟩
        · exact ⟨'»', by decide, by unfold varChar; rw [hl.1.2.2.2]; decide, by decide⟩
      obtain ⟨c, hc, h1, h2⟩ := this
      rcases hs c (key hc) with h | h
      · rw [h1] at h
        cases h
      · exact h2 h
    | go hw =>
      obtain ⟨c, hc, h1, h2, h3⟩ := (by decide +kernel : ∀ p ∈ goLevels, ∃ c ∈ p.1, c.toNat < 128 ∧ (c.isAlpha || c.isDigit || c == '_') = false ∧ c ≠ '.') _ hw
      exact absurd hs (hno h1 h2 h3 (key hc))
  | up _ _ ih => exact ih

theorem name_par {letter : Char → Bool} (hl : SignLetters letter) {s : Text} (hs : SelName letter s) {e : Expr} (h : Insertable letter s e) {v : Text}
    (hv : Razor.nodeValue e = some v) : ')' ∉ mu v := by
  refine (plain_code hl h.source ?_ v hv).1
  obtain ⟨c, t, rfl, h1, h2⟩ := hs
  intro d hd
  rcases List.mem_cons.mp hd with rfl | hd
  · rcases h1 with h1 | rfl
    · exact .inl (by simp [varChar, h1])
    · exact .inl (by simp [varChar])
  · exact h2 d hd

/-! ## The texts after the rule of names -/

/-- An expression that is not a name, and what follows it. -/
structure Left (letter : Char → Bool) (w s d t v : Text) (r : Text × Text × Text) (e : Expr) : Prop where
  signs : r ∈ reduceSigns
  blanks : ∀ d ∈ w, isBlank d = true
  ins : Insertable letter s e
  value : Razor.nodeValue e = some v
  dropped : Dropped d
  remains : ∀ u, PrefixLike t u → Remains (d ++ u) u
  line : Alone (d ++ t)
  paren : '@' ∉ parenText r w s d ∧ '\n' ∉ parenText r w s d
  code : '@' ∉ wordCode (mu v) r.2.1 r.2.2

/-- A text without names, and its code. -/
inductive Named (letter : Char → Bool) : Text → Text → Prop
  | nil : Named letter [] []
  | front {a t t2} : '@' ∉ a → Named letter t t2 → Named letter (a ++ t) (a ++ t2)
  | expr {w s d t t2 v r e} : Left letter w s d t v r e → Named letter t t2 →
      Named letter ('@' :: (parenText r w s d ++ t)) (wordCode (mu v) r.2.1 r.2.2 ++ t2)

/-- A text without names, the text where the expressions of some lines are replaced, and its code. -/
inductive Half (letter : Char → Bool) : Text → Text → Text → Prop
  | nil : Half letter [] [] []
  | front {a t t' t2} : '@' ∉ a → Half letter t t' t2 → Half letter (a ++ t) (a ++ t') (a ++ t2)
  | done {w s d t t' t2 v r e} : Left letter w s d t v r e → Half letter t t' t2 →
      Half letter ('@' :: (parenText r w s d ++ t)) (wordCode (mu v) r.2.1 r.2.2 ++ t') (wordCode (mu v) r.2.1 r.2.2 ++ t2)
  | kept {w s d t t' t2 v r e} : Left letter w s d t v r e → Alone (d ++ t') → Half letter t t' t2 →
      Half letter ('@' :: (parenText r w s d ++ t)) ('@' :: (parenText r w s d ++ t')) (wordCode (mu v) r.2.1 r.2.2 ++ t2)

theorem half_like {letter : Char → Bool} {t t' t2 : Text} (h : Half letter t t' t2) : PrefixLike t t' := by
  induction h with
  | nil => exact fun _ _ h => h
  | front _ _ ih => exact prefixLike_front _ ih
  | done _ _ _ => exact prefixLike_code [] _ _
  | @kept w s d t t' t2 v r e _ _ _ ih =>
    have := prefixLike_front ('@' :: parenText r w s d) ih
    simpa using this

/-- The parenthesis that closes an expression is on its line. -/
theorem not_lineFree {r : Text × Text × Text} {w s d t : Text} (hp : '\n' ∉ parenText r w s d) : ¬ LineFree ('@' :: (parenText r w s d ++ t)) := by
  intro h
  have h2 := h ('@' :: (r.1 ++ '(' :: (w ++ s))) (d ++ t) (by simp [parenText])
  rcases List.mem_cons.mp h2 with h2 | h2
  · exact absurd h2 (by decide)
  · refine hp ?_
    have : parenText r w s d = (r.1 ++ '(' :: (w ++ s)) ++ ')' :: d := by simp [parenText]
    rw [this]
    exact List.mem_append_left _ h2

theorem half_line {letter : Char → Bool} {t t' t2 : Text} (h : Half letter t t' t2) (hf : LineFree t) : LineFree t' := by
  induction h with
  | nil => exact hf
  | @front a t t' t2 _ _ ih =>
    by_cases ha : '\n' ∈ a
    · exact lineFree_lines ha hf
    · refine lineFree_plain (fun hm => ?_) (ih (lineFree_suffix ha hf))
      obtain ⟨x, y, rfl⟩ := List.append_of_mem hm
      exact ha (by simp [hf x (y ++ t) (by simp)])
  | done hq _ _ => exact absurd hf (not_lineFree hq.paren.2)
  | kept hq _ _ _ => exact absurd hf (not_lineFree hq.paren.2)

theorem foreign_assign : Foreign c!":=" c!":=" := by
  constructor <;> decide +kernel

theorem foreign_spade : Foreign c!"♠" c!"♠" := by
  constructor <;> decide +kernel

/-- The names are replaced and the expressions remain without other parentheses. -/
theorem alone_names {letter : Char → Bool} (hl : SignLetters letter) {t t1 t2 t3 : Text} (h : ParenSteps letter t t1 t2 t3) : ∀ x, Alone (x ++ t) → Alone (x ++ t1) := by
  induction h with
  | plain _ _ => exact fun _ h => h
  | code _ _ ih =>
    intro x hx
    rw [← List.append_assoc] at hx ⊢
    exact ih _ hx
  | @name a w s d t t1 t2 t3 v r e hq hs h ih =>
    intro x hx
    have e1 : ∀ u, x ++ (a ++ (wordCode (mu v) r.2.1 r.2.2 ++ u)) = (x ++ a ++ wordCode (mu v) r.2.1 r.2.2) ++ u := by simp
    rw [e1]
    refine ih _ ?_
    rw [List.append_assoc]
    have hpar : ')' ∉ wordCode (mu v) r.2.1 r.2.2 := by
      have h1 := name_par hl hs hq.ins hq.value
      obtain ⟨s1, s2⟩ := sign_parts hq.signs
      simp only [wordCode, List.mem_append, List.mem_cons, List.not_mem_nil, or_false, not_or]
      refine ⟨?_, ?_⟩ <;> grind
    have hd := drop_plain hq.dropped
    intro U V hU
    rcases List.append_eq_append_iff.mp hU with ⟨z, h1, h2⟩ | ⟨z, h1, h2⟩
    · rcases List.append_eq_append_iff.mp h2 with ⟨z', g1, g2⟩ | ⟨z', g1, g2⟩
      · rcases hq.line (d ++ z') V (by rw [g2]; simp) with g | ⟨g, g'⟩
        · rcases List.mem_append.mp g with g | g
          · exact absurd g hd.2.2.1
          · exact .inl (by rw [h1, g1]; simp [g])
        · rcases List.mem_append.mp g with g | g
          · exact absurd g hd.1
          · by_cases hn : '\n' ∈ x ++ a
            · exact .inl (by rw [h1]; simp only [List.mem_append] at hn ⊢; exact .inl hn)
            · refine .inr ⟨by rw [h1, g1]; simp [g], fun hi => ?_⟩
              rw [h1, g1] at hi
              rcases infix_pieces hq.signs (by decide) (by decide) hi with hi | hi | hi
              · have hi : c!":=" <:+: x ++ a := by
                  rcases infix_glue (by decide) hi with hi | hi
                  · exact hi
                  · exact absurd hi (by decide)
                rcases hx (x ++ a ++ '@' :: (r.1 ++ '(' :: (w ++ s))) (d ++ t) (by simp [parenText]) with k | k
                · rcases List.mem_append.mp k with k | k
                  · exact hn k
                  · refine (part_chars hl hq).2 ?_
                    rcases List.mem_cons.mp k with k | k
                    · exact absurd k (by decide)
                    · have : parenText r w s d = (r.1 ++ '(' :: (w ++ s)) ++ ')' :: d := by simp [parenText]
                      rw [this]
                      exact List.mem_append_left _ k
                · exact k.2 (hi.trans (List.prefix_append _ _).isInfix)
              · exact code_free foreign_assign hq.ins.source hq.ins.noAssign v hq.value hi
              · exact g' (hi.trans (List.suffix_append _ _).isInfix)
      · cases z' with
        | nil =>
          simp only [List.nil_append] at g2
          rcases hq.line d V (by rw [← g2]) with g | ⟨g, _⟩
          · exact absurd g hd.2.2.1
          · exact absurd g hd.1
        | cons c z' =>
          simp only [List.cons_append, List.cons.injEq] at g2
          exact absurd (by rw [g1, g2.1]; simp) hpar
    · cases z with
      | nil =>
        simp only [List.nil_append] at h2
        cases hc : wordCode (mu v) r.2.1 r.2.2 with
        | nil => simp [wordCode] at hc
        | cons c l =>
          rw [hc] at h2 hpar
          simp only [List.cons_append, List.cons.injEq] at h2
          exact absurd (by rw [h2.1]; simp) hpar
      | cons c z =>
        simp only [List.cons_append, List.cons.injEq] at h2
        exact hx U (z ++ '@' :: (parenText r w s d ++ t)) (by rw [← List.append_assoc, h1, h2.1]; simp)
  | @other a w s d t t1 t2 t3 v r e hq hs h ih =>
    intro x hx
    have e1 : ∀ u, x ++ (a ++ '@' :: (parenText r w s d ++ u)) = (x ++ a ++ '@' :: parenText r w s d) ++ u := by simp
    rw [e1] at hx ⊢
    exact ih _ hx

theorem named_steps {letter : Char → Bool} (hl : SignLetters letter) {t t1 t2 t3 : Text} (h : ParenSteps letter t t1 t2 t3) : Named letter t1 t2 := by
  induction h with
  | code hc _ ih => exact .front hc.free ih
  | @plain a ha _ =>
    have := Named.front ha (Named.nil (letter := letter))
    rwa [List.append_nil] at this
  | @name a w s d t t1 t2 t3 v r e hq _ _ ih =>
    have := Named.front (a := a ++ wordCode (mu v) r.2.1 r.2.2) (by simp [hq.before, code_at hl hq]) ih
    simpa using this
  | @other a w s d t t1 t2 t3 v r e hq _ h ih =>
    refine Named.front hq.before (Named.expr ⟨hq.signs, hq.blanks, hq.ins, hq.value, hq.dropped, fun u hu => hq.remains u ?_, alone_names hl h _ hq.line, part_chars hl hq,
      code_at hl hq⟩ ih)
    exact fun x h1 h2 => paren_like h x h1 (hu x h1 h2)

theorem spade_names {letter : Char → Bool} {t t1 t2 t3 : Text} (h : ParenSteps letter t t1 t2 t3) (hn : '♠' ∉ t) : '♠' ∉ t1 := by
  induction h with
  | plain _ _ => exact hn
  | code _ _ ih =>
    intro hm
    rcases List.mem_append.mp hm with hm | hm
    · exact hn (by simp [hm])
    · exact ih (fun hm => hn (by simp [hm])) hm
  | @name a w s d t t1 t2 t3 v r e hq _ _ ih =>
    intro hm
    rcases infix_pieces hq.signs (by decide) (by decide) (one_infix hm) with hi | hi | hi
    · rcases infix_glue (by decide) hi with hi | hi
      · exact hn (by simp [hi.subset (List.mem_singleton.mpr rfl)])
      · exact absurd hi (by decide)
    · refine code_free foreign_spade hq.ins.source (fun hi => hn ?_) v hq.value hi
      have := hi.subset (List.mem_singleton.mpr rfl)
      simp [parenText, this]
    · exact ih (fun hm => hn (by simp [hm])) (hi.subset (List.mem_singleton.mpr rfl))
  | @other a w s d t t1 t2 t3 v r e hq _ _ ih =>
    intro hm
    simp only [List.mem_append, List.mem_cons] at hm hn
    rcases hm with hm | hm | hm | hm
    · exact hn (.inl hm)
    · exact absurd hm (by decide)
    · exact hn (.inr (.inr (.inl hm)))
    · exact ih (fun hm => hn (.inr (.inr (.inr hm)))) hm

/-! ## The last parenthesis of a line -/

theorem last_close {b : Text} (h : ¬ LineFree b) : ∃ u b2, b = u ++ ')' :: b2 ∧ '\n' ∉ u ∧ LineFree b2 := by
  have : ∃ u v, b = u ++ ')' :: v ∧ '\n' ∉ u := by
    unfold LineFree at h
    simpa only [Classical.not_forall, exists_prop] using h
  obtain ⟨u, v, rfl, hu⟩ := this
  by_cases hv : LineFree v
  · exact ⟨u, v, rfl, hu, hv⟩
  · obtain ⟨u', b2, e, h1, h2⟩ := last_close hv
    exact ⟨u ++ ')' :: u', b2, by rw [e]; simp, by simp [hu, h1], h2⟩
termination_by b.length
decreasing_by
  subst_vars
  simp
  omega

theorem remains_some (b : Text) : ∃ y, Remains b y := by
  by_cases h : ∃ w e, (∀ c ∈ w, isBlank c = true) ∧ b = w ++ ';' :: e
  · obtain ⟨w, e, h1, h2⟩ := h
    exact ⟨e, .inl ⟨w, h1, h2⟩⟩
  · exact ⟨b, .inr ⟨rfl, fun w e hw he => h ⟨w, e, hw, he⟩⟩⟩

theorem remains_same {b x y : Text} (hx : Remains b x) (hy : Remains b y) : x = y := by
  have hs : ∀ {e : Text} d, (';' :: e).head? = some d → isBlank d = false := by
    rintro e _ ⟨⟩
    rfl
  rcases hx with ⟨w, h1, h2⟩ | ⟨h1, h2⟩ <;> rcases hy with ⟨w', g1, g2⟩ | ⟨g1, g2⟩
  · have := blanks_same h1 g1 hs hs (h2.symm.trans g2)
    simpa using this
  · exact absurd h2 (g2 w x h1)
  · exact absurd g2 (h2 w' y g1)
  · rw [h1, g1]

theorem alone_skip {x d y y' : Text} (hd : ')' ∉ d) (hy : LineFree y') (h : Alone (x ++ ')' :: (d ++ y))) : Alone (x ++ ')' :: (d ++ y')) := by
  intro u v hu
  rcases List.append_eq_append_iff.mp hu with ⟨z, h1, h2⟩ | ⟨z, h1, h2⟩
  · cases z with
    | nil =>
      rw [List.append_nil] at h1
      exact h u (d ++ y) (by rw [h1])
    | cons c z =>
      simp only [List.cons_append, List.cons.injEq] at h2
      rcases List.append_eq_append_iff.mp h2.2 with ⟨z', g1, g2⟩ | ⟨z', g1, g2⟩
      · exact .inl (by rw [h1, g1]; simp [hy z' v g2])
      · cases z' with
        | nil =>
          have := hy [] v g2.symm
          cases this
        | cons c' z' =>
          simp only [List.cons_append, List.cons.injEq] at g2
          exact absurd (by rw [g1, g2.1]; simp) hd
  · cases z with
    | nil =>
      rw [List.append_nil] at h1
      exact h u (d ++ y) (by rw [h1])
    | cons c z =>
      simp only [List.cons_append, List.cons.injEq] at h2
      exact h u (z ++ ')' :: (d ++ y)) (by rw [h1, h2.1]; simp)

theorem lineFree_alone {b : Text} (h : LineFree b) : Alone b := fun u v hu => .inl (h u v hu)

/-- The rest of a line whose first expression is kept. -/
theorem kept_line {letter : Char → Bool} {y y' d2 : Text} (hd : Dropped d2) (hy : LineFree (d2 ++ y)) (hrem : Remains (d2 ++ y) y)
    (ih : ∀ y2, Named letter y y2 → Half letter y y' y2) {t t2 : Text} (h : Named letter t t2) : ∀ u, t = u ++ ')' :: (d2 ++ y) → '\n' ∉ u →
      (∀ x v, t = x ++ ')' :: v → '\n' ∈ x ∨ '@' ∈ x) → Half letter t (u ++ ')' :: (d2 ++ y')) t2 ∧ ∃ y2, Named letter y y2 := by
  have hd2 := drop_plain hd
  induction h with
  | nil =>
    intro u hu
    simp at hu
  | @front a t t2 ha h iht =>
    intro u hu hn hx
    have hat : '@' ∈ u := (hx u _ hu).resolve_left hn
    obtain ⟨u', rfl, ht⟩ : ∃ u', u = a ++ u' ∧ t = u' ++ ')' :: (d2 ++ y) := by
      rcases List.append_eq_append_iff.mp hu with ⟨z, h1, h2⟩ | ⟨z, h1, h2⟩
      · exact ⟨z, h1, h2⟩
      · exact absurd (by rw [h1]; simp [hat]) ha
    have hna : '\n' ∉ a := fun hm => hn (by simp [hm])
    obtain ⟨g1, g2⟩ := iht u' ht (fun hm => hn (by simp [hm])) (fun x v hv => by
      rcases hx (a ++ x) v (by rw [hv]; simp) with h | h
      · exact .inl ((List.mem_append.mp h).resolve_left hna)
      · exact .inr ((List.mem_append.mp h).resolve_left ha))
    refine ⟨?_, g2⟩
    rw [List.append_assoc]
    exact .front ha g1
  | @expr w s d t t2 v r e hq h iht =>
    intro u hu hn hx
    have hd1 := drop_plain hq.dropped
    have e1 : ∀ z, '@' :: (parenText r w s d ++ z) = ('@' :: (r.1 ++ '(' :: (w ++ s))) ++ ')' :: (d ++ z) := by simp [parenText]
    have hpn : '\n' ∉ '@' :: (r.1 ++ '(' :: (w ++ s)) := by
      intro hm
      refine hq.paren.2 ?_
      rcases List.mem_cons.mp hm with hm | hm
      · exact absurd hm (by decide)
      · have : parenText r w s d = (r.1 ++ '(' :: (w ++ s)) ++ ')' :: d := by simp [parenText]
        rw [this]
        exact List.mem_append_left _ hm
    rw [e1] at hu
    have hend : Remains (d ++ t) t := hq.remains t fun _ _ h => h
    have here : d ++ t = d2 ++ y → u = '@' :: (r.1 ++ '(' :: (w ++ s)) → Half letter ('@' :: (parenText r w s d ++ t)) (u ++ ')' :: (d2 ++ y')) (wordCode (mu v) r.2.1 r.2.2 ++ t2) ∧
        ∃ y2, Named letter y y2 := by
      intro he hu'
      have ht : t = y := remains_same (he ▸ hend) hrem
      subst ht
      have hdd := List.append_cancel_right he
      subst hdd
      refine ⟨?_, t2, h⟩
      rw [hu', ← e1]
      exact .kept hq (lineFree_alone (lineFree_plain hd1.2.1 (half_line (ih t2 h) (lineFree_suffix hd1.2.2.1 hy)))) (ih t2 h)
    rcases List.append_eq_append_iff.mp hu with ⟨z, h1, h2⟩ | ⟨z, h1, h2⟩
    · cases z with
      | nil =>
        simp only [List.nil_append, List.cons.injEq, true_and] at h2
        exact here h2 (by rw [h1, List.append_nil])
      | cons c z =>
        simp only [List.cons_append, List.cons.injEq] at h2
        obtain ⟨u3, rfl, ht⟩ : ∃ u3, z = d ++ u3 ∧ t = u3 ++ ')' :: (d2 ++ y) := by
          rcases List.append_eq_append_iff.mp h2.2 with ⟨z', g1, g2⟩ | ⟨z', g1, g2⟩
          · exact ⟨z', g1, g2⟩
          · cases z' with
            | nil => exact ⟨[], by rw [g1]; simp, g2.symm⟩
            | cons c' z' =>
              simp only [List.cons_append, List.cons.injEq] at g2
              exact absurd (by rw [g1, g2.1]; simp) hd1.2.1
        have hn3 : '\n' ∉ u3 := fun hm => hn (by rw [h1]; simp [hm])
        obtain ⟨g1, y2, g2⟩ := iht u3 ht hn3 (fun x v hv => by
          rcases hq.line (d ++ x) v (by rw [hv]; simp) with h | ⟨h, _⟩
          · exact .inl ((List.mem_append.mp h).resolve_left hd1.2.2.1)
          · exact .inr ((List.mem_append.mp h).resolve_left hd1.1))
        refine ⟨?_, y2, g2⟩
        have e2 : u ++ ')' :: (d2 ++ y') = '@' :: (parenText r w s d ++ (u3 ++ ')' :: (d2 ++ y'))) := by
          rw [h1, ← h2.1]
          simp [parenText]
        rw [e2]
        refine .kept hq ?_ g1
        have := hq.line
        rw [ht, ← List.append_assoc] at this
        rw [← List.append_assoc]
        exact alone_skip hd2.2.1 (half_line (ih y2 g2) (lineFree_suffix hd2.2.2.1 hy)) this
    · cases z with
      | nil =>
        simp only [List.nil_append, List.cons.injEq, true_and] at h2
        exact here h2.symm (by rw [h1, List.append_nil])
      | cons c z =>
        simp only [List.cons_append, List.cons.injEq] at h2
        have := hy z (d ++ t) h2.2
        exact absurd (by rw [h1]; simp [this]) hpn

/-! ## The two rules of expressions -/

theorem class_begins {letter : Char → Bool} (p : Option Char) (ch : Char) (t : Text) (h : ch ≠ '@') : matchAt letter atRe p (ch :: t) = none :=
  begins_at (by decide +kernel) p ch t h

theorem paren_length (r : Text × Text × Text) (w s d t : Text) :
    ('@' :: (r.1 ++ '(' :: (w ++ (s ++ ')' :: (d ++ t))))).length - t.length = (parenText r w s d).length + 1 := by
  simp only [parenText, List.length_cons, List.length_append]
  omega

theorem alone_class {letter : Char → Bool} {b : Text} (h : Alone b) : ClassFree letter atCls b := fun u v hu =>
  (h u v hu).imp id fun ⟨h1, h2⟩ => ⟨by simp [atCls, Cls.has, Item.has], h1, h2⟩

/-- The second rule, one expression after the other. -/
theorem rule_at {letter : Char → Bool} (hl : SignLetters letter) {parser : Replacement → Text → Text} (hp : Parses letter parser) {t t' t2 : Text}
    (h : Half letter t t' t2) : (((generate defaultDelims).drop 151).take 1).foldl (applyRule letter parser) t' = t2 := by
  refine rule_parsed hp at_entry (by decide) (fun out hout => ?_)
  induction h with
  | nil => exact fun _ => rfl
  | front ha _ ih =>
    intro p
    rw [replaceAux_before class_begins _ _ ha, ih]
  | done hq _ ih =>
    intro p
    rw [replaceAux_before class_begins _ _ hq.code, ih]
  | @kept w s d t t' t2 v r e hq ha h ih =>
    have hd := drop_plain hq.dropped
    have hsrc := source_src hl hq.ins.source
    have hcls : ∀ c ∈ s, atCls.has letter c = true := fun c hc => (has_at letter c).mpr ⟨fun e => hsrc.at_ (e ▸ hc), fun e => hsrc.line (e ▸ hc)⟩
    have hK : atCls.has letter '\n' = false := by simp [atCls, Cls.has, Item.has]
    refine fun p => replaceAux_matched (a := []) (x := parenText r w s d) (code := wordCode (mu v) r.2.1 r.2.2) class_begins (by simp) (fun p => ?_) ih p
    have e1 : ∀ u, '@' :: (parenText r w s d ++ u) = '@' :: (r.1 ++ '(' :: (w ++ (s ++ ')' :: (d ++ u)))) := by simp [parenText]
    obtain ⟨caps, m1, m2, m3, m4, m5⟩ := matchAt_class hK hq.signs hq.blanks hsrc.ne hsrc.first hcls hq.ins.noAssign (alone_class ha) (hq.remains t' (half_like h)) p
    refine ⟨caps, ?_, ?_⟩
    · rw [e1, ← paren_length r w s d t']
      exact m1
    · obtain ⟨o, ho, eo⟩ := hout ('@' :: parenText r w s d) caps
      rw [eo]
      refine parsed hl ho hq.ins hq.value hq.signs (by simp) hsrc.ne ?_
      have hline : Alone d := fun u v he => absurd (by rw [he]; simp) hd.2.1
      obtain ⟨caps, m1, m2, m3, m4, m5⟩ := matchAt_class hK hq.signs hq.blanks hsrc.ne hsrc.first hcls hq.ins.noAssign (alone_class hline) (remains_end hq.dropped) none
      refine ⟨caps, m1, m2, fun code b hd => ?_⟩
      rw [expand_expr caps m3 hd, m4, m5]

/-- A text that is not an expression stays. -/
theorem not_parsed {letter : Char → Bool} {o : Orders} {re : Re} {replace m s : Text} (hs : s ≠ []) (hi : inserted letter o s = none)
    (hm : ∃ caps n, matchAt letter re none m = some (n, caps) ∧ groupOf caps c!"expr" = s) : expressionParser letter o true re replace m = m := by
  obtain ⟨caps, n, h1, h2⟩ := hm
  have hg : groups letter re m = caps := by
    unfold groups
    rw [h1]
  unfold expressionParser
  simp only [hg, h2, if_neg hs, hi]
  rfl

/-- The first rule replaces the expressions that are alone on their lines. -/
theorem line_half {letter : Char → Bool} (hl : SignLetters letter) {out : Text → Caps → Text}
    (hout : ∀ x caps, ∃ o, SomeOrder o ∧ out x caps = expressionParser letter o true exprRe c!"{{${reduce1} ${assign}${expr} ${reduce2}}}" x) :
    ∀ (n : Nat) (t t2 : Text), t.length ≤ n → Named letter t t2 → '♠' ∉ t → ∃ t', (∀ p, Regex.replaceAux letter exprRe out 0 p t = t') ∧ Half letter t t' t2 := by
  intro n
  induction n using Nat.strongRecOn with
  | _ n ihn =>
    intro t t2 hn h hs
    induction h with
    | nil => exact ⟨[], fun _ => rfl, .nil⟩
    | @front a t t2 ha h ih =>
      obtain ⟨t', g1, g2⟩ := ih (by simp at hn; omega) (fun hm => hs (by simp [hm]))
      exact ⟨a ++ t', fun p => by rw [replaceAux_before (expr_begins letter) _ _ ha, g1], .front ha g2⟩
    | @expr w s d t t2 v r e hq h _ =>
      have hd := drop_plain hq.dropped
      have hsrc := source_src hl hq.ins.source
      by_cases hline : LineFree (d ++ t)
      · obtain ⟨t', g1, g2⟩ := ihn t.length (by simp at hn; omega) t t2 (Nat.le_refl _) h (fun hm => hs (by simp [hm]))
        refine ⟨wordCode (mu v) r.2.1 r.2.2 ++ t', fun p => ?_, .done hq g2⟩
        refine replaceAux_matched (a := []) (x := parenText r w s d) (code := wordCode (mu v) r.2.1 r.2.2) (expr_begins letter) (by simp) (fun p => ?_) g1 p
        have e1 : ∀ u, '@' :: (parenText r w s d ++ u) = '@' :: (r.1 ++ '(' :: (w ++ (s ++ ')' :: (d ++ u)))) := by simp [parenText]
        obtain ⟨caps, m1, m2, m3, m4, m5⟩ := matchAt_expr hq.signs hq.blanks hsrc.ne hsrc.first hsrc.line hq.ins.noAssign hline (hq.remains t fun _ _ h => h) p
          (letter := letter)
        refine ⟨caps, ?_, ?_⟩
        · rw [e1, m1, paren_length]
        · obtain ⟨o, ho, eo⟩ := hout ('@' :: parenText r w s d) caps
          rw [eo]
          refine parsed hl ho hq.ins hq.value hq.signs (by simp) hsrc.ne ?_
          have hline : LineFree d := fun u v he => absurd (by rw [he]; simp) hd.2.1
          obtain ⟨caps, m1, m2, m3, m4, m5⟩ := matchAt_expr hq.signs hq.blanks hsrc.ne hsrc.first hsrc.line hq.ins.noAssign hline (remains_end hq.dropped) none
            (letter := letter)
          refine ⟨caps, m1, m2, fun code b hd => ?_⟩
          rw [expand_expr caps m3 hd, m4, m5]
      · obtain ⟨u, b2, hb, hu, hb2⟩ := last_close hline
        obtain ⟨y, hy⟩ := remains_some b2
        obtain ⟨d2, hd2, rfl, hlike⟩ := remains_dropped hy
        have hdd := drop_plain hd2
        obtain ⟨u3, rfl, ht⟩ : ∃ u3, u = d ++ u3 ∧ t = u3 ++ ')' :: (d2 ++ y) := by
          rcases List.append_eq_append_iff.mp hb with ⟨z', g1, g2⟩ | ⟨z', g1, g2⟩
          · exact ⟨z', g1, g2⟩
          · cases z' with
            | nil => exact ⟨[], by rw [g1]; simp, g2.symm⟩
            | cons c' z' =>
              simp only [List.cons_append, List.cons.injEq] at g2
              exact absurd (by rw [g1, g2.1]; simp) hd.2.1
        have hlen : y.length < n := by
          rw [ht] at hn
          simp at hn
          omega
        have hsy : '♠' ∉ y := fun hm => hs (by rw [ht]; simp [hm])
        have hu3 : '\n' ∉ u3 := fun hm => hu (by simp [hm])
        have ihy : ∀ y2, Named letter y y2 → (∀ p, Regex.replaceAux letter exprRe out 0 p y = Regex.replaceAux letter exprRe out 0 none y) ∧
            Half letter y (Regex.replaceAux letter exprRe out 0 none y) y2 := by
          intro y2 h2
          obtain ⟨y', g1, g2⟩ := ihn y.length hlen y y2 (Nat.le_refl _) h2 hsy
          rw [g1 none]
          exact ⟨g1, g2⟩
        obtain ⟨k1, y2, k2⟩ := kept_line hd2 hb2 hy (fun y2 h2 => (ihy y2 h2).2) h u3 ht hu3 (fun x v hv => by
          rcases hq.line (d ++ x) v (by rw [hv]; simp) with h | ⟨h, _⟩
          · exact .inl ((List.mem_append.mp h).resolve_left hd.2.2.1)
          · exact .inr ((List.mem_append.mp h).resolve_left hd.1))
        have hyl : LineFree y := lineFree_suffix hdd.2.2.1 hb2
        refine ⟨'@' :: (parenText r w s d ++ (u3 ++ ')' :: (d2 ++ Regex.replaceAux letter exprRe out 0 none y))), fun p => ?_, .kept hq ?_ k1⟩
        · have e1 : ∀ z, '@' :: (parenText r w s d ++ (u3 ++ ')' :: (d2 ++ z))) = '@' :: (parenText r w (s ++ ')' :: (d ++ u3)) d2 ++ z) := by simp [parenText]
          have e2 : ∀ z, '@' :: (parenText r w (s ++ ')' :: (d ++ u3)) d2 ++ z) = '@' :: (r.1 ++ '(' :: (w ++ ((s ++ ')' :: (d ++ u3)) ++ ')' :: (d2 ++ z)))) := by
            simp [parenText]
          have c1 : s ++ ')' :: (d ++ u3) ≠ [] := by simp
          have c2 : ∀ x, (s ++ ')' :: (d ++ u3)).head? = some x → isBlank x = false := fun x hx => hsrc.first x (by rwa [headOf_append hsrc.ne] at hx)
          have c3 : '\n' ∉ s ++ ')' :: (d ++ u3) := by
            simp only [List.mem_append, List.mem_cons, not_or]
            exact ⟨hsrc.line, by decide, hd.2.2.1, hu3⟩
          have c4 : ¬ c!":=" <:+: s ++ ')' :: (d ++ u3) := by
            intro hi
            rcases infix_glue (by decide) hi with hi | hi
            · exact hq.ins.noAssign hi
            · rcases hq.line (d ++ u3) _ hb with h | ⟨_, h⟩
              · exact hu h
              · exact h hi
          have c5 : '♠' ∉ d ++ u3 := by
            intro hm
            refine hs ?_
            rw [ht]
            simp only [parenText, List.mem_append, List.mem_cons] at hm ⊢
            rcases hm with hm | hm
            · simp [hm]
            · simp [hm]
          rw [ht, e1, e1]
          refine (replaceAux_matched (a := []) (code := '@' :: parenText r w (s ++ ')' :: (d ++ u3)) d2) (expr_begins letter) (by simp) (fun p => ?_) (ihy y2 k2).1 p : _)
          obtain ⟨caps, m1, m2, _⟩ := matchAt_expr hq.signs hq.blanks c1 c2 c3 c4 hb2 hy p (letter := letter)
          refine ⟨caps, ?_, ?_⟩
          · rw [e2, m1, paren_length]
          · obtain ⟨o, ho, eo⟩ := hout ('@' :: parenText r w (s ++ ')' :: (d ++ u3)) d2) caps
            rw [eo]
            have hl2 : LineFree d2 := fun u v he => absurd (by rw [he]; simp) hdd.2.1
            obtain ⟨caps, m1, m2, _⟩ := matchAt_expr hq.signs hq.blanks c1 c2 c3 c4 hl2 (remains_end hd2) none (letter := letter)
            exact not_parsed c1 (inserted_more hl ho hq.ins c5) ⟨caps, _, m1, m2⟩
        · have := hq.line
          rw [ht, ← List.append_assoc] at this
          rw [← List.append_assoc]
          exact alone_skip hdd.2.1 (half_line (ihy y2 k2).2 hyl) this

theorem rule_line {letter : Char → Bool} (hl : SignLetters letter) {parser : Replacement → Text → Text} (hp : Parses letter parser) {t t2 : Text} (h : Named letter t t2)
    (hs : '♠' ∉ t) : ∃ t', (((generate defaultDelims).drop 150).take 1).foldl (applyRule letter parser) t = t' ∧ Half letter t t' t2 := by
  obtain ⟨out, h1, h2⟩ := rule_out hp expr_entry (by decide)
  obtain ⟨t', h3, h4⟩ := line_half hl h1 t.length t t2 (Nat.le_refl _) h hs
  exact ⟨t', by rw [h2, h3], h4⟩

/-- The rules of the expressions between parentheses, and those that follow. -/
theorem rules_from_paren {letter : Char → Bool} (hl : SignLetters letter) {parser : Replacement → Text → Text} (hp : Parses letter parser) {t t1 t2 t3 : Text}
    (h : ParenSteps letter t t1 t2 t3) (hb : ¬ c!")[" <:+: t) (hm : '♠' ∉ t) (hs : ∀ f ∈ [c!"`", c!"\"<<", c!"\"{{", c!"_=!"], ¬ f <:+: t) :
    Text.replaceAll callMark [] (((generate defaultDelims).drop 142).foldl (applyRule letter parser) t) = t3 := by
  obtain ⟨t', k1, k2⟩ := rule_line hl hp (named_steps hl h) (spade_names h hm)
  rw [split_rules 142 1, rule_var hl hp h, split_rules 143 7, rules_idle parser 143 7 [c!")["] table_paren_index, split_rules 150 1, k1, split_rules 151 1, rule_at hl hp k2]
  · exact rules_after_paren hl parser h hs
  · intro f hf
    rw [List.mem_singleton.mp hf]
    exact paren_bracket hl h hb

end Verif.Lemmas
