import Verif.Lemmas.RazorAt
/-!
# E-mail addresses through the rules of razor
-/

namespace Verif.Lemmas
open Verif Regex Spec Engine Razor Table

/-- `[\w.!#$%&'*+/=?^_{|}~-]`. -/
def mailCls : Cls :=
  ⟨false, [.word, .chr '.', .chr '!', .chr '#', .chr '$', .chr '%', .chr '&', .chr '\'', .chr '*', .chr '+', .chr '/', .chr '=', .chr '?', .chr '^',
    .chr '_', .chr '{', .chr '|', .chr '}', .chr '~', .chr '-']⟩

/-- `[\w-]`. -/
def domainCls : Cls := ⟨false, [.word, .chr '-']⟩

/-- `[\w-]{1,61}`. -/
def labelRe : Re := .seq (.cls domainCls) (atMost true (.cls domainCls) 60)

/-- `\.[\w-]{1,61}`. -/
def dotLabelRe : Re := .seq (lit '.') labelRe

/-- `(\W|^)`. -/
def mailStart : Re := .group [] (.alt (.cls ⟨false, [.nonWord]⟩) (.bol false))

/-- The rule of addresses, razor.go:80. -/
def mailRe : Re :=
  .seq (.seq (.seq (.seq mailStart (.seq (.cls mailCls) (.star true (.cls mailCls)))) (lit '@')) labelRe) (.seq dotLabelRe (.star true dotLabelRe))

theorem mail_entry : (table.drop 2).take 1 = [(emailName, [], 1, mailRe)] := by decide +kernel

theorem mailCls_has (letter : Char → Bool) (c : Char) : mailCls.has letter c = mailChar c := by
  rw [Bool.eq_iff_iff]
  by_cases h : c = '_'
  · subst h
    simp [mailCls, Cls.has, Item.has, mailChar, isWordChar]
  · simp [mailCls, Cls.has, Item.has, mailChar, isWordChar, h]

theorem domainCls_has (letter : Char → Bool) (c : Char) : domainCls.has letter c = domainChar c := by
  simp [domainCls, Cls.has, Item.has, domainChar, isWordChar]

theorem mailChar_of_domain {c : Char} (h : domainChar c = true) : mailChar c = true := by
  simp only [domainChar, Bool.or_eq_true, beq_iff_eq] at h
  rcases h with (h | rfl) | rfl
  · simp [mailChar, h]
  · decide
  · decide

theorem mailChar_at : mailChar '@' = false := by decide

/-! ## Building a match -/

theorem fit_star_cls {letter : Char → Bool} {g : Bool} {k : Cls} (l : Text) (h : ∀ c ∈ l, k.has letter c = true) (p : Option Char) (q : Text) (c : Caps) :
    Fit letter (.star g (.cls k)) p l q c c := by
  induction l generalizing p with
  | nil => exact .done
  | cons d l ih =>
    exact .more (x := [d]) (y := l) (by simp) (.cls (h d (List.mem_cons_self ..))) (ih (fun c hc => h c (List.mem_cons_of_mem _ hc)) _)

theorem fit_atMost {letter : Char → Bool} {g : Bool} {k : Cls} (n : Nat) (l : Text) (hn : l.length ≤ n) (h : ∀ c ∈ l, k.has letter c = true)
    (p : Option Char) (q : Text) (c : Caps) : Fit letter (atMost g (.cls k) n) p l q c c := by
  induction n generalizing l p with
  | zero =>
    rw [List.length_eq_zero_iff.mp (Nat.le_zero.mp hn)]
    exact .eps
  | succ n ih =>
    cases l with
    | nil => exact .none
    | cons d l =>
      exact .one (.seq (x := [d]) (y := l) (.cls (h d (List.mem_cons_self ..)))
        (ih l (by simpa using hn) (fun c hc => h c (List.mem_cons_of_mem _ hc)) _))

theorem fit_plus {letter : Char → Bool} {k : Cls} {l : Text} (hl : l ≠ []) (h : ∀ c ∈ l, k.has letter c = true) (p : Option Char) (q : Text) (c : Caps) :
    Fit letter (.seq (.cls k) (.star true (.cls k))) p l q c c := by
  cases l with
  | nil => exact absurd rfl hl
  | cons d l =>
    exact .seq (x := [d]) (y := l) (.cls (h d (List.mem_cons_self ..))) (fit_star_cls l (fun c hc => h c (List.mem_cons_of_mem _ hc)) _ _ _)

theorem fit_label {letter : Char → Bool} {d : Text} (hd : Label d) (p : Option Char) (q : Text) (c : Caps) : Fit letter labelRe p d q c c := by
  obtain ⟨hne, hlen, hall⟩ := hd
  cases d with
  | nil => exact absurd rfl hne
  | cons e d =>
    have h : ∀ c ∈ e :: d, domainCls.has letter c = true := fun c hc => by rw [domainCls_has]; exact hall c hc
    exact .seq (x := [e]) (y := d) (.cls (h e (List.mem_cons_self ..)))
      (fit_atMost 60 d (by simp at hlen; omega) (fun c hc => h c (List.mem_cons_of_mem _ hc)) _ _ _)

theorem fit_chr {letter : Char → Bool} (ch : Char) (p : Option Char) (q : Text) (c : Caps) : Fit letter (lit ch) p [ch] q c c :=
  .cls (by simp [Cls.has, Item.has])

/-- An address after a character that is no letter, or at the beginning, is a match. -/
theorem fit_mail {letter : Char → Bool} {p : Option Char} {g l d₁ d₂ : Text} (hg : (∃ c, g = [c] ∧ mailChar c = false) ∨ g = [] ∧ p = none)
    (hl : l ≠ []) (hl' : ∀ c ∈ l, mailChar c = true) (h₁ : Label d₁) (h₂ : Label d₂) (q : Text) :
    Fit letter mailRe p (g ++ l ++ ['@'] ++ d₁ ++ ('.' :: d₂)) q [] [([], g)] := by
  refine .seq (.seq (.seq (.seq (.group (c' := []) ?_) (fit_plus hl (fun c hc => by rw [mailCls_has]; exact hl' c hc) _ _ _)) (fit_chr '@' _ _ _)) (fit_label h₁ _ _ _)) ?_
  · rcases hg with ⟨c, rfl, hc⟩ | ⟨rfl, rfl⟩
    · refine .left (.cls ?_)
      have : isWordChar c = false := by
        rw [Bool.eq_false_iff]
        intro hw
        simp only [isWordChar, Bool.or_eq_true, beq_iff_eq] at hw
        rw [Bool.eq_false_iff] at hc
        apply hc
        rcases hw with hw | rfl
        · simp [mailChar, hw]
        · decide
      simp [Cls.has, Item.has, this]
    · exact .right (.bol (.inl rfl))
  · have h : Fit letter (.seq dotLabelRe (.star true dotLabelRe)) (lastOr p (g ++ l ++ ['@'] ++ d₁)) (('.' :: d₂) ++ []) q [([], g)] [([], g)] :=
      .seq (.seq (x := ['.']) (y := d₂) (fit_chr '.' _ _ _) (fit_label h₂ _ _ _)) .done
    simpa using h

/-! ## The shape of a match -/

theorem avoidsBy_atMost {letter : Char → Bool} {ch : Char} {a : Re} (h : avoidsBy letter ch a = true) (g : Bool) (n : Nat) :
    avoidsBy letter ch (atMost g a n) = true := by
  induction n with
  | zero => rfl
  | succ n ih => simp [atMost, avoidsBy, h, ih]

/-- After its first character a match has only characters of addresses. -/
theorem mail_shape {letter : Char → Bool} {p : Option Char} {x q : Text} {c c' : Caps} (h : Fit letter mailRe p x q c c') :
    ∃ g y, x = g ++ y ∧ g.length ≤ 1 ∧ ∀ ch ∈ y, mailChar ch = true ∨ ch = '@' := by
  obtain ⟨x₁, y₁, c₁, rfl, h₁, h₂⟩ := fit_seq h
  obtain ⟨x₂, y₂, c₂, rfl, h₃, h₄⟩ := fit_seq h₁
  obtain ⟨x₃, y₃, c₃, rfl, h₅, h₆⟩ := fit_seq h₃
  obtain ⟨g, y₄, c₄, rfl, h₇, h₈⟩ := fit_seq h₅
  refine ⟨g, y₄ ++ (y₃ ++ (y₂ ++ y₁)), by simp, ?_, ?_⟩
  · obtain ⟨d, _, hd⟩ := fit_group h₇
    cases hd with
    | left h => cases h; simp
    | right h => cases h; simp
  · intro ch hch
    by_cases hat : ch = '@'
    · exact .inr hat
    · refine .inl ?_
      cases hm : mailChar ch with
      | true => rfl
      | false =>
        exfalso
        have hd : domainChar ch = false := by
          rw [Bool.eq_false_iff]
          intro h
          rw [mailChar_of_domain h] at hm
          cases hm
        have hdot : ch ≠ '.' := by
          rintro rfl
          exact absurd hm (by decide)
        have ac : avoidsBy letter ch (.cls mailCls) = true := by simp [avoidsBy, mailCls_has, hm]
        have ad : avoidsBy letter ch (.cls domainCls) = true := by simp [avoidsBy, domainCls_has, hd]
        have alit : ∀ e, ch ≠ e → avoidsBy letter ch (lit e) = true := by
          intro e he
          simp [lit, avoidsBy, Cls.has, Item.has, he]
        have alab : avoidsBy letter ch labelRe = true := by
          unfold labelRe
          rw [avoidsBy, ad, avoidsBy_atMost ad]
          rfl
        have adot : avoidsBy letter ch dotLabelRe = true := by
          unfold dotLabelRe
          rw [avoidsBy, alit '.' hdot, alab]
          rfl
        have k₁ := avoidsBy_sound (ch := ch) h₈ (by simp only [avoidsBy] at ac ⊢; rw [ac]; rfl)
        have k₂ := avoidsBy_sound (ch := ch) h₆ (alit '@' hat)
        have k₃ := avoidsBy_sound (ch := ch) h₄ alab
        have k₄ := avoidsBy_sound (ch := ch) h₂ (by simp only [avoidsBy]; rw [adot]; rfl)
        simp [k₁, k₂, k₃, k₄] at hch

/-- A match has a `@`. -/
theorem mail_has_at {letter : Char → Bool} {p : Option Char} {x q : Text} {c c' : Caps} (h : Fit letter mailRe p x q c c') : '@' ∈ x :=
  (needs_sound (f := ['@']) h (by decide +kernel)).subset (List.mem_singleton.mpr rfl)

/-! ## The replacement -/

/-- The end of a text: nothing, or something that begins with a character that addresses do not have. -/
def Boundary (rest : Text) : Prop := rest = [] ∨ ∃ c t, rest = c :: t ∧ mailChar c = false ∧ c ≠ '@'

/-- A match that begins before a boundary does not go beyond it. -/
theorem mail_inside {letter : Char → Bool} {p : Option Char} {x q u rest : Text} {c c' : Caps} (h : Fit letter mailRe p x q c c') (hu : u ≠ [])
    (hr : Boundary rest) (hx : x ++ q = u ++ rest) : ∃ z, u = x ++ z ∧ q = z ++ rest := by
  rcases List.append_eq_append_iff.mp hx with ⟨z, h1, h2⟩ | ⟨z, h1, h2⟩
  · exact ⟨z, h1, h2⟩
  · cases z with
    | nil => exact ⟨[], by simpa using h1.symm, by simpa using h2.symm⟩
    | cons e z =>
      exfalso
      rcases hr with rfl | ⟨d, t, rfl, hd, hat⟩
      · cases h2
      · simp only [List.cons_append, List.cons.injEq] at h2
        obtain ⟨rfl, _⟩ := h2
        obtain ⟨g, y, hgy, hg, hy⟩ := mail_shape h
        rw [h1] at hgy
        have hmem : d ∈ y := by
          cases u with
          | nil => exact absurd rfl hu
          | cons a u =>
            cases g with
            | nil =>
              rw [List.nil_append] at hgy
              rw [← hgy]
              simp
            | cons b g =>
              have : g = [] := by simpa using hg
              subst this
              simp only [List.cons_append, List.nil_append, List.cons.injEq] at hgy
              rw [← hgy.2]
              simp
        rcases hy d hmem with h | h
        · rw [h] at hd
          cases hd
        · exact hat h

/-- A text without `@` before a boundary is kept. -/
theorem mail_skip {letter : Char → Bool} {out : Text → Caps → Text} {rest : Text} (hr : Boundary rest) (u : Text) (hu : '@' ∉ u) (p : Option Char) :
    Regex.replaceAux letter mailRe out 0 p (u ++ rest) = u ++ Regex.replaceAux letter mailRe out 0 (lastOr p u) rest := by
  induction u generalizing p with
  | nil => rfl
  | cons c u ih =>
    rw [List.mem_cons, not_or] at hu
    have hnone : ∀ n caps, matchAt letter mailRe p (c :: (u ++ rest)) = some (n, caps) → False := by
      intro n caps h
      obtain ⟨x, q, hs, hf, _⟩ := matchAt_sound h
      obtain ⟨z, hz, _⟩ := mail_inside hf (u := c :: u) (by simp) hr hs.symm
      have hmem : '@' ∈ c :: u := by
        rw [hz]
        exact List.mem_append_left _ (mail_has_at hf)
      rcases List.mem_cons.mp hmem with h | h
      · exact hu.1 h
      · exact hu.2 h
    rw [List.cons_append, Regex.replaceAux]
    split
    · rename_i n caps h
      exact (hnone _ _ h).elim
    · rw [ih hu.2, ← lastOr_single p c, lastOr_append]
      rfl

theorem doubleFirst_at (a b : Text) (h : '@' ∉ a) : doubleFirst (a ++ '@' :: b) = a ++ '@' :: '@' :: b := by
  induction a with
  | nil => rfl
  | cons c a ih =>
    rw [List.mem_cons, not_or] at h
    rw [List.cons_append, doubleFirst, if_neg (fun hc => h.1 hc.symm), ih h.2]
    rfl

theorem at_not_mem_mail {l : Text} (h : ∀ c ∈ l, mailChar c = true) : '@' ∉ l := by
  intro hm
  exact absurd (h _ hm) (by decide)

/-- An address before a boundary has its `@` doubled. -/
theorem mail_change {letter : Char → Bool} {out : Text → Caps → Text} (hout : ∀ x caps, out x caps = protectEmail x) {p : Option Char} {g w rest : Text}
    (hg : (∃ c, g = [c] ∧ mailChar c = false ∧ c ≠ '@') ∨ g = [] ∧ p = none ∧ w.head? ≠ some '#') (hw : AddressWord w) (hr : Boundary rest)
    (hrest : ∀ p, Regex.replaceAux letter mailRe out 0 p rest = doubled rest) :
    Regex.replaceAux letter mailRe out 0 p (g ++ w ++ rest) = doubled (g ++ w ++ rest) := by
  obtain ⟨l, d₁, d₂, b, rfl, hl, hlc, h₁, h₂, hb⟩ := hw
  have hfit := fit_mail (letter := letter) (p := p) (g := g) (l := l) (d₁ := d₁) (d₂ := d₂)
    (hg.elim (fun ⟨c, h, h', _⟩ => .inl ⟨c, h, h'⟩) (fun ⟨h, h', _⟩ => .inr ⟨h, h'⟩)) hl hlc h₁ h₂ (b ++ rest)
  obtain ⟨n, caps, hm⟩ := matchAt_complete hfit
  have hassoc : g ++ l ++ ['@'] ++ d₁ ++ ('.' :: d₂) ++ (b ++ rest) = g ++ (l ++ '@' :: (d₁ ++ '.' :: (d₂ ++ b))) ++ rest := by simp
  rw [hassoc] at hm
  obtain ⟨x, q, hs, hf, hn⟩ := matchAt_sound hm
  have hgne : '@' ∉ g ++ l := by
    rw [List.mem_append, not_or]
    refine ⟨?_, at_not_mem_mail hlc⟩
    rcases hg with ⟨c, rfl, _, hc⟩ | ⟨rfl, _⟩
    · simpa using fun h => hc h.symm
    · simp
  obtain ⟨e, u, heu⟩ : ∃ e u, g ++ l = e :: u := by
    cases h : g ++ l with
    | nil => simp at h; exact absurd h.2 hl
    | cons e u => exact ⟨e, u, rfl⟩
  have hend : ∀ c ∈ d₁ ++ '.' :: (d₂ ++ b), mailChar c = true := by
    intro c hc
    simp only [List.mem_append, List.mem_cons] at hc
    rcases hc with h | rfl | h | h
    · exact mailChar_of_domain (h₁.2.2 c h)
    · decide
    · exact mailChar_of_domain (h₂.2.2 c h)
    · exact hb c h
  generalize hE : d₁ ++ '.' :: (d₂ ++ b) = E at *
  have hfull : g ++ (l ++ '@' :: E) = e :: (u ++ '@' :: E) := by
    rw [← List.append_assoc, heu]
    rfl
  obtain ⟨z, hz, hq⟩ := mail_inside hf (u := g ++ (l ++ '@' :: E)) (by rw [hfull]; simp) hr hs.symm
  -- the match goes beyond the `@`
  obtain ⟨y, hy⟩ : ∃ y, x = g ++ l ++ '@' :: y ∧ E = y ++ z := by
    rw [← List.append_assoc] at hz
    rcases List.append_eq_append_iff.mp hz.symm with ⟨v, h1, h2⟩ | ⟨v, h1, h2⟩
    · exact absurd (h1 ▸ List.mem_append_left v (mail_has_at hf)) hgne
    · cases v with
      | nil =>
        rw [List.append_nil] at h1
        exact absurd (h1 ▸ mail_has_at hf) hgne
      | cons a v =>
        simp only [List.cons_append, List.cons.injEq] at h2
        exact ⟨v, by rw [h1, h2.1], h2.2⟩
  obtain ⟨hx, hEy⟩ := hy
  have hzat : '@' ∉ z := fun h => at_not_mem_mail hend (by rw [hEy]; exact List.mem_append_right _ h)
  have hyat : '@' ∉ y := fun h => at_not_mem_mail hend (by rw [hEy]; exact List.mem_append_left _ h)
  have hprot : protectEmail x = g ++ l ++ '@' :: '@' :: y := by
    rw [hx, heu, List.cons_append]
    have he : ¬ (e = '@' ∨ e = '#') := by
      rintro (rfl | rfl)
      · exact hgne (by rw [heu]; exact List.mem_cons_self ..)
      · rcases hg with ⟨c, rfl, hc, _⟩ | ⟨rfl, _, hh⟩
        · simp only [List.cons_append, List.cons.injEq] at heu
          rw [heu.1] at hc
          exact absurd hc (by decide)
        · rw [List.nil_append] at heu
          rw [heu] at hh
          exact hh rfl
    rw [protectEmail, if_neg he, ← List.cons_append, doubleFirst_at _ _ (by rw [← heu]; exact hgne)]
  rw [hfull, List.cons_append, Regex.replaceAux]
  rw [hfull, List.cons_append] at hm
  rw [hm]
  have hxlen : x.length = (g ++ l).length + 1 + y.length := by
    rw [hx]
    simp
    omega
  obtain ⟨m, rfl⟩ : ∃ m, n = m + 1 := ⟨n - 1, by omega⟩
  have hcons : e :: (u ++ '@' :: E ++ rest) = x ++ (z ++ rest) := by
    rw [← List.append_assoc, ← hz, hfull]
    rfl
  have htake : (e :: (u ++ '@' :: E ++ rest)).take (m + 1) = x := by
    rw [hcons, hn]
    simp
  have hskip : Regex.replaceAux letter mailRe out m (some e) (u ++ '@' :: E ++ rest) = Regex.replaceAux letter mailRe out 0 (lastOr p x) (z ++ rest) := by
    rw [← replaceAux_skipped, ← hn, ← hcons]
    rfl
  simp only
  rw [htake, hskip, hout, hprot, mail_skip hr z hzat, hrest]
  have hdbl : ∀ t : Text, '@' ∉ t → doubled t = t := fun t h => by rw [doubled_eq, substAt_none h]
  have happ : ∀ a b : Text, doubled (a ++ b) = doubled a ++ doubled b := fun a b => by rw [doubled_eq, doubled_eq, doubled_eq, substAt_append]
  rw [hcons, happ, happ, hdbl z hzat, hx, happ, hdbl _ hgne,
    show doubled ('@' :: y) = '@' :: '@' :: y by rw [doubled, if_pos rfl, hdbl _ hyat]]

theorem onlyAddresses_mail {letter : Char → Bool} {out : Text → Caps → Text} (hout : ∀ x caps, out x caps = protectEmail x) {t : Text}
    (ht : OnlyAddresses t) : (∀ p c, mailChar c = false → c ≠ '@' → Regex.replaceAux letter mailRe out 0 p (c :: t) = doubled (c :: t)) ∧
      (t.head? ≠ some '#' → Regex.replaceAux letter mailRe out 0 none t = doubled t) := by
  have hdbl : ∀ t : Text, '@' ∉ t → doubled t = t := fun t h => by rw [doubled_eq, substAt_none h]
  have happ : ∀ a b : Text, doubled (a ++ b) = doubled a ++ doubled b := fun a b => by rw [doubled_eq, doubled_eq, doubled_eq, substAt_append]
  have key : ∀ (w rest : Text), ((∀ c ∈ w, mailChar c = true) ∨ AddressWord w) → Boundary rest →
      (∀ p, Regex.replaceAux letter mailRe out 0 p rest = doubled rest) →
      (∀ p c, mailChar c = false → c ≠ '@' → Regex.replaceAux letter mailRe out 0 p (c :: (w ++ rest)) = doubled (c :: (w ++ rest))) ∧
      ((w ++ rest).head? ≠ some '#' → Regex.replaceAux letter mailRe out 0 none (w ++ rest) = doubled (w ++ rest)) := by
    intro w rest hw hr hrest
    rcases hw with hw | hw
    · have hat := at_not_mem_mail hw
      refine ⟨fun p c hc hca => ?_, fun _ => ?_⟩
      · have hu : '@' ∉ c :: w := by
          rw [List.mem_cons, not_or]
          exact ⟨fun h => hca h.symm, hat⟩
        have := mail_skip (letter := letter) (out := out) hr (c :: w) hu p
        rw [List.cons_append] at this
        rw [this, hrest, ← List.cons_append, happ, hdbl _ hu]
      · rw [mail_skip hr w hat, hrest, happ, hdbl _ hat]
    · refine ⟨fun p c hc hca => ?_, fun hh => ?_⟩
      · exact mail_change hout (g := [c]) (.inl ⟨c, rfl, hc, hca⟩) hw hr hrest
      · refine mail_change hout (g := []) (.inr ⟨rfl, rfl, ?_⟩) hw hr hrest
        obtain ⟨l, d₁, d₂, b, rfl, hl, _⟩ := hw
        cases l with
        | nil => exact absurd rfl hl
        | cons a l => simpa using hh
  have hnil : ∀ p, Regex.replaceAux letter mailRe out 0 p [] = doubled [] := fun p => rfl
  induction ht with
  | word hw =>
    have := key _ [] (.inl hw) (.inl rfl) hnil
    simpa using this
  | address hw =>
    have := key _ [] (.inr hw) (.inl rfl) hnil
    simpa using this
  | @next w c t hw hc _ ih => exact key w (c :: t) hw (.inr ⟨c, t, rfl, hc⟩) (fun p => ih.1 p c hc.1 hc.2)

end Verif.Lemmas
