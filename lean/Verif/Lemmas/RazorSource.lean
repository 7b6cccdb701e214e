import Verif.Lemmas.RazorSplit
import Verif.Lemmas.RazorValue
/-!
# The texts of razor expressions
-/

namespace Verif.Lemmas
open Verif Text Razor Prepare Spec

/-! ## What the rewriting of the operators needs to know of a text -/

structure Fine (s : Text) : Prop where
  closed : Closed s
  spade : '♠' ∉ s
  gapEnd : GapEnd s
  gapStart : GapStart s
  lastKept : LastKept s
  firstKept : FirstKept s
  wordEnd : NoWordEnd s
  wordStart : NoWordStart s
  signEnd : NoSignEnd s
  signStart : NoSignStart s

def NotWord (s : Text) : Prop := ∀ p ∈ wordTable, s ≠ p.1

/-- The characters of the operators that are words. -/
def wordChars : Text := c!"abcdefghijklmnopqrstuvwxyz"

theorem word_letters : ∀ p ∈ wordTable, p.1 ≠ [] ∧ ∀ c ∈ p.1, c ∈ wordChars := by decide +kernel

/-- Before a text, something that does not end like a word. -/
theorem wordEnd_append {a b : Text} (hb : NoWordEnd b) (h : ∀ c, a.getLast? = some c → c ∉ wordChars ∧ (c = ' ' → NotWord b)) : NoWordEnd (a ++ b) := by
  intro p hp hs
  rcases suffix_split hs with h' | ⟨t, ht, hta, e⟩
  · exact hb p hp h'
  · obtain ⟨t', c, rfl⟩ : ∃ t' c, t = t' ++ [c] := by
      rcases List.eq_nil_or_concat t with h | ⟨t', c, h⟩
      · exact absurd h ht
      · exact ⟨t', c, by rw [h, List.concat_eq_append]⟩
    obtain ⟨h1, h2⟩ := h c (singleton_suffix_iff.mp ((List.suffix_append t' [c]).trans hta))
    cases t' with
    | nil =>
      simp only [List.nil_append, List.cons_append, List.cons.injEq] at e
      exact h2 e.1.symm p hp e.2.symm
    | cons d t' =>
      simp only [List.cons_append, List.cons.injEq] at e
      exact h1 ((word_letters p hp).2 c (by rw [e.2]; simp))

theorem wordStart_append {a b : Text} (ha : NoWordStart a) (h : ∀ c, b.head? = some c → c ∉ wordChars ∧ (c = ' ' → NotWord a)) : NoWordStart (a ++ b) := by
  intro p hp hs
  rcases prefix_split hs with h' | ⟨t, ht, htb, e⟩
  · exact ha p hp h'
  · cases t with
    | nil => exact ht rfl
    | cons c t =>
      obtain ⟨h1, h2⟩ := h c (singleton_prefix_iff.mp (List.IsPrefix.trans ⟨t, rfl⟩ htb))
      rcases List.eq_nil_or_concat t with rfl | ⟨t', d, rfl⟩
      · have := List.append_inj' e rfl
        exact h2 (List.cons.inj this.2).1.symm p hp this.1.symm
      · rw [List.concat_eq_append, ← List.cons_append, ← List.append_assoc] at e
        have := List.append_inj' e rfl
        exact h1 ((word_letters p hp).2 c (by rw [this.1]; simp))

theorem lastOf_append {a b : Text} (hb : b ≠ []) : (a ++ b).getLast? = b.getLast? := by
  rw [List.getLast?_append]
  cases h : b.getLast? with
  | none => exact absurd (List.getLast?_eq_none_iff.mp h) hb
  | some c => rfl

theorem signEnd_append {a b : Text} (h : b ≠ []) (hb : NoSignEnd b) : NoSignEnd (a ++ b) := by
  intro c hc hs
  rw [singleton_suffix_iff, lastOf_append h, ← singleton_suffix_iff] at hs
  exact hb c hc hs

theorem signStart_append {a b : Text} (h : a ≠ []) (ha : NoSignStart a) : NoSignStart (a ++ b) := by
  intro c hc hs
  obtain ⟨d, t, rfl⟩ := List.exists_cons_of_ne_nil h
  rw [singleton_prefix_iff] at hs
  exact ha c hc (singleton_prefix_iff.mpr hs)

theorem keptLast_append {a b : Text} (h : b ≠ []) (hb : LastKept b) : LastKept (a ++ b) := by
  intro c hc
  rw [lastOf_append h] at hc
  exact hb c hc

theorem keptFirst_append {a b : Text} (h : a ≠ []) (ha : FirstKept a) : FirstKept (a ++ b) := by
  intro c hc
  obtain ⟨d, t, rfl⟩ := List.exists_cons_of_ne_nil h
  exact ha c hc

theorem kept_both {a b : Text} (ha : LastKept a) (hb : LastKept b) : LastKept (a ++ b) := by
  by_cases h : b = []
  · subst h
    rw [List.append_nil]
    exact ha
  · exact keptLast_append h hb

theorem kept_both' {a b : Text} (ha : FirstKept a) (hb : FirstKept b) : FirstKept (a ++ b) := by
  by_cases h : a = []
  · subst h
    exact hb
  · exact keptFirst_append h ha

theorem kept_free {x : Text} (h : ∀ c ∈ x, c ∉ c!"[:]") : Gapless x ∧ LastKept x ∧ FirstKept x := by
  have up1 : ∀ c ∈ c!"[:", c ∈ c!"[:]" := by decide
  have up2 : ∀ c ∈ c!"]:", c ∈ c!"[:]" := by decide
  exact ⟨gapless_free fun c hc hm => h c hc (up1 c hm), fun c hc hm => h c (List.mem_of_getLast? hc) (up1 c hm),
    fun c hc hm => h c (List.mem_of_mem_head? hc) (up2 c hm)⟩

/-- The gaps of three texts: around the middle one, there are none. -/
theorem gaps_around {a x b : Text} (ha : GapEnd a) (ha' : LastKept a) (hb : GapStart b) (hb' : FirstKept b) (hx : Gapless x) {u v : Text} (hu : u <:+ a) (hpu : Plain u)
    (hv : v <+: b) (hpv : Plain v) : Gapless (u ++ (x ++ v)) := by
  by_cases he : x = []
  · subst he
    exact gapless_join (ha u hu hpu) (hb v hv hpv) (.inl (kept_last ha' hu))
  · exact gapless_join (ha u hu hpu) (gapless_join hx (hb v hv hpv) (.inr (kept_first hb' hv))) (.inl (kept_last ha' hu))

/-- Texts that are not rewritten with what is beside them. -/
structure Neutral (x : Text) : Prop where
  plain : Plain x
  spade : '♠' ∉ x
  gaps : Gapless x
  letters : ∀ c ∈ x, c ∉ wordChars

theorem head_mem {x : Text} {c : Char} (h : x.head? = some c) : c ∈ x := by
  cases x with
  | nil => cases h
  | cons d x => cases h; exact List.mem_cons_self ..

theorem last_mem {x : Text} {c : Char} (h : x.getLast? = some c) : c ∈ x := List.mem_of_getLast? h

/-- A text without letters around which nothing changes. -/
theorem fine_neutral {a x b : Text} (ha : Fine a) (hb : Fine b) (hx : Neutral x) (hne : x ≠ []) (h1 : ∀ c ∈ x, c ≠ ' ') (h2 : NoSignEnd (x ++ b)) (h3 : NoSignStart (a ++ x))
    (h4 : LastKept (x ++ b)) (h5 : FirstKept (a ++ x)) :
    Fine (a ++ (x ++ b)) := by
  refine ⟨closed_append ha.closed (closed_append (plain_closed hx.plain) hb.closed), ?_,
    gapEnd_append ha.gapEnd (gapEnd_append (gapless_end hx.gaps) hb.gapEnd (.inr hb.firstKept)) (.inl ha.lastKept),
    gapStart_append ha.gapStart (gapStart_append (gapless_start hx.gaps) hb.gapStart (.inr hb.firstKept)) (.inl ha.lastKept),
    keptLast_append (by simp [hne]) h4, by rw [← List.append_assoc]; exact keptFirst_append (by simp [hne]) h5, ?_, ?_, ?_, ?_⟩
  · simp [ha.spade, hb.spade, hx.spade]
  · rw [← List.append_assoc]
    refine wordEnd_append hb.wordEnd fun c hc => ?_
    rw [lastOf_append hne] at hc
    exact ⟨hx.letters c (last_mem hc), fun e => absurd e (h1 c (last_mem hc))⟩
  · refine wordStart_append ha.wordStart fun c hc => ?_
    obtain ⟨d, t, rfl⟩ := List.exists_cons_of_ne_nil hne
    cases hc
    exact ⟨hx.letters _ (List.mem_cons_self ..), fun e => absurd e (h1 _ (List.mem_cons_self ..))⟩
  · exact signEnd_append (by simp [hne]) h2
  · rw [← List.append_assoc]
    exact signStart_append (by simp [hne]) h3

theorem fine_nil : Fine [] where
  closed := plain_closed nofun
  spade := nofun
  gapEnd := gapless_end (gapless_free nofun)
  gapStart := gapless_start (gapless_free nofun)
  lastKept := nofun
  firstKept := nofun
  wordEnd := by intro p _ h; exact absurd (List.suffix_nil.mp h) (by simp)
  wordStart := by intro p _ h; exact absurd (List.prefix_nil.mp h) (by simp)
  signEnd := by intro c _ h; exact absurd (List.suffix_nil.mp h) (by simp)
  signStart := by intro c _ h; exact absurd (List.prefix_nil.mp h) (by simp)

theorem spaces_plain {l : Text} (h : Spaces l) : Plain l ∧ '♠' ∉ l ∧ (Gapless l ∧ LastKept l ∧ FirstKept l) ∧ ∀ c ∈ l, c ∉ wordChars := by
  refine ⟨fun c hc hq => ?_, fun hm => absurd (h _ hm) (by decide), kept_free fun c hc => by rw [h c hc]; decide, fun c hc => ?_⟩
  · rw [h c hc] at hq
    rcases hq with e | e <;> exact absurd e (by decide)
  · rw [h c hc]
    decide

theorem fine_left {l s : Text} (hl : Spaces l) (hs : Fine s) (hn : NotWord s) : Fine (l ++ s) := by
  cases l with
  | nil => exact hs
  | cons d l =>
    obtain ⟨p1, p2, p3, p4⟩ := spaces_plain hl
    refine ⟨closed_append (plain_closed p1) hs.closed, ?_, gapEnd_append (gapless_end p3.1) hs.gapEnd (.inl p3.2.1), gapStart_append (gapless_start p3.1) hs.gapStart (.inl p3.2.1),
      kept_both p3.2.1 hs.lastKept, keptFirst_append (by simp) p3.2.2, ?_, ?_, ?_, ?_⟩
    · intro hm
      rcases List.mem_append.mp hm with hm | hm
      · exact p2 hm
      · exact hs.spade hm
    · exact wordEnd_append hs.wordEnd fun c hc => ⟨p4 c (last_mem hc), fun _ => hn⟩
    · intro p hp h
      obtain ⟨c, t, e⟩ := List.exists_cons_of_ne_nil (word_letters p hp).1
      have hc := (word_letters p hp).2 c (by rw [e]; simp)
      rw [e, List.cons_append, List.cons_append, List.cons_prefix_cons] at h
      rw [h.1, hl d (List.mem_cons_self ..)] at hc
      exact absurd hc (by decide)
    · intro c hc h
      rw [singleton_suffix_iff] at h
      by_cases hse : s = []
      · subst hse
        rw [List.append_nil] at h
        rw [hl c (last_mem h)] at hc
        exact absurd hc (by decide)
      · rw [lastOf_append hse, ← singleton_suffix_iff] at h
        exact hs.signEnd c hc h
    · intro c hc h
      rw [singleton_prefix_iff] at h
      rw [hl c (Option.some.inj h ▸ List.mem_cons_self ..)] at hc
      exact absurd hc (by decide)

theorem fine_right {s r : Text} (hr : Spaces r) (hs : Fine s) (hn : NotWord s) : Fine (s ++ r) := by
  by_cases hre : r = []
  · subst hre
    rw [List.append_nil]
    exact hs
  · obtain ⟨p1, p2, p3, p4⟩ := spaces_plain hr
    refine ⟨closed_append hs.closed (plain_closed p1), ?_, gapEnd_append hs.gapEnd (gapless_end p3.1) (.inl hs.lastKept), gapStart_append hs.gapStart (gapless_start p3.1) (.inl hs.lastKept),
      keptLast_append hre p3.2.1, kept_both' hs.firstKept p3.2.2, ?_, ?_, ?_, ?_⟩
    · intro hm
      rcases List.mem_append.mp hm with hm | hm
      · exact hs.spade hm
      · exact p2 hm
    · intro p hp h
      obtain ⟨t, d, e⟩ : ∃ t d, p.1 = t ++ [d] := by
        rcases List.eq_nil_or_concat p.1 with h | ⟨t, d, h⟩
        · exact absurd h (word_letters p hp).1
        · exact ⟨t, d, by rw [h, List.concat_eq_append]⟩
      have hd := (word_letters p hp).2 d (by rw [e]; simp)
      have : (s ++ r).getLast? = some d := singleton_suffix_iff.mp (List.IsSuffix.trans ⟨' ' :: t, by rw [e]; simp⟩ h)
      rw [lastOf_append hre] at this
      rw [hr d (last_mem this)] at hd
      exact absurd hd (by decide)
    · refine wordStart_append hs.wordStart fun c hc => ⟨p4 c (head_mem hc), fun _ => hn⟩
    · intro c hc h
      rw [singleton_suffix_iff, lastOf_append hre] at h
      rw [hr c (last_mem h)] at hc
      exact absurd hc (by decide)
    · intro c hc h
      by_cases hse : s = []
      · subst hse
        rw [List.nil_append, singleton_prefix_iff] at h
        rw [hr c (head_mem h)] at hc
        exact absurd hc (by decide)
      · exact signStart_append hse hs.signStart c hc h

theorem notWord_space {s : Text} (h : ∃ c ∈ s, c ∉ wordChars) : NotWord s := by
  intro p hp e
  obtain ⟨c, hc, hn⟩ := h
  exact hn ((word_letters p hp).2 c (e ▸ hc))

theorem notWord_left {l s : Text} (hl : Spaces l) (hs : NotWord s) : NotWord (l ++ s) := by
  cases l with
  | nil => exact hs
  | cons d l => exact notWord_space ⟨d, by simp, (spaces_plain hl).2.2.2 d (List.mem_cons_self ..)⟩

theorem notWord_right {s r : Text} (hr : Spaces r) (hs : NotWord s) : NotWord (s ++ r) := by
  cases r with
  | nil => rw [List.append_nil]; exact hs
  | cons d l => exact notWord_space ⟨d, by simp, (spaces_plain hr).2.2.2 d (List.mem_cons_self ..)⟩

/-! ## The texts given to Go -/

theorem prepare_nil (o : Orders) (ho : SomeOrder o) : prepare o [] = some [] := by
  have h1 : ∀ k v : Text, replaceAll k v [] = [] := fun k v => replaceAll_nil ..
  have h2 : ∀ order : List (Text × Text), replaceEach order [] = [] := by
    intro order
    induction order with
    | nil => rfl
    | cons k order ih =>
      show replaceEach order (replaceAll k.1 k.2 []) = []
      rw [h1, ih]
  rw [prepare_plain ho (by simp)]
  unfold rewrite
  rw [h2, dots, h2, h2]
  rfl

theorem prepare_right {o : Orders} (ho : SomeOrder o) {s r m : Text} (hs : Fine s) (hn : NotWord s) (hr : Spaces r) (h : prepare o s = some m) :
    prepare o (s ++ r) = some (m ++ r) := by
  induction r generalizing s m with
  | nil => simp [h]
  | cons c r ih =>
    have hc : c = ' ' := hr c (List.mem_cons_self ..)
    subst hc
    have hr' : Spaces r := fun d hd => hr d (List.mem_cons_of_mem _ hd)
    have h1 : Spaces [' '] := by intro c hc; simpa using hc
    have e : s ++ ' ' :: r = (s ++ [' ']) ++ r := by simp
    have e' : m ++ ' ' :: r = (m ++ [' ']) ++ r := by simp
    rw [e, e']
    refine ih (fine_right h1 hs hn) (notWord_right h1 hn) hr' ?_
    obtain ⟨A, B, a1, a2, a3⟩ := prepare_space ho (b := []) hs.closed hs.spade (by simp) hs.wordEnd fine_nil.wordStart
    rw [h] at a1
    rw [prepare_nil o ho] at a2
    cases a1
    cases a2
    exact a3

theorem prepare_left {o : Orders} (ho : SomeOrder o) {s l m : Text} (hs : Fine s) (hn : NotWord s) (hl : Spaces l) (h : prepare o s = some m) :
    prepare o (l ++ s) = some (l ++ m) := by
  induction l with
  | nil => simp [h]
  | cons c l ih =>
    have hc : c = ' ' := hl c (List.mem_cons_self ..)
    subst hc
    have hl' : Spaces l := fun d hd => hl d (List.mem_cons_of_mem _ hd)
    have hf := fine_left hl' hs hn
    obtain ⟨A, B, a1, a2, a3⟩ := prepare_space ho (a := []) (b := l ++ s) fine_nil.closed (by simp) hf.spade fine_nil.wordEnd hf.wordStart
    rw [prepare_nil o ho] at a1
    rw [ih hl'] at a2
    cases a1
    cases a2
    exact a3

end Verif.Lemmas
