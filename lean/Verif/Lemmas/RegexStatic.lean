import Verif.Lemmas.Regex
/-!
# What can be said of the matches of an expression without searching

Three analyses of expressions, computed by the kernel on the rules of razor: no match has a newline, every match has a given factor, every match
leads an automaton to some states.
-/

namespace Verif.Lemmas
open Verif Regex Spec

theorem Item.has_congr {f g : Char → Bool} {c : Char} (h : f c = g c) (i : Item) : i.has f c = i.has g c := by
  cases i <;> simp [Item.has, h]

theorem Cls.has_congr {f g : Char → Bool} {c : Char} (h : f c = g c) (k : Cls) : k.has f c = k.has g c := by
  unfold Cls.has
  rw [show (fun i : Item => i.has f c) = (fun i : Item => i.has g c) from funext (fun i => Item.has_congr h i)]

/-! ## Characters that no match has -/

/-- No class of the expression has the character. -/
def avoidsBy (letter : Char → Bool) (ch : Char) : Re → Bool
  | .eps | .bol _ | .eol _ | .edge => true
  | .cls k => !k.has letter ch
  | .seq a b | .alt a b => avoidsBy letter ch a && avoidsBy letter ch b
  | .opt _ a | .star _ a | .group _ a => avoidsBy letter ch a

/-- The same for a character that is not a letter. -/
def avoids (ch : Char) (r : Re) : Bool := avoidsBy (fun _ => false) ch r

theorem avoidsBy_congr {f g : Char → Bool} {ch : Char} (h : f ch = g ch) (r : Re) : avoidsBy f ch r = avoidsBy g ch r := by
  induction r with
  | eps | bol | eol | edge => rfl
  | cls k => simp only [avoidsBy, Cls.has_congr h]
  | seq a b iha ihb | alt a b iha ihb => simp only [avoidsBy, iha, ihb]
  | opt _ a ih | star _ a ih | group _ a ih => simp only [avoidsBy, ih]

theorem avoidsBy_sound {letter : Char → Bool} {ch : Char} {r : Re} {p : Option Char} {x q : Text} {c c' : Caps}
    (h : Fit letter r p x q c c') (ha : avoidsBy letter ch r = true) : ch ∉ x := by
  induction h with
  | eps | bol | eol | edge | none | done => simp
  | @cls k p d q c hk =>
    intro hm
    have hd : ch = d := by simpa using hm
    subst hd
    simp [avoidsBy, hk] at ha
  | seq _ _ ih₁ ih₂ =>
    simp only [avoidsBy, Bool.and_eq_true] at ha
    simp [ih₁ ha.1, ih₂ ha.2]
  | left _ ih =>
    simp only [avoidsBy, Bool.and_eq_true] at ha
    exact ih ha.1
  | right _ ih =>
    simp only [avoidsBy, Bool.and_eq_true] at ha
    exact ih ha.2
  | one _ ih | group _ ih => exact ih ha
  | more _ _ _ ih₁ ih₂ => simp [ih₁ ha, ih₂ ha]

theorem avoids_sound {letter : Char → Bool} {ch : Char} (hl : letter ch = false) {r : Re} {p : Option Char} {x q : Text} {c c' : Caps}
    (h : Fit letter r p x q c c') (ha : avoids ch r = true) : ch ∉ x := by
  unfold avoids at ha
  rw [avoidsBy_congr (g := letter) hl.symm] at ha
  exact avoidsBy_sound h ha

/-! ## Factors that every match has -/

/-- The character of a class that has only one. -/
def single : Cls → Option Char
  | ⟨false, [.chr c]⟩ => some c
  | _ => none

/-- The parts of an expression, in order: a given character, or anything. -/
def pieces : Re → List (Option Char)
  | .eps | .bol _ | .eol _ | .edge => []
  | .cls k => [single k]
  | .seq a b => pieces a ++ pieces b
  | .group _ a => pieces a
  | .alt _ _ | .opt _ _ | .star _ _ => [none]

/-- A text cut in such parts. -/
def Follows : List (Option Char) → Text → Prop
  | [], x => x = []
  | some c :: l, x => ∃ y, x = c :: y ∧ Follows l y
  | none :: l, x => ∃ u y, x = u ++ y ∧ Follows l y

theorem follows_append {a b : List (Option Char)} {x y : Text} (ha : Follows a x) (hb : Follows b y) : Follows (a ++ b) (x ++ y) := by
  induction a generalizing x with
  | nil =>
    rw [show x = [] from ha]
    exact hb
  | cons o a ih =>
    cases o with
    | none =>
      obtain ⟨u, z, rfl, hz⟩ := ha
      exact ⟨u, z ++ y, by simp, ih hz⟩
    | some c =>
      obtain ⟨z, rfl, hz⟩ := ha
      exact ⟨z ++ y, rfl, ih hz⟩

theorem follows_any (x : Text) : Follows [none] x := ⟨x, [], by simp, rfl⟩

theorem single_some {letter : Char → Bool} {k : Cls} {c d : Char} (h : single k = some c) (hd : k.has letter d = true) : d = c := by
  unfold single at h
  split at h
  · cases h
    simpa [Cls.has, Item.has] using hd
  · cases h

theorem pieces_sound {letter : Char → Bool} {r : Re} {p : Option Char} {x q : Text} {c c' : Caps} (h : Fit letter r p x q c c') :
    Follows (pieces r) x := by
  induction h with
  | eps | bol | eol | edge => rfl
  | @cls k p d q c hk =>
    unfold pieces
    cases hs : single k with
    | none => exact follows_any _
    | some e => exact ⟨[], by rw [single_some hs hk], rfl⟩
  | seq _ _ ih₁ ih₂ => exact follows_append ih₁ ih₂
  | group _ ih => exact ih
  | left | right | none | one | done | more => exact follows_any _

theorem follows_prefix {f : Text} {l : List (Option Char)} {x : Text} (h : Follows (f.map some ++ l) x) : f <+: x := by
  induction f generalizing x with
  | nil => exact List.nil_prefix
  | cons c f ih =>
    obtain ⟨y, rfl, hy⟩ := h
    exact List.cons_prefix_cons.mpr ⟨rfl, ih hy⟩

theorem follows_drop {a l : List (Option Char)} {x : Text} (h : Follows (a ++ l) x) : ∃ y, y <:+ x ∧ Follows l y := by
  induction a generalizing x with
  | nil => exact ⟨x, List.suffix_refl x, h⟩
  | cons o a ih =>
    cases o with
    | none =>
      obtain ⟨u, z, rfl, hz⟩ := h
      obtain ⟨y, hy, hl⟩ := ih hz
      exact ⟨y, hy.trans (List.suffix_append u z), hl⟩
    | some c =>
      obtain ⟨z, rfl, hz⟩ := h
      obtain ⟨y, hy, hl⟩ := ih hz
      exact ⟨y, hy.trans (List.suffix_cons c z), hl⟩

/-- `f` is a factor of the list. -/
def hasFactor (f : List (Option Char)) : List (Option Char) → Bool
  | [] => f.isPrefixOf []
  | o :: l => f.isPrefixOf (o :: l) || hasFactor f l

theorem hasFactor_infix {f l : List (Option Char)} (h : hasFactor f l = true) : f <:+: l := by
  induction l with
  | nil => exact (List.isPrefixOf_iff_prefix.mp h).isInfix
  | cons o l ih =>
    simp only [hasFactor, Bool.or_eq_true] at h
    cases h with
    | inl h => exact (List.isPrefixOf_iff_prefix.mp h).isInfix
    | inr h => exact (ih h).trans (List.suffix_cons o l).isInfix

/-- Every match of the expression has the factor. -/
def needs (f : Text) (r : Re) : Bool := hasFactor (f.map some) (pieces r)

theorem needs_sound {letter : Char → Bool} {r : Re} {p : Option Char} {x q : Text} {c c' : Caps} {f : Text} (h : Fit letter r p x q c c')
    (hn : needs f r = true) : f <:+: x := by
  obtain ⟨a, b, hab⟩ := hasFactor_infix hn
  have hp := pieces_sound h
  rw [← hab, List.append_assoc] at hp
  obtain ⟨y, hy, hl⟩ := follows_drop hp
  exact (follows_prefix hl).isInfix.trans hy.isInfix

/-! ## Automata -/

section
variable {σ : Type} [DecidableEq σ]

/-- The union of two sets. -/
def union (S S' : List σ) : List σ := S ++ S'.filter (fun s => !S.contains s)

/-- Turns of a repetition, from a set of states, until there is nothing new. -/
def turns (f : List σ → List σ) : Nat → List σ → List σ
  | 0, S => S
  | n + 1, S =>
    match (f S).filter (fun s => !S.contains s) with
    | [] => S
    | new => turns f n (S ++ new)

/-- The set itself if the repetition does not leave it, or all the states. -/
def stable (all : List σ) (f : List σ → List σ) (S : List σ) : List σ := if (f S).all (fun s => S.contains s) then S else all

/-- A set of states that the repetition does not leave. -/
def closed (all : List σ) (f : List σ → List σ) (S : List σ) : List σ := stable all f (turns f all.length S)

/-- The states that the automaton may reach by a match from a set of states; `step` gives those that it reaches by a character of a class. -/
def post (all : List σ) (step : Cls → List σ → List σ) : Re → List σ → List σ
  | .eps, S | .bol _, S | .eol _, S | .edge, S => S
  | .cls k, S => step k S
  | .seq a b, S => post all step b (post all step a S)
  | .alt a b, S => union (post all step a S) (post all step b S)
  | .opt _ a, S => union S (post all step a S)
  | .star _ a, S => closed all (post all step a) S
  | .group _ a, S => post all step a S

theorem mem_union {S S' : List σ} {s : σ} (h : s ∈ S ∨ s ∈ S') : s ∈ union S S' := by
  by_cases hs : s ∈ S
  · exact List.mem_append_left _ hs
  · refine List.mem_append_right _ (List.mem_filter.mpr ⟨h.resolve_left hs, by simpa using hs⟩)

theorem mem_turns (f : List σ → List σ) (n : Nat) {S : List σ} {s : σ} (h : s ∈ S) : s ∈ turns f n S := by
  induction n generalizing S with
  | zero => exact h
  | succ n ih =>
    unfold turns
    split
    · exact h
    · exact ih (List.mem_append_left _ h)

theorem mem_stable {all : List σ} (hall : ∀ s, s ∈ all) (f : List σ → List σ) {S : List σ} {s : σ} (h : s ∈ S) : s ∈ stable all f S := by
  unfold stable
  split
  · exact h
  · exact hall s

theorem stable_step {all : List σ} (hall : ∀ s, s ∈ all) (f : List σ → List σ) {S : List σ} {s : σ} (h : s ∈ f (stable all f S)) :
    s ∈ stable all f S := by
  unfold stable at h ⊢
  split
  · rename_i hc
    rw [if_pos hc] at h
    simpa using List.all_eq_true.mp hc s h
  · exact hall s

theorem mem_closed {all : List σ} (hall : ∀ s, s ∈ all) (f : List σ → List σ) {S : List σ} {s : σ} (h : s ∈ S) : s ∈ closed all f S :=
  mem_stable hall f (mem_turns f _ h)

theorem closed_step {all : List σ} (hall : ∀ s, s ∈ all) (f : List σ → List σ) {S : List σ} {s : σ} (h : s ∈ f (closed all f S)) :
    s ∈ closed all f S := stable_step hall f h

theorem closed_closed {all : List σ} (hall : ∀ s, s ∈ all) (f : List σ → List σ) (S : List σ) :
    closed all f (closed all f S) = closed all f S := by
  have h : ∀ s ∈ f (closed all f S), s ∈ closed all f S := fun s hs => closed_step hall f hs
  generalize closed all f S = C at h
  have hf : (f C).filter (fun s => !C.contains s) = [] := by
    rw [List.filter_eq_nil_iff]
    intro s hs
    simpa using h s hs
  have ht : ∀ n, turns f n C = C := by
    intro n
    cases n with
    | zero => rfl
    | succ n =>
      unfold turns
      rw [hf]
  unfold closed stable
  rw [ht, if_pos]
  exact List.all_eq_true.mpr (fun s hs => by simpa using h s hs)

variable {all : List σ} (hall : ∀ s, s ∈ all) {step : Cls → List σ → List σ} {δ : σ → Char → σ} {letter : Char → Bool}
  (hstep : ∀ (k : Cls) (c : Char) (s : σ) (S : List σ), k.has letter c = true → s ∈ S → δ s c ∈ step k S)
include hall hstep

/-- A match leads the automaton to one of the states announced. -/
theorem post_sound {r : Re} {p : Option Char} {x q : Text} {c c' : Caps} (h : Fit letter r p x q c c') :
    ∀ {s : σ} {S : List σ}, s ∈ S → x.foldl δ s ∈ post all step r S := by
  induction h with
  | eps | bol | eol | edge => exact fun hs => hs
  | cls hk => exact fun hs => hstep _ _ _ _ hk hs
  | seq _ _ ih₁ ih₂ =>
    intro s S hs
    rw [List.foldl_append]
    exact ih₂ (ih₁ hs)
  | left _ ih => exact fun hs => mem_union (.inl (ih hs))
  | right _ ih => exact fun hs => mem_union (.inr (ih hs))
  | none => exact fun hs => mem_union (.inl hs)
  | one _ ih => exact fun hs => mem_union (.inr (ih hs))
  | done => exact fun hs => mem_closed hall _ hs
  | @more g a p x y q c c₁ c₂ _ _ h₂ ih₁ ih₂ =>
    intro s S hs
    rw [List.foldl_append]
    have h1 : x.foldl δ s ∈ closed all (post all step a) S := closed_step hall _ (ih₁ (mem_closed hall _ hs))
    have h2 := ih₂ h1
    unfold post at h2 ⊢
    rwa [closed_closed hall] at h2
  | group _ ih => exact fun hs => ih hs

end

end Verif.Lemmas
