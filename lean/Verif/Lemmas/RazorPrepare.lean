import Verif.Spec.PrepareSpec
import Verif.Lemmas.Protect
import Verif.Lemmas.Replace
import Verif.Lemmas.RazorIndex
/-!
# Lemmas about the preparation of razor expressions
-/

namespace Verif.Lemmas
open Verif Text Razor Prepare Spec Protect

/-! ## Literals -/

/-- A rewriting that treats separately what is on both sides of a double quote, and adds no quote. -/
structure Quiet (f : Text → Text) : Prop where
  cut : ∀ a b, f (a ++ '"' :: b) = f a ++ '"' :: f b
  token : ∀ ds, (∀ c ∈ ds, c.isDigit = true) → f ('♠' :: ds) = '♠' :: ds
  marker : ∀ s, '♠' ∉ s → '♠' ∉ f s
  plain : ∀ s, Plain s → Plain (f s)

theorem quiet_comp {f g : Text → Text} (hf : Quiet f) (hg : Quiet g) : Quiet (fun s => f (g s)) where
  cut a b := by rw [hg.cut, hf.cut]
  token ds h := by rw [hg.token ds h, hf.token ds h]
  marker s h := hf.marker _ (hg.marker s h)
  plain s h := hf.plain _ (hg.plain s h)

theorem mem_replaceAll {k v s : Text} {c : Char} (h : c ∈ replaceAll k v s) : c ∈ v ∨ c ∈ s := by
  by_cases hk : k = []
  · subst hk
    rw [replaceAll, if_pos rfl] at h
    exact .inr h
  · revert h
    refine replace_induction hk (P := fun s => c ∈ replaceAll k v s → c ∈ v ∨ c ∈ s) ?_ ?_ ?_ s
    · intro h
      rw [replaceAll_nil] at h
      exact .inr h
    · intro s ih h
      rw [replaceAll_match _ _ hk] at h
      rcases List.mem_append.mp h with h | h
      · exact .inl h
      · rcases ih h with h | h
        · exact .inl h
        · exact .inr (List.mem_append_right _ h)
    · intro d s hp ih h
      rw [replaceAll_skip hp] at h
      rcases List.mem_cons.mp h with h | h
      · exact .inr (h ▸ List.mem_cons_self ..)
      · rcases ih h with h | h
        · exact .inl h
        · exact .inr (List.mem_cons_of_mem _ h)

/-- A replacement that is quiet. -/
def quietPair (k : Text × Text) : Bool :=
  !k.1.isEmpty && !k.1.elem '"' && !k.1.elem '♠' && k.1.any (fun c => !c.isDigit) && !k.2.elem '"' && !k.2.elem '♠' && !k.2.elem '`'

theorem quiet_replace {k : Text × Text} (h : quietPair k = true) : Quiet (fun s => replaceAll k.1 k.2 s) := by
  simp only [quietPair, Bool.and_eq_true, Bool.not_eq_true', List.isEmpty_eq_false_iff, List.elem_eq_mem, decide_eq_false_iff_not, List.any_eq_true] at h
  obtain ⟨⟨⟨⟨⟨⟨h1, h2⟩, h3⟩, d, hd, hd'⟩, h5⟩, h6⟩, h7⟩ := h
  refine ⟨fun a b => ?_, fun ds hds => ?_, fun s hs hm => ?_, fun s hs c hc => ?_⟩
  · have := replaceAll_cut (v := k.2) h1 (q := ['"']) (by simp) (by simpa using h2) b a
    simpa using this
  · refine replaceAll_free (fun hi => ?_)
    have := hi.subset hd
    rcases List.mem_cons.mp this with rfl | h
    · exact h3 hd
    · rw [hds d h] at hd'
      simp at hd'
  · rcases mem_replaceAll hm with h | h
    · exact h6 h
    · exact hs h
  · intro hq
    rcases mem_replaceAll hc with h | h
    · rcases hq with rfl | rfl
      · exact h7 h
      · exact h5 h
    · exact hs c h hq

theorem quiet_each {order : List (Text × Text)} (h : ∀ k ∈ order, quietPair k = true) : Quiet (replaceEach order) := by
  induction order with
  | nil => exact ⟨fun _ _ => rfl, fun _ _ => rfl, fun _ h => h, fun _ h => h⟩
  | cons k order ih =>
    have := quiet_comp (ih fun k' hk' => h k' (List.mem_cons_of_mem _ hk')) (quiet_replace (h k (List.mem_cons_self ..)))
    exact this

theorem dots_quote (p : Place) (b : Text) : dots p ('"' :: b) = '"' :: dots .free b := by
  cases p <;> rfl

theorem dots_cut (a b : Text) : ∀ p, dots p (a ++ '"' :: b) = dots p a ++ '"' :: dots .free b := by
  induction a with
  | nil => intro p; rw [List.nil_append, dots_quote]; rfl
  | cons c a ih =>
    intro p
    cases p <;> simp only [List.cons_append, dots] <;> (try split) <;> simp [ih]

theorem dots_free {s : Text} (h : '.' ∉ s) : ∀ p, dots p s = s := by
  induction s with
  | nil => intro p; rfl
  | cons c s ih =>
    intro p
    simp only [List.mem_cons, not_or] at h
    cases p <;> simp only [dots] <;> (try split) <;> first | (rename_i hc; exact absurd hc.symm h.1) | (rw [ih h.2])

theorem mem_dots {s : Text} {c : Char} : ∀ {p}, c ∈ dots p s → c ∈ dotMark ∨ c ∈ s := by
  induction s with
  | nil => intro p h; exact .inr h
  | cons d s ih =>
    intro p h
    have key : ∀ q, c ∈ d :: dots q s → c ∈ dotMark ∨ c ∈ d :: s := by
      intro q h
      rcases List.mem_cons.mp h with h | h
      · exact .inr (h ▸ List.mem_cons_self ..)
      · rcases ih h with h | h
        · exact .inl h
        · exact .inr (List.mem_cons_of_mem _ h)
    cases p <;> simp only [dots] at h
    · split at h
      · rcases List.mem_append.mp h with h | h
        · exact .inl h
        · rcases ih h with h | h
          · exact .inl h
          · exact .inr (List.mem_cons_of_mem _ h)
      · exact key _ h
    · exact key _ h
    · split at h <;> exact key _ h
    · split at h <;> exact key _ h

theorem quiet_dots : Quiet (dots .free) := by
  refine ⟨fun a b => dots_cut a b .free, fun ds h => dots_free (fun hm => ?_) _, fun s hs hm => ?_, fun s hs c hc hq => ?_⟩
  · rcases List.mem_cons.mp hm with h' | h'
    · exact absurd h' (by decide)
    · exact absurd (h _ h') (by decide)
  · rcases mem_dots hm with h | h
    · exact absurd h (by decide)
    · exact hs h
  · rcases mem_dots hc with h | h
    · rcases hq with rfl | rfl <;> exact absurd h (by decide)
    · exact hs c h hq

/-- What is opened cannot become a negative number. -/
def Dead (o : Option Text) : Prop := ∀ w, o = some w → ∀ u, isNegative (w ++ u) = false

theorem dead_none : Dead none := fun _ h => nomatch h

theorem dead_step {o : Option Text} (h : Dead o) (c : Char) : Dead (o.map fun w => w ++ [c]) := by
  intro w hw u
  cases o with
  | none => cases hw
  | some v =>
    cases hw
    have := h v rfl (c :: u)
    simpa using this

theorem missing_dead {o o' : Option Text} (h : Dead o) (h' : Dead o') (c : Char) (n : Option Char) : missing o c n = missing o' c n := by
  have : ∀ {o}, Dead o → o.any isNegative = false := by
    intro o h
    cases o with
    | none => rfl
    | some w =>
      have := h w rfl []
      simpa using this
  unfold missing
  rw [this h, this h']

theorem completeFrom_dead {s : Text} : ∀ {o o' : Option Text}, Dead o → Dead o' → completeFrom o s = completeFrom o' s := by
  induction s with
  | nil => intro o o' _ _; rfl
  | cons c s ih =>
    intro o o' h h'
    simp only [completeFrom, missing_dead h h']
    congr 2
    split
    · rfl
    · exact ih (dead_step h c) (dead_step h' c)

theorem isNegative_not {w : Text} {c : Char} (hc : c ∈ w) (h1 : c ≠ '-') (h2 : c.isDigit = false) : isNegative w = false := by
  unfold isNegative
  split
  · rename_i d
    rcases List.mem_cons.mp hc with h | h
    · exact absurd h h1
    · rw [Bool.and_eq_false_iff]
      right
      rw [Bool.eq_false_iff]
      intro ha
      rw [List.all_eq_true.mp ha c h] at h2
      cases h2
  · rfl

/-- What is opened after a text. -/
def openedBy (o : Option Text) (a : Text) : Option Text := a.foldl (fun o c => if c = '[' then some [] else o.map fun w => w ++ [c]) o

/-- The completion of slices is separate on both sides of a place where nothing closes. -/
theorem completeFrom_cut {b : Text} (h : ∀ c, b.head? = some c → c ≠ ']' ∧ c ≠ ':') : ∀ (a : Text) (o : Option Text),
    completeFrom o (a ++ b) = completeFrom o a ++ completeFrom (openedBy o a) b := by
  intro a
  induction a with
  | nil => intro o; rfl
  | cons c a ih =>
    intro o
    have : missing o c (a ++ b).head? = missing o c a.head? := by
      cases a with
      | nil =>
        cases b with
        | nil => rfl
        | cons d b =>
          obtain ⟨h1, h2⟩ := h d rfl
          simp [missing, h1, h2]
      | cons d a => rfl
    simp only [List.cons_append, completeFrom, openedBy, List.foldl_cons]
    rw [ih, this, List.append_assoc]
    rfl

theorem completeFrom_free {s : Text} (h1 : '[' ∉ s) (h2 : ':' ∉ s) : ∀ o, completeFrom o s = s := by
  induction s with
  | nil => intro o; rfl
  | cons c s ih =>
    intro o
    simp only [List.mem_cons, not_or] at h1 h2
    have : missing o c s.head? = [] := by simp [missing, Ne.symm h1.1, Ne.symm h2.1]
    rw [completeFrom, this, ih h1.2 h2.2, List.nil_append]

theorem missing_mem (o : Option Text) (c : Char) (n : Option Char) : ∀ d ∈ missing o c n, d ∈ c!"0:-1" := by
  have h1 : ∀ d ∈ T "0:-1", d ∈ c!"0:-1" := by decide
  have h2 : ∀ d ∈ T "0", d ∈ c!"0:-1" := by decide
  have h3 : ∀ d ∈ T "-1", d ∈ c!"0:-1" := by decide
  unfold missing
  split
  · exact h1
  · split
    · exact h2
    · split
      · split
        · exact h2
        · exact h3
      · intro d hd
        cases hd

theorem mem_completeFrom {s : Text} {c : Char} : ∀ {o}, c ∈ completeFrom o s → c ∈ c!"0:-1" ∨ c ∈ s := by
  induction s with
  | nil => intro o h; exact .inr h
  | cons d s ih =>
    intro o h
    simp only [completeFrom, List.mem_cons, List.mem_append] at h
    rcases h with h | h | h
    · exact .inr (h ▸ List.mem_cons_self ..)
    · exact .inl (missing_mem _ _ _ _ h)
    · rcases ih h with h | h
      · exact .inl h
      · exact .inr (List.mem_cons_of_mem _ h)

theorem quiet_index : Quiet indexExpression := by
  have he : indexExpression = complete := funext indexExpression_eq
  rw [he]
  refine ⟨fun a b => ?_, fun ds h => ?_, fun s hs hm => ?_, fun s hs c hc hq => ?_⟩
  · unfold complete
    rw [completeFrom_cut (by rintro c ⟨⟩; decide)]
    have hm : ∀ o n, missing o '"' n = [] := by
      intro o n
      simp [missing]
    simp only [completeFrom, hm, List.nil_append, if_neg (show ¬ ('"' : Char) = '[' by decide)]
    refine congrArg (fun x => completeFrom none a ++ '"' :: x) (completeFrom_dead ?_ dead_none)
    intro w hw u
    cases ho : openedBy none a with
    | none =>
      rw [ho] at hw
      cases hw
    | some v =>
      rw [ho] at hw
      cases hw
      exact isNegative_not (c := '"') (by simp) (by decide) (by decide)
  · refine completeFrom_free ?_ ?_ _ <;> intro hm <;> rcases List.mem_cons.mp hm with h' | h'
    · exact absurd h' (by decide)
    · exact absurd (h _ h') (by decide)
    · exact absurd h' (by decide)
    · exact absurd (h _ h') (by decide)
  · rcases mem_completeFrom hm with h | h
    · exact absurd h (by decide)
    · exact hs h
  · rcases mem_completeFrom hc with h | h
    · rcases hq with rfl | rfl <;> exact absurd h (by decide)
    · exact hs c h hq

theorem quiet_rewrite {o : Orders} (h : SomeOrder o) : Quiet (rewrite o) := by
  have h1 : ∀ k ∈ reserved, quietPair k = true := by decide
  have h2 : ∀ k ∈ Prepare.signs, quietPair k = true := by decide
  have h3 : ∀ k ∈ wordOperators, quietPair k = true := by decide
  have := quiet_comp quiet_index (quiet_comp (quiet_each fun k hk => h3 k (h.operators.subset hk)) (quiet_comp (quiet_each fun k hk => h2 k (h.signs.subset hk))
    (quiet_comp quiet_dots (quiet_each fun k hk => h1 k (h.words.subset hk)))))
  exact this

theorem quiet_marked {f : Text → Text} (hf : Quiet f) (tail : Text) : ∀ (pieces : List (Text × Text)) (n : Nat),
    f (marked token n pieces tail) = marked token n (pieces.map fun p => (f p.1, p.2)) (f tail) := by
  intro pieces
  induction pieces with
  | nil => intro n; rfl
  | cons p pieces ih =>
    intro n
    have ht : ∀ a b, f (a ++ token n ++ b) = f a ++ token n ++ f b := by
      intro a b
      have e : a ++ token n ++ b = a ++ '"' :: (('♠' :: Nat.toDigits 10 n) ++ '"' :: b) := by simp [token]
      rw [e, hf.cut, hf.cut, hf.token _ (fun c hc => Nat.isDigit_of_mem_toDigits (by decide) (by decide) hc)]
      simp [token]
    simp only [marked, List.map_cons]
    rw [ht, ih]

theorem marked_texts (mark : Nat → Text) (tail : Text) (pieces : List (Text × Text)) (g : Text → Text) : ∀ n,
    marked mark n (pieces.map fun p => (p.1, g p.2)) tail = marked mark n pieces tail := by
  induction pieces with
  | nil => intro n; rfl
  | cons p pieces ih =>
    intro n
    simp only [marked, List.map_cons, ih]

/-- The texts between the literals are rewritten one by one. -/
theorem prepare_cut {o : Orders} (h : SomeOrder o) {s : Text} {pieces : List (Text × Text)} {tail : Text} (hs : '♠' ∉ s) (hc : Cut s pieces tail) :
    prepare o s = some ((pieces.map fun p => rewrite o p.1 ++ replaceAll ['@'] atSign p.2).flatten ++ rewrite o tail) := by
  have hf := quiet_rewrite h
  obtain ⟨pieces', tail', hc', he⟩ := protectLoop_cut s.length 0 s (Nat.le_refl _)
  obtain ⟨rfl, rfl⟩ := cut_unique hc hc'
  obtain ⟨h1, h2, _⟩ := cut_text hc
  unfold prepare protect restore
  rw [he]
  simp only
  rw [quiet_marked hf]
  have hm : marked token 0 (pieces.map fun p => (rewrite o p.1, p.2)) (rewrite o tail) =
      marked token 0 (pieces.map fun p => (rewrite o p.1, replaceAll ['@'] atSign p.2)) (rewrite o tail) := by
    have := marked_texts token (rewrite o tail) (pieces.map fun p => (rewrite o p.1, p.2)) (replaceAll ['@'] atSign) 0
    rw [← this]
    simp [Function.comp_def]
  rw [hm, restore_marked]
  · simp [Function.comp_def]
  · intro p hp
    obtain ⟨q, hq, rfl⟩ := List.mem_map.mp hp
    exact hf.plain _ (h2 q hq).1
  · intro i p hp
    simp only [List.getElem?_map, Nat.zero_add] at hp ⊢
    cases hi : pieces[i]? with
    | none => simp [hi] at hp
    | some q =>
      simp only [hi, Option.map_some, Option.some.injEq] at hp ⊢
      rw [← hp]
  · intro a b hab
    cases hm : matchToken b with
    | none => rfl
    | some r =>
      obtain ⟨ds, rest, rfl, _⟩ := matchToken_some (i := r.1) (len := r.2) hm
      exact absurd (by rw [hab]; simp) (hf.marker tail (fun ht => hs (by rw [h1]; exact List.mem_append_right _ ht)))

end Verif.Lemmas
