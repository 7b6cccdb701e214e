import Verif.Spec.RuleSpec
/-!
# Lemmas about the generation of razor rules
-/

namespace Verif.Lemmas
open Razor Spec

/-- A part that has no character of the beginning of the pattern is kept. -/
theorem replaceAll_pass {o : Char} {os new a b : Text} (h : o ∉ a) :
    Text.replaceAll (o :: os) new (a ++ b) = a ++ Text.replaceAll (o :: os) new b := by
  induction a with
  | nil => rfl
  | cons c a ih =>
    simp only [List.mem_cons, not_or] at h
    have : Text.hasPrefix (o :: os) (c :: (a ++ b)) = false := by
      simp [Text.hasPrefix, Text.dropPrefix?, h.1]
    rw [List.cons_append, Text.replaceAll_skip this, ih h.2, List.cons_append]

/-- A separator without any character of the pattern cuts the replacement in two. -/
theorem replaceAll_cut {k v q : Text} (hk : k ≠ []) (hq : q ≠ []) (h : ∀ c ∈ q, c ∉ k) (b : Text) :
    ∀ a, Text.replaceAll k v (a ++ q ++ b) = Text.replaceAll k v a ++ q ++ Text.replaceAll k v b := by
  obtain ⟨o, os, rfl⟩ := List.exists_cons_of_ne_nil hk
  have ho : o ∉ q := fun hm => h o hm (by simp)
  have key : ∀ n (a : Text), a.length ≤ n →
      Text.replaceAll (o :: os) v (a ++ q ++ b) = Text.replaceAll (o :: os) v a ++ q ++ Text.replaceAll (o :: os) v b := by
    intro n
    induction n with
    | zero =>
      intro a ha
      have : a = [] := List.length_eq_zero_iff.mp (Nat.le_zero.mp ha)
      subst this
      rw [Text.replaceAll_nil, List.nil_append, replaceAll_pass ho]
    | succ n ih =>
      intro a ha
      cases a with
      | nil => rw [Text.replaceAll_nil, List.nil_append, replaceAll_pass ho]
      | cons c a =>
        cases hp : Text.hasPrefix (o :: os) (c :: a ++ q ++ b) with
        | false =>
          have hp' : Text.hasPrefix (o :: os) (c :: a) = false := by
            cases hh : Text.hasPrefix (o :: os) (c :: a) with
            | false => rfl
            | true =>
              have := (Text.hasPrefix_iff.1 hh).trans (List.prefix_append (c :: a) (q ++ b))
              rw [← List.append_assoc] at this
              rw [Text.hasPrefix_iff.2 this] at hp
              cases hp
          simp only [List.cons_append] at hp ⊢
          rw [Text.replaceAll_skip hp, Text.replaceAll_skip hp', ih a (by simpa using ha)]
          simp
        | true =>
          have hpre := Text.hasPrefix_iff.1 hp
          have hpre' : (o :: os) <+: c :: a := by
            rcases List.prefix_or_prefix_of_prefix hpre (show c :: a <+: c :: a ++ q ++ b by simp) with h1 | h1
            · exact h1
            · obtain ⟨r, hr⟩ := h1
              cases r with
              | nil => rw [← hr]; simp
              | cons x r =>
                exfalso
                rw [← hr, List.append_assoc] at hpre
                have := (List.prefix_append_right_inj _).1 hpre
                obtain ⟨y, q', rfl⟩ := List.exists_cons_of_ne_nil hq
                have hxy : x = y := by
                  obtain ⟨t, ht⟩ := this
                  simp only [List.cons_append] at ht
                  exact (List.cons.inj ht).1
                exact h y (by simp) (by rw [← hr, ← hxy]; simp)
          obtain ⟨r, hr⟩ := hpre'
          have hlen : r.length ≤ n := by
            have := congrArg List.length hr
            simp only [List.length_append, List.length_cons] at this ha
            omega
          rw [← hr, List.append_assoc, List.append_assoc, Text.replaceAll_match _ _ (by simp), Text.replaceAll_match _ _ (by simp),
            ← List.append_assoc r, ih r hlen]
          simp
  exact fun a => key a.length a (Nat.le_refl _)

/-- The delimiters of a rule, read from left to right. -/
def scan : Text → List Tok
  | '@' :: s => .razor :: scan s
  | '{' :: '{' :: s => .left :: scan s
  | '}' :: '}' :: s => .right :: scan s
  | c :: s => .char c :: scan s
  | [] => []

theorem write_cons (d : Delims) (t : Tok) (ts : List Tok) : write d (t :: ts) = t.text d ++ write d ts := rfl
theorem write_append (d : Delims) (a b : List Tok) : write d (a ++ b) = write d a ++ write d b := by simp [write]
theorem write_chars (d : Delims) (s : Text) : write d (s.map Tok.char) = s := by
  induction s with
  | nil => rfl
  | cons c s ih => rw [List.map_cons, write_cons, ih]; rfl

theorem scan_abstract (s : Text) : Abstract (scan s) := by
  unfold Abstract
  induction s using scan.induct with
  | case1 s ih => simpa [scan] using ih
  | case2 s ih => simpa [scan] using ih
  | case3 s ih => simpa [scan] using ih
  | case4 c s h1 h2 h3 ih =>
    rw [scan]
    · simp only [List.mem_cons, Tok.char.injEq, not_or]
      exact ⟨fun e => h1 e.symm, ih⟩
    · exact h1
    · exact h2
    · exact h3
  | case5 => simp [scan]

theorem write_scan (s : Text) : write defaultDelims (scan s) = s := by
  induction s using scan.induct with
  | case1 s ih => rw [scan, write_cons, ih]; rfl
  | case2 s ih => rw [scan, write_cons, ih]; rfl
  | case3 s ih => rw [scan, write_cons, ih]; rfl
  | case4 c s h1 h2 h3 ih => rw [scan, write_cons, ih]; rfl; exact h1; exact h2; exact h3
  | case5 => rfl

/-- The text of the pieces begins with the brace `b`. -/
def headIs (b : Char) : List Tok → Prop
  | .left :: _ => b = '{'
  | .right :: _ => b = '}'
  | .char c :: _ => c = b
  | _ => False

/-- A brace that is a character is not followed by the same brace. -/
def Tight : List Tok → Prop
  | [] => True
  | .char c :: ts => ((c = '{' ∨ c = '}') → ¬ headIs c ts) ∧ Tight ts
  | .left :: ts => Tight ts
  | .right :: ts => Tight ts
  | .razor :: ts => Tight ts

theorem headIs_scan {b : Char} (s : Text) (h : headIs b (scan s)) (hb : b = '{' ∨ b = '}') : s.head? = some b := by
  revert h
  induction s using scan.induct with
  | case1 s ih => simp [scan, headIs]
  | case2 s ih => rw [scan]; intro h; cases h; rfl
  | case3 s ih => rw [scan]; intro h; cases h; rfl
  | case4 c s h1 h2 h3 ih =>
    rw [scan]
    · intro h; cases h; rfl
    · exact h1
    · exact h2
    · exact h3
  | case5 => simp [scan, headIs]

theorem scan_tight (s : Text) : Tight (scan s) := by
  induction s using scan.induct with
  | case1 s ih => rw [scan]; exact ih
  | case2 s ih => rw [scan]; exact ih
  | case3 s ih => rw [scan]; exact ih
  | case4 c s h1 h2 h3 ih =>
    rw [scan]
    · refine ⟨fun hc hh => ?_, ih⟩
      have := headIs_scan s hh hc
      cases s with
      | nil => simp at this
      | cons x s =>
        simp only [List.head?_cons, Option.some.injEq] at this
        rcases hc with rfl | rfl
        · exact h2 s rfl (by rw [this])
        · exact h3 s rfl (by rw [this])
    · exact h1
    · exact h2
    · exact h3
  | case5 => trivial

theorem replace_razor {l r : Text} (q : Text) (hl : '@' ∉ l) (hr : '@' ∉ r) {toks : List Tok} (h : Abstract toks) :
    Text.replaceAll ['@'] q (write ⟨l, r, ['@']⟩ toks) = write ⟨l, r, q⟩ toks := by
  unfold Abstract at h
  induction toks with
  | nil => exact Text.replaceAll_nil _ _
  | cons t ts ih =>
    simp only [List.mem_cons, not_or] at h
    rw [write_cons, write_cons]
    cases t with
    | razor => exact (Text.replaceAll_match q _ (by simp)).trans (by rw [ih h.2]; rfl)
    | left => exact (replaceAll_pass hl).trans (by rw [ih h.2]; rfl)
    | right => exact (replaceAll_pass hr).trans (by rw [ih h.2]; rfl)
    | char c =>
      refine (replaceAll_pass (a := [c]) ?_).trans (by rw [ih h.2]; rfl)
      simp only [List.mem_singleton]
      intro e; exact h.1 (by rw [e])

theorem write_head {d : Delims} {b : Char} {toks : List Tok} (hl : d.left ≠ []) (hr : d.right ≠ []) (hz : d.razor ≠ [])
    (hl' : d.left.head? = some b → b = '{') (hr' : d.right.head? = some b → b = '}') (hz' : d.razor.head? ≠ some b)
    (h : (write d toks).head? = some b) : headIs b toks := by
  cases toks with
  | nil => simp [write] at h
  | cons t ts =>
    rw [write_cons, List.head?_append] at h
    cases t with
    | razor =>
      obtain ⟨x, y, hxy⟩ := List.exists_cons_of_ne_nil hz
      simp only [Tok.text, hxy, List.head?_cons, Option.some_or] at h
      rw [hxy] at hz'
      exact absurd h hz'
    | left =>
      obtain ⟨x, y, hxy⟩ := List.exists_cons_of_ne_nil hl
      simp only [Tok.text, hxy, List.head?_cons, Option.some_or] at h
      rw [hxy] at hl'
      exact hl' h
    | right =>
      obtain ⟨x, y, hxy⟩ := List.exists_cons_of_ne_nil hr
      simp only [Tok.text, hxy, List.head?_cons, Option.some_or] at h
      rw [hxy] at hr'
      exact hr' h
    | char c =>
      simpa [Tok.text, headIs] using h

theorem hasPrefix_pair {b : Char} {s : Text} (h : s.head? ≠ some b) : Text.hasPrefix [b, b] (b :: s) = false := by
  cases s with
  | nil => simp [Text.hasPrefix, Text.dropPrefix?]
  | cons c s =>
    have : b ≠ c := fun e => h (by simp [e])
    simp [Text.hasPrefix, Text.dropPrefix?, this]

theorem replace_left {r z : Text} (q : Text) (hr : r ≠ []) (hz : z ≠ []) (hr' : '{' ∉ r) (hz' : '{' ∉ z) {toks : List Tok}
    (h : Tight toks) : Text.replaceAll ['{', '{'] q (write ⟨['{', '{'], r, z⟩ toks) = write ⟨q, r, z⟩ toks := by
  induction toks with
  | nil => exact Text.replaceAll_nil _ _
  | cons t ts ih =>
    rw [write_cons, write_cons]
    cases t with
    | razor => exact (replaceAll_pass hz').trans (by rw [ih h]; rfl)
    | left => exact (Text.replaceAll_match q _ (by decide)).trans (by rw [ih h]; rfl)
    | right => exact (replaceAll_pass hr').trans (by rw [ih h]; rfl)
    | char c =>
      by_cases hc : c = '{'
      · subst hc
        refine (Text.replaceAll_skip (hasPrefix_pair ?_)).trans (congrArg (List.cons _) (ih h.2))
        intro hh
        refine h.1 (Or.inl rfl) (write_head (d := ⟨['{', '{'], r, z⟩) (by simp) hr hz (fun _ => rfl) ?_ ?_ hh)
        · intro e; exact absurd (List.mem_of_head? e) hr'
        · intro e; exact hz' (List.mem_of_head? e)
      · exact (replaceAll_pass (a := [c]) (by simpa [eq_comm] using hc)).trans (by rw [ih h.2]; rfl)

theorem replace_right {l z : Text} (q : Text) (hl : l ≠ []) (hz : z ≠ []) (hl' : '}' ∉ l) (hz' : '}' ∉ z) {toks : List Tok}
    (h : Tight toks) : Text.replaceAll ['}', '}'] q (write ⟨l, ['}', '}'], z⟩ toks) = write ⟨l, q, z⟩ toks := by
  induction toks with
  | nil => exact Text.replaceAll_nil _ _
  | cons t ts ih =>
    rw [write_cons, write_cons]
    cases t with
    | razor => exact (replaceAll_pass hz').trans (by rw [ih h]; rfl)
    | left => exact (replaceAll_pass hl').trans (by rw [ih h]; rfl)
    | right => exact (Text.replaceAll_match q _ (by decide)).trans (by rw [ih h]; rfl)
    | char c =>
      by_cases hc : c = '}'
      · subst hc
        refine (Text.replaceAll_skip (hasPrefix_pair ?_)).trans (congrArg (List.cons _) (ih h.2))
        intro hh
        refine h.1 (Or.inr rfl) (write_head (d := ⟨l, ['}', '}'], z⟩) hl (by simp) hz ?_ (fun _ => rfl) ?_ hh)
        · intro e; exact absurd (List.mem_of_head? e) hl'
        · intro e; exact hz' (List.mem_of_head? e)
      · exact (replaceAll_pass (a := [c]) (by simpa [eq_comm] using hc)).trans (by rw [ih h.2]; rfl)

theorem mem_quoteMeta {s : Text} {c : Char} (h : c ∈ quoteMeta s) : c = '\\' ∨ c ∈ s := by
  simp only [quoteMeta, List.mem_flatMap] at h
  obtain ⟨x, hx, h⟩ := h
  split at h
  · simp only [List.mem_cons, List.not_mem_nil, or_false] at h
    rcases h with h | h
    · exact Or.inl h
    · exact Or.inr (by rw [h]; exact hx)
  · simp only [List.mem_singleton] at h
    exact Or.inr (by rw [h]; exact hx)

theorem quoteMeta_ne {s : Text} (h : s ≠ []) : quoteMeta s ≠ [] := by
  obtain ⟨c, s, rfl⟩ := List.exists_cons_of_ne_nil h
  simp only [quoteMeta, List.flatMap_cons]
  split <;> simp

/-- The replacement of an abbreviation, on the pieces of a rule. -/
theorem replace_abbreviation {k v : Text} (hk : k ≠ []) (toks : List Tok) :
    ∃ toks' : List Tok, (Tok.char '@' ∈ toks' → Tok.char '@' ∈ toks ∨ ('@' ∈ v ∧ k.map Tok.char <:+: toks)) ∧
      ∀ d : Delims, d.left ≠ [] → d.right ≠ [] → d.razor ≠ [] → (∀ c ∈ d.left ++ d.right ++ d.razor, c ∉ k) →
        Text.replaceAll k v (write d toks) = write d toks' := by
  have chars : ∀ s : Text, ∃ s' : Text, ('@' ∈ s' → '@' ∈ s ∨ ('@' ∈ v ∧ k <:+: s)) ∧ Text.replaceAll k v s = s' := by
    intro s
    have key : ∀ n (s : Text), s.length ≤ n → '@' ∈ Text.replaceAll k v s → '@' ∈ s ∨ ('@' ∈ v ∧ k <:+: s) := by
      intro n
      induction n with
      | zero =>
        intro s hs hm
        have : s = [] := List.length_eq_zero_iff.mp (Nat.le_zero.mp hs)
        subst this
        rw [Text.replaceAll_nil] at hm; cases hm
      | succ n ih =>
        intro s hs hm
        cases s with
        | nil => rw [Text.replaceAll_nil] at hm; cases hm
        | cons c s =>
          cases hp : Text.hasPrefix k (c :: s) with
          | false =>
            rw [Text.replaceAll_skip hp] at hm
            rcases List.mem_cons.1 hm with e | hm
            · left; exact List.mem_cons.2 (Or.inl e)
            · rcases ih s (by simpa using hs) hm with h | ⟨h1, h2⟩
              · left; simp [h]
              · right; exact ⟨h1, h2.trans (List.infix_cons (List.infix_refl _))⟩
          | true =>
            obtain ⟨r, hr⟩ := Text.hasPrefix_iff.1 hp
            rw [← hr, Text.replaceAll_match _ _ hk] at hm
            rcases List.mem_append.1 hm with hm | hm
            · right; exact ⟨hm, (Text.hasPrefix_iff.1 hp).isInfix⟩
            · have hl : r.length ≤ n := by
                have := congrArg List.length hr
                have hk' := List.length_pos_iff.2 hk
                simp only [List.length_append, List.length_cons] at this hs
                omega
              rcases ih r hl hm with h | ⟨h1, h2⟩
              · left; rw [← hr]; simp [h]
              · right; exact ⟨h1, by rw [← hr]; exact h2.trans (List.suffix_append k r).isInfix⟩
    exact ⟨_, key s.length s (Nat.le_refl _), rfl⟩
  have main : ∀ n (toks : List Tok), toks.length ≤ n → ∃ toks' : List Tok,
      (Tok.char '@' ∈ toks' → Tok.char '@' ∈ toks ∨ ('@' ∈ v ∧ k.map Tok.char <:+: toks)) ∧
      ∀ d : Delims, d.left ≠ [] → d.right ≠ [] → d.razor ≠ [] → (∀ c ∈ d.left ++ d.right ++ d.razor, c ∉ k) →
        Text.replaceAll k v (write d toks) = write d toks' := by
    intro n
    induction n with
    | zero =>
      intro toks h
      have : toks = [] := List.length_eq_zero_iff.mp (Nat.le_zero.mp h)
      subst this
      exact ⟨[], fun h => absurd h (by simp), fun _ _ _ _ _ => Text.replaceAll_nil _ _⟩
    | succ n ih =>
      intro toks hlen
      have split : (∃ s : Text, toks = s.map Tok.char) ∨
          ∃ (s : Text) (t : Tok) (ts : List Tok), toks = s.map Tok.char ++ t :: ts ∧ (t = .left ∨ t = .right ∨ t = .razor) := by
        clear hlen
        induction toks with
        | nil => exact Or.inl ⟨[], rfl⟩
        | cons t ts ih2 =>
          cases t with
          | char c =>
            rcases ih2 with ⟨s, rfl⟩ | ⟨s, t, ts', rfl, h⟩
            · exact Or.inl ⟨c :: s, rfl⟩
            · exact Or.inr ⟨c :: s, t, ts', rfl, h⟩
          | left => exact Or.inr ⟨[], .left, ts, rfl, by simp⟩
          | right => exact Or.inr ⟨[], .right, ts, rfl, by simp⟩
          | razor => exact Or.inr ⟨[], .razor, ts, rfl, by simp⟩
      rcases split with ⟨s, rfl⟩ | ⟨s, t, ts, rfl, ht⟩
      · obtain ⟨s', h1, h2⟩ := chars s
        refine ⟨s'.map Tok.char, ?_, ?_⟩
        · simp only [List.mem_map, Tok.char.injEq, exists_eq_right]
          intro h
          rcases h1 h with h | ⟨h, h'⟩
          · exact Or.inl h
          · exact Or.inr ⟨h, h'.map _⟩
        · intro d _ _ _ _
          rw [write_chars, write_chars, h2]
      · obtain ⟨s', h1, h2⟩ := chars s
        obtain ⟨ts', h3, h4⟩ := ih ts (by simp at hlen; omega)
        refine ⟨s'.map Tok.char ++ t :: ts', ?_, ?_⟩
        · intro h
          rcases List.mem_append.1 h with h | h
          · simp only [List.mem_map, Tok.char.injEq, exists_eq_right] at h
            rcases h1 h with h | ⟨h, h'⟩
            · left; simp [h]
            · exact Or.inr ⟨h, (h'.map _).trans (List.prefix_append _ _).isInfix⟩
          · rcases List.mem_cons.1 h with h | h
            · exfalso; rcases ht with rfl | rfl | rfl <;> cases h
            · rcases h3 h with h | ⟨h, h'⟩
              · left; simp [h]
              · exact Or.inr ⟨h, h'.trans ((List.suffix_append _ _).trans (List.suffix_refl _) |>.isInfix |> fun x =>
                  (List.infix_cons (List.infix_refl ts)).trans x)⟩
        · intro d hl hr hz hd
          rw [write_append, write_append, write_cons, write_cons, write_chars, write_chars, ← h2, ← h4 d hl hr hz hd,
            ← List.append_assoc, ← List.append_assoc]
          refine replaceAll_cut hk ?_ ?_ _ _
          · rcases ht with rfl | rfl | rfl <;> assumption
          · intro c hc
            refine hd c ?_
            rcases ht with rfl | rfl | rfl <;> simp only [Tok.text] at hc <;> simp [hc]
  exact main toks.length toks (Nat.le_refl _)

/-- A text without any character of the delimiters, found in a rule, is made of characters of the rule. -/
theorem prefix_write {d : Delims} (hl : d.left ≠ []) (hr : d.right ≠ []) (hz : d.razor ≠ []) {k : Text}
    (hd : ∀ c ∈ d.left ++ d.right ++ d.razor, c ∉ k) {toks : List Tok} (h : k <+: write d toks) : k.map Tok.char <+: toks := by
  induction k generalizing toks with
  | nil => simp
  | cons x k ih =>
    cases toks with
    | nil => simp [write] at h
    | cons t ts =>
      rw [write_cons] at h
      have bad : ∀ q : Text, q ≠ [] → (∀ c ∈ q, c ∉ x :: k) → ¬ (x :: k <+: q ++ write d ts) := by
        intro q hq hqk hp
        obtain ⟨y, q', rfl⟩ := List.exists_cons_of_ne_nil hq
        rw [List.cons_append, List.cons_prefix_cons] at hp
        exact hqk y (by simp) (by simp [hp.1])
      cases t with
      | razor => exact absurd h (bad _ hz (fun c hc => hd c (by simp only [Tok.text] at hc; simp [hc])))
      | left => exact absurd h (bad _ hl (fun c hc => hd c (by simp only [Tok.text] at hc; simp [hc])))
      | right => exact absurd h (bad _ hr (fun c hc => hd c (by simp only [Tok.text] at hc; simp [hc])))
      | char c =>
        simp only [Tok.text, List.singleton_append] at h
        rw [List.cons_prefix_cons] at h
        rw [List.map_cons, List.cons_prefix_cons, h.1]
        exact ⟨rfl, ih (fun c hc hk => hd c hc (by simp [hk])) h.2⟩

theorem infix_write {d : Delims} (hl : d.left ≠ []) (hr : d.right ≠ []) (hz : d.razor ≠ []) {k : Text} (hk : k ≠ [])
    (hd : ∀ c ∈ d.left ++ d.right ++ d.razor, c ∉ k) {toks : List Tok} (h : k <:+: write d toks) : k.map Tok.char <:+: toks := by
  induction toks with
  | nil => rw [write, List.flatMap_nil, List.infix_nil] at h; exact absurd h hk
  | cons t ts ih =>
    rw [write_cons] at h
    have pass : ∀ q : Text, (∀ c ∈ q, c ∉ k) → k <:+: q ++ write d ts → k <:+: write d ts := by
      intro q
      induction q with
      | nil => intro _ h; exact h
      | cons y q ih2 =>
        intro hq h
        rw [List.cons_append, List.infix_cons_iff] at h
        rcases h with h | h
        · obtain ⟨x, k', rfl⟩ := List.exists_cons_of_ne_nil hk
          rw [List.cons_prefix_cons] at h
          exact absurd (by simp [h.1] : y ∈ x :: k') (hq y (by simp))
        · exact ih2 (fun c hc => hq c (by simp [hc])) h
    cases t with
    | razor => exact List.infix_cons (ih (pass _ (fun c hc => hd c (by simp only [Tok.text] at hc; simp [hc])) h))
    | left => exact List.infix_cons (ih (pass _ (fun c hc => hd c (by simp only [Tok.text] at hc; simp [hc])) h))
    | right => exact List.infix_cons (ih (pass _ (fun c hc => hd c (by simp only [Tok.text] at hc; simp [hc])) h))
    | char c =>
      have h0 := h
      simp only [Tok.text, List.singleton_append] at h
      rw [List.infix_cons_iff] at h
      rcases h with h | h
      · exact (prefix_write hl hr hz hd (toks := .char c :: ts) (by rw [write_cons]; exact h)).isInfix
      · exact List.infix_cons (ih h)

end Verif.Lemmas
