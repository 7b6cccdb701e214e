import Verif.Model.RazorLiteral
import Verif.Spec.RawSpec
import Verif.Lemmas.RazorRules
/-!
# Lemmas about raw strings in the razor translation
-/

namespace Verif.Lemmas
open Razor Spec

theorem protectAux_plain (buf : List Text) {t : Text} (h : '`' ∉ t) (s : Text) :
    protectAux none buf (t ++ s) = (protectAux none buf s).map (fun r => (r.1, t ++ r.2)) := by
  induction t with
  | nil => simp
  | cons c t ih =>
    simp only [List.mem_cons, not_or] at h
    rw [List.cons_append, protectAux, if_neg (fun e => h.1 e.symm), ih h.2, Option.map_map]
    rfl

theorem protectAux_body (buf : List Text) {t : Text} (h : '`' ∉ t) (acc s : Text) :
    protectAux (some acc) buf (t ++ s) = protectAux (some (t.reverse ++ acc)) buf s := by
  induction t generalizing acc with
  | nil => rfl
  | cons c t ih =>
    simp only [List.mem_cons, not_or] at h
    rw [List.cons_append, protectAux, if_neg (fun e => h.1 e.symm), ih h.2]
    simp

theorem protectAux_raw (buf : List Text) {t : Text} (h : '`' ∉ t) (s : Text) :
    protectAux none buf (('`' :: (t ++ ['`'])) ++ s) =
      match protectString1 buf t with
      | some (buf, m) => (protectAux none buf s).map (fun r => (r.1, m ++ r.2))
      | none => none := by
  rw [List.cons_append, protectAux, if_pos rfl, List.append_assoc, protectAux_body buf h, List.singleton_append, protectAux, if_pos rfl]
  simp only [List.append_nil, List.reverse_reverse]
  cases protectString1 buf t <;> rfl

theorem around_ne (tail : Text) (ps : List Piece) : around tail ps ≠ [] := by
  induction ps with
  | nil => simp [around]
  | cons p ps ih =>
    rw [around]
    split
    · simp
    · split
      · simp
      · rename_i h; exact absurd h ih

theorem weave_cons (a t : Text) (ts ss : List Text) : weave ((a ++ t) :: ts) ss = a ++ weave (t :: ts) ss := by
  cases ss <;> simp [weave]

/-- The content is made of the long strings and of the texts around them. -/
theorem weave_around (tail : Text) (ps : List Piece) :
    weave (around tail ps) (longStrings ps) = ps.flatMap Piece.write ++ tail := by
  induction ps with
  | nil => rfl
  | cons p ps ih =>
    rw [around]
    by_cases hp : p.long = true
    · rw [if_pos hp]
      have : longStrings (p :: ps) = p.write :: longStrings ps := by simp [longStrings, hp]
      rw [this, weave, ih]
      simp
    · rw [if_neg hp]
      have : longStrings (p :: ps) = longStrings ps := by simp [longStrings, hp]
      rw [this]
      split
      · rename_i t ts h
        rw [weave_cons, ← h, ih]
        simp
      · rename_i h; exact absurd h (around_ne _ _)

/-- The marks of consecutive strings. -/
def marks (n : Nat) (k : Nat) : List Text := (List.range' n k).map longMark

theorem marks_succ (n k : Nat) : marks n (k + 1) = longMark n :: marks (n + 1) k := by
  simp [marks, List.range'_succ]

theorem protectAux_pieces (tail : Text) (ht : tail = [] ∨ ∃ t, tail = '`' :: t ∧ '`' ∉ t) (ps : List Piece)
    (hb : ∀ p ∈ ps, '`' ∉ p.body) (hm : ∀ s, Piece.raw s ∈ ps → ¬ protectString <+: s ++ ['`']) (buf : List Text) :
    protectAux none buf (ps.flatMap Piece.write ++ tail) =
      some (buf ++ longStrings ps, weave (around tail ps) (marks buf.length (longStrings ps).length)) := by
  induction ps generalizing buf with
  | nil =>
    rcases ht with rfl | ⟨t, rfl, h⟩
    · simp [protectAux, longStrings, around, weave, marks]
    · have := protectAux_body buf h [] []
      simp only [List.append_nil] at this
      simp [protectAux, longStrings, around, weave, marks, this]
  | cons p ps ih =>
    have ihp := ih (fun q hq => hb q (by simp [hq])) (fun s hs => hm s (by simp [hs]))
    rw [List.flatMap_cons, List.append_assoc]
    have hbp := hb p (by simp)
    have other : p.long = false → ∀ r, r = some (buf ++ longStrings ps, weave (around tail ps) (marks buf.length (longStrings ps).length)) →
        r.map (fun r => (r.1, p.write ++ r.2)) =
        some (buf ++ longStrings (p :: ps), weave (around tail (p :: ps)) (marks buf.length (longStrings (p :: ps)).length)) := by
      rintro hp r rfl
      have e : longStrings (p :: ps) = longStrings ps := by simp [longStrings, hp]
      rw [e, around, if_neg (by simp [hp])]
      split
      · rename_i t ts h
        rw [weave_cons, h]
        rfl
      · rename_i h; exact absurd h (around_ne _ _)
    cases p with
    | plain t =>
      simp only [Piece.body] at hbp
      rw [Piece.write, protectAux_plain buf hbp]
      exact other rfl _ (ihp buf)
    | raw s =>
      simp only [Piece.body] at hbp
      have hpre : Text.hasPrefix protectString (s ++ ['`']) = false := by
        cases h : Text.hasPrefix protectString (s ++ ['`']) with
        | false => rfl
        | true => exact absurd (Text.hasPrefix_iff.1 h) (hm s (by simp))
      rw [Piece.write, protectAux_raw buf hbp]
      by_cases hn : '\n' ∈ s
      · have h1 : protectString1 buf s = some (buf ++ ['`' :: (s ++ ['`'])], longMark buf.length) := by
          simp [protectString1, hpre, hn]
        rw [h1]
        simp only
        rw [ihp]
        have hlong : (Piece.raw s).long = true := by simpa [Piece.long] using hn
        have e : longStrings (Piece.raw s :: ps) = (Piece.raw s).write :: longStrings ps := by simp [longStrings, hlong]
        rw [e, around, if_pos hlong, List.length_cons, marks_succ, weave, List.length_append]
        simp [Piece.write]
      · have h1 : protectString1 buf s = some (buf, '`' :: (s ++ ['`'])) := by
          simp [protectString1, hpre, hn]
        rw [h1]
        exact other (by simpa [Piece.long] using hn) _ (ihp buf)

/-! ## Taking the strings back -/

theorem matchMark_long (n : Nat) (s : Text) : matchMark (longMark n ++ s) = some (n, (longMark n).length) := by
  have hd : ∀ c ∈ Nat.toDigits 10 n, c.isDigit = true := fun c hc => Nat.isDigit_of_mem_toDigits (by decide) (by decide) hc
  have htw : (Nat.toDigits 10 n ++ '`' :: s).takeWhile Char.isDigit = Nat.toDigits 10 n := by
    rw [List.takeWhile_append_of_pos hd]
    simp
  have e : longMark n ++ s = ('`' :: protectString) ++ (Nat.toDigits 10 n ++ '`' :: s) := by simp [longMark]
  have h1 : Text.dropPrefix? ('`' :: protectString) (longMark n ++ s) = some (Nat.toDigits 10 n ++ '`' :: s) :=
    Text.dropPrefix?_eq_some.2 e
  have hne : Nat.toDigits 10 n ≠ [] := Nat.toDigits_ne_nil
  unfold matchMark
  rw [h1]
  simp only [htw, if_neg hne]
  rw [List.drop_left]
  simp only [Nat.ofDigitChars_ten_toDigits]
  have : (longMark n).length = protectString.length + (Nat.toDigits 10 n).length + 2 := by
    simp only [longMark, List.length_cons, List.length_append, List.length_nil]
  rw [this]

theorem matchMark_none {t : Text} (h : ¬ ('`' :: protectString) <+: t) : matchMark t = none := by
  unfold matchMark
  cases hd : Text.dropPrefix? ('`' :: protectString) t with
  | none => rfl
  | some r => exact absurd ⟨r, (Text.dropPrefix?_eq_some.1 hd).symm⟩ h

theorem restoreLongAux_skip (buf : List Text) (a b : Text) : restoreLongAux a.length buf (a ++ b) = restoreLongAux 0 buf b := by
  induction a with
  | nil => rfl
  | cons c a ih => simpa [restoreLongAux] using ih

theorem restoreLongAux_mark (buf : List Text) (n : Nat) (saved s : Text) (h : buf[n]? = some saved) :
    restoreLongAux 0 buf (longMark n ++ s) = (restoreLongAux 0 (buf.set n []) s).map (fun r => (r.1, saved ++ r.2)) := by
  have hm := matchMark_long n s
  have hs := restoreLongAux_skip (buf.set n []) (longMark n).tail s
  have e : longMark n = '`' :: (longMark n).tail := rfl
  have hl : (longMark n).length = (longMark n).tail.length + 1 := by rw [e]; rfl
  rw [e, List.cons_append] at hm ⊢
  rw [← e] at hm
  rw [restoreLongAux, hm]
  simp only [h, hl, Nat.add_sub_cancel]
  rw [hs]

theorem restoreLongAux_text (buf : List Text) {t : Text} (h : Free ('`' :: protectString) t) {s : Text} (hs : s = [] ∨ ∃ s', s = '`' :: s') :
    restoreLongAux 0 buf (t ++ s) = (restoreLongAux 0 buf s).map (fun r => (r.1, t ++ r.2)) := by
  induction t with
  | nil => simp
  | cons c t ih =>
    have hf : Free ('`' :: protectString) t := fun hi => h (hi.trans (List.infix_cons (List.infix_refl _)))
    have hn : ¬ ('`' :: protectString) <+: (c :: t) ++ s := by
      intro hp
      rcases List.prefix_or_prefix_of_prefix hp (List.prefix_append (c :: t) s) with h1 | h1
      · exact h h1.isInfix
      · obtain ⟨r, hr⟩ := h1
        rw [← hr] at hp
        have := (List.prefix_append_right_inj _).1 hp
        rcases hs with rfl | ⟨s', rfl⟩
        · have hr0 : r = [] := List.prefix_nil.1 this
          rw [hr0, List.append_nil] at hr
          exact h (by rw [hr]; exact List.infix_refl _)
        · cases r with
          | nil =>
            rw [List.append_nil] at hr
            exact h (by rw [hr]; exact List.infix_refl _)
          | cons x r =>
            rw [List.cons_prefix_cons] at this
            have hx : x ∈ protectString := by
              have : '`' :: protectString = c :: (t ++ x :: r) := by rw [← hr]; rfl
              have := (List.cons.inj this).2
              rw [this]; simp
            rw [this.1] at hx
            revert hx; decide
    rw [List.cons_append] at hn ⊢
    rw [restoreLongAux, matchMark_none hn]
    simp only
    rw [ih hf, Option.map_map]
    rfl

theorem restoreLongAux_weave (longs : List Text) : ∀ (buf : List Text) (texts : List Text), texts.length = longs.length + 1 →
    (∀ t ∈ texts, Free ('`' :: protectString) t) →
    ∃ buf', restoreLongAux 0 (buf ++ longs) (weave texts (marks buf.length longs.length)) = some (buf', weave texts longs) := by
  induction longs with
  | nil =>
    intro buf texts hl hf
    obtain ⟨t, rfl⟩ := List.length_eq_one_iff.mp hl
    refine ⟨buf ++ [], ?_⟩
    have := restoreLongAux_text (buf ++ []) (hf t (by simp)) (Or.inl rfl)
    rw [List.append_nil t] at this
    simp only [marks, List.length_nil, List.range'_zero, List.map_nil, weave]
    rw [this]
    simp [restoreLongAux]
  | cons s longs ih =>
    intro buf texts hl hf
    cases texts with
    | nil => simp at hl
    | cons t ts =>
      rw [List.length_cons, marks_succ, weave]
      obtain ⟨buf', hb⟩ := ih (buf ++ [[]]) ts (by simpa using hl) (fun t ht => hf t (by simp [ht]))
      refine ⟨buf', ?_⟩
      rw [List.append_assoc, restoreLongAux_text (s := longMark buf.length ++ weave ts (marks (buf.length + 1) longs.length)) _ (hf t (by simp))
          (Or.inr ⟨(longMark buf.length).tail ++ weave ts (marks (buf.length + 1) longs.length), rfl⟩),
        restoreLongAux_mark _ _ s _ (by simp)]
      have e : (buf ++ s :: longs).set buf.length [] = buf ++ [[]] ++ longs := by
        rw [List.set_append_right _ _ (Nat.le_refl _)]
        simp
      rw [List.length_append, List.length_singleton] at hb
      rw [e, hb]
      simp [weave]

/-- The replacement of a text that has no backtick, in texts separated by marks. -/
theorem replaceAll_weave {k v : Text} (hk : k ≠ []) (hb : '`' ∉ k) (he : '!' ∈ k) (m : Nat) : ∀ (texts : List Text) (n : Nat),
    Text.replaceAll k v (weave texts (marks n m)) = weave (texts.map (Text.replaceAll k v)) (marks n m) := by
  induction m with
  | zero =>
    intro texts n
    cases texts with
    | nil => simp [weave, Text.replaceAll_nil]
    | cons t ts => simp [marks, weave]
  | succ m ih =>
    intro texts n
    rw [marks_succ]
    cases texts with
    | nil => simp [weave, Text.replaceAll_nil]
    | cons t ts =>
      rw [List.map_cons, weave, weave]
      have hx : ∀ c ∈ ['`'], c ∉ k := by simpa using hb
      have inner : Text.replaceAll k v (protectString ++ Nat.toDigits 10 n) = protectString ++ Nat.toDigits 10 n := by
        apply Text.replaceAll_of_not_contains
        cases hc : Text.contains k (protectString ++ Nat.toDigits 10 n) with
        | false => rfl
        | true =>
          have := (Text.contains_iff.1 hc).subset he
          rcases List.mem_append.1 this with h | h
          · exact absurd h (by decide)
          · have := Nat.isDigit_of_mem_toDigits (by decide) (by decide) h
            exact absurd this (by decide)
      have e : ∀ X : Text, t ++ longMark n ++ X = t ++ ['`'] ++ ((protectString ++ Nat.toDigits 10 n) ++ ['`'] ++ X) := by
        intro X; simp [longMark]
      rw [e, replaceAll_cut hk (by simp) hx, replaceAll_cut hk (by simp) hx, inner, ih]
      simp [longMark]

/-! ## Several goroutines -/

/-- What is true between two complete operations. -/
structure Safe (strings : Nat → List Text) (p : Process) : Prop where
  idle : ∀ i, (p.goroutines i).loaded = none ∧ (p.goroutines i).stored = false ∧ (p.goroutines i).panicked = false
  own : ∀ i, ∃ ss, strings i = (p.goroutines i).got ++ ss ++ (p.goroutines i).todo ∧
    (p.goroutines i).marks.map (fun n => p.buf[n]?) = ss.map some
  order : ∀ i, (p.goroutines i).got ≠ [] → (p.goroutines i).todo = []
  nodup : ∀ i, (p.goroutines i).marks.Nodup
  apart : ∀ i j, i ≠ j → ∀ n ∈ (p.goroutines i).marks, n ∉ (p.goroutines j).marks

theorem Safe.lt {strings : Nat → List Text} {p : Process} (h : Safe strings p) {i n : Nat} (hn : n ∈ (p.goroutines i).marks) :
    n < p.buf.length := by
  obtain ⟨ss, _, h2⟩ := h.own i
  have : p.buf[n]? ∈ ss.map some := by rw [← h2]; exact List.mem_map_of_mem hn
  obtain ⟨x, _, hx⟩ := List.mem_map.1 this
  exact (List.getElem?_eq_some_iff.1 hx.symm).1

theorem safe_start (buf : List Text) (strings : Nat → List Text) : Safe strings (Process.start buf strings) :=
  ⟨fun _ => ⟨rfl, rfl, rfl⟩, fun i => ⟨[], by simp [Process.start], rfl⟩, fun _ h => absurd rfl h, fun _ => List.nodup_nil,
    fun _ _ _ _ hn => absurd hn (by simp [Process.start])⟩

/-- Taking a string back. -/
theorem safe_restore {strings : Nat → List Text} {p : Process} (h : Safe strings p) (i : Nat) (hi : (p.goroutines i).todo = []) :
    Safe strings (p.step i) ∧ ((p.step i).goroutines i).todo = [] := by
  obtain ⟨hl, hs, hp⟩ := h.idle i
  obtain ⟨ss, h1, h2⟩ := h.own i
  cases hm : (p.goroutines i).marks with
  | nil =>
    have e : (p.goroutines i).step p.buf = (p.buf, p.goroutines i) := by simp [Goroutine.step, hp, hi, hm]
    have : p.step i = p := by
      unfold Process.step
      simp only [e]
      cases p with
      | mk b g =>
        congr
        funext j
        split
        · rename_i hj; rw [hj]
        · rfl
    rw [this]
    exact ⟨h, hi⟩
  | cons n ns =>
    rw [hm] at h2
    cases ss with
    | nil => simp at h2
    | cons s ss =>
      simp only [List.map_cons, List.cons.injEq] at h2
      have e : (p.goroutines i).step p.buf = (p.buf.set n [], { p.goroutines i with marks := ns, got := (p.goroutines i).got ++ [s] }) := by
        simp [Goroutine.step, hp, hi, hm, h2.1]
      have hnd := h.nodup i
      rw [hm, List.nodup_cons] at hnd
      have keep : ∀ (m : List Nat), n ∉ m → m.map (fun x => (p.buf.set n [])[x]?) = m.map (fun x => p.buf[x]?) := by
        intro m hnm
        apply List.map_congr_left
        intro x hx
        have : n ≠ x := fun e => hnm (by rw [e]; exact hx)
        simp [this]
      constructor
      · unfold Process.step
        simp only [e]
        refine ⟨fun j => ?_, fun j => ?_, fun j => ?_, fun j => ?_, fun j k hjk x hx => ?_⟩
        · by_cases hj : j = i
          · simp [hj, hl, hs, hp]
          · simpa [hj] using h.idle j
        · by_cases hj : j = i
          · subst hj
            refine ⟨ss, by simp [h1], ?_⟩
            simp only [if_true]
            rw [keep ns hnd.1]
            exact h2.2
          · obtain ⟨ss', h3, h4⟩ := h.own j
            refine ⟨ss', by simpa [hj] using h3, ?_⟩
            simp only [hj, if_false]
            rw [keep _ (h.apart i j (fun e => hj e.symm) n (by rw [hm]; simp))]
            exact h4
        · by_cases hj : j = i
          · subst hj; intro _; simpa using hi
          · simpa [hj] using h.order j
        · by_cases hj : j = i
          · simp [hj, hnd.2]
          · simpa [hj] using h.nodup j
        · by_cases hj : j = i
          · subst hj
            have hk : k ≠ j := fun e => hjk e.symm
            simp only [if_true, hk, if_false] at hx ⊢
            exact h.apart j k hjk x (by rw [hm]; simp [hx])
          · simp only [hj, if_false] at hx
            by_cases hk : k = i
            · subst hk
              simp only [if_true]
              have := h.apart j k hjk x hx
              rw [hm] at this
              exact fun hh => this (by simp [hh])
            · simp only [hk, if_false]
              exact h.apart j k hjk x hx
      · unfold Process.step
        simp [e, hi]

/-- Saving a string without interruption. -/
theorem safe_save {strings : Nat → List Text} {p : Process} (h : Safe strings p) (i : Nat) {s : Text} {rest : List Text}
    (hi : (p.goroutines i).todo = s :: rest) : Safe strings (((p.step i).step i).step i) := by
  obtain ⟨hl, hs, hp⟩ := h.idle i
  obtain ⟨ss, h1, h2⟩ := h.own i
  have e : ((p.step i).step i).step i = ⟨p.buf ++ [s], fun j => if j = i then
      { p.goroutines i with todo := rest, loaded := none, stored := false, marks := (p.goroutines i).marks ++ [p.buf.length] }
      else p.goroutines j⟩ := by
    unfold Process.step
    simp only [if_true, Goroutine.step, hp, hi, hl, hs]
    simp
    funext j
    by_cases hj : j = i <;> simp [hj]
  rw [e]
  have grow : ∀ m : List Nat, (∀ n ∈ m, n < p.buf.length) → m.map (fun n => (p.buf ++ [s])[n]?) = m.map (fun n => p.buf[n]?) := by
    intro m hm
    exact List.map_congr_left (fun n hn => List.getElem?_append_left (hm n hn))
  refine ⟨fun j => ?_, fun j => ?_, fun j => ?_, fun j => ?_, fun j k hjk x hx => ?_⟩
  · by_cases hj : j = i
    · simp [hj, hp]
    · simpa [hj] using h.idle j
  · by_cases hj : j = i
    · subst hj
      refine ⟨ss ++ [s], by simp [h1, hi], ?_⟩
      simp only [if_true, List.map_append, List.map_cons, List.map_nil]
      rw [grow _ (fun n hn => h.lt hn), h2]
      simp
    · obtain ⟨ss', h3, h4⟩ := h.own j
      refine ⟨ss', by simpa [hj] using h3, ?_⟩
      simp only [hj, if_false]
      rw [grow _ (fun n hn => h.lt hn)]
      exact h4
  · by_cases hj : j = i
    · subst hj
      intro hg
      simp only [if_true] at hg ⊢
      have := h.order j hg
      rw [hi] at this; cases this
    · simpa [hj] using h.order j
  · by_cases hj : j = i
    · subst hj
      simp only [if_true]
      rw [List.nodup_append]
      refine ⟨h.nodup j, by simp, fun a ha b hb => ?_⟩
      simp only [List.mem_singleton] at hb
      have := h.lt ha
      omega
    · simpa [hj] using h.nodup j
  · by_cases hj : j = i
    · subst hj
      have hk : k ≠ j := fun e => hjk e.symm
      simp only [if_true, hk, if_false, List.mem_append, List.mem_singleton] at hx ⊢
      rcases hx with hx | rfl
      · exact h.apart j k hjk x hx
      · intro hh; exact Nat.lt_irrefl _ (h.lt hh)
    · simp only [hj, if_false] at hx
      by_cases hk : k = i
      · subst hk
        simp only [if_true, List.mem_append, List.mem_singleton, not_or]
        exact ⟨h.apart j k hjk x hx, fun e => absurd (h.lt hx) (by omega)⟩
      · simp only [hk, if_false]
        exact h.apart j k hjk x hx

end Verif.Lemmas
