import Verif.Lemmas.HclLex
/-!
# Lemmas on the grammar of HCL
-/

namespace Verif
namespace Lemmas
open Spec Text

/-- Tokens read as a value. -/
def PVal (ts : List HTok) (d : HData) : Prop := ∀ n rest, 2 * ts.length ≤ n → readValue n (ts ++ rest) = some (d, rest)
/-- Tokens read after a key. -/
def PTail (ts : List HTok) (d : HData) : Prop := ∀ n rest, 2 * ts.length ≤ n → readTail n (ts ++ rest) = some (d, rest)
/-- Tokens read as a block after a key. -/
def PBlock (ts : List HTok) (d : HData) : Prop := ∀ n rest, 2 * ts.length ≤ n + 1 → readBlock n (ts ++ rest) = some (d, rest)
/-- Tokens read as entries of a block. -/
def PItems (ts : List HTok) (es : List (Text × HData)) : Prop :=
  ∀ n rest es' r, (∀ m, n ≤ m → readItems m rest = some (es', r)) → ∀ m, n + 2 * ts.length ≤ m → readItems m (ts ++ rest) = some (es ++ es', r)
/-- Tokens read as entries of a file. -/
def PBody (ts : List HTok) (es : List (Text × HData)) : Prop :=
  ∀ n rest es', (∀ m, n ≤ m → readBody m rest = some es') → ∀ m, n + 2 * ts.length ≤ m → readBody m (ts ++ rest) = some (es ++ es')
/-- Tokens read as elements of a list. -/
def PElems (ts : List HTok) (ds : List HData) : Prop :=
  ∀ n rest, 2 * ts.length + 1 ≤ n → readElems n (ts ++ .punct ']' :: rest) = some (ds, rest)

theorem keyOf_punct (c : Char) : keyOf (.punct c) = none := rfl

theorem readItems_key {t : HTok} {k : Text} (h : keyOf t = some k) (n : Nat) (ts : List HTok) :
    readItems (n + 1) (t :: ts) = (readTail n ts).bind fun r => (readItems n r.2).map (fun q => ((k, r.1) :: q.1, q.2)) := by
  cases t with
  | punct c => rw [keyOf_punct] at h; cases h
  | word w => simp only [readItems, h, Option.bind_some]
  | str s => simp only [readItems, h, Option.bind_some]

theorem readBlock_key {t : HTok} {k : Text} (h : keyOf t = some k) (n : Nat) (ts : List HTok) :
    readBlock (n + 1) (t :: ts) = (readBlock n ts).map (fun r => (.obj [(k, r.1)], r.2)) := by
  cases t with
  | punct c => rw [keyOf_punct] at h; cases h
  | word w => simp only [readBlock, h, Option.bind_some]
  | str s => simp only [readBlock, h, Option.bind_some]

theorem exists_succ {n m : Nat} (h : m + 1 ≤ n) : ∃ k, n = k + 1 := ⟨n - 1, by omega⟩

theorem pItems_nil : PItems [] [] := fun n rest es' r h m hm => by simpa using h m (by simpa using hm)

theorem pBody_nil : PBody [] [] := fun n rest es' h m hm => by simpa using h m (by simpa using hm)

theorem pItems_append {t1 t2 : List HTok} {e1 e2} (h1 : PItems t1 e1) (h2 : PItems t2 e2) : PItems (t1 ++ t2) (e1 ++ e2) :=
  fun n rest es' r h m hm => by
    rw [List.append_assoc, List.append_assoc]
    refine h1 (n + 2 * t2.length) _ _ r (fun m' hm' => h2 n rest es' r h m' hm') m ?_
    simp at hm; omega

theorem pBody_append {t1 t2 : List HTok} {e1 e2} (h1 : PBody t1 e1) (h2 : PBody t2 e2) : PBody (t1 ++ t2) (e1 ++ e2) :=
  fun n rest es' h m hm => by
    rw [List.append_assoc, List.append_assoc]
    refine h1 (n + 2 * t2.length) _ _ (fun m' hm' => h2 n rest es' h m' hm') m ?_
    simp at hm; omega

theorem pItems_one {t : HTok} {k : Text} {ts d} (hk : keyOf t = some k) (h : PTail ts d) : PItems (t :: ts) [(k, d)] :=
  fun n rest es' r hr m hm => by
    obtain ⟨m, rfl⟩ := exists_succ (n := m) (m := 0) (by simp at hm; omega)
    simp only [List.length_cons] at hm
    rw [List.cons_append, readItems_key hk, h m rest (by omega), Option.bind_some, hr m (by omega)]
    rfl

theorem pBody_one {t : HTok} {k : Text} {ts d} (hk : keyOf t = some k) (h : PTail ts d) : PBody (t :: ts) [(k, d)] :=
  fun n rest es' hr m hm => by
    obtain ⟨m, rfl⟩ := exists_succ (n := m) (m := 0) (by simp at hm; omega)
    simp only [List.length_cons] at hm
    rw [List.cons_append, readBody, hk, Option.bind_some, h m rest (by omega), Option.bind_some, hr m (by omega)]
    rfl

theorem readItems_close (m : Nat) (h : 1 ≤ m) (rest : List HTok) : readItems m (.punct '}' :: rest) = some ([], rest) := by
  obtain ⟨m, rfl⟩ := exists_succ (n := m) (m := 0) h
  simp [readItems]

/-- A block as a value. -/
theorem pVal_block {ts es} (h : PItems ts es) : PVal (.punct '{' :: (ts ++ [.punct '}'])) (.obj es) := fun n rest hn => by
  obtain ⟨n, rfl⟩ := exists_succ (n := n) (m := 0) (by simp at hn; omega)
  simp only [List.length_cons, List.length_append, List.length_nil] at hn
  have := h 1 (.punct '}' :: rest) [] rest (fun m hm => readItems_close m hm rest) n (by omega)
  simp only [List.cons_append, List.append_assoc, List.nil_append, readValue, this, Option.map_some, List.append_nil]

/-- A block after a key. -/
theorem pBlock_block {ts es} (h : PItems ts es) : PBlock (.punct '{' :: (ts ++ [.punct '}'])) (.obj es) := fun n rest hn => by
  obtain ⟨n, rfl⟩ := exists_succ (n := n) (m := 0) (by simp at hn; omega)
  simp only [List.length_cons, List.length_append, List.length_nil] at hn
  have := h 1 (.punct '}' :: rest) [] rest (fun m hm => readItems_close m hm rest) n (by omega)
  simp only [List.cons_append, List.append_assoc, List.nil_append, readBlock, this, Option.map_some, List.append_nil]

theorem pTail_block {ts d} (h : PBlock ts d) : PTail ts d := fun n rest hn => by
  cases ts with
  | nil => have := h 0 [] (by simp); simp [readBlock] at this
  | cons t ts =>
    obtain ⟨n, rfl⟩ := exists_succ (n := n) (m := 0) (by simp at hn; omega)
    have hb := h n rest hn
    rw [← hb]
    rw [List.cons_append] at hb ⊢
    rw [readTail]
    rintro ts2 h2
    simp only [List.cons.injEq] at h2
    rw [h2.1] at hb
    cases n with
    | zero => simp [readBlock] at hb
    | succ n => simp [readBlock, keyOf_punct] at hb

theorem pTail_eq {ts d} (h : PVal ts d) : PTail (.punct '=' :: ts) d := fun n rest hn => by
  obtain ⟨n, rfl⟩ := exists_succ (n := n) (m := 0) (by simp at hn; omega)
  simp only [List.length_cons] at hn
  simp only [List.cons_append, readTail]
  exact h n rest (by omega)

theorem pBlock_label {t : HTok} {k : Text} {ts d} (hk : keyOf t = some k) (h : PBlock ts d) : PBlock (t :: ts) (.obj [(k, d)]) := fun n rest hn => by
  cases n with
  | zero =>
    have := h 0 rest (by simp only [List.length_cons] at hn; omega)
    cases ts <;> simp [readBlock] at this
  | succ n =>
    simp only [List.length_cons] at hn
    rw [List.cons_append, readBlock_key hk, h n rest (by omega)]
    rfl

theorem pVal_word {w : Text} {d} (h : wordData w = some d) : PVal [.word w] d := fun n rest hn => by
  obtain ⟨n, rfl⟩ := exists_succ (n := n) (m := 0) (by simp at hn; omega)
  simp [readValue, h]

theorem pVal_str (s : Text) : PVal [.str s] (.str s) := fun n rest hn => by
  obtain ⟨n, rfl⟩ := exists_succ (n := n) (m := 0) (by simp at hn; omega)
  simp [readValue]

theorem pElems_nil : PElems [] [] := fun n rest hn => by
  obtain ⟨n, rfl⟩ := exists_succ (n := n) (m := 0) (by simp at hn; omega)
  simp [readElems]

/-- The first token of a value does not end a list. -/
theorem pVal_head {ts d} (h : PVal ts d) : ∃ t ts', ts = t :: ts' ∧ t ≠ .punct ']' := by
  cases ts with
  | nil => have := h 0 [] (by simp); simp [readValue] at this
  | cons t ts =>
    refine ⟨t, ts, rfl, ?_⟩
    rintro rfl
    have := h (2 * ts.length + 1 + 1) [] (by simp; omega)
    simp [readValue] at this

theorem readElems_val {ts d} (h : PVal ts d) (n : Nat) (hn : 2 * ts.length ≤ n) (rest : List HTok) :
    readElems (n + 1) (ts ++ rest) =
      match rest with
      | .punct ',' :: ts => (readElems n ts).map (fun q => (d :: q.1, q.2))
      | .punct ']' :: ts => some ([d], ts)
      | _ => none := by
  have hv := h n rest hn
  obtain ⟨t, ts', rfl, ht⟩ := pVal_head h
  rw [List.cons_append] at hv ⊢
  have : readElems (n + 1) (t :: (ts' ++ rest)) = (readValue n (t :: (ts' ++ rest))).bind fun r =>
      match r.2 with
      | .punct ',' :: ts => (readElems n ts).map (fun q => (r.1 :: q.1, q.2))
      | .punct ']' :: ts => some ([r.1], ts)
      | _ => none := by
    cases t with
    | punct c =>
      have hc : c ≠ ']' := fun e => ht (by rw [e])
      rw [readElems]
      · rfl
      · intro ts2 h2
        simp at h2
        exact hc h2.1
    | word w => rw [readElems]; rfl; intro ts2 h2; simp at h2
    | str s => rw [readElems]; rfl; intro ts2 h2; simp at h2
  rw [this, hv, Option.bind_some]

theorem pElems_last {ts d} (h : PVal ts d) : PElems ts [d] := fun n rest hn => by
  obtain ⟨n, rfl⟩ := exists_succ (n := n) (m := 0) (by omega)
  rw [readElems_val h n (by omega)]
  rfl

theorem pElems_cons {ts d ts' ds} (h : PVal ts d) (h' : PElems ts' ds) : PElems (ts ++ .punct ',' :: ts') (d :: ds) := fun n rest hn => by
  simp only [List.length_append, List.length_cons] at hn
  obtain ⟨n, rfl⟩ := exists_succ (n := n) (m := 0) (by omega)
  rw [List.append_assoc, readElems_val h n (by omega), List.cons_append]
  simp only
  rw [h' n rest (by omega)]
  rfl

theorem pVal_list {ts ds} (h : PElems ts ds) : PVal (.punct '[' :: (ts ++ [.punct ']'])) (.list ds) := fun n rest hn => by
  obtain ⟨n, rfl⟩ := exists_succ (n := n) (m := 0) (by simp at hn; omega)
  simp only [List.length_cons, List.length_append, List.length_nil] at hn
  have := h n rest (by omega)
  simp only [List.cons_append, List.append_assoc, List.nil_append, readValue, this, Option.map_some]

end Lemmas
end Verif
