import Verif.Model.Load
import Verif.Lemmas.HclLex
import Verif.Lemmas.HclRead
import Verif.Lemmas.HclMark
import Verif.Lemmas.Bash
import Verif.Spec.LoadSpec
/-! # Lemmas on the loading of data -/

namespace Verif
namespace Lemmas
open Spec Text

theorem bind_some_mono {α β : Type} {a a' : Option α} {f f' : α → Option β} {r : β} (h : a.bind f = some r)
    (ha : ∀ x, a = some x → a' = some x) (hf : ∀ x, f x = some r → f' x = some r) : a'.bind f' = some r := by
  obtain ⟨x, hx, hr⟩ := Option.bind_eq_some_iff.1 h
  exact Option.bind_eq_some_iff.2 ⟨x, ha x hx, hf x hr⟩

theorem map_some_mono {α β : Type} {a a' : Option α} {f : α → β} {r : β} (h : a.map f = some r)
    (ha : ∀ x, a = some x → a' = some x) : a'.map f = some r := by
  obtain ⟨x, hx, hr⟩ := Option.map_eq_some_iff.1 h
  exact Option.map_eq_some_iff.2 ⟨x, ha x hx, hr⟩

/-- More recursion does not change what is read. -/
theorem read_mono (n : Nat) :
    (∀ ts r, readValue n ts = some r → readValue (n + 1) ts = some r) ∧
    (∀ ts r, readElems n ts = some r → readElems (n + 1) ts = some r) ∧
    (∀ ts r, readItems n ts = some r → readItems (n + 1) ts = some r) ∧
    (∀ ts r, readTail n ts = some r → readTail (n + 1) ts = some r) ∧
    (∀ ts r, readBlock n ts = some r → readBlock (n + 1) ts = some r) := by
  induction n with
  | zero =>
    refine ⟨?_, ?_, ?_, ?_, ?_⟩ <;> intro ts r h
    · simp [readValue] at h
    · simp [readElems] at h
    · simp [readItems] at h
    · simp [readTail] at h
    · simp [readBlock] at h
  | succ n ih =>
    obtain ⟨iv, ie, ii, it, ib⟩ := ih
    refine ⟨?_, ?_, ?_, ?_, ?_⟩ <;> intro ts r h
    · unfold readValue at h
      split at h
      · rename_i w ts' he1 he2; rw [readValue]; exact h
      · rename_i s ts' he1 he2; rw [readValue]; exact h
      · rename_i ts' n' he; cases he; rw [readValue]; exact map_some_mono h (ie _)
      · rename_i ts' n' he; cases he; rw [readValue]; exact map_some_mono h (ii _)
      · cases h
    · unfold readElems at h
      split at h
      · rw [readElems]; exact h
      · rename_i n' he hne; cases he
        rw [readElems]
        · refine bind_some_mono h (iv _) ?_
          intro x hx
          split at hx
          · exact map_some_mono hx (ie _)
          · exact hx
          · cases hx
        · exact hne
      · cases h
    · unfold readItems at h
      split at h
      · rw [readItems]; exact h
      · rename_i ts' hne he; cases he
        rw [readItems]
        · refine bind_some_mono h (fun _ hx => hx) ?_
          intro k hk
          refine bind_some_mono hk (it _) ?_
          intro q hq
          exact map_some_mono hq (ii _)
        · exact hne
      · cases h
    · unfold readTail at h
      split at h
      · rename_i n' he; cases he; rw [readTail]; exact iv _ _ h
      · rename_i n' he hne; cases he
        rw [readTail]
        · exact ib _ _ h
        · exact hne
      · cases h
    · unfold readBlock at h
      split at h
      · rename_i n' he; cases he; rw [readBlock]; exact map_some_mono h (ii _)
      · rename_i ts' hne he; cases he
        rw [readBlock]
        · refine bind_some_mono h (fun _ hx => hx) ?_
          intro k hk
          exact map_some_mono hk (ib _)
        · exact hne
      · cases h

theorem readValue_more {n m : Nat} (hm : n ≤ m) {ts : List HTok} {r} (h : readValue n ts = some r) : readValue m ts = some r := by
  induction hm with
  | refl => exact h
  | step _ ih => exact (read_mono _).1 _ _ ih

theorem space_not_word {c : Char} (h : isSpace c = true) : wordChar c = false := by
  cases hw : wordChar c with
  | false => rfl
  | true =>
    simp only [wordChar, isSpace, Bool.or_eq_true, Bool.and_eq_true, decide_eq_true_eq, beq_iff_eq, Char.le_def,
      UInt32.le_iff_toNat_le, ← Char.toNat_val] at h hw
    have e1 : 'a'.val.toNat = 97 := rfl
    have e2 : 'z'.val.toNat = 122 := rfl
    have e3 : 'A'.val.toNat = 65 := rfl
    have e4 : 'Z'.val.toNat = 90 := rfl
    have e5 : '0'.val.toNat = 48 := rfl
    have e6 : '9'.val.toNat = 57 := rfl
    rw [e1, e2, e3, e4, e5, e6] at hw
    rcases hw with (((((hw | hw) | hw) | hw) | hw) | hw) | hw
    · omega
    · omega
    · omega
    all_goals subst hw; exact absurd h (by decide)

theorem startTok_space {c : Char} (h : isSpace c = true) {r} (hr : startTok c = some r) : HWhite c ∧ r = ([], .out) := by
  unfold startTok at hr
  split at hr
  · rename_i hw; exact ⟨hw, (Option.some.inj hr).symm⟩
  · split at hr
    · rename_i hp
      rcases hp with rfl | rfl | rfl | rfl | rfl | rfl <;> exact absurd h (by decide)
    · split at hr
      · rename_i hq; subst hq; exact absurd h (by decide)
      · rw [space_not_word h] at hr; cases hr

theorem tokensFrom_drop_left {w : Text} (hw : ∀ c ∈ w, isSpace c = true) {t : Text} {ts}
    (h : tokensFrom .out (w ++ t) = some ts) : tokensFrom .out t = some ts := by
  induction w with
  | nil => exact h
  | cons c w ih =>
    apply ih (fun x hx => hw x (List.mem_cons_of_mem _ hx))
    rw [List.cons_append, tokensFrom_cons] at h
    obtain ⟨r, hr, hm⟩ := Option.bind_eq_some_iff.1 h
    obtain ⟨_, rfl⟩ := startTok_space (hw c (by simp)) hr
    rw [map_nil_append] at hm
    exact hm

theorem tokensFrom_drop_last {c : Char} (hc : isSpace c = true) (u : Text) : ∀ {p : HPlace} {ts},
    tokensFrom p (u ++ [c]) = some ts → tokensFrom p u = some ts := by
  induction u with
  | nil =>
    intro p ts h
    rw [List.nil_append, tokensFrom_cons] at h
    obtain ⟨r, hr, hm⟩ := Option.bind_eq_some_iff.1 h
    cases p with
    | out =>
      obtain ⟨_, rfl⟩ := startTok_space hc hr
      exact hm
    | word w =>
      simp only [readChar, space_not_word hc, Bool.false_eq_true, if_false, Option.map_eq_some_iff] at hr
      obtain ⟨q, hq, rfl⟩ := hr
      obtain ⟨_, rfl⟩ := startTok_space hc hq
      exact hm
    | quoted s =>
      simp only [readChar] at hr
      split at hr
      · rename_i hq; subst hq; exact absurd hc (by decide)
      · split at hr
        · rename_i hq; subst hq; exact absurd hc (by decide)
        · split at hr
          · cases hr
          · cases hr; simp [tokensFrom] at hm
    | escaped s =>
      simp only [readChar] at hr
      split at hr
      · cases hr
      · cases hr; simp [tokensFrom] at hm
  | cons d u ih =>
    intro p ts h
    rw [List.cons_append, tokensFrom_cons] at h
    rw [tokensFrom_cons]
    exact bind_some_mono h (fun _ hx => hx) (fun r hr => map_some_mono hr (fun x hx => ih hx))

theorem tokensFrom_drop_right {w : Text} (hw : ∀ c ∈ w, isSpace c = true) {t : Text} {p : HPlace} {ts}
    (h : tokensFrom p (t ++ w) = some ts) : tokensFrom p t = some ts := by
  induction w generalizing t with
  | nil => simpa using h
  | cons c w ih =>
    have h2 : tokensFrom p ((t ++ [c]) ++ w) = some ts := by simpa using h
    exact tokensFrom_drop_last (hw c (by simp)) t (ih (fun x hx => hw x (List.mem_cons_of_mem _ hx)) h2)

theorem tokensFrom_newline (u : Text) : ∀ {p : HPlace} {ts},
    tokensFrom p u = some ts → tokensFrom p (u ++ T "\n") = some ts := by
  induction u with
  | nil =>
    intro p ts h
    cases p with
    | out => simp only [tokensFrom, Option.some.injEq] at h; subst h; rfl
    | word w => simp only [tokensFrom, Option.some.injEq] at h; subst h; rfl
    | quoted s => simp [tokensFrom] at h
    | escaped s => simp [tokensFrom] at h
  | cons d u ih =>
    intro p ts h
    rw [List.cons_append, tokensFrom_cons]
    rw [tokensFrom_cons] at h
    exact bind_some_mono h (fun _ hx => hx) (fun r hr => map_some_mono hr (fun x hx => ih hx))

theorem trimSpace_parts (t : Text) : ∃ a b, t = a ++ (trimSpace t ++ b) ∧ (∀ c ∈ a, isSpace c = true) ∧ ∀ c ∈ b, isSpace c = true := by
  refine ⟨t.takeWhile isSpace, ((t.dropWhile isSpace).reverse.takeWhile isSpace).reverse, ?_, ?_, ?_⟩
  · unfold trimSpace trimRightSpace trimLeftSpace
    rw [← List.reverse_append, List.takeWhile_append_dropWhile, List.reverse_reverse, List.takeWhile_append_dropWhile]
  · exact takeWhile_isSpace _
  · intro c hc; exact takeWhile_isSpace _ c (List.mem_reverse.1 hc)

/-- The blanks around a text are not read. -/
theorem tokens_trim {t : Text} {ts} (h : tokens t = some ts) : tokens (trimSpace t ++ T "\n") = some ts := by
  obtain ⟨a, b, he, ha, hb⟩ := trimSpace_parts t
  unfold tokens at h ⊢
  rw [he] at h
  exact tokensFrom_newline _ (tokensFrom_drop_right hb (tokensFrom_drop_left ha h))

theorem tokens_underscore (t : Text) : tokens (T "_=" ++ t) = (tokens t).map (fun ts => .word (T "_") :: .punct '=' :: ts) := by
  have e : T "_=" ++ t = '_' :: '=' :: t := rfl
  unfold tokens
  rw [e, tokensFrom_cons]
  have h1 : readChar .out '_' = some ([], .word ['_']) := rfl
  rw [h1, Option.bind_some, map_nil_append, tokensFrom_cons]
  have h2 : readChar (.word ['_']) '=' = some ([.word ['_'], .punct '='], .out) := rfl
  rw [h2, Option.bind_some]
  cases tokensFrom .out t <;> rfl

/-- A single value is no file. -/
theorem readBody_value {n m : Nat} {ts : List HTok} {d : HData} (h : readValue n ts = some (d, [])) : readBody m ts = none := by
  cases m with
  | zero =>
    cases ts with
    | nil => cases n <;> simp [readValue] at h
    | cons => rfl
  | succ m =>
    unfold readValue at h
    split at h
    · rename_i w ts'
      obtain ⟨x, hx, he⟩ := Option.map_eq_some_iff.1 h
      cases he
      rw [readBody]
      cases keyOf (.word w) with
      | none => rfl
      | some k =>
        rw [Option.bind_some]
        cases m with
        | zero => rfl
        | succ m => cases m <;> rfl
    · rename_i s ts'
      cases h
      rw [readBody]
      simp only [keyOf, Option.bind_some]
      cases m with
      | zero => rfl
      | succ m => cases m <;> rfl
    · rfl
    · rfl
    · cases h

/-! ## YAML -/
open Load

theorem foldl_set_get {α : Type} (l : List (Text × α)) : ∀ (acc : GoMap α) (k : Text),
    GoMap.get? (l.foldl (fun m e => GoMap.set m e.1 e.2) acc) k = ((l.reverse.find? (fun e => e.1 = k)).map Prod.snd).or (acc.get? k) := by
  induction l with
  | nil => intro acc k; simp
  | cons e l ih =>
    intro acc k
    rw [List.foldl_cons, ih, List.reverse_cons, List.find?_append, GoMap.get?_set]
    cases l.reverse.find? (fun e => e.1 = k) with
    | some x => simp
    | none =>
      by_cases he : e.1 = k
      · simp [he]
      · simp [he]

theorem foldl_set_wf {α : Type} (l : List (Text × α)) : ∀ (acc : GoMap α), acc.WF →
    GoMap.WF (l.foldl (fun m e => GoMap.set m e.1 e.2) acc) := by
  induction l with
  | nil => intro acc h; exact h
  | cons e l ih => intro acc h; exact ih _ (h.set _ _)

theorem zip_mem {α β : Type} {l : List α} {m : List β} {x : α × β} (h : x ∈ l.zip m) :
    ∃ i : Nat, l[i]? = some x.1 ∧ m[i]? = some x.2 := by
  obtain ⟨i, hi⟩ := List.mem_iff_getElem?.1 h
  rw [List.getElem?_zip_eq_some] at hi
  exact ⟨i, hi⟩

/-- What is under a key comes from an entry with this printed key. -/
theorem loads_from {α : Type} {es' : List (YKey × YDoc α)} {vs : List (Loaded α)}
    (hv : ∀ (i : Nat) e y, es'[i]? = some e → vs[i]? = some y → Loads e.2 y) {k : Text} {w : Loaded α}
    (hw : GoMap.get? (((es'.map (fun e => e.1.print)).zip vs).foldl (fun m e => GoMap.set m e.1 e.2) []) k = some w) :
    ∃ e ∈ es', e.1.print = k ∧ Loads e.2 w := by
  rw [foldl_set_get] at hw
  simp only [GoMap.get?_nil, Option.or_none, Option.map_eq_some_iff] at hw
  obtain ⟨x, hx, rfl⟩ := hw
  have hk : x.1 = k := by simpa using List.find?_some hx
  have hm := List.mem_reverse.1 (List.mem_of_find?_eq_some hx)
  obtain ⟨i, h1, h2⟩ := zip_mem hm
  rw [List.getElem?_map] at h1
  obtain ⟨e, he, hp⟩ := Option.map_eq_some_iff.1 h1
  exact ⟨e, List.mem_of_getElem? he, hp.trans hk, hv i e x.2 he h2⟩

theorem loads_has {α : Type} {es' : List (YKey × YDoc α)} {vs : List (Loaded α)} (hl : es'.length = vs.length)
    {e : YKey × YDoc α} (he : e ∈ es') :
    ∃ w, GoMap.get? (((es'.map (fun e => e.1.print)).zip vs).foldl (fun m e => GoMap.set m e.1 e.2) []) e.1.print = some w := by
  rw [foldl_set_get]
  simp only [GoMap.get?_nil, Option.or_none]
  obtain ⟨i, hi⟩ := List.mem_iff_getElem?.1 he
  have hlt : i < vs.length := by
    rw [← hl]
    exact Nat.lt_of_not_le (fun hc => by rw [List.getElem?_eq_none hc] at hi; cases hi)
  have hz : (e.1.print, vs[i]) ∈ (es'.map (fun e => e.1.print)).zip vs := by
    apply List.mem_iff_getElem?.2
    refine ⟨i, ?_⟩
    rw [List.getElem?_zip_eq_some]
    exact ⟨by rw [List.getElem?_map, hi]; rfl, by simp [hlt]⟩
  cases hf : ((es'.map (fun e => e.1.print)).zip vs).reverse.find? (fun x => x.1 = e.1.print) with
  | some x => exact ⟨x.2, rfl⟩
  | none =>
    have := List.find?_eq_none.1 hf _ (List.mem_reverse.2 hz)
    simp at this

mutual
/-- One of the results of loading: the entries in the order of the document. -/
def loadDoc {α : Type} : YDoc α → Loaded α
  | .null => .dict []
  | .leaf a => .leaf a
  | .seq l => .list (loadElems l)
  | .map es => .dict (((es.map (fun e => e.1.print)).zip (loadEntries es)).foldl (fun m e => GoMap.set m e.1 e.2) [])
def loadElems {α : Type} : List (YDoc α) → List (Loaded α)
  | [] => []
  | d :: l => loadDoc d :: loadElems l
def loadEntries {α : Type} : List (YKey × YDoc α) → List (Loaded α)
  | [] => []
  | (_, d) :: l => loadDoc d :: loadEntries l
end

mutual
theorem loads_loadDoc {α : Type} : ∀ (d : YDoc α), Loads d (loadDoc d)
  | .null => by rw [loadDoc]; exact .null
  | .leaf a => by rw [loadDoc]; exact .leaf a
  | .seq l => by rw [loadDoc]; exact .seq l _ (loads_loadElems l).1 (loads_loadElems l).2
  | .map es => by rw [loadDoc]; exact .map es es _ (List.Perm.refl _) (loads_loadEntries es).1 (loads_loadEntries es).2
theorem loads_loadElems {α : Type} : ∀ (l : List (YDoc α)), l.length = (loadElems l).length ∧
    ∀ (i : Nat) x y, l[i]? = some x → (loadElems l)[i]? = some y → Loads x y
  | [] => ⟨rfl, fun i x y h => by simp at h⟩
  | d :: l => by
    refine ⟨by rw [loadElems, List.length_cons, List.length_cons, (loads_loadElems l).1], ?_⟩
    intro i x y hx hy
    rw [loadElems] at hy
    cases i with
    | zero => simp only [List.getElem?_cons_zero, Option.some.injEq] at hx hy; subst hx; subst hy; exact loads_loadDoc d
    | succ i => exact (loads_loadElems l).2 i x y (by simpa using hx) (by simpa using hy)
theorem loads_loadEntries {α : Type} : ∀ (l : List (YKey × YDoc α)), l.length = (loadEntries l).length ∧
    ∀ (i : Nat) e y, l[i]? = some e → (loadEntries l)[i]? = some y → Loads e.2 y
  | [] => ⟨rfl, fun i x y h => by simp at h⟩
  | (k, d) :: l => by
    refine ⟨by rw [loadEntries, List.length_cons, List.length_cons, (loads_loadEntries l).1], ?_⟩
    intro i x y hx hy
    rw [loadEntries] at hy
    cases i with
    | zero => simp only [List.getElem?_cons_zero, Option.some.injEq] at hx hy; subst hx; subst hy; exact loads_loadDoc d
    | succ i => exact (loads_loadEntries l).2 i x y (by simpa using hx) (by simpa using hy)
end

end Lemmas
end Verif
