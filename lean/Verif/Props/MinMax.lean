import Verif.Lemmas.MinMax
import Verif.Props.Arith

/-!
C97: `min` and `max` for any arguments.
-/

namespace Verif.Props
open Verif Verif.Text Verif.Value Verif.Arith Verif.Spec Verif.Lemmas Verif.Numbers Verif.MinMax

/-- **C97**, no argument: nil. -/
theorem C97_nothing (N : Nums) (smaller larger : N.F → N.F → N.F) : MinMax.min N smaller larger [] = some .nil ∧ MinMax.max N smaller larger [] = some .nil := ⟨rfl, rfl⟩

theorem compare_nums {N : Nums} (smaller larger : N.F → N.F → N.F) (useMin : Bool) {v : Value} {vs values : List Value} {x : N.F} {xs : List N.F}
    (hv : values = v :: vs) (hf : floats N values = some (x :: xs)) :
    compareNumerics N smaller larger useMin values = some (N.out (xs.foldl (if useMin then smaller else larger) x)) := by
  unfold compareNumerics
  rw [hf, hv]
  rfl

/-- **C97**, numbers, as arguments or as the elements of a list: the smallest and the largest. -/
theorem C97_numbers (N : Nums) (hN : Reads N) (r : N.F → N.F → Prop) (smaller larger : N.F → N.F → N.F) (hr : Chooses r smaller larger)
    (v : Value) (vs : List Value) (x : N.F) (xs : List N.F) (h : AreNums N (v :: vs) (x :: xs)) :
    (∃ m, FirstOf r (x :: xs) m ∧ MinMax.min N smaller larger (v :: vs) = some (N.out m) ∧ MinMax.min N smaller larger [.list (v :: vs)] = some (N.out m)) ∧
    (∃ m, FirstOf (fun a b => r b a) (x :: xs) m ∧ MinMax.max N smaller larger (v :: vs) = some (N.out m) ∧
      MinMax.max N smaller larger [.list (v :: vs)] = some (N.out m)) := by
  have hf := floats_nums hN h
  have hl : floats N [.list (v :: vs)] = some (x :: xs) := by
    rw [floats_list_once]
    have hc : ListOps.clone (v :: vs) = v :: vs := by
      refine DictOps.clone_eq_self fun k e => ?_
      cases h with
      | cons hv _ =>
        simp only [List.cons.injEq] at e
        exact notNum_list hN k _ (e.1 ▸ hv)
    rw [hc]
    exact mapM_nums h
  refine ⟨⟨_, foldl_first hr.refl hr.trans hr.smaller xs x, ?_, ?_⟩,
    ⟨_, foldl_first (r := fun a b => r b a) hr.refl (fun a b c h1 h2 => hr.trans c b a h2 h1) hr.larger xs x, ?_, ?_⟩⟩
  · exact compare_nums smaller larger true rfl hf
  · exact compare_nums smaller larger true rfl hl
  · exact compare_nums smaller larger false rfl hf
  · exact compare_nums smaller larger false rfl hl

theorem compare_texts {N : Nums} (smaller larger : N.F → N.F → N.F) (useMin : Bool) {values : List Value} (hv : values ≠ []) (hf : floats N values = none) :
    compareNumerics N smaller larger useMin values = (compareStrings useMin values).map .str := by
  unfold compareNumerics
  rw [hf, if_neg (by simpa using hv)]

/-- **C97**, several arguments of which one is not a number: their texts are compared, numbers too, and the result is the text of one of them; nil is left out. -/
theorem C97_texts (N : Nums) (smaller larger : N.F → N.F → N.F) (a b : Value) (l : List Value) (hn : ∃ v ∈ a :: b :: l, NotNum N v)
    (h : ∃ v ∈ a :: b :: l, v ≠ .nil) :
    (∃ v ∈ a :: b :: l, v ≠ .nil ∧ MinMax.min N smaller larger (a :: b :: l) = some (.str (sprint v)) ∧
      ∀ w ∈ a :: b :: l, w ≠ .nil → TextLe (sprint v) (sprint w)) ∧
    (∃ v ∈ a :: b :: l, v ≠ .nil ∧ MinMax.max N smaller larger (a :: b :: l) = some (.str (sprint v)) ∧
      ∀ w ∈ a :: b :: l, w ≠ .nil → TextLe (sprint w) (sprint v)) := by
  obtain ⟨w, hw, hwn⟩ := hn
  have hf := floats_not (N := N) hw hwn
  have ht : texts (a :: b :: l) ≠ [] := by
    obtain ⟨v, hv, hv'⟩ := h
    exact fun e => hv' (texts_nil.1 e v hv)
  constructor
  · obtain ⟨m, hm, h1, h2⟩ := compareStrings_first true ht
    obtain ⟨v, hv, hvn, rfl⟩ := mem_texts.1 h1
    refine ⟨v, hv, hvn, ?_, fun w hw hwn => h2 _ (mem_texts.2 ⟨w, hw, hwn, rfl⟩)⟩
    unfold MinMax.min
    rw [compare_texts smaller larger true (by simp) hf, hm]
    rfl
  · obtain ⟨m, hm, h1, h2⟩ := compareStrings_first false ht
    obtain ⟨v, hv, hvn, rfl⟩ := mem_texts.1 h1
    refine ⟨v, hv, hvn, ?_, fun w hw hwn => h2 _ (mem_texts.2 ⟨w, hw, hwn, rfl⟩)⟩
    unfold MinMax.max
    rw [compare_texts smaller larger false (by simp) hf, hm]
    rfl

theorem firstOf_unique {α : Type} {r : α → α → Prop} (ha : ∀ a b, r a b → r b a → a = b) {l l' : List α} (hp : l.Perm l') {m m' : α}
    (h : FirstOf r l m) (h' : FirstOf r l' m') : m = m' := ha _ _ (h.2 _ (hp.mem_iff.2 h'.1)) (h'.2 _ (hp.mem_iff.1 h.1))

/-- **C97**, the order of the arguments does not matter (with an order of numbers in which two different numbers are never equivalent). -/
theorem C97_order (N : Nums) (hN : Reads N) (r : N.F → N.F → Prop) (smaller larger : N.F → N.F → N.F) (hr : Chooses r smaller larger)
    (ha : ∀ a b, r a b → r b a → a = b) (values values' : List Value) (hp : values.Perm values') :
    MinMax.min N smaller larger values = MinMax.min N smaller larger values' ∧ MinMax.max N smaller larger values = MinMax.max N smaller larger values' := by
  match values, hp with
  | [], hp => rw [List.nil_perm.1 hp]; exact ⟨rfl, rfl⟩
  | [v], hp => rw [List.singleton_perm.1 hp]; exact ⟨rfl, rfl⟩
  | a :: b :: l, hp =>
    have hlen := hp.length_eq
    match values', hp, hlen with
    | c :: d :: l', hp, _ =>
      cases hs : (a :: b :: l).mapM (toFloat N) with
      | some xs =>
        have h1 := nums_mapM hs
        -- the numbers of the other list are the same ones
        have key : ∀ {vs vs' : List Value}, vs.Perm vs' → ∀ {xs}, AreNums N vs xs → ∃ xs', AreNums N vs' xs' ∧ xs.Perm xs' := by
          intro vs vs' hp
          induction hp with
          | nil => intro xs h; cases h; exact ⟨[], .nil, List.Perm.refl _⟩
          | cons v _ ih =>
            intro xs h
            cases h with
            | cons hv hs => obtain ⟨xs', h', hp'⟩ := ih hs; exact ⟨_, .cons hv h', hp'.cons _⟩
          | swap v w l =>
            intro xs h
            cases h with
            | cons hv hs => cases hs with
              | cons hw hs => exact ⟨_, .cons hw (.cons hv hs), List.Perm.swap ..⟩
          | trans _ _ ih1 ih2 =>
            intro xs h
            obtain ⟨ys, h', hp'⟩ := ih1 h
            obtain ⟨zs, h'', hp''⟩ := ih2 h'
            exact ⟨zs, h'', hp'.trans hp''⟩
        obtain ⟨ys, h2, hpx⟩ := key hp h1
        match xs, ys, h1, h2, hpx with
        | x :: xs, y :: ys, h1, h2, hpx =>
          obtain ⟨⟨m, hm, e1, _⟩, ⟨n, hn, e2, _⟩⟩ := C97_numbers N hN r smaller larger hr _ _ _ _ h1
          obtain ⟨⟨m', hm', e1', _⟩, ⟨n', hn', e2', _⟩⟩ := C97_numbers N hN r smaller larger hr _ _ _ _ h2
          rw [e1, e1', e2, e2', firstOf_unique ha hpx hm hm', firstOf_unique (fun a b h1 h2 => ha a b h2 h1) hpx hn hn']
          exact ⟨rfl, rfl⟩
      | none =>
        have hn : ∃ v ∈ a :: b :: l, NotNum N v := by
          refine Classical.byContradiction fun hc => ?_
          have hall : ∀ vs : List Value, (∀ v ∈ vs, ¬ NotNum N v) → ∃ xs, AreNums N vs xs := by
            intro vs
            induction vs with
            | nil => intro _; exact ⟨[], .nil⟩
            | cons v vs ih =>
              intro h
              obtain ⟨xs, hxs⟩ := ih (fun w hw => h w (List.mem_cons_of_mem _ hw))
              have : ∃ x, IsNum N v x := Classical.byContradiction fun hx => h v (List.mem_cons_self ..) (fun x h => hx ⟨x, h⟩)
              obtain ⟨x, hx⟩ := this
              exact ⟨x :: xs, .cons hx hxs⟩
          obtain ⟨xs, hxs⟩ := hall _ (fun v hv hnn => hc ⟨v, hv, hnn⟩)
          rw [mapM_nums hxs] at hs
          cases hs
        obtain ⟨v, hv, hvn⟩ := hn
        have f1 := floats_not (N := N) hv hvn
        have f2 := floats_not (N := N) (hp.mem_iff.1 hv) hvn
        have htp : (texts (a :: b :: l)).Perm (texts (c :: d :: l')) := (hp.filter _).map _
        have same : ∀ useMin, compareStrings useMin (a :: b :: l) = compareStrings useMin (c :: d :: l') := by
          intro useMin
          by_cases ht : texts (a :: b :: l) = []
          · have ht' : texts (c :: d :: l') = [] := List.nil_perm.1 (ht ▸ htp)
            unfold compareStrings
            rw [ht, ht']
          · obtain ⟨m, e, hm⟩ := compareStrings_first useMin ht
            obtain ⟨m', e', hm'⟩ := compareStrings_first useMin (values := c :: d :: l') (fun h' => ht (List.perm_nil.1 (h' ▸ htp)))
            rw [e, e']
            refine congrArg some (firstOf_unique ?_ htp hm hm')
            cases useMin with
            | true => exact fun a b h1 h2 => Text.le_antisymm a b h1 h2
            | false => exact fun a b h1 h2 => Text.le_antisymm a b h2 h1
        unfold MinMax.min MinMax.max
        rw [compare_texts smaller larger true (by simp) f1, compare_texts smaller larger true (by simp) f2, compare_texts smaller larger false (by simp) f1,
          compare_texts smaller larger false (by simp) f2, same, same]
        exact ⟨rfl, rfl⟩

/-- **C97**, errors: exactly when all the arguments are nil, and for an empty list (alone, or alone in a list). -/
theorem C97_error (N : Nums) (hN : Reads N) (smaller larger : N.F → N.F → N.F) (values : List Value) :
    (MinMax.min N smaller larger values = none ↔
      (values ≠ [] ∧ ∀ v ∈ values, v = .nil) ∨ values = [.list []] ∨ values = [.list [.list []]]) ∧
    (MinMax.max N smaller larger values = none ↔ MinMax.min N smaller larger values = none) := by
  have key : ∀ useMin, compareNumerics N smaller larger useMin values = none ↔
      (values ≠ [] ∧ ∀ v ∈ values, v = .nil) ∨ values = [.list []] ∨ values = [.list [.list []]] := by
    intro useMin
    have hstr : (compareStrings useMin values).map Value.str = none ↔ ∀ v ∈ values, v = .nil := by
      rw [← texts_nil]
      unfold compareStrings
      cases texts values <;> simp
    match values with
    | [] => simp [compareNumerics]
    | a :: b :: l =>
      unfold compareNumerics
      rw [if_neg (by simp), floats_many]
      cases hs : (a :: b :: l).mapM (toFloat N) with
      | none => simp only [hstr]; simp
      | some xs =>
        have h1 := nums_mapM hs
        cases h1 with
        | cons hv _ =>
          simp only [reduceCtorEq, false_iff]
          rintro (⟨_, h⟩ | h | h)
          · exact num_ne_nil hN hv (h a (List.mem_cons_self ..))
          · cases h
          · cases h
    | [v] =>
      unfold compareNumerics
      rw [if_neg (by simp)]
      cases hfl : floats N [v] with
      | none =>
        simp only [hstr]
        constructor
        · exact fun h => .inl ⟨by simp, h⟩
        · rintro (⟨_, h⟩ | h | h)
          · exact h
          · cases h; cases hfl
          · cases h; rw [floats_list_once, clone_nest] at hfl; cases hfl
      | some xs =>
        cases xs with
        | cons x xs =>
          simp only [reduceCtorEq, false_iff]
          rintro (⟨_, h⟩ | h | h)
          · cases h v (List.mem_singleton.2 rfl); cases hfl
          · cases h; cases hfl
          · cases h; rw [floats_list_once, clone_nest] at hfl; cases hfl
        | nil =>
          simp only [true_iff]
          cases v with
          | nil => exact .inl ⟨by simp, by simp⟩
          | list l =>
            rw [floats_list_once] at hfl
            have hc : ListOps.clone l = [] := by
              have := nums_mapM hfl
              generalize ListOps.clone l = c at this
              cases this
              rfl
            by_cases hk : ∃ k, l = [.list k]
            · obtain ⟨k, rfl⟩ := hk
              rw [clone_nest] at hc
              rw [hc]
              exact .inr (.inr rfl)
            · rw [DictOps.clone_eq_self (fun k e => hk ⟨k, e⟩)] at hc
              rw [hc]
              exact .inr (.inl rfl)
          | _ =>
            exfalso
            unfold floats at hfl
            simp only [convertArgs, asList] at hfl
            rw [DictOps.clone_eq_self (fun k e => by cases e)] at hfl
            cases nums_mapM hfl
  refine ⟨key true, ?_⟩
  unfold MinMax.min MinMax.max
  rw [key true, key false]

/-- **C97**, violated: the smallest element of a list of texts is not found, the result is the text of the whole list. -/
theorem C97_not_list (N : Nums) (smaller larger : N.F → N.F → N.F) (l : List Value) (hl : NotNested l) (h : ∃ v ∈ l, NotNum N v) :
    MinMax.min N smaller larger [.list l] = some (.str (sprint (.list l))) ∧ MinMax.max N smaller larger [.list l] = some (.str (sprint (.list l))) := by
  obtain ⟨v, hv, hn⟩ := h
  have hf : floats N [.list l] = none := by
    rw [floats_list_once, DictOps.clone_eq_self hl]
    exact mapM_not hv hn
  unfold MinMax.min MinMax.max
  rw [compare_texts smaller larger true (by simp) hf, compare_texts smaller larger false (by simp) hf]
  exact ⟨rfl, rfl⟩

def intMin (a b : intNums.F) : intNums.F := (Min.min (α := Int) a b : Int)
def intMax (a b : intNums.F) : intNums.F := (Max.max (α := Int) a b : Int)

/-- **C97**, violated: one text among numbers changes their order. -/
theorem C97_not_numeric : MinMax.min intNums intMin intMax [.int 10, .int 9] = some (.int 9) ∧
    MinMax.min intNums intMin intMax [.int 10, .int 9, .str (T "a")] = some (.str (T "10")) := ⟨rfl, rfl⟩

/-- **C97**, violated: a list of one list of numbers is searched, but not if another argument follows it. -/
theorem C97_not_nested : MinMax.max intNums intMin intMax [.list [.list [.int 4, .int 5]]] = some (.int 5) ∧
    MinMax.max intNums intMin intMax [.list [.int 4, .int 5], .int 7] = some (.str (T "[4 5]")) := ⟨rfl, rfl⟩

theorem intNums_chooses : Chooses (F := intNums.F) (fun a b => (show Int from a) ≤ b) intMin intMax where
  refl := fun a => Int.le_refl a
  trans := fun _ _ _ h1 h2 => Int.le_trans h1 h2
  smaller := by
    intro (a : Int) (b : Int)
    have h : intMin a b = a ∧ a ≤ b ∨ intMin a b = b ∧ b ≤ a := by unfold intMin; show (Min.min (α := Int) a b = a ∧ _ ∨ Min.min (α := Int) a b = b ∧ _); omega
    rcases h with ⟨h, hle⟩ | ⟨h, hle⟩ <;> rw [h]
    · exact ⟨.head _, fun x hx => by cases hx with | head => exact Int.le_refl a | tail _ hx => cases hx with | head => exact hle | tail _ hx => cases hx⟩
    · exact ⟨.tail _ (.head _), fun x hx => by cases hx with | head => exact hle | tail _ hx => cases hx with | head => exact Int.le_refl b | tail _ hx => cases hx⟩
  larger := by
    intro (a : Int) (b : Int)
    have h : intMax a b = a ∧ b ≤ a ∨ intMax a b = b ∧ a ≤ b := by unfold intMax; show (Max.max (α := Int) a b = a ∧ _ ∨ Max.max (α := Int) a b = b ∧ _); omega
    rcases h with ⟨h, hle⟩ | ⟨h, hle⟩ <;> rw [h]
    · exact ⟨.head _, fun x hx => by cases hx with | head => exact Int.le_refl a | tail _ hx => cases hx with | head => exact hle | tail _ hx => cases hx⟩
    · exact ⟨.tail _ (.head _), fun x hx => by cases hx with | head => exact hle | tail _ hx => cases hx with | head => exact Int.le_refl b | tail _ hx => cases hx⟩

example : MinMax.min intNums intMin intMax [.int 3, .str (T "-5"), .int 4] = some (.int (-5)) := rfl
example : MinMax.max intNums intMin intMax [.str (T "b"), .nil, .str (T "c"), .str (T "a")] = some (.str (T "c")) := rfl
example : AreNums intNums [.int 3, .str (T "-5")] [(3 : Int), (-5 : Int)] := .cons rfl (.cons rfl .nil)
example : MinMax.min intNums intMin intMax [.int 3, .nil, .str (T "x")] = MinMax.min intNums intMin intMax [.nil, .int 3, .str (T "x")] :=
  (C97_order intNums intNums_reads _ _ _ intNums_chooses (fun _ _ h1 h2 => Int.le_antisymm h1 h2) _ _ (List.Perm.swap ..)).1
example : MinMax.min intNums intMin intMax [.list [.str (T "b"), .str (T "a")]] = some (.str (T "[b a]")) :=
  (C97_not_list intNums _ _ [.str (T "b"), .str (T "a")] (fun _ e => by cases e) ⟨_, List.mem_cons_self .., fun x h => by cases h⟩).1

end Verif.Props
