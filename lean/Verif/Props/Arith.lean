import Verif.Lemmas.Arith
import Verif.Lemmas.Numbers

/-!
C84: the functions on numbers, with texts and lists among the arguments.
-/

namespace Verif.Props
open Verif Verif.Text Verif.Value Verif.Arith Verif.Spec Verif.Lemmas Verif.Numbers

/-- **C84**, numbers: the sum and the product, of the arguments or of the elements of one list. -/
theorem C84_numbers (N : Nums) (hN : Reads N) (v : Value) (x : N.F) (vs : List Value) (xs : List N.F) (h : AreNums N (v :: vs) (x :: xs)) :
    add N v vs = some (N.out (total N (N.ofNat 0) (x :: xs))) ∧ add N (.list (v :: vs)) [] = some (N.out (total N (N.ofNat 0) (x :: xs))) ∧
    multiply N v vs = some (N.out (product N (N.ofNat 1) (x :: xs))) ∧ multiply N (.list (v :: vs)) [] = some (N.out (product N (N.ofNat 1) (x :: xs))) := by
  have hv : v ≠ .nil := by cases h with | cons hv _ => exact num_ne_nil hN hv
  have hf := floats_nums hN h
  have hc := convertArgs_nums hN h
  refine ⟨?_, ?_, ?_, ?_⟩
  · rw [add_eq N hv, hc, hf, ← foldl_total]
  · rw [add_eq N (by simp), convertArgs_list, hf, ← foldl_total]
  · rw [multiply_eq N hv, hc, hf, ← foldl_product]
  · rw [multiply_eq N (by simp), convertArgs_list, hf, ← foldl_product]

/-- **C84**, texts: `add` joins them, if one is not a number. -/
theorem C84_texts (N : Nums) (t u : Text) (ts : List Text) (h : ∃ w ∈ t :: u :: ts, N.parse w = none) :
    add N (.str t) ((u :: ts).map .str) = some (.str (t ++ u ++ ts.flatten)) := by
  obtain ⟨w, hw, hn⟩ := h
  have hnn : NotNum N (.str w) := notNum_iff.mpr (by unfold toFloat; rw [sprint]; exact hn)
  have hmem : Value.str w ∈ Value.str t :: Value.str u :: ts.map .str := by
    have := List.mem_map_of_mem (f := Value.str) hw
    simpa using this
  rw [add_eq N (by simp), List.map_cons, convertArgs_many, floats_not hmem hnn]
  have hp : addPair N (.str t :: .str u :: ts.map .str) = none := by
    cases ts with
    | cons _ _ => rfl
    | nil =>
      simp only [List.map_nil, addPair]
      have hone : floats N (convertArgs [.str t]) = [Value.str t].mapM (toFloat N) := rfl
      rcases List.mem_cons.mp hw with rfl | hw
      · rw [hone, mapM_not (List.mem_singleton.mpr rfl) hnn]
      · rw [List.mem_singleton] at hw
        subst hw
        rw [notNum_iff.mp hnn]
        cases floats N (convertArgs [.str t]) <;> rfl
  rw [hp]
  have := sprintAll_texts (t :: u :: ts)
  simp only [List.map_cons] at this
  simp only [addOther, this, List.flatten_cons, List.append_assoc]

/-- **C84**, two lists: `add` puts them one after the other. -/
theorem C84_lists (N : Nums) (hN : Reads N) (l m : List Value) : add N (.list l) [.list m] = some (.list (l ++ m)) := by
  have hp : addPair N [.list l, .list m] = none := by
    simp only [addPair]
    rw [notNum_iff.mp (notNum_list hN m)]
    cases floats N (convertArgs [.list l]) <;> rfl
  rw [add_eq N (by simp), convertArgs_many, floats_not (List.mem_cons_self ..) (notNum_list hN l), hp]
  rfl

/-- **C84**, a list and one element that is not a number, or a list in which something is not a number: the element is added at the end. -/
theorem C84_append (N : Nums) (hN : Reads N) (l : List Value) (v : Value) (hv : OneElement v)
    (h : NotNum N v ∨ NotNested l ∧ l ≠ [.nil] ∧ ∃ w ∈ l, NotNum N w) : add N (.list l) [v] = some (.list (l ++ [v])) := by
  have hp : addPair N [.list l, v] = none := by
    simp only [addPair]
    rcases h with h | ⟨h1, h2, w, hw, hn⟩
    · rw [notNum_iff.mp h]
      cases floats N (convertArgs [.list l]) <;> rfl
    · rw [convertArgs_list, floats_ordinary h1 h2 hw hn]
  rw [add_eq N (by simp), convertArgs_many, floats_not (List.mem_cons_self ..) (notNum_list hN l), hp]
  cases v with
  | nil => exact hv.elim
  | list _ => exact hv.elim
  | _ => rfl

/-- **C84**, a list of numbers and a number: `add` and `mul` act on each element. The result is a list if there are two numbers or more (see `C84_not_list`). -/
theorem C84_each_partial (N : Nums) (hN : Reads N) (l : List Value) (xs : List N.F) (hl : AreNums N l xs) (h2 : 2 ≤ l.length) (v : Value) (y : N.F)
    (hv : IsNum N v y) : add N (.list l) [v] = some (.list (xs.map fun x => N.out (N.plus x y))) ∧
    multiply N (.list l) [v] = some (.list (xs.map fun x => N.out (N.times x y))) := by
  have h2' : 2 ≤ xs.length := by rw [← length_nums hl]; exact h2
  have hy : toFloat N v = some y := hv
  constructor
  · rw [add_eq N (by simp), convertArgs_many, floats_not (List.mem_cons_self ..) (notNum_list hN l)]
    have hp : addPair N [.list l, v] = some (.list (xs.map fun x => N.out (N.plus x y))) := by
      simp only [addPair]
      rw [convertArgs_list, floats_nums hN hl, hy]
      exact congrArg some (processF_many h2' _)
    rw [hp]
  · rw [multiply_eq N (by simp), convertArgs_many, floats_not (List.mem_cons_self ..) (notNum_list hN l)]
    simp only [mulOther]
    rw [convertArgs_list, floats_nums hN hl, hy]
    exact congrArg some (processF_many h2' _)

/-- **C84**, two lists of numbers: `mul` gives, for each number of the second list, the first list multiplied by it. -/
theorem C84_product (N : Nums) (hN : Reads N) (l m : List Value) (xs ys : List N.F) (hl : AreNums N l xs) (hm : AreNums N m ys)
    (h2 : 2 ≤ l.length) : multiply N (.list l) [.list m] = some (.list (ys.map fun y => .list (xs.map fun x => N.out (N.times x y)))) := by
  have h2' : 2 ≤ xs.length := by rw [← length_nums hl]; exact h2
  rw [multiply_eq N (by simp), convertArgs_many, floats_not (List.mem_cons_self ..) (notNum_list hN l)]
  simp only [mulOther]
  rw [convertArgs_list, floats_nums hN hl, notNum_iff.mp (notNum_list hN m), convertArgs_list, floats_nums hN hm]
  simp only [processF_many h2']

/-- **C84**, a text that is not a number: `mul` repeats it; a count that is not an integer or is negative is an error. -/
theorem C84_repeat (N : Nums) (t : Text) (ht : N.parse t = none) (v : Value) :
    multiply N (.str t) [v] = match toInt v with
      | some (.ofNat n) => some (.str (List.replicate n t).flatten)
      | _ => none := by
  have hnn : NotNum N (.str t) := notNum_iff.mpr (by unfold toFloat; rw [sprint]; exact ht)
  rw [multiply_eq N (by simp), convertArgs_many, floats_not (List.mem_cons_self ..) hnn]
  simp only [mulOther]
  have hone : floats N (convertArgs [.str t]) = [Value.str t].mapM (toFloat N) := rfl
  rw [hone, mapM_not (List.mem_singleton.mpr rfl) hnn]
  unfold mulRepeat
  cases toInt v with
  | none => rfl
  | some n =>
    cases n with
    | ofNat n => simp
    | negSucc n => simp [Int.negSucc_lt_zero]

/-- **C84**, a list in which something is not a number: `mul` gives a list of copies of it. -/
theorem C84_copies (N : Nums) (hN : Reads N) (l : List Value) (h1 : NotNested l) (h2 : l ≠ [.nil]) (h : ∃ w ∈ l, NotNum N w) (v : Value) :
    multiply N (.list l) [v] = match toInt v with
      | some (.ofNat n) => some (.list (List.replicate n (.list l)))
      | _ => none := by
  obtain ⟨w, hw, hn⟩ := h
  rw [multiply_eq N (by simp), convertArgs_many, floats_not (List.mem_cons_self ..) (notNum_list hN l)]
  simp only [mulOther]
  rw [convertArgs_list, floats_ordinary h1 h2 hw hn]
  unfold mulRepeat
  cases toInt v with
  | none => rfl
  | some n =>
    cases n with
    | ofNat n => simp
    | negSucc n => simp [Int.negSucc_lt_zero]

theorem mapM_out {N : Nums} (f : N.F → N.F) {l : List Value} {xs : List N.F} (h : AreNums N l xs) :
    (l.mapM fun v => (toFloat N v).map fun x => N.out (f x)) = some (xs.map fun x => N.out (f x)) := by
  induction h with
  | nil => rfl
  | cons hv _ ih =>
    rw [List.mapM_cons, ih]
    have : toFloat N _ = some _ := hv
    rw [this]
    rfl

theorem mapM_out_not {N : Nums} (f : N.F → N.F) {l : List Value} {w : Value} (hw : w ∈ l) (hn : NotNum N w) :
    (l.mapM fun v => (toFloat N v).map fun x => N.out (f x)) = none := by
  induction l with
  | nil => cases hw
  | cons v l ih =>
    rw [List.mapM_cons]
    rcases List.mem_cons.mp hw with rfl | hw
    · rw [notNum_iff.mp hn]; rfl
    · rw [ih hw]
      cases toFloat N v <;> rfl

/-- **C84**, a function of one number: on a number it gives a number, on a list of two numbers or more the list of the results, and one element that is not a number makes an error. -/
theorem C84_unary (N : Nums) (hN : Reads N) (f : N.F → N.F) :
    (∀ v x, IsNum N v x → unary N f v = some (N.out (f x))) ∧
    (∀ l xs, AreNums N l xs → 2 ≤ l.length → unary N f (.list l) = some (.list (xs.map fun x => N.out (f x)))) ∧
    (∀ l w, w ∈ l → NotNum N w → unary N f (.list l) = none) := by
  refine ⟨fun v x h => ?_, fun l xs h h2 => ?_, fun l w hw hn => ?_⟩
  · unfold unary process
    rw [asList_num hN h]
    have : toFloat N v = some x := h
    show (toFloat N v).map _ = _
    rw [this]
    rfl
  · match l, h2, h with
    | a :: b :: l, _, h =>
      unfold unary process
      show Option.map Value.list ((a :: b :: l).mapM _) = _
      rw [mapM_out f h]
      rfl
  · match l, hw with
    | [a], hw =>
      rw [List.mem_singleton] at hw
      subst hw
      show (toFloat N w).map _ = _
      rw [notNum_iff.mp hn]
      rfl
    | a :: b :: l, hw =>
      show Option.map Value.list ((a :: b :: l).mapM _) = _
      rw [mapM_out_not f hw hn]
      rfl

/-- **C84**, a function of two numbers, such as `sub` or `div`: on two numbers it gives the result, on a list of two numbers or more the results for each element as the first operand; a case without result is an error. -/
theorem C84_binary (N : Nums) (hN : Reads N) (f : N.F → N.F → Option N.F) (b : Value) (y : N.F) (hb : IsNum N b y) :
    (∀ v x, IsNum N v x → binary N f v b = (f x y).map N.out) ∧
    (∀ l xs, AreNums N l xs → 2 ≤ l.length → binary N f (.list l) b = (xs.mapM fun x => (f x y).map N.out).map .list) ∧
    (∀ v x c, IsNum N v x → NotNum N c → binary N f v c = none) := by
  have hy : toFloat N b = some y := hb
  refine ⟨fun v x h => ?_, fun l xs h h2 => ?_, fun v x c h hc => ?_⟩
  · unfold binary process
    rw [asList_num hN h]
    have hx : toFloat N v = some x := h
    simp only [hx, hy, Option.bind_some]
  · have key : ∀ {l xs}, AreNums N l xs → (l.mapM fun v => (toFloat N v).bind fun x => (toFloat N b).bind fun y => (f x y).map N.out) =
        xs.mapM fun x => (f x y).map N.out := by
      intro l xs h
      induction h with
      | nil => rfl
      | @cons v x vs xs hv _ ih =>
        have hx : toFloat N v = some x := hv
        rw [List.mapM_cons, List.mapM_cons, ih, hx, hy]
        rfl
    match l, h2, h with
    | a :: c :: l, _, h =>
      unfold binary process
      show Option.map Value.list ((a :: c :: l).mapM _) = _
      rw [key h]
  · unfold binary process
    rw [asList_num hN h]
    have hx : toFloat N v = some x := h
    simp only [hx, notNum_iff.mp hc, Option.bind_some, Option.bind_none]

/-- **C84**, nothing to compute with: `add` and `mul` of nil are nil, `avg` of nil is an error, and of an empty list it is zero, as `mul` is. -/
theorem C84_nothing (N : Nums) (v : Value) (args : List Value) : add N .nil args = some .nil ∧ multiply N .nil [] = some .nil ∧
    multiply N .nil [v] = some .nil ∧ multiply N (.list []) [] = some (.int 0) ∧ average N .nil args = none ∧ average N (.list []) [] = some (.int 0) :=
  ⟨rfl, rfl, rfl, rfl, rfl, rfl⟩

/-- **C84**, the average of numbers is their sum divided by how many they are, if the sum is printed and read again without change. -/
theorem C84_average (N : Nums) (hN : Reads N) (v : Value) (x : N.F) (vs : List Value) (xs : List N.F) (h : AreNums N (v :: vs) (x :: xs))
    (hs : IsNum N (N.out (total N (N.ofNat 0) (x :: xs))) (total N (N.ofNat 0) (x :: xs))) :
    average N v vs = some (N.out (N.over (total N (N.ofNat 0) (x :: xs)) (N.ofNat (vs.length + 1)))) ∧
    average N (.list (v :: vs)) [] = average N v vs := by
  have hv : v ≠ .nil := by cases h with | cons hv _ => exact num_ne_nil hN hv
  have hc := convertArgs_nums hN h
  have h1 : average N v vs = match convertArgs (v :: vs) with
      | [] => some (.int 0)
      | x :: xs => (add N x xs).bind fun sum => (toFloat N sum).map fun s => N.out (N.over s (N.ofNat (x :: xs).length)) := by
    cases v with
    | nil => exact absurd rfl hv
    | _ => rfl
  have h3 : average N (.list (v :: vs)) [] = (add N v vs).bind fun sum => (toFloat N sum).map fun s => N.out (N.over s (N.ofNat (v :: vs).length)) := rfl
  rw [hc] at h1
  refine ⟨?_, by rw [h1, h3]⟩
  rw [h1]
  show (add N v vs).bind _ = _
  rw [(C84_numbers N hN v x vs xs h).1]
  show (toFloat N _).map _ = _
  have : toFloat N (N.out (total N (N.ofNat 0) (x :: xs))) = some (total N (N.ofNat 0) (x :: xs)) := hs
  rw [this]
  rfl

/-- The numbers of the examples: integers. -/
def intNums : Nums where
  F := Int
  parse := parseInt 10
  plus := (· + ·)
  times := (· * ·)
  over := fun a b => a / b
  ofNat := fun n => (n : Int)
  out := .int

theorem parseInt_strange {c : Char} (hc : ∀ d < 10, digitVal c ≠ some d) (h1 : c ≠ '+') (h2 : c ≠ '-') (t : Text) : parseInt 10 (c :: t) = none := by
  unfold parseInt
  split
  rename_i neg digits he
  split at he
  · rename_i heq; cases heq; exact absurd rfl h1
  · rename_i heq; cases heq; exact absurd rfl h2
  · cases he
    have : parseUint 10 (c :: t) = none := by
      unfold parseUint digitsLoop
      cases hd : digitVal c with
      | none => rfl
      | some d => simp [show ¬ d < 10 from fun h => hc d h hd]
    rw [this]

theorem intNums_reads : Reads intNums where
  list := fun t => (parseInt_strange (by decide) (by decide) (by decide) t : parseInt 10 ('[' :: t) = none)
  nil := fun t => (parseInt_strange (by decide) (by decide) (by decide) t : parseInt 10 ('<' :: t) = none)
  dict := fun t => (parseInt_strange (by decide) (by decide) (by decide) t : parseInt 10 ('d' :: t) = none)

/-- **C84**, not always a list: the result for a list of one number is a number, and for an empty list nil. -/
theorem C84_not_list : add intNums (.list [.int 1]) [.int 3] = some (.int 4) ∧ multiply intNums (.list [.int 2]) [.int 3] = some (.int 6) ∧
    add intNums (.list []) [.int 3] = some .nil ∧ multiply intNums (.list []) [.int 3] = some .nil := ⟨rfl, rfl, rfl, rfl⟩

/-- **C84**, not all lists: `add` forgets the lists after the second, and the elements after the first that is added. -/
theorem C84_not_all (N : Nums) (hN : Reads N) (l m : List Value) (v : Value) (rest : List Value) :
    add N (.list l) (.list m :: v :: rest) = some (.list (l ++ m)) := by
  rw [add_eq N (by simp), convertArgs_many, floats_not (List.mem_cons_self ..) (notNum_list hN l)]
  rfl

/-- **C84**, not symmetric: a number and a text cannot be multiplied, a text and a number can. -/
theorem C84_not_symmetric : multiply intNums (.str (T "ab")) [.int 3] = some (.str (T "ababab")) ∧ multiply intNums (.int 3) [.str (T "ab")] = none ∧
    add intNums (.list [.int 1, .int 2]) [.int 3] = some (.list [.int 4, .int 5]) ∧
    add intNums (.int 3) [.list [.int 1, .int 2]] = some (.str (T "3 [1 2]")) := ⟨rfl, rfl, rfl, rfl⟩

/-- **C84**, not total: a list that only has a list that is not of numbers, and nil added to a list, are errors; nil first gives nil. -/
theorem C84_not_total : add intNums (.list [.list [.str (T "a")]]) [] = none ∧ add intNums (.list [.int 1]) [.nil] = none ∧
    add intNums .nil [.int 1] = some .nil ∧ multiply intNums (.str (T "a")) [.str (T "b"), .str (T "c")] = none := ⟨rfl, rfl, rfl, rfl⟩

/-- **C84**, not kept apart: two values that are not texts are separated by a space, and what is next to a text is not. -/
theorem C84_not_joined : add intNums (.str (T "a")) [.int 1, .int 2] = some (.str (T "a1 2")) ∧
    add intNums (.bool true) [.bool false, .str (T "b")] = some (.str (T "true falseb")) := ⟨rfl, rfl⟩

example : AreNums intNums [.int 1, .str (T "2")] [(1 : Int), (2 : Int)] := .cons rfl (.cons rfl .nil)
example : add intNums (.int 1) [.str (T "2")] = some (.int 3) := rfl
example : add intNums (.str (T "1")) [.str (T "a")] = some (.str (T "1a")) := rfl
example : add intNums (.list [.int 1, .str (T "a")]) [.int 3] = some (.list [.int 1, .str (T "a"), .int 3]) := rfl
example : NotNested [.int 1, .str (T "a")] ∧ NotNum intNums (.str (T "a")) := ⟨(fun _ e => by cases e), (fun x h => by cases h)⟩
example : multiply intNums (.list [.int 1, .int 2]) [.list [.int 3, .int 4]] = some (.list [.list [.int 3, .int 6], .list [.int 4, .int 8]]) := rfl
example : multiply intNums (.list [.str (T "a")]) [.int 2] = some (.list [.list [.str (T "a")], .list [.str (T "a")]]) := rfl
example : average intNums (.int 1) [.int 2, .int 6] = some (.int 3) := rfl
example : unary intNums (fun x : Int => x * x) (.list [.int 3, .int 4]) = some (.list [.int 9, .int 16]) := rfl

example : add intNums (.int 1) [.str (T "2")] = some (.int 3) := (C84_numbers intNums intNums_reads (.int 1) (1 : Int) [.str (T "2")] [(2 : Int)] (.cons rfl (.cons rfl .nil))).1
example : add intNums (.str (T "1")) [.str (T "a"), .str (T "b")] = some (.str (T "1ab")) := C84_texts intNums (T "1") (T "a") [T "b"] ⟨T "a", by decide, rfl⟩
example : add intNums (.list [.int 1]) [.list [.int 2]] = some (.list [.int 1, .int 2]) := C84_lists intNums intNums_reads _ _
example : add intNums (.list [.int 1, .int 2]) [.str (T "a")] = some (.list [.int 1, .int 2, .str (T "a")]) :=
  C84_append intNums intNums_reads [.int 1, .int 2] _ trivial (.inl fun x h => by cases h)
example : add intNums (.list [.int 1, .str (T "a")]) [.int 3] = some (.list [.int 1, .str (T "a"), .int 3]) :=
  C84_append intNums intNums_reads [.int 1, .str (T "a")] _ trivial (.inr ⟨fun _ e => (by cases e), by simp, _, List.mem_cons_of_mem _ (List.mem_singleton.2 rfl), fun x h => by cases h⟩)
example : add intNums (.list [.int 1, .int 2]) [.str (T "3")] = some (.list [.int 4, .int 5]) :=
  (C84_each_partial intNums intNums_reads [.int 1, .int 2] [(1 : Int), (2 : Int)] (.cons rfl (.cons rfl .nil)) (by decide) (.str (T "3")) (3 : Int) rfl).1
example : multiply intNums (.list [.int 1, .int 2]) [.list [.int 3]] = some (.list [.list [.int 3, .int 6]]) :=
  C84_product intNums intNums_reads [.int 1, .int 2] [.int 3] [(1 : Int), (2 : Int)] [(3 : Int)] (.cons rfl (.cons rfl .nil)) (.cons rfl .nil) (by decide)
example : multiply intNums (.str (T "ab")) [.int 2] = some (.str (T "abab")) := C84_repeat intNums (T "ab") rfl (.int 2)
example : multiply intNums (.list [.str (T "a")]) [.int 2] = some (.list [.list [.str (T "a")], .list [.str (T "a")]]) :=
  C84_copies intNums intNums_reads [.str (T "a")] (fun _ e => by cases e) (by simp) ⟨_, List.mem_singleton.2 rfl, fun x h => by cases h⟩ (.int 2)
example : unary intNums (fun x : Int => x * x) (.list [.int 3, .int 4]) = some (.list [.int 9, .int 16]) :=
  (C84_unary intNums intNums_reads (fun x : Int => x * x)).2.1 [.int 3, .int 4] [(3 : Int), (4 : Int)] (.cons rfl (.cons rfl .nil)) (by decide)
example : binary intNums (fun x y : Int => some (x - y)) (.list [.int 3, .int 4]) (.str (T "2")) = some (.list [.int 1, .int 2]) :=
  (C84_binary intNums intNums_reads (fun x y : Int => some (x - y)) (.str (T "2")) (2 : Int) rfl).2.1 [.int 3, .int 4] [(3 : Int), (4 : Int)] (.cons rfl (.cons rfl .nil)) (by decide)
example : average intNums (.int 1) [.int 2, .int 6] = some (.int 3) :=
  (C84_average intNums intNums_reads (.int 1) (1 : Int) [.int 2, .int 6] [(2 : Int), (6 : Int)] (.cons rfl (.cons rfl (.cons rfl .nil))) rfl).1


end Verif.Props
