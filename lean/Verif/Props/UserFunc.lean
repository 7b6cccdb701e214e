import Verif.Lemmas.UserFunc
import Verif.Props.Dicts
/-!
# C70, C71: functions defined by templates
-/

namespace Verif.Props
open Verif Spec Text Value UserFunc

/-! ## C71 The configuration -/

/-- C71. If each setting is given once, the result of the configuration does not depend on the order in which the keys are visited: with
known names and good values, every setting is found under its name, and the ones that are not given are not there. -/
theorem C71_settings (lower : Text → Text) (config : Dict) (order : List Text) (hl : KeepsNames lower) (ho : GivenOnce lower config)
    (hv : VisitOrder config order) (hg : ∀ k v, GoMap.get? config k = some v → ∃ s, NamesSetting lower k s ∧ GoodSetting s v) :
    ∃ c, configure lower config order = some c ∧
      (∀ k v s, GoMap.get? config k = some v → NamesSetting lower k s → GoMap.get? c (settingNames s).2 = some v) ∧
      ∀ s, (∀ k ∈ GoMap.keys config, ¬ NamesSetting lower k s) → GoMap.get? c (settingNames s).2 = none := by
  obtain ⟨c, hc⟩ := configure_good hl ho hg order (Inv.start lower config)
  have hi := Inv.end hl ho order (Inv.start lower config) hc
  refine ⟨c, hc, fun k v s hk hs => ?_, fun s hs => ?_⟩
  · have hkm := GoMap.mem_of_get? hk
    have hkk : k ∈ GoMap.keys config := GoMap.mem_keys_iff.2 (by rw [hk]; rfl)
    obtain ⟨s', hs', _, hsome⟩ := configure_visited hl ho order (Inv.start lower config) hc k (hv.2 _ hkm) v hk
    have := names_unique hs hs'
    subst this
    obtain ⟨w, hw⟩ := Option.isSome_iff_exists.1 hsome
    rw [hw]
    obtain ⟨k', hk', hor⟩ := hi.old _ w hw
    have hk's : NamesSetting lower k' s := by
      rcases hor with h | ⟨s', hs', h⟩
      · rw [← h]; exact names_key hl s
      · have h1 := names_key hl s
        rw [h] at h1
        have := names_unique h1 (names_key hl s')
        subst this; exact hs'
    have := ho k k' s hkk (GoMap.mem_keys_iff.2 (by rw [hk']; rfl)) hs hk's
    subst this
    rw [hk] at hk'; exact hk'.symm
  · cases hw : GoMap.get? c (settingNames s).2 with
    | none => rfl
    | some w =>
      exfalso
      obtain ⟨k', hk', hor⟩ := hi.old _ w hw
      refine hs k' (GoMap.mem_keys_iff.2 (by rw [hk']; rfl)) ?_
      rcases hor with h | ⟨s', hs', h⟩
      · rw [← h]; exact names_key hl s
      · have h1 := names_key hl s
        rw [h] at h1
        have := names_unique h1 (names_key hl s')
        subst this; exact hs'

/-- C71. An unknown name or a value of the wrong kind is an error, in whatever order the keys are visited. -/
theorem C71_refused (lower : Text → Text) (config : Dict) (order : List Text) (hl : KeepsNames lower) (ho : GivenOnce lower config)
    (hv : VisitOrder config order) (k : Text) (v : Value) (hk : GoMap.get? config k = some v)
    (hbad : ∀ s, NamesSetting lower k s → ¬ GoodSetting s v) : configure lower config order = none := by
  cases hc : configure lower config order with
  | none => rfl
  | some c =>
    obtain ⟨s, hs, hg, _⟩ := configure_visited hl ho order (Inv.start lower config) hc k (hv.2 _ (GoMap.mem_of_get? hk)) v hk
    exact absurd hg (hbad s hs)

/-- C71. The dictionary of the user is only modified under the five names of the settings. -/
theorem C71_config_kept (lower : Text → Text) (order : List Text) : ∀ (config c : Dict), configure lower config order = some c →
    ∀ k, (∀ s, k ≠ (settingNames s).2) → GoMap.get? c k = GoMap.get? config k := by
  induction order with
  | nil => intro config c h k _; simp [configure] at h; rw [h]
  | cons q order ih =>
    intro config c h k hk
    obtain ⟨d, h1, h2⟩ := configure_cons h
    rw [ih d c h2 k hk]
    rcases visit_some h1 with ⟨_, rfl⟩ | ⟨val, s, _, _, _, rfl⟩
    · rfl
    · rw [GoMap.get?_set, if_neg (fun e => hk s e.symm)]

/-- C71 (violated part). With two names for the arguments, the one that is kept depends on the order of the map. -/
theorem C71_not_order : ∃ (config : Dict) (o₁ o₂ : List Text) (c₁ c₂ : Dict), VisitOrder config o₁ ∧ VisitOrder config o₂ ∧
    configure id config o₁ = some c₁ ∧ configure id config o₂ = some c₂ ∧
    GoMap.get? c₁ (T "args") = some (.list [.str (T "y")]) ∧ GoMap.get? c₂ (T "args") = some (.list [.str (T "x")]) :=
  ⟨[(T "a", .list [.str (T "x")]), (T "arguments", .list [.str (T "y")])], [T "a", T "arguments"], [T "arguments", T "a"], _, _,
    ⟨by decide, by simp⟩, ⟨by decide, by simp⟩, rfl, rfl, rfl, rfl⟩

/-- C71 (violated part). Even whether the configuration is accepted may depend on the order of the map. -/
theorem C71_not_accepted : ∃ (config : Dict) (o₁ o₂ : List Text) (c₁ : Dict), VisitOrder config o₁ ∧ VisitOrder config o₂ ∧
    configure id config o₁ = some c₁ ∧ configure id config o₂ = none :=
  ⟨[(T "a", .list [.str (T "x")]), (T "args", .int 5)], [T "a", T "args"], [T "args", T "a"], _,
    ⟨by decide, by simp⟩, ⟨by decide, by simp⟩, rfl, rfl⟩

/-- C71 (violated part). The dictionary given by the user is modified. -/
theorem C71_not_kept : ∃ (config c : Dict) (order : List Text), VisitOrder config order ∧ configure id config order = some c ∧
    GoMap.get? config (T "description") = none ∧ GoMap.get? c (T "description") = some (.str (T "text")) :=
  ⟨[(T "d", .str (T "text"))], _, [T "d"], ⟨by decide, by simp⟩, rfl, rfl, rfl⟩

/-- C71. What a function is made of: its name, its group and description (with their default values), the first word of each argument (the
signature shows the whole of it), the aliases and the default values. -/
theorem C71_function (name : Text) (config : Dict) (group description : Text) (args aliases : List Value) (defaults : Dict)
    (hgroup : GoMap.get? config (T "group") = some (.str group)) (hdesc : GoMap.get? config (T "description") = some (.str description))
    (hargs : GoMap.get? config (T "args") = some (.list args)) (haliases : GoMap.get? config (T "aliases") = some (.list aliases))
    (hdef : GoMap.get? config (T "def") = some (.dict defaults)) (hblank : ∀ a ∈ args, ∃ w ws, fields (sprint a) = w :: ws) :
    ∃ f : Func, makeFunc name config = some f ∧ f.name = name ∧ f.group = (if group = [] then T "User defined functions" else group) ∧
      f.description = description ∧ f.arguments.length = args.length ∧
      (∀ (i : Nat) a, args[i]? = some a → f.arguments[i]? = (fields (sprint a)).head?) ∧
      f.signature = Text.join (T ", ") (args.map sprint) ∧ f.aliases = aliases.map sprint ∧ f.defaults = defaults := by
  have g1 : DictOps.getOne config (.str (T "group")) = .str group := by simp [DictOps.getOne, sprint, hgroup]
  have g2 : DictOps.getOne config (.str (T "description")) = .str description := by simp [DictOps.getOne, sprint, hdesc]
  have g3 : DictOps.getOne config (.str (T "args")) = .list args := by simp [DictOps.getOne, sprint, hargs]
  have g4 : DictOps.getOne config (.str (T "aliases")) = .list aliases := by simp [DictOps.getOne, sprint, haliases]
  have g5 : DictOps.getOne config (.str (T "def")) = .dict defaults := by simp [DictOps.getOne, sprint, hdef]
  have e1 : textOr (.str group) (T "User defined functions") = some (if group = [] then T "User defined functions" else group) := by
    unfold textOr isEmpty
    by_cases h : group = [] <;> simp [h]
  have e2 : textOr (.str description) [] = some description := by
    unfold textOr isEmpty
    by_cases h : description = [] <;> simp [h]
  have e3 : ∀ l : List Value, textsOr (.list l) = some (l.map sprint) := by
    intro l; cases l <;> simp [textsOr, isEmpty]
  have e5 : dictOr (.dict defaults) = some defaults := by
    cases defaults <;> simp [dictOr, isEmpty]
  have hb : ∀ a ∈ args.map sprint, fields a ≠ [] := by
    intro a ha
    obtain ⟨x, hx, rfl⟩ := List.mem_map.1 ha
    obtain ⟨w, ws, hw⟩ := hblank x hx
    rw [hw]; simp
  refine ⟨_, by
    unfold makeFunc
    rw [g1, g2, g3, g4, g5, e1, e2, e3, e3, e5]
    simp only [Option.bind_eq_bind, Option.bind_some]
    rw [argNames_some hb]
    rfl, rfl, rfl, rfl, ?_, ?_, rfl, rfl, rfl⟩
  · simp only
    clear g3 hargs hb
    induction args with
    | nil => rfl
    | cons a args ih =>
      obtain ⟨w, ws, hw⟩ := hblank a (by simp)
      simp only [List.map_cons, List.filterMap_cons, hw, List.head?_cons, List.length_cons]
      rw [ih (fun x hx => hblank x (by simp [hx]))]
  · simp only
    clear g3 hargs hb
    induction args with
    | nil => intro i a h; simp at h
    | cons b args ih =>
      obtain ⟨w, ws, hw⟩ := hblank b (by simp)
      intro i a h
      simp only [List.map_cons, List.filterMap_cons, hw, List.head?_cons]
      cases i with
      | zero => simp only [List.getElem?_cons_zero, Option.some.injEq] at h ⊢; subst h; rw [hw]; rfl
      | succ i => simp only [List.getElem?_cons_succ] at h ⊢; exact ih (fun x hx => hblank x (by simp [hx])) i a h

/-- C71. Without configuration a function has no arguments, no aliases and no default values. -/
theorem C71_empty (name : Text) : ∃ f, makeFunc name [] = some f ∧ f.group = T "User defined functions" ∧ f.description = [] ∧
    f.arguments = [] ∧ f.aliases = [] ∧ f.defaults = [] := ⟨_, rfl, rfl, rfl, rfl, rfl, rfl⟩

/-- C71 (violated part). A blank argument is not refused but makes the definition panic. -/
theorem C71_not_blank (name : Text) (config : Dict) (args : List Value) (a : Value)
    (hargs : GoMap.get? config (T "args") = some (.list args)) (ha : a ∈ args) (hb : fields (sprint a) = []) : makeFunc name config = none := by
  have g3 : DictOps.getOne config (.str (T "args")) = .list args := by simp [DictOps.getOne, sprint, hargs]
  have e3 : textsOr (.list args) = some (args.map sprint) := by cases args <;> simp [textsOr, isEmpty]
  unfold makeFunc
  simp only [g3, e3, Option.bind_eq_bind, Option.bind_eq_none_iff]
  intro _ _ _ _ l hl _ _ _ _ names hn
  cases hl
  rw [argNames_none (List.mem_map_of_mem ha) hb] at hn
  cases hn

/-- C71 (violated part). A number as group, description, default values, arguments or aliases makes the definition panic. -/
theorem C71_not_number : makeFunc (T "f") [(T "group", .int 5)] = none ∧ makeFunc (T "f") [(T "description", .int 5)] = none ∧
    makeFunc (T "f") [(T "def", .int 5)] = none ∧ makeFunc (T "f") [(T "args", .int 5)] = none ∧ makeFunc (T "f") [(T "aliases", .int 5)] = none :=
  ⟨rfl, rfl, rfl, rfl, rfl⟩

theorem isEmpty_iff (v : Value) : isEmpty v = true ↔ Nothing v := by
  constructor
  · intro h
    cases v with
    | nil => exact .nil
    | bool b => cases b with
      | false => exact .false
      | true => cases h
    | int i =>
      have : i = 0 := by simpa [isEmpty] using h
      rw [this]
      exact .zero
    | flt r =>
      refine .zeroFlt r ?_
      simpa [isEmpty] using h
    | str s =>
      have : s = [] := by simpa [isEmpty] using h
      rw [this]
      exact .text
    | list l =>
      have : l = [] := by simpa [isEmpty] using h
      rw [this]
      exact .list
    | dict d =>
      have : d = [] := by simpa [isEmpty] using h
      rw [this]
      exact .dict
  · intro h
    cases h with
    | zeroFlt r h => rcases h with rfl | rfl <;> decide
    | _ => rfl

/-- C71. The group of a function: an empty value (of any type) is as if it was not given, any other value that is not a text makes the definition
panic. -/
theorem C71_group (name : Text) (config : Dict) (v : Value) (hv : GoMap.get? config (T "group") = some v) :
    (∀ f, makeFunc name config = some f → Nothing v ∧ f.group = T "User defined functions" ∨ v = .str f.group) ∧
    (¬ Nothing v → (∀ s, v ≠ .str s) → makeFunc name config = none) := by
  have g : DictOps.getOne config (.str (T "group")) = v := by simp [DictOps.getOne, sprint, hv]
  have key : ∀ f, makeFunc name config = some f → textOr v (T "User defined functions") = some f.group := by
    intro f hf
    unfold makeFunc at hf
    simp only [g, Option.bind_eq_bind, Option.bind_eq_some_iff, Option.pure_def, Option.some.injEq] at hf
    obtain ⟨x, hx, _, _, _, _, _, _, _, _, _, _, rfl⟩ := hf
    exact hx
  constructor
  · intro f hf
    have := key f hf
    unfold textOr at this
    split at this
    · rename_i he
      exact .inl ⟨(isEmpty_iff v).mp he, (Option.some.inj this).symm⟩
    · split at this
      · rw [Option.some.inj this]
        exact .inr rfl
      · cases this
  · intro hn hs
    cases hf : makeFunc name config with
    | none => rfl
    | some f =>
      have := key f hf
      unfold textOr at this
      rw [if_neg (fun he => hn ((isEmpty_iff v).mp he))] at this
      split at this
      · exact absurd rfl (hs _)
      · cases this

example : ∃ f, makeFunc (T "f") [(T "group", .int 0)] = some f ∧ f.group = T "User defined functions" := ⟨_, rfl, rfl⟩
example : makeFunc (T "f") [(T "group", .int 1)] = none := (C71_group _ _ _ rfl).2 (fun h => nomatch h) (fun _ h => nomatch h)

/-- A configuration that meets the hypotheses, with names in mixed case. -/
example : let lower : Text → Text := List.map Char.toLower
    let config : Dict := [(T "Desc", .str (T "text")), (T "ARGS", .list [.str (T "x int")]), (T "default", .dict [(T "x", .int 1)])]
    KeepsNames lower ∧ (configure lower config [T "default", T "ARGS", T "Desc"]).isSome := by
  refine ⟨fun s => by cases s <;> rfl, rfl⟩
example : GivenOnce (List.map Char.toLower) [(T "Desc", .str (T "text")), (T "ARGS", .list [.str (T "x int")])] := by
  intro k k' s hk hk' h h'
  simp only [GoMap.keys_cons, GoMap.keys_nil, List.mem_cons, List.not_mem_nil, or_false] at hk hk'
  rcases hk with rfl | rfl <;> rcases hk' with rfl | rfl <;> first | rfl | (exfalso; revert h h'; unfold NamesSetting; cases s <;> decide)

/-! ## C70 The arguments -/

theorem bind_eq (convert : Text → Option Value) (arguments : List Text) (defaults : Dict) (context : Value) (args : List Value) :
    bindCall convert arguments defaults context args =
      match seenArgs convert arguments args with
      | [arg] => if arguments.length = 1 then bindDefault arguments defaults context [arg] else bindSingle arguments defaults context arg
      | args => bindDefault arguments defaults context args := by
  cases args with
  | nil => rfl
  | cons a args =>
    cases args with
    | cons b args => cases a <;> rfl
    | nil =>
      by_cases h : arguments.length = 1
      · cases a <;> simp [bindCall, seenArgs, h]
      · cases a <;> simp [bindCall, seenArgs, h, convertArg]

/-- C70. Behind an alias: the arguments given with its definition come first, then the ones of the call, all in order. -/
theorem C70_alias (given args : List Value) : (aliasArgs given args).length = given.length + args.length ∧
    (∀ (i : Nat), i < given.length → (aliasArgs given args)[i]? = given[i]?) ∧ (∀ (i : Nat), (aliasArgs given args)[given.length + i]? = args[i]?) := by
  unfold aliasArgs
  refine ⟨by simp, fun i hi => by rw [List.getElem?_append_left hi], fun i => by rw [List.getElem?_append_right (by omega)]; congr 1; omega⟩

/-- C70. Only four functions can be behind an alias. -/
theorem C70_alias_functions (f : Text) : supported f = true ↔ f ∈ [T "run", T "exec", T "template", T "include"] := by
  simp [supported, or_assoc]

example : aliasArgs [.int 1] [.int 2, .int 3] = [.int 1, .int 2, .int 3] := rfl
example : supported (T "run") = true ∧ supported (T "raw") = false := by decide

/-- C70. A dictionary (or a text that is the data of one) given alone to a function that has not exactly one argument: the code sees its values
first, then the default values, then the context (which is `DEFAULT`, above all, when it is empty). -/
theorem C70_named (convert : Text → Option Value) (arguments : List Text) (defaults d c : Dict) (args : List Value)
    (ha : args = [.dict d] ∨ ∃ s, args = [.str s] ∧ convert s = some (.dict d)) (hn : arguments.length ≠ 1)
    (hw : WFValue (.dict d)) (hwd : WFValue (.dict defaults)) (hwc : WFValue (.dict c)) :
    ∃ r, bindCall convert arguments defaults (.dict c) args = some r ∧ ∀ p, seenAt p r = resolve p [if c = [] then [(T "DEFAULT", .dict [])] else [], d, defaults, c] := by
  refine ⟨DictOps.merge (if c = [] then [(T "DEFAULT", .dict [])] else []) [some d, some defaults, some c], ?_, ?_⟩
  · have : seenArgs convert arguments args = [.dict d] := by
      rcases ha with rfl | ⟨s, rfl, h⟩
      · rfl
      · simp [seenArgs, hn, h]
    rw [bind_eq, this]
    by_cases hc : c = [] <;> simp [hn, bindSingle, tryAsDict, freshContext, contextDict, hc]
  · intro p
    rw [C11_merge_paths _ _ (by simp only [List.mem_cons, Option.some.injEq, List.not_mem_nil, or_false]; rintro s (rfl | rfl | rfl) <;> assumption)]
    rfl

/-- C70. In the other cases the arguments are found under their names, the ones without name are the list `ARGS`, and for all other keys the code
sees the default values, then the context. -/
theorem C70_positions (convert : Text → Option Value) (arguments : List Text) (defaults c : Dict) (args args' : List Value)
    (hargs : seenArgs convert arguments args = args')
    (ha : ∀ a, args' = [a] → arguments.length = 1 ∨ (a ≠ .nil ∧ ∀ d, a ≠ .dict d))
    (hwd : WFValue (.dict defaults)) (hwc : WFValue (.dict c)) :
    ∃ r, bindCall convert arguments defaults (.dict c) args = some r ∧
      (arguments.Nodup → (T "ARGS" ∉ arguments ∨ args'.length ≤ arguments.length) →
        ∀ (i : Nat) name a, arguments[i]? = some name → args'[i]? = some a → GoMap.get? r name = some a) ∧
      (arguments.length < args'.length → GoMap.get? r (T "ARGS") = some (.list (args'.drop arguments.length))) ∧
      ∀ k p, k ∉ arguments.take args'.length → (k ≠ T "ARGS" ∨ args'.length ≤ arguments.length) →
        seenAt (k :: p) r = resolve (k :: p) [if c = [] then [(T "DEFAULT", .dict [])] else [], defaults, c] := by
  have hb : bindCall convert arguments defaults (.dict c) args = bindDefault arguments defaults (.dict c) args' := by
    rw [bind_eq, hargs]
    match args', ha with
    | [], _ => rfl
    | [a], ha =>
      simp only
      by_cases h : arguments.length = 1
      · rw [if_pos h]
      · rw [if_neg h]
        rcases ha a rfl with h' | ⟨h1, h2⟩
        · exact absurd h' h
        · cases a <;> first | rfl | exact absurd rfl h1 | exact absurd rfl (h2 _)
    | _ :: _ :: _, _ => rfl
  rw [hb]
  refine ⟨_, rfl, ?_, ?_, ?_⟩
  · intro hn hA i name a hi hai
    exact get?_bindPositions_name _ _ _ i name a hn hA hi hai
  · intro h
    exact get?_bindPositions_rest _ _ _ h
  · intro k p hk hA
    have := C11_merge_paths (if c = [] then [(T "DEFAULT", .dict [])] else []) [some defaults, some c] (by simp only [List.mem_cons, Option.some.injEq, List.not_mem_nil, or_false]; rintro s (rfl | rfl) <;> assumption) (k :: p)
    rw [seenAt_cons, get?_bindPositions_other k _ _ _ hk hA, ← seenAt_cons]
    by_cases hc : c = []
    · subst hc; simpa [freshContext, contextDict] using this
    · simpa [freshContext, contextDict, hc] using this

/-- C70. With an empty context the code sees it as `DEFAULT`, besides the arguments. -/
theorem C70_empty_context (convert : Text → Option Value) (arguments : List Text) (defaults : Dict) (args : List Value) (context : Value)
    (hc : context = .nil ∨ context = .dict []) (hA : T "DEFAULT" ∉ arguments) (hd : GoMap.get? defaults (T "DEFAULT") = none) (hwd : GoMap.WF defaults) (hl : args.length ≠ 1) :
    ∃ r, bindCall convert arguments defaults context args = some r ∧ GoMap.get? r (T "DEFAULT") = some context := by
  have hs : seenArgs convert arguments args = args := by
    match args, hl with
    | [], _ => rfl
    | [_], h => simp at h
    | a :: _ :: _, _ => cases a <;> rfl
  have hb : bindCall convert arguments defaults context args = bindDefault arguments defaults context args := by
    rw [bind_eq, hs]
    match args, hl with
    | [], _ => rfl
    | [_], h => simp at h
    | a :: _ :: _, _ => rfl
  rw [hb]
  have ht : tryAsDict context = some [] := by rcases hc with rfl | rfl <;> rfl
  have hf : freshContext context = [(T "DEFAULT", context)] := by rcases hc with rfl | rfl <;> rfl
  refine ⟨_, by unfold bindDefault; rw [ht]; rfl, ?_⟩
  rw [get?_bindPositions_other _ _ _ _ (fun h => hA (List.mem_of_mem_take h)) (Or.inl (by decide)), hf]
  simp only [DictOps.merge, List.foldl_cons, List.foldl_nil]
  rw [DictOps.get?_deepMerge _ _ GoMap.WF_nil, DictOps.get?_deepMerge _ _ hwd, hd, DictOps.combine_none, GoMap.get?_nil, DictOps.combine_none]
  rfl

/-- C70. A context that is neither nil nor a dictionary is an error, unless a dictionary is given alone. -/
theorem C70_no_context (convert : Text → Option Value) (arguments : List Text) (defaults : Dict) (args : List Value) (context : Value)
    (hc : context ≠ .nil ∧ ∀ d, context ≠ .dict d) (hl : args.length ≠ 1 ∨ arguments.length = 1) :
    bindCall convert arguments defaults context args = none := by
  have ht : tryAsDict context = none := by cases context <;> first | rfl | exact absurd rfl hc.1 | exact absurd rfl (hc.2 _)
  have hd : ∀ l, bindDefault arguments defaults context l = none := by intro l; unfold bindDefault; rw [ht]; rfl
  match args, hl with
  | [], _ => exact hd _
  | [a], hl =>
    have : arguments.length = 1 := by simpa using hl
    simp [bindCall, this, hd]
  | _ :: _ :: _, _ => exact hd _

/-- C70 (violated part). A text given alone to a function of several arguments is converted: the version `1.10` is seen as the number 1.1;
it is seen as it is if there is a second argument. -/
theorem C70_not_text (convert : Text → Option Value) (hconv : convert (T "1.10") = some (.flt (T "1.1"))) :
    (∃ r, bindCall convert [T "a", T "b"] [] (.dict [(T "x", .nil)]) [.str (T "1.10")] = some r ∧ GoMap.get? r (T "a") = some (.flt (T "1.1"))) ∧
    ∃ r, bindCall convert [T "a", T "b"] [] (.dict [(T "x", .nil)]) [.str (T "1.10"), .nil] = some r ∧ GoMap.get? r (T "a") = some (.str (T "1.10")) := by
  constructor
  · refine ⟨_, by simp [bindCall, convertArg, hconv, bindSingle, tryAsDict, bindDefault]; rfl, rfl⟩
  · exact ⟨_, rfl, rfl⟩

/-- C70 (violated part). A nil given alone to a function of several arguments is not bound to the first one. -/
theorem C70_not_nil (convert : Text → Option Value) : ∃ r, bindCall convert [T "a", T "b"] [] (.dict [(T "x", .int 1)]) [.nil] = some r ∧
    GoMap.get? r (T "a") = none := ⟨_, rfl, rfl⟩

/-- C70. A call that returns modifies nothing that existed before, if no key leads to dictionaries in two of: the given dictionary, the default
values, the context. -/
theorem C70_kept_partial (n : Nat) (arguments : List Text) (defaults context : Nat) (args : List HVal) (h h' : Heap) (hw : WFMaps h)
    (hd : defaults < h.length) (hc : context < h.length) (harg : ∀ a, args = [.dict a] → a < h.length)
    (hap : Apart h (args.filterMap (fun | .dict a => some a | _ => none) ++ [defaults, context]))
    (hdef : ∀ s b, s = defaults ∨ args = [.dict s] → child h (.dict s) (.key (T "DEFAULT")) ≠ some (.dict b))
    (hb : bindHeap n arguments defaults context args h = some h') :
    ∀ v, Within h (· < h.length) v → SameContents h v h' v := by
  intro v hv
  refine HeapOps.same_agree hv ?_
  -- a merge of some of the sources into the new dictionary
  have key : ∀ (ss : List Nat) (g : Heap), ss.Sublist (args.filterMap (fun | .dict a => some a | _ => none) ++ [defaults, context]) →
      (∀ s ∈ ss, s < h.length ∧ ((s = defaults ∨ args = [.dict s]) ∨ s = context)) → HeapOps.merge n (freshHeap h context) h.length ss = some g →
      (∀ a, a < h.length → g[a]? = h[a]?) ∧ g.length = h.length + 1 := by
    intro ss g hsub hss hm
    have hold : ∀ a, a < h.length → (freshHeap h context)[a]? = h[a]? := fun a ha => List.getElem?_append_left ha
    have hent : ∀ a, a < h.length → ∀ k, HeapOps.entry (freshHeap h context) a k = HeapOps.entry h a k := fun a ha k => HeapOps.entry_agree (hold a ha) k
    obtain ⟨r1, r2⟩ := merge_apart ss (h := freshHeap h context) (fun s hs => Nat.ne_of_lt (hss s hs).1)
      (fun s hs m hm => hw s m (by rw [← hold s (hss s hs).1]; exact hm))
      (by
        rw [List.pairwise_cons]
        refine ⟨fun s hs k b b' hk => ?_, (List.Pairwise.sublist hsub hap).imp_of_mem (fun {x y} hx hy hxy k b b' hb => ?_)⟩
        · obtain ⟨hlt, hor⟩ := hss s hs
          rw [hent s hlt]
          have hnew : (freshHeap h context)[h.length]? = some (.dict (if HeapOps.mapKeys h context = some [] then [(T "DEFAULT", .dict context)] else [])) := by
            simp [freshHeap]
          rw [HeapOps.entry_of hnew] at hk
          split at hk
          · rename_i hempty
            rw [GoMap.get?_cons] at hk
            split at hk
            · rename_i hk'
              subst hk'
              rcases hor with h1 | h1
              · exact hdef s b' h1
              · subst h1
                intro he
                obtain ⟨m, hm1, hm2⟩ := HeapOps.entry_some he
                simp only [HeapOps.mapKeys, hm1, Option.some.injEq] at hempty
                cases m with
                | nil => simp at hm2
                | cons e m => simp [GoMap.keys] at hempty
            · simp at hk
          · simp at hk
        · rw [hent y (hss y hy).1]
          rw [hent x (hss x hx).1] at hb
          exact hxy k b b' hb) hm
    exact ⟨fun a ha => by rw [r1 a (Nat.ne_of_lt ha), hold a ha], by rw [r2]; simp [freshHeap]⟩
  have two : ∀ l g, HeapOps.merge n (freshHeap h context) h.length [defaults, context] = some g → setPositions h.length arguments l g = h' →
      ∀ a, a < h.length → h'[a]? = h[a]? := by
    intro l g hg he a ha
    obtain ⟨k1, k2⟩ := key _ g (List.sublist_append_right _ _) (by
      intro s hs
      rcases List.mem_cons.1 hs with rfl | hs
      · exact ⟨hd, Or.inl (Or.inl rfl)⟩
      · rw [List.mem_singleton] at hs; subst hs; exact ⟨hc, Or.inr rfl⟩) hg
    rw [← he, setPositions_below _ _ _ _ _ (by omega) (by omega), k1 a ha]
  unfold bindHeap at hb
  split at hb
  · rename_i b
    split at hb
    · intro a ha
      exact (key _ h' (by simp) (by
        intro s hs
        simp only [List.mem_cons, List.not_mem_nil, or_false] at hs
        rcases hs with rfl | rfl | rfl
        · exact ⟨harg _ rfl, Or.inl (Or.inr rfl)⟩
        · exact ⟨hd, Or.inl (Or.inl rfl)⟩
        · exact ⟨hc, Or.inr rfl⟩) hb).1 a ha
    · simp only [Option.map_eq_some_iff] at hb
      obtain ⟨g, hg, he⟩ := hb
      exact two _ g hg he
  · simp only [Option.map_eq_some_iff] at hb
    obtain ⟨g, hg, he⟩ := hb
    exact two _ g hg he

/-- C70 (violated part). The default values are modified by a call when the context has a dictionary under the same key: a later call, with another
context, sees what was in the context of the first one. -/
theorem C70_not_defaults : ∃ (n : Nat) (h h₁ h₂ : Heap) (defaults context₁ context₂ : Nat),
    bindHeap n [] defaults context₁ [] h = some h₁ ∧ bindHeap n [] defaults context₂ [] h₁ = some h₂ ∧
    child h (.dict defaults) (.key (T "opt")) = some (.dict 2) ∧ child h (.dict 2) (.key (T "secret")) = none ∧
    child h (.dict context₂) (.key (T "opt")) = none ∧
    seen h₂ (.dict h₁.length) [.key (T "opt"), .key (T "secret")] = some (.atom (.int 7)) := by
  refine ⟨2, [.dict [(T "opt", .dict 3)], .dict [(T "opt", .dict 2)], .dict [], .dict [(T "secret", .atom (.int 7))], .dict [(T "x", .atom .nil)]], _, _, 1, 0, 4,
    rfl, rfl, rfl, rfl, rfl, rfl⟩

/-- A call that meets the hypotheses, with nested dictionaries under different keys. -/
example : let h : Heap := [.dict [(T "c", .dict 3)], .dict [(T "d", .dict 2)], .dict [], .dict [(T "x", .atom (.int 7))]]
    (bindHeap 2 [T "a"] 1 0 [.atom (.int 1), .atom (.int 2)] h).isSome ∧ Apart h [1, 0] := by
  refine ⟨rfl, ?_⟩
  simp only [Apart, List.pairwise_cons, List.mem_singleton, List.not_mem_nil, false_implies, implies_true, List.Pairwise.nil, and_true]
  rintro y rfl k b b' h1 h2
  simp only [child, List.getElem?_cons_zero, List.getElem?_cons_succ, GoMap.get?] at h1 h2
  split at h1
  · rename_i e; subst e; split at h2
    · rename_i e; revert e; decide
    · cases h2
  · cases h1
/-- Positions, names, remaining arguments and context together. -/
example : ∃ r, bindCall (fun _ => none) [T "a"] [(T "b", .int 1)] (.dict [(T "b", .int 2), (T "c", .int 3)]) [.int 4, .int 5] = some r ∧
    GoMap.get? r (T "a") = some (.int 4) ∧ GoMap.get? r (T "b") = some (.int 1) ∧ GoMap.get? r (T "c") = some (.int 3) ∧
    GoMap.get? r (T "ARGS") = some (.list [.int 5]) := ⟨_, rfl, rfl, rfl, rfl, rfl⟩
/-- A dictionary given alone. -/
example : ∃ r, bindCall (fun _ => none) [] [(T "b", .int 1)] (.dict [(T "b", .int 2), (T "c", .int 3)]) [.dict [(T "c", .int 5)]] = some r ∧
    GoMap.get? r (T "b") = some (.int 1) ∧ GoMap.get? r (T "c") = some (.int 5) := ⟨_, rfl, rfl, rfl⟩

private abbrev lowerAscii : Text → Text := List.map Char.toLower
private abbrev someConfig : Dict := [(T "Desc", .str (T "text")), (T "ARGS", .list [.str (T "x int")])]
private theorem someConfig_once : GivenOnce lowerAscii someConfig := by
  intro k k' s hk hk' h h'
  simp only [GoMap.keys_cons, GoMap.keys_nil, List.mem_cons, List.not_mem_nil, or_false] at hk hk'
  rcases hk with rfl | rfl <;> rcases hk' with rfl | rfl <;> first | rfl | (exfalso; revert h h'; unfold NamesSetting; cases s <;> decide)

example := C71_settings lowerAscii someConfig [T "ARGS", T "args", T "Desc"] (fun s => by cases s <;> rfl) someConfig_once
  ⟨by decide, by decide⟩ (by
    intro k v h
    simp only [GoMap.get?_cons, GoMap.get?_nil] at h
    split at h
    · rename_i e; subst e; exact ⟨.description, by unfold NamesSetting; decide, trivial⟩
    · split at h
      · rename_i e; subst e; exact ⟨.args, by unfold NamesSetting; decide, by simp only [Option.some.injEq] at h; exact ⟨_, h.symm⟩⟩
      · cases h)
example : configure lowerAscii [(T "Args", .int 1)] [T "Args"] = none :=
  C71_refused lowerAscii [(T "Args", .int 1)] [T "Args"] (fun s => by cases s <;> rfl)
    (by intro k k' s hk hk' _ _; simp [GoMap.keys] at hk hk'; rw [hk, hk']) ⟨by decide, by decide⟩ (T "Args") (.int 1) rfl (by
      intro s h
      cases s <;> first | (exfalso; revert h; unfold NamesSetting; decide) | (rintro ⟨l, hl⟩; cases hl))
example := C71_function (T "f") [(T "group", .str []), (T "description", .str (T "d")), (T "args", .list [.str (T "x int")]), (T "aliases", .list []), (T "def", .dict [])]
  _ _ _ _ _ rfl rfl rfl rfl rfl (by simp only [List.mem_cons, List.not_mem_nil, or_false, forall_eq]; exact ⟨T "x", [T "int"], by decide +kernel⟩)
example := C70_empty_context (fun _ => none) [T "a"] [(T "b", .int 1)] [.int 1, .int 2] .nil (.inl rfl) (by decide) rfl (by decide) (by decide)
example := C70_no_context (fun _ => none) [T "a"] [(T "b", .int 1)] [.int 1] (.int 3) ⟨by simp, by simp⟩ (.inr rfl)
example := C70_named (fun _ => none) [] [(T "b", .int 1)] [(T "c", .int 5)] [(T "b", .int 2)] [.dict [(T "c", .int 5)]] (.inl rfl) (by decide)
  ⟨by decide, by simp [WFEntries, WFValue]⟩ ⟨by decide, by simp [WFEntries, WFValue]⟩ ⟨by decide, by simp [WFEntries, WFValue]⟩
example := C70_positions (fun _ => none) [T "a"] [(T "b", .int 1)] [(T "b", .int 2)] [.int 4, .int 5] [.int 4, .int 5] rfl (by simp)
  ⟨by decide, by simp [WFEntries, WFValue]⟩ ⟨by decide, by simp [WFEntries, WFValue]⟩


end Verif.Props
