import Verif.Lemmas.HclOut
/-!
# HCL written by the tool denotes the data (C72)
-/

namespace Verif
namespace Props
open Spec Lemmas Text HclOut

private theorem file_denotes {pr : Char → Bool} {full : Bool} {pre indent : Text} (hi : ∀ c ∈ indent, HWhite c) {d : List (Text × Value)}
    (h : Writable full (decide (indent ≠ [])) (.dict d)) :
    Denotes (readFile (layoutDict pr full true pre indent (renderEntries pr full indent d))) (.dict d) := by
  obtain ⟨ts, es, h1, h2, h3⟩ : ∃ ts es, Lexes (layoutDict pr full true pre indent (renderEntries pr full indent d)) ts ∧ PBody ts es ∧
      (HData.obj es).canon = (dataOf (.dict d)).canon := by
    by_cases hl : full = true ∧ Labelled (.dict d)
    · obtain ⟨rfl, hl⟩ := hl
      obtain ⟨k, d', hke, rfl⟩ := labelled_dict hl
      cases h with
      | dict _ hn hk hw hb =>
        have hk' := hk (k, .dict d') (by simp)
        obtain ⟨ts, x, h1, h2, h3⟩ := (good_value pr true indent hi (.dict d') (hw (k, .dict d') (by simp))).tail d' rfl
        refine ⟨keyTok k :: ts, [(k, x)], ?_, pBody_one (keyOf_keyTok hk') (pTail_block h2), ?_⟩
        · rw [renderEntries, renderEntries, layoutDict_label hke, List.append_assoc]
          exact lexes_key_tail hk' (by decide) (.inl (by decide)) h1
        · simp only [HData.canon, HData.canonEntries, dataOf, dataEntries] at h3 ⊢
          rw [h3]
    · cases h with
      | dict _ hn hk hw hb =>
        rw [renderEntries_map, layoutDict_items hl (render pr full indent)]
        have hb' : full = true → ∀ e ∈ d, BlockEntry (decide (indent ≠ [])) e.2 := fun hf => (hb hf).elim (fun h => absurd ⟨hf, h⟩ hl) id
        obtain ⟨ts, es, h1, _, h3, h4, _⟩ := items_of_dict (pr := pr) hn hk (good_entries pr full indent hi d hw) hb'
        refine ⟨ts, es, ?_, h3, h4⟩
        unfold wrapItems
        rw [if_pos rfl]
        split
        · exact h1 '\n' (by decide)
        · exact h1 ' ' (by decide)
  have hb := h2 0 [] [] (fun m _ => by cases m <;> rfl) (2 * ts.length + 2) (by omega)
  unfold Denotes readFile
  rw [tokens_of_lexes h1, Option.bind_some]
  simp only [List.append_nil] at hb
  rw [hb, Option.map_some, Option.map_some, h3]

private theorem expr_denotes {r : Text} {v : Value} (h : ∃ ts d, Lexes r ts ∧ PVal ts d ∧ d.canon = (dataOf v).canon) : Denotes (readExpr r) v := by
  obtain ⟨ts, d, h1, h2, h3⟩ := h
  unfold Denotes readExpr
  rw [tokens_of_lexes h1, Option.bind_some]
  have := h2 (2 * ts.length + 2) [] (by omega)
  rw [List.append_nil] at this
  rw [this]
  simp [h3]

/-- A map, or a list of one map: what is written as the content of a file. -/
def IsFile (v : Value) : Prop := ∃ d, v = .dict d ∨ v = .list [.dict d]

private theorem marshal_expr {pr : Char → Bool} {full head : Bool} {pre indent : Text} (hp : ∀ c ∈ pre ++ indent, HWhite c) {v : Value}
    (h : Writable full (decide (indent ≠ [])) v) (hf : ¬ IsFile v) : Denotes (readExpr (marshal pr full head pre indent v)) v := by
  have hi : ∀ c ∈ indent, HWhite c := fun c hc => hp c (List.mem_append_right _ hc)
  refine expr_denotes ?_
  have hg := good_value pr full indent hi v h
  cases v with
  | dict d => exact absurd ⟨d, .inl rfl⟩ hf
  | list l =>
    have hne : ∀ d, l ≠ [.dict d] := fun d hd => hf ⟨d, .inr (by rw [hd])⟩
    rw [marshal_list hne, renderElems_map]
    cases h with
    | list _ hl hb =>
      have hge := good_elems pr full indent hi l hl
      refine (list_good hp (l := l) (by simp) (fun i v r hv hr => ?_)).1
      have hmem := List.mem_of_getElem? hv
      rw [List.getElem?_map, hv] at hr
      simp only [Option.map_some, Option.some.injEq] at hr
      subst hr
      refine ⟨(hge v hmem).val ?_, (hge v hmem).mark⟩
      rintro ⟨hfu, hlab⟩
      rcases hb hfu with ⟨d, hd⟩ | hb
      · exact hne d hd
      · exact hb v hmem hlab
  | nil => exact hg.val (fun h => nomatch h.2)
  | bool b => exact hg.val (fun h => nomatch h.2)
  | int i => exact hg.val (fun h => nomatch h.2)
  | flt r => exact hg.val (fun h => nomatch h.2)
  | str s => exact hg.val (fun h => nomatch h.2)

private theorem marshal_file {pr : Char → Bool} {full : Bool} {pre indent : Text} (hp : ∀ c ∈ pre ++ indent, HWhite c) {v : Value}
    (h : Writable full (decide (indent ≠ [])) v) (hf : IsFile v) : Denotes (readFile (marshal pr full true pre indent v)) v := by
  have hi : ∀ c ∈ indent, HWhite c := fun c hc => hp c (List.mem_append_right _ hc)
  obtain ⟨d, rfl | rfl⟩ := hf
  · exact file_denotes hi h
  · cases h with
    | list _ hl _ => exact file_denotes (pre := pre) hi (hl _ (by simp))

/-- C72. The compact form without blocks, used for values inside of HCL (`toInternalHCL`), is an expression that denotes the data. Missing: texts with the
internal marker, keys that start with a character between `Z` and `a` (see `C72_not_marker`, `C58_not_identifier`). -/
theorem C72_internal_partial (pr : Char → Bool) (v : Value) (h : Writable false false v) : Denotes (readExpr (toInternal pr v)) v := by
  by_cases hf : IsFile v
  · have hg := fun v h => good_value pr false [] (by simp) v h
    obtain ⟨d, rfl | rfl⟩ := hf
    · exact expr_denotes ((hg (.dict d) h).val (by simp))
    · exact expr_denotes ((hg (.list [.dict d]) h).val (by simp))
  · exact marshal_expr (by simp) h hf

/-- C72. The form for variables of Terraform (`toTFVars`, `toQuotedTFVars`), compact or with any indentation: a map is written as a file, another value as an
expression; what is read is the data. Missing: as above, and, when there is an indentation, texts of
several lines that end with a blank, or with a backslash and `n`, `r` or `t` (see `C72_not_blanks`, `C72_not_backslash`). -/
theorem C72_tfvars_partial (pr : Char → Bool) (pre indent : Text) (hp : ∀ c ∈ pre ++ indent, c = ' ' ∨ c = '\t') (v : Value)
    (h : Writable false (decide (indent ≠ [])) v) :
    (IsFile v → Denotes (readFile (toTFVars pr pre indent v)) v) ∧ (¬ IsFile v → Denotes (readExpr (toTFVars pr pre indent v)) v) := by
  have hp' : ∀ c ∈ pre ++ indent, HWhite c := fun c hc => (hp c hc).elim .inl (fun h => .inr (.inl h))
  exact ⟨marshal_file hp' h, marshal_expr hp' h⟩

/-- C72. The form with blocks (`toHcl`, `toPrettyHCL`). Missing: as above, and the values excluded by `BlockEntry` and `Labelled`, see `C72_not_null`,
`C72_not_labels`, `C72_not_empty_block` and `C72_not_one_label`. -/
theorem C72_blocks_partial (pr : Char → Bool) (pre indent : Text) (hp : ∀ c ∈ pre ++ indent, c = ' ' ∨ c = '\t') (v : Value)
    (h : Writable true (decide (indent ≠ [])) v) :
    (IsFile v → Denotes (readFile (toHcl pr pre indent v)) v) ∧ (¬ IsFile v → Denotes (readExpr (toHcl pr pre indent v)) v) := by
  have hp' : ∀ c ∈ pre ++ indent, HWhite c := fun c hc => (hp c hc).elim .inl (fun h => .inr (.inl h))
  exact ⟨marshal_file hp' h, marshal_expr hp' h⟩

/-- C72. The text does not depend on the order in which Go enumerates the maps, for any options. -/
theorem C72_order (pr : Char → Bool) (full head : Bool) (pre indent : Text) (v v' : Value) (h : Reordered v v') :
    marshal pr full head pre indent v = marshal pr full head pre indent v' := by
  induction h with
  | refl => rfl
  | list l l' hl hr ih =>
    by_cases hd : ∃ d, l = [.dict d]
    · obtain ⟨d, rfl⟩ := hd
      match l', hl with
      | [v'], _ =>
        have h0 := ih 0 (.dict d) v' rfl rfl
        have hs := reordered_shape (hr 0 (.dict d) v' rfl rfl)
        cases v' with
        | dict d' => exact h0
        | _ => cases hs
    · have hd' : ∀ d, l' ≠ [.dict d] := by
        rintro d rfl
        match l, hl with
        | [v], _ =>
          have hs := reordered_shape (hr 0 v (.dict d) rfl rfl)
          cases v with
          | dict d' => exact hd ⟨d', rfl⟩
          | _ => cases hs
      rw [marshal_list (fun d hd' => hd ⟨d, hd'⟩), marshal_list hd', renderElems_map, renderElems_map,
        map_eq_of_getElem hl (fun i v v' hv hv' => render_reordered pr full indent (hr i v v' hv hv'))]
  | dict d d' hk hr _ =>
    show layoutDict _ _ _ _ _ (renderEntries _ _ _ d) = layoutDict _ _ _ _ _ (renderEntries _ _ _ d')
    rw [renderEntries_map, renderEntries_map, ← layoutDict_shape, ← layoutDict_shape (es := d'.map _), List.map_map, List.map_map]
    have hl : d.length = d'.length := by simpa using congrArg List.length hk
    congr 1
    refine map_eq_of_getElem hl (fun i e e' he he' => ?_)
    have hke : e.1 = e'.1 := by
      have := congrArg (fun l => l[i]?) hk
      simpa [List.getElem?_map, he, he'] using this
    simp only [Function.comp_def, shapeEntry]
    rw [hke, reordered_shape (hr i e e' he he'), render_reordered pr full indent (hr i e e' he he')]
  | perm d d' hn hp =>
    show layoutDict _ _ _ _ _ (renderEntries _ _ _ d) = layoutDict _ _ _ _ _ (renderEntries _ _ _ d')
    rw [renderEntries_map, renderEntries_map]
    refine layoutDict_perm _ _ _ _ _ (hp.map _) ?_
    rw [List.map_map]; exact hn
  | trans a b c _ _ h1 h2 => exact h1.trans h2

/-! ## A case -/

private def sample : Value :=
  .dict [(T "a b", .str (T "x\n\"y")), (T "m", .dict [(T "k", .int (-3)), (T "z", .list [.bool true, .flt (T "1.5")])]), (T "l", .list [.dict [(T "q", .int 1)]])]

private theorem sample_writable (blocks lined : Bool) : Writable blocks lined sample := by
  have hk : ∀ k ∈ [T "a b", T "m", T "l", T "k", T "z", T "q"], QuotedKey k := by
    intro k hk
    refine ⟨?_, ?_⟩
    · revert k; decide +kernel
    · rintro c t rfl
      have hh : ∀ k ∈ [T "a b", T "m", T "l", T "k", T "z", T "q"], ∀ c ∈ k.head?, c ∉ T "[\\]^`" := by decide +kernel
      exact hh _ hk c rfl
  have hq : Writable blocks lined (.dict [(T "q", .int 1)]) := by
    refine .dict _ (by decide) ?_ ?_ (fun _ => .inr ?_)
    · simp only [List.mem_singleton, forall_eq]; exact hk _ (by decide)
    · simp only [List.mem_singleton, forall_eq]; exact .int 1
    · simp only [List.mem_singleton, forall_eq]; exact ⟨fun h => (nomatch h), fun h => (nomatch h)⟩
  have hm : Writable blocks lined (.dict [(T "k", .int (-3)), (T "z", .list [.bool true, .flt (T "1.5")])]) := by
    refine .dict _ (by decide) ?_ ?_ (fun _ => .inr ?_)
    · simp only [List.mem_cons, List.not_mem_nil, or_false, forall_eq_or_imp, forall_eq]
      exact ⟨hk _ (by decide), hk _ (by decide)⟩
    · simp only [List.mem_cons, List.not_mem_nil, or_false, forall_eq_or_imp, forall_eq]
      refine ⟨.int _, .list _ ?_ (fun _ => .inr ?_)⟩
      · simp only [List.mem_cons, List.not_mem_nil, or_false, forall_eq_or_imp, forall_eq]
        exact ⟨.bool _, .flt _ ⟨by decide, by decide⟩⟩
      · simp only [List.mem_cons, List.not_mem_nil, or_false, forall_eq_or_imp, forall_eq]
        exact ⟨fun h => (nomatch h), fun h => (nomatch h)⟩
    · simp only [List.mem_cons, List.not_mem_nil, or_false, forall_eq_or_imp, forall_eq]
      exact ⟨⟨fun h => (nomatch h), fun h => (nomatch h)⟩, ⟨fun h => (nomatch h), fun h => (nomatch h)⟩⟩
  refine .dict _ (by decide) ?_ ?_ (fun _ => .inr ?_)
  · simp only [List.mem_cons, List.not_mem_nil, or_false, forall_eq_or_imp, forall_eq]
    exact ⟨hk _ (by decide), hk _ (by decide), hk _ (by decide)⟩
  · simp only [List.mem_cons, List.not_mem_nil, or_false, forall_eq_or_imp, forall_eq]
    refine ⟨.str _ ⟨by decide, fun _ => .inr ⟨T "x\n\"", 'y', by decide, by decide, by decide⟩⟩, hm, .list _ ?_ (fun _ => .inl ⟨_, rfl⟩)⟩
    simp only [List.mem_singleton, forall_eq]; exact hq
  · simp only [List.mem_cons, List.not_mem_nil, or_false, forall_eq_or_imp, forall_eq]
    exact ⟨⟨fun h => (nomatch h), fun h => (nomatch h)⟩, ⟨fun h => (nomatch h), fun h => (nomatch h)⟩, ⟨fun h => (nomatch h), fun h => (nomatch h)⟩⟩

example (pr : Char → Bool) : Denotes (readExpr (toInternal pr sample)) sample := C72_internal_partial pr sample (sample_writable _ _)
example (pr : Char → Bool) : Denotes (readFile (toTFVars pr [] (T "  ") sample)) sample :=
  (C72_tfvars_partial pr [] (T "  ") (by decide) sample (sample_writable _ _)).1 ⟨_, .inl rfl⟩
example (pr : Char → Bool) : Denotes (readFile (toHcl pr [] (T "  ") sample)) sample :=
  (C72_blocks_partial pr [] (T "  ") (by decide) sample (sample_writable _ _)).1 ⟨_, .inl rfl⟩
example : toHcl (fun _ => true) [] [] sample = T "\"a b\"=\"x\\n\\\"y\" l={q=1} m{k=-3 z=[true,1.5]}" := by decide +kernel
example : toTFVars (fun _ => true) [] (T "  ") sample =
    T "\"a b\" = \"x\\n\\\"y\"\n\nl = {\n  q = 1\n}\n\nm = {\n  k = -3\n  z = [true, 1.5]\n}" := by decide +kernel
example : Reordered (.list [.dict [(T "a", .int 1), (T "b", .int 2)]]) (.list [.dict [(T "b", .int 2), (T "a", .int 1)]]) := by
  refine .list _ _ rfl (fun i v v' hv hv' => ?_)
  match i with
  | 0 =>
    simp at hv hv'
    subst hv; subst hv'
    exact .perm _ _ (by decide) (.swap _ _ _)
  | n + 1 => simp at hv

/-! ## What is not faithful -/

/-- C72 does not hold in the compact form with blocks for null under a key: what is written cannot be read. -/
theorem C72_not_null : toHcl (fun _ => true) [] [] (.dict [(T "a", .nil)]) = T "a null" ∧ (readFile (T "a null")).isNone = true := by decide +kernel

/-- C72 does not hold with blocks for a list of several maps with labels. -/
theorem C72_not_labels :
    toHcl (fun _ => true) [] [] (.list [.dict [(T "a", .dict [(T "x", .int 1)])], .dict [(T "b", .dict [(T "x", .int 2)])]]) = T "[a {x=1},b {x=2}]" ∧
      (readExpr (T "[a {x=1},b {x=2}]")).isNone = true := by decide +kernel

/-- C72 does not hold with blocks and an indentation for an empty map under two keys, beside another entry. -/
theorem C72_not_empty_block :
    toHcl (fun _ => true) [] (T "  ") (.dict [(T "a", .dict [(T "b", .dict [])]), (T "c", .int 1)]) = T "a = b {}\nc = 1" ∧
      (readFile (T "a = b {}\nc = 1")).isNone = true := by decide +kernel

/-- C72 does not hold with blocks for a list of one map with a label, under a key. -/
theorem C72_not_one_label :
    toHcl (fun _ => true) [] [] (.dict [(T "a", .list [.dict [(T "b", .dict [(T "x", .int 1)])]])]) = T "a=b {x=1}" ∧ (readFile (T "a=b {x=1}")).isNone = true := by decide +kernel

/-- C72. A text with the internal marker makes its key disappear: the text is no HCL any more. -/
theorem C72_not_marker :
    toTFVars (fun _ => true) [] [] (.dict [(T "a", .str (T "#HCL_ARRAY_MAP#!"))]) = T "\"a\"" ∧ (readFile (T "\"a\"")).isNone = true := by decide +kernel

/-- C72. With an indentation, texts that end with an end of line lose the blanks that all their lines start with: different data gives the same text. -/
theorem C72_not_blanks :
    toTFVars (fun _ => true) [] (T "  ") (.dict [(T "a", .str (T "  x\n"))]) = toTFVars (fun _ => true) [] (T "  ") (.dict [(T "a", .str (T "x\n"))]) ∧
      (dataOf (.dict [(T "a", .str (T "  x\n"))])).canon ≠ (dataOf (.dict [(T "a", .str (T "x\n"))])).canon :=
  ⟨by decide +kernel, fun h => by
    simp only [dataOf, dataEntries, HData.canon, HData.canonEntries, sortBy, insertSorted, HData.obj.injEq, List.cons.injEq, Prod.mk.injEq, HData.str.injEq] at h
    exact absurd h.1.2 (by decide)⟩

/-- C72. With an indentation, a backslash and `n` before a last end of line cannot be told from a backslash and an end of line. -/
theorem C72_not_backslash :
    toTFVars (fun _ => true) [] (T "  ") (.dict [(T "a", .str (T "x\\n\n"))]) = toTFVars (fun _ => true) [] (T "  ") (.dict [(T "a", .str (T "x\\\n\n"))]) ∧
      (dataOf (.dict [(T "a", .str (T "x\\n\n"))])).canon ≠ (dataOf (.dict [(T "a", .str (T "x\\\n\n"))])).canon :=
  ⟨by decide +kernel, fun h => by
    simp only [dataOf, dataEntries, HData.canon, HData.canonEntries, sortBy, insertSorted, HData.obj.injEq, List.cons.injEq, Prod.mk.injEq, HData.str.injEq] at h
    exact absurd h.1.2 (by decide)⟩

end Props
end Verif
