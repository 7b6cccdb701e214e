import Verif.Spec.ExtensionsSpec
import Verif.Props.Lookup
/-!
# C94: the templates that extensions define
-/

namespace Verif.Props
open Verif Spec Extensions Lemmas

variable {Tree : Type}

/-! ## What stands -/

theorem standing_nil (isEmpty : Tree → Bool) : standing isEmpty [] = none := rfl

theorem standing_append_some (isEmpty : Tree → Bool) (a b : List Tree) :
    standing isEmpty (a ++ b) = standing isEmpty ((standing isEmpty a).toList ++ b) := by
  unfold standing
  rw [List.filter_append, List.filter_append, List.getLast?_append, List.getLast?_append]
  cases hb : (b.filter (fun t => !isEmpty t)).getLast? with
  | some t => simp
  | none =>
    simp only [Option.none_or]
    cases ha : (a.filter (fun t => !isEmpty t)).getLast? with
    | some t =>
      have ht : isEmpty t = false := by
        have := (List.mem_filter.1 (List.mem_of_getLast? ha)).2
        simpa using this
      simp [ht]
    | none =>
      have hall : ∀ x ∈ a, isEmpty x = true := by
        have := List.getLast?_eq_none_iff.1 ha
        intro x hx
        have := List.filter_eq_nil_iff.1 this x hx
        simpa using this
      cases a with
      | nil => simp
      | cons x a => simp [hall x (by simp)]

theorem standing_some_iff (isEmpty : Tree → Bool) (l : List Tree) : (standing isEmpty l).isSome ↔ l ≠ [] := by
  unfold standing
  cases h : (l.filter (fun t => !isEmpty t)).getLast? with
  | some t =>
    have : t ∈ l := (List.mem_filter.1 (List.mem_of_getLast? h)).1
    simp only [Option.isSome_some, true_iff]
    rintro rfl
    simp at this
  | none => cases l <;> simp

theorem standing_mem {isEmpty : Tree → Bool} {l : List Tree} {t : Tree} (h : standing isEmpty l = some t) : t ∈ l := by
  unfold standing at h
  split at h
  · rename_i u hu
    cases h
    exact (List.mem_filter.1 (List.mem_of_getLast? hu)).1
  · exact List.mem_of_head? h

theorem standing_empty {isEmpty : Tree → Bool} {l : List Tree} {t : Tree} (h : standing isEmpty l = some t) (ht : isEmpty t = true) : ∀ u ∈ l, isEmpty u = true := by
  unfold standing at h
  split at h
  · rename_i u hu
    cases h
    have := (List.mem_filter.1 (List.mem_of_getLast? hu)).2
    simp [ht] at this
  · rename_i hn
    intro u hu
    have := List.filter_eq_nil_iff.1 (List.getLast?_eq_none_iff.1 hn) u hu
    simpa using this

/-! ## Tables -/

/-- The trees of that name in a list of entries. -/
def treesOf (name : Text) (es : List (Text × (Tree × Text))) : List (Tree × Text) := (es.filter (fun e => e.1 = name)).map Prod.snd

theorem get?_foldl_addTree (isEmpty : Tree → Bool) (name : Text) (es : List (Text × (Tree × Text))) : ∀ table : Table Tree,
    (es.foldl (addTree isEmpty) table).get? name = standing (fun x => isEmpty x.1) ((table.get? name).toList ++ treesOf name es) := by
  induction es with
  | nil =>
    intro table
    cases h : table.get? name with
    | none => simp [treesOf, h, standing]
    | some t => cases ht : isEmpty t.1 <;> simp [treesOf, h, standing, ht]
  | cons e es ih =>
    intro table
    rw [List.foldl_cons, ih]
    unfold addTree
    rw [get?_associate]
    by_cases hn : name = e.1
    · subst hn
      rw [if_pos rfl]
      have ht : treesOf e.1 (e :: es) = e.2 :: treesOf e.1 es := by simp [treesOf]
      rw [ht, ← List.singleton_append (l := treesOf e.1 es), ← List.append_assoc, standing_append_some _ (_ ++ _) (treesOf e.1 es)]
      congr 2
      cases h : table.get? e.1 with
      | none => cases he : isEmpty e.2.1 <;> simp [standing, he]
      | some t => cases he : isEmpty e.2.1 <;> cases ht : isEmpty t.1 <;> simp [standing, he, ht]
    · rw [if_neg hn]
      have : treesOf name (e :: es) = treesOf name es := by simp [treesOf, Ne.symm hn]
      rw [this]

theorem WF_foldl_addTree (isEmpty : Tree → Bool) (es : List (Text × (Tree × Text))) : ∀ table : Table Tree, table.WF → (es.foldl (addTree isEmpty) table).WF := by
  induction es with
  | nil => exact fun _ h => h
  | cons e es ih =>
    intro table h
    rw [List.foldl_cons]
    refine ih _ ?_
    unfold addTree Lookup.associate
    split
    · exact h
    · exact h.set _ _

theorem standing_map_fst (isEmpty : Tree → Bool) (l : List (Tree × Text)) :
    (standing (fun x => isEmpty x.1) l).map Prod.fst = standing isEmpty (l.map Prod.fst) := by
  have hf : (l.map Prod.fst).filter (fun t => !isEmpty t) = (l.filter (fun x => !isEmpty x.1)).map Prod.fst := by
    rw [List.filter_map]
    rfl
  unfold standing
  rw [hf, List.getLast?_map]
  cases (l.filter (fun x => !isEmpty x.1)).getLast? with
  | some t => rfl
  | none => cases l <;> rfl

/-- In a table, a name has at most one tree. -/
theorem treesOf_table {table other : Table Tree} (h : table.WF) (hp : other.Perm table) (name : Text) : treesOf name other = (table.get? name).toList := by
  have ho : GoMap.WF other := (hp.map Prod.fst).nodup_iff.2 h
  rw [← GoMap.get?_perm hp ho]
  clear hp h
  induction other with
  | nil => rfl
  | cons e es ih =>
    rw [GoMap.get?_cons]
    by_cases hn : e.1 = name
    · subst hn
      have : treesOf e.1 es = [] := by
        rw [ih ho.tail, GoMap.get?_eq_none_iff.2 ho.head]
        rfl
      rw [if_pos rfl, treesOf, List.filter_cons_of_pos (by simp), List.map_cons]
      exact congrArg (e.2 :: ·) this
    · rw [if_neg hn, ← ih ho.tail]
      simp [treesOf, hn]

theorem importTemplates_eq (isEmpty : Tree → Bool) (source : Table Tree) : ∀ target,
    importTemplates isEmpty target source = (source.filter (fun e => e.1 ≠ e.2.2)).foldl (addTree isEmpty) target := by
  induction source with
  | nil => exact fun _ => rfl
  | cons e es ih =>
    intro target
    unfold importTemplates at ih ⊢
    rw [List.foldl_cons, ih]
    by_cases h : e.1 ≠ e.2.2 <;> simp [h]

theorem treesOf_filter (name : Text) (source : Table Tree) : treesOf name (source.filter (fun e => e.1 ≠ e.2.2)) = (treesOf name source).filter (fun x => x.2 ≠ name) := by
  induction source with
  | nil => rfl
  | cons e es ih =>
    unfold treesOf at ih ⊢
    by_cases h : e.1 = name
    · subst h
      by_cases h2 : e.1 = e.2.2
      · have h3 : ¬ e.2.2 ≠ e.1 := fun h => h h2.symm
        rw [List.filter_cons_of_neg (by simpa using h2), ih, List.filter_cons_of_pos (by simp), List.map_cons, List.filter_cons_of_neg (by simpa using h3)]
      · have h3 : e.2.2 ≠ e.1 := fun h => h2 h.symm
        rw [List.filter_cons_of_pos (by simpa using h2), List.filter_cons_of_pos (by simp), List.map_cons, ih, List.filter_cons_of_pos (by simp), List.map_cons,
          List.filter_cons_of_pos (by simpa using h3)]
    · rw [List.filter_cons_of_neg (p := fun e : Text × (Tree × Text) => decide (e.1 = name)) (a := e) (l := es) (by simpa using h), ← ih]
      by_cases h2 : e.1 ≠ e.2.2
      · rw [List.filter_cons_of_pos (by simpa using h2), List.filter_cons_of_neg (by simpa using h)]
      · rw [List.filter_cons_of_neg (by simpa using h2)]

theorem get?_importAll (isEmpty : Tree → Bool) (name : Text) (tables : List (Table Tree)) : ∀ target : Table Tree,
    (tables.foldl (importTemplates isEmpty) target).get? name =
      standing (fun x => isEmpty x.1) ((target.get? name).toList ++ tables.flatMap (fun s => (treesOf name s).filter (fun x => x.2 ≠ name))) := by
  induction tables with
  | nil => exact fun target => get?_foldl_addTree isEmpty name [] target
  | cons s ss ih =>
    intro target
    rw [List.foldl_cons, ih, importTemplates_eq, get?_foldl_addTree, treesOf_filter, ← standing_append_some, List.flatMap_cons, List.append_assoc]

/-! ## The files -/

/-- The definitions of a name in a folder, with the files. -/
def tagged (w : World Tree) (files : List Text) (name folder : Text) : List (Tree × Text) :=
  (files.filter (fun file => dir file = folder)).flatMap (fun file => (fileDefinitions w name file).map (fun t => (t, file)))

theorem tagged_fst (w : World Tree) (files : List Text) (name folder : Text) : (tagged w files name folder).map Prod.fst = folderDefinitions w files name folder := by
  unfold tagged folderDefinitions
  rw [List.map_flatMap]
  congr 1
  funext file
  rw [List.map_map]
  exact List.map_id _

/-- What the templates of the folders are after some files. -/
structure Kept (w : World Tree) (files : List Text) (children : GoMap (Table Tree)) : Prop where
  wf : children.WF
  tables : ∀ folder table, children.get? folder = some table → table.WF ∧
    ∀ name, name ∉ files → table.get? name = standing (fun x => w.isEmpty x.1) (tagged w files name folder)
  others : ∀ folder, children.get? folder = none → ∀ name, folderDefinitions w files name folder = []
  folders : ∀ folder, (children.get? folder).isSome → ∃ file ∈ files, dir file = folder

theorem kept_step {w : World Tree} {files : List Text} {children after : GoMap (Table Tree)} {file : Text} (h : Kept w files children)
    (hl : loadFile w children file = some after) : Kept w (files ++ [file]) after := by
  have hother : ∀ name folder, dir file ≠ folder → tagged w (files ++ [file]) name folder = tagged w files name folder := by
    intro name folder hne
    simp [tagged, List.filter_append, hne]
  unfold loadFile at hl
  split at hl
  · cases hl
  · rename_i hp
    cases hl
    have hnone : ∀ name folder, tagged w (files ++ [file]) name folder = tagged w files name folder := by
      intro name folder
      by_cases hd : dir file = folder
      · simp [tagged, List.filter_append, hd, fileDefinitions, hp]
      · exact hother name folder hd
    refine ⟨h.wf, fun folder table ht => ⟨(h.tables _ _ ht).1, fun name hn => ?_⟩, fun folder hf name => ?_, fun folder hf => ?_⟩
    · rw [hnone]
      exact (h.tables _ _ ht).2 name (fun hm => hn (List.mem_append_left _ hm))
    · rw [← tagged_fst, hnone, tagged_fst]
      exact h.others folder hf name
    · obtain ⟨x, hx, hd⟩ := h.folders folder hf
      exact ⟨x, List.mem_append_left _ hx, hd⟩
  · rename_i own defs hc
    cases hl
    have hsame : ∀ name, tagged w (files ++ [file]) name (dir file) = tagged w files name (dir file) ++ (fileDefinitions w name file).map (fun t => (t, file)) := by
      intro name
      simp [tagged, List.filter_append]
    have hin : ∀ name, name ≠ file → treesOf name (((file, own) :: defs).map (fun e => (e.1, e.2, file))) = (fileDefinitions w name file).map (fun t => (t, file)) := by
      intro name hn
      rw [treesOf, fileDefinitions, hc, List.map_cons, List.filter_cons_of_neg (by simpa using fun h => hn h.symm), List.filter_map, List.map_map, List.map_map]
      rfl
    refine ⟨h.wf.set _ _, fun folder table ht => ?_, fun folder hf name => ?_, fun folder hf => ?_⟩
    · rw [GoMap.get?_set] at ht
      by_cases hd : dir file = folder
      · subst hd
        rw [if_pos rfl] at ht
        cases ht
        constructor
        · refine WF_foldl_addTree _ _ _ ?_
          cases hg : children.get? (dir file) with
          | none => exact GoMap.WF_nil
          | some t => exact (h.tables _ _ hg).1
        · intro name hn
          rw [List.mem_append, List.mem_singleton, not_or] at hn
          rw [get?_foldl_addTree, hin name hn.2, hsame, standing_append_some _ (tagged w files name (dir file))]
          congr 3
          cases hg : children.get? (dir file) with
          | none =>
            have := h.others _ hg name
            rw [← tagged_fst, List.map_eq_nil_iff] at this
            rw [this]
            rfl
          | some t => exact (h.tables _ _ hg).2 name hn.1
      · rw [if_neg hd] at ht
        refine ⟨(h.tables _ _ ht).1, fun name hn => ?_⟩
        rw [hother name folder hd]
        exact (h.tables _ _ ht).2 name (fun hm => hn (List.mem_append_left _ hm))
    · rw [GoMap.get?_set] at hf
      by_cases hd : dir file = folder
      · rw [if_pos hd] at hf
        cases hf
      · rw [if_neg hd] at hf
        rw [← tagged_fst, hother name folder hd, tagged_fst]
        exact h.others folder hf name
    · rw [GoMap.get?_set] at hf
      by_cases hd : dir file = folder
      · exact ⟨file, by simp, hd⟩
      · rw [if_neg hd] at hf
        obtain ⟨x, hx, hd⟩ := h.folders folder hf
        exact ⟨x, List.mem_append_left _ hx, hd⟩

theorem kept_foldlM {w : World Tree} (rest : List Text) : ∀ {files : List Text} {children after : GoMap (Table Tree)}, Kept w files children →
    rest.foldlM (loadFile w) children = some after → Kept w (files ++ rest) after := by
  induction rest with
  | nil =>
    intro files children after h he
    cases he
    rwa [List.append_nil]
  | cons file rest ih =>
    intro files children after h he
    rw [List.foldlM_cons] at he
    cases hl : loadFile w children file with
    | none => rw [hl] at he; cases he
    | some next =>
      rw [hl] at he
      have := ih (kept_step h hl) he
      rwa [List.append_assoc] at this

theorem kept_loadFiles {w : World Tree} {files : List Text} {children : GoMap (Table Tree)} (h : loadFiles w files = some children) : Kept w files children :=
  kept_foldlM files (files := []) ⟨GoMap.WF_nil, fun _ _ h => (by cases h), fun _ _ _ => rfl, fun _ h => (by cases h)⟩ h

/-! ## The properties -/

/-- C94. The template that a name designates: in each folder the last definition that is not empty (in the order of the files), and the same among the
folders, in an order that is any one. -/
theorem C94_exact (w : World Tree) (result : Table Tree) (h : MayGive w result) (name : Text) (hn : name ∉ extensionFiles w) :
    ∃ folders : List Text, folders.Nodup ∧ (∀ file ∈ extensionFiles w, fileDefinitions w name file ≠ [] → dir file ∈ folders) ∧
      (result.get? name).map Prod.fst =
        standing w.isEmpty (folders.filterMap (fun folder => standing w.isEmpty (folderDefinitions w (extensionFiles w) name folder))) := by
  obtain ⟨children, hl, tables, ⟨order, shuffle, hp, hs, rfl⟩, rfl⟩ := h
  have hk := kept_loadFiles hl
  have hwo : GoMap.WF order := (hp.map Prod.fst).nodup_iff.2 hk.wf
  refine ⟨order.map Prod.fst, hwo, ?_, ?_⟩
  · intro file hf hd
    refine Classical.byContradiction (fun hnot => ?_)
    have hnone : GoMap.get? order (dir file) = none := GoMap.get?_eq_none_iff.2 hnot
    rw [GoMap.get?_perm hp hwo] at hnone
    have := hk.others _ hnone name
    rw [folderDefinitions, List.flatMap_eq_nil_iff] at this
    exact hd (this file (List.mem_filter.2 ⟨hf, by simp⟩))
  · unfold importAll
    rw [get?_importAll, standing_map_fst]
    simp only [GoMap.get?_nil, Option.toList_none, List.nil_append]
    congr 1
    rw [List.flatMap_map, List.filterMap_map, List.map_flatMap]
    have hc : ∀ c ∈ order, List.map Prod.fst ((treesOf name (shuffle c.1 c.2)).filter (fun x => x.2 ≠ name)) =
        (standing w.isEmpty (folderDefinitions w (extensionFiles w) name c.1)).toList := by
      intro c hc
      have hg : children.get? c.1 = some c.2 := GoMap.get?_of_mem hk.wf (hp.mem_iff.1 hc)
      obtain ⟨hw, ht⟩ := hk.tables _ _ hg
      rw [treesOf_table hw (hs _ _), ht name hn, ← tagged_fst, ← standing_map_fst]
      cases hst : standing (fun x => w.isEmpty x.1) (tagged w (extensionFiles w) name c.1) with
      | none => rfl
      | some x =>
        have hx := standing_mem hst
        have : x.2 ≠ name := by
          rintro rfl
          simp only [tagged, List.mem_flatMap, List.mem_filter, List.mem_map] at hx
          obtain ⟨file, ⟨hf, _⟩, _, _, rfl⟩ := hx
          exact hn hf
        simp [this]
    clear hp hwo
    induction order with
    | nil => rfl
    | cons c order ih =>
      rw [List.flatMap_cons, hc c (by simp), ih (fun c h => hc c (List.mem_cons_of_mem _ h)), List.filterMap_cons]
      simp only [Function.comp]
      cases standing w.isEmpty (folderDefinitions w (extensionFiles w) name c.1) <;> rfl

theorem mem_folderDefinitions {w : World Tree} {files : List Text} {name folder : Text} {tree : Tree} :
    tree ∈ folderDefinitions w files name folder ↔ ∃ file ∈ files, dir file = folder ∧ FileDefines w file name tree := by
  have hf : ∀ file, tree ∈ fileDefinitions w name file ↔ FileDefines w file name tree := by
    intro file
    unfold fileDefinitions FileDefines
    split
    · rename_i own defs hc
      constructor
      · intro h
        obtain ⟨e, he, rfl⟩ := List.mem_map.1 h
        obtain ⟨hm, hn⟩ := List.mem_filter.1 he
        obtain rfl : e.1 = name := by simpa using hn
        exact ⟨own, defs, hc, hm⟩
      · rintro ⟨own', defs', hc', h⟩
        rw [hc] at hc'
        cases hc'
        exact List.mem_map.2 ⟨_, List.mem_filter.2 ⟨h, by simp⟩, rfl⟩
    · rename_i hc
      constructor
      · exact fun h => absurd h (by simp)
      · rintro ⟨own, defs, hc', _⟩
        exact absurd hc' (hc own defs)
  unfold folderDefinitions
  constructor
  · intro h
    obtain ⟨file, hm, h⟩ := List.mem_flatMap.1 h
    obtain ⟨hm, hd⟩ := List.mem_filter.1 hm
    exact ⟨file, hm, by simpa using hd, (hf file).1 h⟩
  · rintro ⟨file, hm, hd, h⟩
    exact List.mem_flatMap.2 ⟨file, List.mem_filter.2 ⟨hm, by simpa using hd⟩, (hf file).2 h⟩

/-- C94. A name is defined if, and only if, one of the files defines it; its definition is the one of a file, and it is empty only if all are. -/
theorem C94_defined (w : World Tree) (result : Table Tree) (h : MayGive w result) (name : Text) (hn : name ∉ extensionFiles w) :
    ((result.get? name).isSome ↔ ∃ file ∈ extensionFiles w, ∃ tree, FileDefines w file name tree) ∧
    ∀ tree source, result.get? name = some (tree, source) →
      (∃ file ∈ extensionFiles w, FileDefines w file name tree) ∧
      (w.isEmpty tree = true → ∀ file ∈ extensionFiles w, ∀ other, FileDefines w file name other → w.isEmpty other = true) := by
  obtain ⟨folders, _, hall, he⟩ := C94_exact w result h name hn
  have hin : ∀ file ∈ extensionFiles w, ∀ tree, FileDefines w file name tree → dir file ∈ folders := by
    intro file hf tree ht
    refine hall file hf (fun h0 => ?_)
    have : tree ∈ folderDefinitions w [file] name (dir file) := mem_folderDefinitions.2 ⟨file, by simp, rfl, ht⟩
    simp [folderDefinitions, h0] at this
  constructor
  · have : (result.get? name).isSome ↔ ((result.get? name).map Prod.fst).isSome := by simp
    rw [this, he, standing_some_iff]
    constructor
    · intro hne
      obtain ⟨t, ht⟩ := List.exists_mem_of_ne_nil _ hne
      obtain ⟨folder, _, hs⟩ := List.mem_filterMap.1 ht
      obtain ⟨file, hm, _, hd⟩ := mem_folderDefinitions.1 (standing_mem hs)
      exact ⟨file, hm, t, hd⟩
    · rintro ⟨file, hm, tree, ht⟩ hnil
      have hs := (standing_some_iff w.isEmpty (folderDefinitions w (extensionFiles w) name (dir file))).2
        (List.ne_nil_of_mem (mem_folderDefinitions.2 ⟨file, hm, rfl, ht⟩))
      obtain ⟨t, hs⟩ := Option.isSome_iff_exists.1 hs
      have := (List.mem_filterMap (f := fun f => standing w.isEmpty (folderDefinitions w (extensionFiles w) name f))).2 ⟨dir file, hin file hm tree ht, hs⟩
      rw [hnil] at this
      simp at this
  · intro tree source hr
    rw [hr] at he
    have he : standing w.isEmpty _ = some tree := he.symm
    constructor
    · obtain ⟨folder, _, hs⟩ := List.mem_filterMap.1 (standing_mem he)
      obtain ⟨file, hm, _, hd⟩ := mem_folderDefinitions.1 (standing_mem hs)
      exact ⟨file, hm, hd⟩
    · intro hemp file hm other ho
      have hmem := mem_folderDefinitions.2 ⟨file, hm, rfl, ho⟩
      obtain ⟨t, hs⟩ := Option.isSome_iff_exists.1 ((standing_some_iff w.isEmpty _).2 (List.ne_nil_of_mem hmem))
      exact standing_empty hs (standing_empty he hemp t (List.mem_filterMap.2 ⟨dir file, hin file hm other ho, hs⟩)) other hmem

/-- C94. When the files of one folder define a name, it has the last definition that is not empty, whatever the order of the iterations. -/
theorem C94_one_folder_partial (w : World Tree) (result : Table Tree) (h : MayGive w result) (name folder : Text) (hn : name ∉ extensionFiles w)
    (hone : ∀ file ∈ extensionFiles w, ∀ tree, FileDefines w file name tree → dir file = folder) :
    (result.get? name).map Prod.fst = standing w.isEmpty (folderDefinitions w (extensionFiles w) name folder) := by
  obtain ⟨folders, hnd, hall, he⟩ := C94_exact w result h name hn
  have hempty : ∀ f, f ≠ folder → folderDefinitions w (extensionFiles w) name f = [] := by
    intro f hf
    refine List.eq_nil_iff_forall_not_mem.2 (fun t ht => ?_)
    obtain ⟨file, hm, hd, hdef⟩ := mem_folderDefinitions.1 ht
    exact hf (hd.symm.trans (hone file hm t hdef))
  have hfm : ∀ l : List Text, l.Nodup → l.filterMap (fun f => standing w.isEmpty (folderDefinitions w (extensionFiles w) name f)) =
      if folder ∈ l then (standing w.isEmpty (folderDefinitions w (extensionFiles w) name folder)).toList else [] := by
    intro l hl
    induction l with
    | nil => rfl
    | cons f l ih =>
      rw [List.nodup_cons] at hl
      rw [List.filterMap_cons, ih hl.2]
      by_cases hf : f = folder
      · subst hf
        cases hs : standing w.isEmpty (folderDefinitions w (extensionFiles w) name f) <;> simp [hl.1]
      · rw [hempty f hf, standing_nil]
        simp [Ne.symm hf]
  rw [he, hfm folders hnd]
  by_cases hf : folder ∈ folders
  · rw [if_pos hf]
    cases hs : standing w.isEmpty (folderDefinitions w (extensionFiles w) name folder) with
    | none => rfl
    | some t => cases ht : w.isEmpty t <;> simp [standing, ht]
  · rw [if_neg hf, standing_nil]
    have : folderDefinitions w (extensionFiles w) name folder = [] := by
      refine List.eq_nil_iff_forall_not_mem.2 (fun t ht => ?_)
      obtain ⟨file, hm, hd, hdef⟩ := mem_folderDefinitions.1 ht
      refine hf (hd ▸ hall file hm (fun h0 => ?_))
      have : t ∈ folderDefinitions w [file] name (dir file) := mem_folderDefinitions.2 ⟨file, by simp, rfl, hdef⟩
      simp [folderDefinitions, h0] at this
    rw [this, standing_nil]

/-- C94. The extensions are loaded if, and only if, all the files can be read: the errors of their code prevent nothing. -/
theorem C94_loaded (w : World Tree) : (∃ result, MayGive w result) ↔ ∀ file ∈ extensionFiles w, w.load file ≠ .unreadable := by
  have hfold : ∀ (files : List Text) (children : GoMap (Table Tree)), (∃ after, files.foldlM (loadFile w) children = some after) ↔
      ∀ file ∈ files, w.load file ≠ .unreadable := by
    intro files
    induction files with
    | nil => exact fun children => ⟨fun _ file h => absurd h (by simp), fun _ => ⟨children, rfl⟩⟩
    | cons file files ih =>
      intro children
      rw [List.foldlM_cons, List.forall_mem_cons]
      cases hl : w.load file with
      | unreadable => simp [loadFile, hl]
      | plain => simpa [loadFile, hl] using ih children
      | code own defs => simpa [loadFile, hl] using ih _
  constructor
  · rintro ⟨_, children, hl, _⟩
    exact (hfold _ _).1 ⟨children, hl⟩
  · intro h
    obtain ⟨children, hl⟩ := (hfold _ []).2 h
    exact ⟨_, children, hl, children.map Prod.snd, ⟨children, fun _ t => t, List.Perm.refl _, fun _ _ => List.Perm.refl _, rfl⟩, rfl⟩

/-- C94. The files: those of the folders of the variable, in order, then those of the folder of the template. -/
theorem C94_files (w : World Tree) (paths : List Text) (hne : paths ≠ []) (hsep : ∀ p ∈ paths, ':' ∉ p)
    (htrim : Text.trimSpace (Text.join [':'] paths) = Text.join [':'] paths) (hv : w.pathVariable = Text.join [':'] paths) :
    extensionFiles w = (paths.filter (· ≠ [])).flatMap w.find ++ w.find w.folder := by
  have hs : Text.splitC ':' (Text.join [':'] paths) = paths := Text.splitC_join hne hsep
  unfold extensionFiles
  simp only [hv, htrim]
  by_cases h0 : Text.join [':'] paths = []
  · rw [h0] at hs ⊢
    have : paths = [[]] := hs.symm
    subst this
    rfl
  · rw [if_pos h0, hs]

/-- Two folders with an extension each: both define `x`; the second one also defines `y`, and has an empty definition of `z`. Empty trees are `0`. -/
def twoFolders : World Nat where
  pathVariable := T " /a::/c "
  folder := T "/b"
  find := fun f => if f = T "/a" then [T "/a/e.gte"] else if f = T "/b" then [T "/b/e.gte", T "/b/f.gte"] else []
  load := fun f =>
    if f = T "/a/e.gte" then .code 9 [(T "x", 1), (T "z", 3)]
    else if f = T "/b/e.gte" then .code 9 [(T "x", 2), (T "y", 4), (T "z", 0)]
    else .code 9 [(T "y", 5), (T "y", 0)]
  isEmpty := fun t => t == 0

theorem twoFolders_files : extensionFiles twoFolders = [T "/a/e.gte", T "/b/e.gte", T "/b/f.gte"] := by decide +kernel

theorem twoFolders_a : twoFolders.load (T "/a/e.gte") = .code 9 [(T "x", 1), (T "z", 3)] := by
  unfold twoFolders
  dsimp only
  rw [if_pos rfl]

/-- The templates of the two folders. -/
def twoTables : GoMap (Table Nat) :=
  [(T "/a", [(T "/a/e.gte", 9, T "/a/e.gte"), (T "x", 1, T "/a/e.gte"), (T "z", 3, T "/a/e.gte")]),
   (T "/b", [(T "/b/e.gte", 9, T "/b/e.gte"), (T "x", 2, T "/b/e.gte"), (T "y", 5, T "/b/f.gte"), (T "z", 0, T "/b/e.gte"), (T "/b/f.gte", 9, T "/b/f.gte")])]

set_option synthInstance.maxSize 1000 in
set_option synthInstance.maxHeartbeats 100000 in
theorem twoFolders_loaded : loadFiles twoFolders (extensionFiles twoFolders) = some twoTables := by
  rw [twoFolders_files]
  decide +kernel

theorem twoFolders_may (order : GoMap (Table Nat)) (h : order.Perm twoTables) : MayGive twoFolders (importAll twoFolders.isEmpty (order.map Prod.snd)) :=
  ⟨twoTables, twoFolders_loaded, order.map Prod.snd, ⟨order, fun _ t => t, h, fun _ _ => List.Perm.refl _, rfl⟩, rfl⟩

/-- C94 is violated: when files of two folders define the same name, its definition is the one or the other, according to the order of an iteration on a
map. -/
theorem C94_not_deterministic : ∃ (w : World Nat) (r r' : Table Nat) (name : Text), MayGive w r ∧ MayGive w r' ∧
    (r.get? name).map Prod.fst = some 1 ∧ (r'.get? name).map Prod.fst = some 2 :=
  ⟨twoFolders, _, _, T "x", twoFolders_may twoTables.reverse (List.reverse_perm _), twoFolders_may twoTables (List.Perm.refl _), by decide +kernel, by decide +kernel⟩

/-- `y` is defined in one folder, by two files. -/
example (result : Table Nat) (h : MayGive twoFolders result) : (result.get? (T "y")).map Prod.fst = some 5 := by
  rw [C94_one_folder_partial twoFolders result h (T "y") (T "/b") (by rw [twoFolders_files]; decide +kernel)]
  · rw [twoFolders_files]
    decide +kernel
  · rw [twoFolders_files]
    intro file hm tree ⟨own, defs, hl, hd⟩
    simp only [List.mem_cons, List.not_mem_nil, or_false] at hm
    rcases hm with rfl | rfl | rfl
    · cases hl
      simp [show (T "y" ≠ T "x") by decide, show (T "y" ≠ T "z") by decide] at hd
    · decide +kernel
    · decide +kernel

/-- The definition of `z` in the folder `/b` is empty: the other one stands in all cases. -/
example (result : Table Nat) (h : MayGive twoFolders result) : ∃ tree source, result.get? (T "z") = some (tree, source) ∧ tree ≠ 0 := by
  obtain ⟨h1, h2⟩ := C94_defined twoFolders result h (T "z") (by rw [twoFolders_files]; decide +kernel)
  have hd : FileDefines twoFolders (T "/a/e.gte") (T "z") 3 := ⟨9, [(T "x", 1), (T "z", 3)], twoFolders_a, List.mem_cons_of_mem _ List.mem_cons_self⟩
  have hm : T "/a/e.gte" ∈ extensionFiles twoFolders := by rw [twoFolders_files]; exact List.mem_cons_self
  obtain ⟨⟨tree, source⟩, hs⟩ := Option.isSome_iff_exists.1 (h1.2 ⟨T "/a/e.gte", hm, 3, hd⟩)
  refine ⟨tree, source, hs, fun h0 => ?_⟩
  have := (h2 tree source hs).2 (by rw [h0]; rfl) (T "/a/e.gte") hm 3 hd
  exact absurd this (by decide)

example : ∃ result, MayGive twoFolders result := (C94_loaded twoFolders).2 (by
  rw [twoFolders_files]
  intro file hm
  simp only [List.mem_cons, List.not_mem_nil, or_false] at hm
  rcases hm with rfl | rfl | rfl <;> exact fun h => by cases h)

example : extensionFiles { twoFolders with pathVariable := T "/c::/a" } = [T "/a/e.gte", T "/b/e.gte", T "/b/f.gte"] :=
  (C94_files { twoFolders with pathVariable := T "/c::/a" } [T "/c", [], T "/a"] (by simp) (by decide +kernel) (by decide +kernel) (by decide +kernel)).trans (by decide +kernel)

end Verif.Props
