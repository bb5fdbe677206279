import Verif.Wire.PageProps
/-!
# C115: the way of a block from the book builder to the page
-/
namespace Verif.Wire
open Verif.Preproc (Json Html Responses configMap render)
open Verif.Block (Block)
open Verif.Annotations (Annots PathMatcher)

theorem paths_same {a : Annots} {paths : List (Nat × List PathMatcher)}
    (h : Entry paths fun n => if a.focusedPathsAt n = [] then none else some (a.focusedPathsAt n)) (n : Nat) :
    (({ a with stepperPaths := (paths.map fun e => e.2.map fun m => (e.1, m)).flatten } : Annots)).focusedPathsAt n
      = a.focusedPathsAt n := by
  obtain ⟨h1, h2⟩ := h
  have key : ∀ l : List (Nat × List PathMatcher), (l.map (·.1)).Nodup →
      (((l.map fun e => e.2.map fun m => (e.1, m)).flatten).filter (fun x => decide (x.1 = n))).map (·.2)
        = (l.lookup n).getD [] := by
    intro l hn
    induction l with
    | nil => rfl
    | cons x l ih =>
      obtain ⟨k, ms⟩ := x
      simp only [List.map_cons, List.nodup_cons] at hn
      simp only [List.map_cons, List.flatten_cons, List.filter_append, List.map_append, ih hn.2, List.lookup]
      have hf : ∀ ms : List PathMatcher, ((ms.map fun m => (k, m)).filter (fun x => decide (x.1 = n))).map (·.2)
          = if k = n then ms else [] := by
        intro ms
        induction ms with
        | nil => simp
        | cons m ms ih => by_cases hk : k = n <;> simp_all
      rw [hf]
      by_cases hk : k = n
      · subst hk
        have : l.lookup k = none := by
          cases hl : l.lookup k with
          | none => rfl
          | some v =>
            refine absurd ?_ hn.1
            clear ih hn hf h1 h2
            induction l with
            | nil => simp at hl
            | cons y l ih =>
              simp only [List.lookup] at hl
              split at hl
              · rename_i hk; simp [eq_of_beq hk]
              · simp only [List.map_cons, List.mem_cons]; exact .inr (ih hl)
        simp [this]
      · have : (n == k) = false := by simp; omega
        simp [hk, this]
  show (((paths.map fun e => e.2.map fun m => (e.1, m)).flatten).filter (fun x => decide (x.1 = n))).map (·.2) = _
  rw [key paths h1, lookup_entry ⟨h1, h2⟩]
  by_cases hn : a.focusedPathsAt n = [] <;> simp [hn]

theorem blockAttrs_plain (b : Block) (e : Entries) : ∀ a ∈ blockAttrs b e, PlainName a.1 := by
  intro a ha
  simp only [blockAttrs, dataAttr, List.mem_cons, List.not_mem_nil, or_false] at ha
  rcases ha with rfl | rfl | rfl | rfl | rfl | rfl | rfl <;> exact ⟨by dsimp only; decide, by dsimp only; decide⟩

theorem valid_config (l : List (List Char × List Char)) : Valid (.obj (l.map fun x => (x.1, .str x.2))) :=
  .obj fun f hf => by obtain ⟨x, -, rfl⟩ := List.mem_map.1 hf; exact .str

theorem lookup_map {l : List (List Char × List Char)} (k : List Char) :
    ((l.map fun x => (x.1, Json.str x.2)).lookup k).bind asStr = l.lookup k := by
  induction l with
  | nil => rfl
  | cons x l ih =>
    simp only [List.map_cons, List.lookup]
    split
    · rfl
    · exact ih

theorem readPage_block {b : Block} {r : Responses} {e : Entries} (hr : Represents e b r) (hv : ∀ op j, r op = some j → Valid j)
    {attrs : List (List Char × List Char)} (ha : attrs.Perm (blockAttrs b e)) :
    readPage attrs = some ({ render b r with
      annotations := { b.annotations with stepperPaths := (e.paths.map fun e => e.2.map fun m => (e.1, m)).flatten } }, true) := by
  have q : ∀ (key prop : List Char) (j : Json), Valid j → dataAttr key j ∈ blockAttrs b e → camel key = prop →
      (∀ x ∈ [kCode, kAnnotations, kOperations, kResponses, kConfig, kNoInteract], camel x = prop → x = key) →
      maybeParse (dataset attrs prop) = some (some j) := by
    intro key prop j h1 h2 h3 h4
    rw [dataset_of ha key prop (write j) h2 h3 h4]
    exact maybeParse_write h1
  have hres : Valid (.obj e.responses) :=
    .obj fun f hf => hv f.1 f.2 ((hr.responses.2 f.1 f.2).1 hf)
  have hops : Valid (.arr (b.operations.map .str)) :=
    .arr fun x hx => by obtain ⟨n, -, rfl⟩ := List.mem_map.1 hx; exact .str
  have q1 := q kCode kCode (.str b.code) .str (by simp [blockAttrs]) (by decide) (by decide)
  have q2 := q kAnnotations kAnnotations _ (valid_annots b.annotations e.paths) (by simp [blockAttrs]) (by decide) (by decide)
  have q3 := q kOperations kOperations _ hops (by simp [blockAttrs]) (by decide) (by decide)
  have q4 := q kResponses kResponses _ hres (by simp [blockAttrs]) (by decide) (by decide)
  have q5 := q kConfig kConfig _ (valid_config e.config) (by simp [blockAttrs]) (by decide) (by decide)
  have q6 := q kNoInteract kNoInteractProp (.bool true) (.bool (b := true)) (by simp [blockAttrs]) (by decide) (by decide)
  have s3 : (b.operations.map Json.str).mapM asStr = some b.operations := by
    rw [mapM_map Json.str asStr id fun _ => rfl]; simp
  have s4 : (fun op => e.responses.lookup op) = r := funext fun op => lookup_entry hr.responses op
  have s5 : (fun k => ((e.config.map fun x => (x.1, Json.str x.2)).lookup k).bind asStr) = configMap b.config :=
    funext fun k => by rw [lookup_map]; exact lookup_entry hr.config k
  simp [readPage, required, q1, q2, q3, q4, q5, q6, asAnnots_json, asStr, asArr, asObj, s3, s4, render, s5]

/-- **C115.** The page finds in the text of the element exactly the block and the answers that the book builder had: the
program, the operations, every answer, every option, the annotations, and that the program is fixed.  In whatever order the
attributes and the entries of the hash maps were written, and whatever characters there are in the program. -/
theorem C115_round_trip {b : Block} {r : Responses} {e : Entries} (hr : Represents e b r) (hv : ∀ op j, r op = some j → Valid j)
    {attrs : List (List Char × List Char)} (ha : attrs.Perm (blockAttrs b e)) :
    ∃ h, (readElement (writeElement attrs)).bind readPage = some (h, true) ∧ h = { render b r with annotations := h.annotations } ∧
      Same h.annotations b.annotations := by
  have h := readPage_block hr hv ha
  rw [readElement_write fun a h => blockAttrs_plain b e a (ha.mem_iff.1 h)]
  exact ⟨_, h, rfl, ⟨rfl, rfl, rfl, rfl, paths_same hr.paths⟩⟩

/-- **C115.** The element is one line without control characters, so that Markdown leaves it alone. -/
theorem C115_one_line {b : Block} {r : Responses} {e : Entries} (hr : Represents e b r) (hv : ∀ op j, r op = some j → Valid j)
    {attrs : List (List Char × List Char)} (ha : attrs.Perm (blockAttrs b e)) : ∀ c ∈ writeElement attrs, 32 ≤ c.toNat := by
  have hres : Valid (.obj e.responses) :=
    .obj fun f hf => hv f.1 f.2 ((hr.responses.2 f.1 f.2).1 hf)
  have hops : Valid (.arr (b.operations.map .str)) :=
    .arr fun x hx => by obtain ⟨n, -, rfl⟩ := List.mem_map.1 hx; exact .str
  refine printable_element fun a h => ?_
  have h := ha.mem_iff.1 h
  simp only [blockAttrs, dataAttr, List.mem_cons, List.not_mem_nil, or_false] at h
  rcases h with rfl | rfl | rfl | rfl | rfl | rfl | rfl
  · exact ⟨by unfold Printable; dsimp only; decide, by unfold Printable; dsimp only; decide⟩
  · exact ⟨by unfold Printable; dsimp only; decide, printable_write _ .str⟩
  · exact ⟨by unfold Printable; dsimp only; decide, printable_write _ (valid_annots _ _)⟩
  · exact ⟨by unfold Printable; dsimp only; decide, printable_write _ hops⟩
  · exact ⟨by unfold Printable; dsimp only; decide, printable_write _ hres⟩
  · exact ⟨by unfold Printable; dsimp only; decide, printable_write _ (valid_config _)⟩
  · exact ⟨by unfold Printable; dsimp only; decide, printable_write _ .bool⟩

/-- **C115.** Between the quotes of an attribute there is no quote and no bracket, and reading gives the value back. -/
theorem C115_attribute (v rest : List Char) :
    (∀ c ∈ v.flatMap encodeChar, c ≠ '"' ∧ c ≠ '<' ∧ c ≠ '>') ∧
    readAttrValue (v.flatMap encodeChar ++ '"' :: rest) = some (v, rest) :=
  ⟨encode_safe v, readAttrValue_write v rest⟩

/-- **C115.** Reading what was written as JSON gives the value back. -/
theorem C115_json {j : Json} (h : Valid j) : read (write j) = some j := read_write_eq h

/-- **C115.** Different values have different texts. -/
theorem C115_injective {j j' : Json} (h : Valid j) (h' : Valid j') (e : write j = write j') : j = j' := by
  have h1 := read_write_eq h
  rw [e, read_write_eq h'] at h1
  exact (Option.some.inj h1).symm

theorem fields_close (fs : List (List Char × Json)) : ∃ s, writeFields fs = s ++ ['}'] := by
  induction fs with
  | nil => exact ⟨[], by simp [writeFields]⟩
  | cons f fs ih => obtain ⟨s, e⟩ := ih; exact ⟨',' :: (writeField f ++ s), by simp [writeFields, e]⟩

theorem obj_close (fs : List (List Char × Json)) : ∃ s, write (.obj fs) = s ++ ['}'] := by
  cases fs with
  | nil => exact ⟨['{'], by simp [write, writeFirstField]⟩
  | cons f fs => obtain ⟨s, e⟩ := fields_close fs; exact ⟨'{' :: (writeField f ++ s), by simp [write, writeFirstField, e]⟩

/-- **C115.** The answers, which go through the cache as text, are the same when they are read again, with the white space at
the end cut off. -/
theorem C115_cached {l : List (List Char × Json)} (h : ∀ f ∈ l, Valid f.2) : read (trimEnd (write (.obj l))) = some (.obj l) := by
  obtain ⟨s, e⟩ := obj_close l
  have : trimEnd (write (.obj l)) = write (.obj l) := by
    rw [e]
    have hw : Char.isWhitespace '}' = false := by decide
    simp [trimEnd, List.dropWhile, hw]
  rw [this]
  exact read_write_eq (.obj h)

/-- **C115.** So the page shows of the text what it would show of the block itself, if the drawing looks at the annotations
line by line. -/
theorem C115_opens {b : Block} {r : Responses} {e : Entries} (hr : Represents e b r) (hv : ∀ op j, r op = some j → Valid j)
    {attrs : List (List Char × List Char)} (ha : attrs.Perm (blockAttrs b e)) (D : Embed.Draws)
    (hD : ∀ code rs a a', Same a a' → D.perms code rs a = D.perms code rs a') :
    ((readElement (writeElement attrs)).bind readPage).map (fun x => Embed.openBlock D x.1)
      = some (Embed.openBlock D (render b r)) := by
  obtain ⟨h, h1, h2, h3⟩ := C115_round_trip hr hv ha
  rw [h1, Option.map_some, Option.some.injEq]
  have hc : h.code = (render b r).code := by rw [h2]
  have ho : h.operations = (render b r).operations := by rw [h2]
  have hp : h.responses = (render b r).responses := by rw [h2]
  have hf : h.config = (render b r).config := by rw [h2]
  have key : Embed.Ed.renderOperation D h = Embed.Ed.renderOperation D (render b r) := by
    funext ed op
    have hi : ∀ ed t, Embed.Ed.renderInterpreter D ed h t = Embed.Ed.renderInterpreter D ed (render b r) t := by
      intro ed t
      unfold Embed.Ed.renderInterpreter
      rw [hf, hc, show h.annotations.stateLocations = (render b r).annotations.stateLocations from h3.states]
    have hcm : ∀ ed, Embed.Ed.common ed h = Embed.Ed.common ed (render b r) := by
      intro ed
      unfold Embed.Ed.common
      rw [hf, show h.annotations.hiddenLines = (render b r).annotations.hiddenLines from h3.hidden]
    unfold Embed.Ed.renderOperation
    simp only [hp, hcm, hi, hf, hc]
    simp only [hD _ _ h.annotations (render b r).annotations h3]
  unfold Embed.openBlock
  rw [hc, ho, key]

theorem find_filter {α : Type} (p q : α → Bool) (l : List α) (h : ∀ x ∈ l, p x = true → q x = true) :
    (l.filter q).find? p = l.find? p := by
  induction l with
  | nil => rfl
  | cons x l ih =>
    have ih := ih fun y hy => h y (.tail _ hy)
    rw [List.filter_cons, List.find?_cons]
    cases hp : p x with
    | true => simp [h x (.head _) hp, hp]
    | false =>
      split
      · simp [hp, ih]
      · exact ih

/-- **C115.** Without the attribute that fixes the program the page finds the same, and the program can be edited. -/
theorem C115_editable {b : Block} {r : Responses} {e : Entries} (hr : Represents e b r) (hv : ∀ op j, r op = some j → Valid j)
    {attrs : List (List Char × List Char)} (ha : attrs.Perm (blockAttrs b e)) :
    ∃ h, readPage attrs = some (h, true) ∧ readPage (attrs.filter (·.1 ≠ kData ++ kNoInteract)) = some (h, false) := by
  have h := readPage_block hr hv ha
  refine ⟨_, h, ?_⟩
  have q : ∀ key, key ≠ kNoInteractProp → dataset (attrs.filter (·.1 ≠ kData ++ kNoInteract)) key = dataset attrs key := by
    intro key hk
    unfold dataset
    rw [find_filter]
    intro x _ hx
    simp only [decide_eq_true_eq]
    intro he
    simp only [he, Bool.and_eq_true, beq_iff_eq] at hx
    exact hk (hx.2.symm.trans (by decide))
  have q0 : dataset (attrs.filter (·.1 ≠ kData ++ kNoInteract)) kNoInteractProp = none := by
    unfold dataset
    rw [Option.map_eq_none_iff, List.find?_eq_none]
    intro x hx
    obtain ⟨hx, hn⟩ := List.mem_filter.1 hx
    simp only [decide_eq_true_eq] at hn
    have hx := ha.mem_iff.1 hx
    simp only [blockAttrs, dataAttr, List.mem_cons, List.not_mem_nil, or_false] at hx
    rcases hx with rfl | rfl | rfl | rfl | rfl | rfl | rfl
    · decide
    · dsimp only; decide
    · dsimp only; decide
    · dsimp only; decide
    · dsimp only; decide
    · dsimp only; decide
    · exact absurd rfl hn
  revert h
  unfold readPage required
  rw [q _ (by decide), q _ (by decide), q _ (by decide), q _ (by decide), q _ (by decide), q0]
  generalize ((maybeParse (dataset attrs kCode)).join).bind asStr = a1
  generalize ((maybeParse (dataset attrs kAnnotations)).join).bind asAnnots = a2
  generalize (((maybeParse (dataset attrs kOperations)).join).bind asArr).bind (·.mapM asStr) = a3
  generalize ((maybeParse (dataset attrs kResponses)).join).bind asObj = a4
  generalize ((maybeParse (dataset attrs kConfig)).join).bind asObj = a5
  generalize maybeParse (dataset attrs kNoInteractProp) = a6
  rw [show maybeParse none = some none from rfl]
  cases a1 <;> cases a2 <;> cases a3 <;> cases a4 <;> cases a5 <;> cases a6 <;> simp
  intro h1 h2 h3 h4 h5 _
  exact ⟨h1, h2, h3, h4, h5⟩

/-- **C115.** Whatever the attributes of an element are: the program is fixed exactly if the attribute is there and its
text reads as `true`. -/
theorem C115_fixed {attrs : List (List Char × List Char)} {h : Html} {fixed : Bool} (hp : readPage attrs = some (h, fixed)) :
    fixed = true ↔ ∃ text, dataset attrs ['n', 'o', 'I', 'n', 't', 'e', 'r', 'a', 'c', 't'] = some text ∧
      read text = some (.bool true) := by
  have hk : kNoInteractProp = ['n', 'o', 'I', 'n', 't', 'e', 'r', 'a', 'c', 't'] := by decide
  rw [← hk]
  revert hp
  unfold readPage
  generalize (required attrs kCode).bind asStr = a1
  generalize (required attrs kAnnotations).bind asAnnots = a2
  generalize ((required attrs kOperations).bind asArr).bind (·.mapM asStr) = a3
  generalize (required attrs kResponses).bind asObj = a4
  generalize (required attrs kConfig).bind asObj = a5
  generalize dataset attrs kNoInteractProp = d
  intro hp
  cases a1 <;> cases a2 <;> cases a3 <;> cases a4 <;> cases a5 <;> (try (exact absurd hp (by simp)))
  cases d with
  | none =>
    simp only [maybeParse, Option.some.injEq, Prod.mk.injEq] at hp
    simp [← hp.2]
  | some t =>
    cases t with
    | nil =>
      have h0 : read [] = none := by decide +kernel
      simp only [maybeParse, Option.some.injEq, Prod.mk.injEq] at hp
      simp [← hp.2, h0]
    | cons c t =>
    cases hr : read (c :: t) with
    | none => simp [maybeParse, hr] at hp
    | some j =>
      simp only [maybeParse, hr, Option.map_some, Option.some.injEq, Prod.mk.injEq] at hp
      rw [← hp.2]
      cases j with
      | bool b => cases b <;> simp [hr]
      | _ => simp [hr]

/-! ## A block with awkward characters -/

/-- `"<&>` and a line break in the program; one path; an option. -/
def sampleBlock : Block :=
  { operations := [['i']], config := [(['k'], ['"']), (['k'], ['>', '\\'])], code := ['"', '<', '&', '>', '\n', '\r', 'é'],
    annotations := { hiddenLines := [0, 10], stepperPaths := [(12, .literal ['"']), (3, .regex ['<']), (12, .regex ['.'])] } }

def sampleEntries : Entries :=
  { responses := [(['i'], .obj [(['O', 'k'], .num ['-', '1', '.', '5', 'e', '+', '3'])])], config := [(['k'], ['>', '\\'])],
    paths := [(12, [.literal ['"'], .regex ['.']]), (3, [.regex ['<']])] }

def sampleResponses : Responses := fun op => sampleEntries.responses.lookup op

theorem sample_represents : Represents sampleEntries sampleBlock sampleResponses where
  responses := by
    refine ⟨by decide, fun k v => ?_⟩
    simp only [sampleResponses, sampleEntries, List.mem_singleton, Prod.mk.injEq, List.lookup]
    split
    · rename_i h; have := eq_of_beq h; subst this; constructor
      · rintro ⟨-, rfl⟩; rfl
      · intro h; exact ⟨rfl, (Option.some.inj h).symm⟩
    · rename_i h; constructor
      · rintro ⟨rfl, -⟩; simp at h
      · intro h; simp at h
  config := by
    refine ⟨by decide, fun k v => ?_⟩
    simp only [sampleEntries, sampleBlock, configMap, List.reverse_cons, List.reverse_nil, List.nil_append, List.cons_append,
      List.mem_singleton, Prod.mk.injEq, List.lookup]
    split
    · rename_i h; have := eq_of_beq h; subst this; constructor
      · rintro ⟨-, rfl⟩; rfl
      · intro h; exact ⟨rfl, (Option.some.inj h).symm⟩
    · rename_i h; constructor
      · rintro ⟨rfl, -⟩; simp at h
      · intro h; simp at h
  paths := by
    refine ⟨by decide, fun k v => ?_⟩
    by_cases h1 : k = 12
    · subst h1
      have : sampleBlock.annotations.focusedPathsAt 12 = [.literal ['"'], .regex ['.']] := by decide
      simp only [this, sampleEntries, List.mem_cons, Prod.mk.injEq, List.not_mem_nil, or_false]
      constructor <;> intro h <;> simp_all
    · by_cases h2 : k = 3
      · subst h2
        have : sampleBlock.annotations.focusedPathsAt 3 = [.regex ['<']] := by decide
        simp only [this, sampleEntries, List.mem_cons, Prod.mk.injEq, List.not_mem_nil, or_false]
        constructor <;> intro h <;> simp_all
      · have : sampleBlock.annotations.focusedPathsAt k = [] := by
          have a : ¬ 12 = k := fun h => h1 h.symm
          have b : ¬ 3 = k := fun h => h2 h.symm
          simp [sampleBlock, Annots.focusedPathsAt, a, b]
        simp [this, sampleEntries, h1, h2]

example : ∃ h, (readElement (writeElement (blockAttrs sampleBlock sampleEntries).reverse)).bind readPage = some (h, true) ∧
    h.code = ['"', '<', '&', '>', '\n', '\r', 'é'] ∧ h.config ['k'] = some ['>', '\\'] ∧
    h.annotations.focusedPathsAt 12 = [.literal ['"'], .regex ['.']] := by
  obtain ⟨h, h1, h2, h3⟩ := C115_round_trip sample_represents (fun op j hj => by
    have := (sample_represents.responses.2 op j).2 hj
    simp only [sampleEntries, List.mem_singleton, Prod.mk.injEq] at this
    obtain ⟨-, rfl⟩ := this
    refine .obj fun f hf => ?_
    simp only [List.mem_singleton] at hf
    subst hf
    exact .num (by decide)) (List.reverse_perm _)
  refine ⟨h, h1, ?_, ?_, ?_⟩
  · rw [h2]; rfl
  · rw [h2]; show configMap sampleBlock.config ['k'] = _; decide
  · rw [h3.paths]; decide

/-- The text of a small element. -/
example : writeElement [dataAttr kCode (.str ['"', '<', '\n'])]
    = ("<div data-code=\"&quot;\\&quot;&lt;\\n&quot;\"></div>" : String).toList := by decide

end Verif.Wire
