import Verif.Wire.Analysis
import Verif.Wire.TraceProps
/-!
# The results of the analysis survive the way through JSON
-/
namespace Verif.Wire
open Verif.Preproc (Json kErr kBuildError)
open Verif.Steps (Step DataDiff PermsDiff)
open Verif.Permissions (Perms Data)
open Verif.Frontend (Pos)
open Verif.Embed (kOk)

theorem prop_cons (k k' : List Char) (v : Json) (fs : List (List Char × Json)) :
    prop (.obj ((k, v) :: fs)) k' = if k = k' then some v else prop (.obj fs) k' := by
  split
  · rename_i h; subst h; exact prop_head ..
  · rename_i h; exact prop_tail h ..

theorem prop_nil (k : List Char) : prop (.obj []) k = none := rfl

theorem asBool_bool (b : Bool) : asBool (.bool b) = some b := rfl

theorem asPerms_json (p : Perms) : asPerms (permsJson p) = some p := by
  simp (decide := true) [asPerms, permsJson, prop_cons, asBool_bool]

theorem asData_json (d : Data) : asData (dataJson d) = some d := by
  obtain ⟨a, b, c, e, f, g, h, i, j⟩ := d
  cases g <;> cases h <;> cases i <;> cases j <;>
    simp (decide := true) [asData, dataJson, optField, optProp, prop_cons, prop_nil, asBool_bool]

theorem asFlowKind_json (k : Flow.Kind) : asFlowKind (flowKindJson k) = some k := by
  cases k <;> decide

theorem asFlow_json (f : WFlow) : asFlow (flowJson f) = some f := by
  simp (decide := true) [asFlow, flowJson, prop_cons, asBool_bool, asRange_json, asFlowKind_json]

theorem asBoundary_json (b : WBoundary) : asBoundary (boundaryJson b) = some b := by
  obtain ⟨a, b, c, d, e⟩ := b
  cases e <;>
  simp (decide := true) [asBoundary, boundaryJson, optField, optProp, prop_cons, prop_nil, asPos_json, asPerms_json, asData_json,
    asFlow_json]

theorem asValueStep_json {α : Type} {f : Json → Option α} {g : α → Json} (h : ∀ x, f (g x) = some x) (s : Step α) :
    asValueStep f (valueStepJson g s) = some s := by
  cases s with
  | high v => simp [asValueStep, valueStepJson, h]
  | low => simp (decide := true) [asValueStep, valueStepJson]
  | none v =>
    cases v <;>
      simp (decide := true) [asValueStep, valueStepJson, tagOf, optField, optProp, prop_cons, prop_nil, h]

theorem asPermsDiff_json (d : PermsDiff) : asPermsDiff (permsDiffJson d) = some d := by
  simp (decide := true) [asPermsDiff, permsDiffJson, prop_cons, asValueStep_json asBool_bool]

theorem asDiff_json (d : DataDiff) : asDiff (diffJson d) = some d := by
  simp (decide := true) [asDiff, diffJson, prop_cons, asValueStep_json asBool_bool, asValueStep_json asNat_natJson, asPermsDiff_json]

theorem asRow_json (r : List Char × DataDiff) : asRow (rowJson r) = some r := by
  simp [asRow, rowJson, asPair, asDiff_json]

theorem asTable_json (t : WTable) : asTable (tableJson t) = some t := by
  have h : (t.rows.map rowJson).mapM asRow = some t.rows := mapM_back fun r _ => asRow_json r
  simp (decide := true) only [asTable, tableJson, prop_cons, ↓reduceIte, Option.bind_some, asRange_json, asArr_arr, h]

theorem asLine_json (l : WLine) : asLine (lineJson l) = some l := by
  have h : (l.tables.map tableJson).mapM asTable = some l.tables := mapM_back fun r _ => asTable_json r
  simp (decide := true) only [asLine, lineJson, prop_cons, ↓reduceIte, Option.bind_some, asRange_json, asArr_arr, h]

theorem asRefiner_json (r : WRefiner) : asRefiner (refinerJson r) = some r := by
  cases r <;> simp (decide := true) [asRefiner, refinerJson, prop_cons, prop_nil]

theorem asRegion_json (r : WRegion) : asRegion (regionJson r) = some r := by
  have h : (r.ranges.map rangeJson).mapM asRange = some r.ranges := mapM_back fun r _ => asRange_json r
  simp (decide := true) only [asRegion, regionJson, prop_cons, ↓reduceIte, Option.bind_some, asRefiner_json, asArr_arr, h]

theorem asMap_json {α : Type} {f : α → Json} {g : Json → Option α} (h : ∀ x, g (f x) = some x) (m : List (Nat × α)) :
    asMap g (mapJson f m) = some (sortKeys m) := by
  have hm : ∀ m : List (Nat × α), (m.map fun e => (Nat.toDigits 10 e.1, f e.2)).mapM
      (fun x => (asNat (.num x.1)).bind fun n => (g x.2).map fun v => (n, v)) = some m := by
    intro m
    induction m with
    | nil => rfl
    | cons e m ih =>
      have hn := asNat_natJson e.1
      simp only [natJson] at hn
      rw [List.map_cons, List.mapM_cons, ih, hn]
      simp [h]
  simp only [asMap, mapJson, asObj, Option.bind_some, hm, Option.map_some]

/-- An output with its maps in the order of the keys. -/
def WOutput.sorted (o : WOutput) : WOutput :=
  { o with loanPoints := sortKeys o.loanPoints, loanRegions := sortKeys o.loanRegions, movePoints := sortKeys o.movePoints,
           moveRegions := sortKeys o.moveRegions }

theorem asOutput_json (o : WOutput) : asOutput (outputJson o) = some o.sorted := by
  have h1 : (o.boundaries.map boundaryJson).mapM asBoundary = some o.boundaries := mapM_back fun r _ => asBoundary_json r
  have h2 : (o.steps.map lineJson).mapM asLine = some o.steps := mapM_back fun r _ => asLine_json r
  simp (decide := true) only [asOutput, outputJson, prop_cons, ↓reduceIte, Option.bind_some, asRange_json, asArr_arr, h1, h2,
    asMap_json asRange_json, asMap_json asRegion_json, WOutput.sorted]

theorem rangeJson_ne (r : Range) : rangeJson r ≠ .null := by simp [rangeJson]

theorem asError_json (e : WError) : asError (errorJson e) = some e := by
  cases e with
  | build r =>
    simp (decide := true) [asError, errorJson, tagOf, prop_cons, asOpt_json asRange_json rangeJson_ne]
  | analysis m => simp (decide := true) [asError, errorJson, tagOf, prop_cons]

/-! ## The order of the entries does not matter -/

theorem insertKey_perm {α : Type} (e : Nat × α) (l : List (Nat × α)) : (insertKey e l).Perm (e :: l) := by
  induction l with
  | nil => exact .refl _
  | cons f l ih =>
    unfold insertKey
    split
    · exact .refl _
    · exact (List.Perm.cons f ih).trans (List.Perm.swap ..)

theorem sortKeys_perm {α : Type} (l : List (Nat × α)) : (sortKeys l).Perm l := by
  induction l with
  | nil => exact .refl _
  | cons e l ih => exact (insertKey_perm e _).trans (List.Perm.cons e ih)

theorem insertKey_sorted {α : Type} (e : Nat × α) (l : List (Nat × α)) (h : l.Pairwise fun a b => a.1 ≤ b.1) :
    (insertKey e l).Pairwise fun a b => a.1 ≤ b.1 := by
  induction l with
  | nil => simp [insertKey]
  | cons f l ih =>
    rw [List.pairwise_cons] at h
    unfold insertKey
    split
    · rename_i hef
      refine List.pairwise_cons.2 ⟨fun x hx => ?_, List.pairwise_cons.2 h⟩
      rcases List.mem_cons.1 hx with rfl | hx
      · exact hef
      · have := h.1 x hx; omega
    · rename_i hef
      refine List.pairwise_cons.2 ⟨fun x hx => ?_, ih h.2⟩
      rcases List.mem_cons.1 ((insertKey_perm e l).mem_iff.1 hx) with rfl | hx
      · omega
      · exact h.1 x hx

theorem sortKeys_sorted {α : Type} (l : List (Nat × α)) : (sortKeys l).Pairwise fun a b => a.1 ≤ b.1 := by
  induction l with
  | nil => exact .nil
  | cons e l ih => exact insertKey_sorted e _ ih

/-- With different keys the order is strict. -/
theorem sortKeys_strict {α : Type} {l : List (Nat × α)} (h : (l.map (·.1)).Nodup) : (sortKeys l).Pairwise fun a b => a.1 < b.1 := by
  have h1 := sortKeys_sorted l
  have h2 : ((sortKeys l).map (·.1)).Nodup := ((sortKeys_perm l).map _).nodup_iff.2 h
  rw [List.Nodup, List.pairwise_map] at h2
  exact (h1.and h2).imp fun ⟨a, b⟩ => by omega

theorem strict_unique {α : Type} {l l' : List (Nat × α)} (h : l.Pairwise fun a b => a.1 < b.1) (h' : l'.Pairwise fun a b => a.1 < b.1)
    (hp : l.Perm l') : l = l' := by
  induction l generalizing l' with
  | nil => exact hp.nil_eq
  | cons a l ih =>
    cases l' with
    | nil => exact absurd hp.length_eq (by simp)
    | cons b l' =>
      rw [List.pairwise_cons] at h h'
      have hab : a = b := by
        rcases List.mem_cons.1 (hp.mem_iff.1 (List.mem_cons_self ..)) with e | e
        · exact e
        · rcases List.mem_cons.1 (hp.mem_iff.2 (List.mem_cons_self ..)) with e' | e'
          · exact e'.symm
          · have := h.1 b e'; have := h'.1 a e; omega
      subst hab
      rw [ih h.2 h'.2 hp.cons_inv]

theorem sortKeys_unique {α : Type} {l l' : List (Nat × α)} (h : (l.map (·.1)).Nodup) (hp : l.Perm l') : sortKeys l = sortKeys l' :=
  strict_unique (sortKeys_strict h) (sortKeys_strict ((hp.map _).nodup_iff.1 h))
    ((sortKeys_perm l).trans (hp.trans (sortKeys_perm l').symm))

/-! ## The JSON of an output is JSON -/

theorem valid_obj_append {fs gs : List (List Char × Json)} (h1 : Valid (.obj fs)) (h2 : Valid (.obj gs)) : Valid (.obj (fs ++ gs)) := by
  cases h1 with
  | obj h1 => cases h2 with
    | obj h2 => exact .obj fun f hf => (List.mem_append.1 hf).elim (h1 f) (h2 f)

theorem valid_optField {α : Type} {k : List Char} {f : α → Json} (h : ∀ x, Valid (f x)) (o : Option α) : Valid (.obj (optField k f o)) := by
  cases o with
  | none => exact valid_obj_nil
  | some x => exact valid_obj_cons (h x) valid_obj_nil

theorem valid_perms (p : Perms) : Valid (permsJson p) :=
  valid_obj_cons .bool (valid_obj_cons .bool (valid_obj_cons .bool valid_obj_nil))

theorem valid_data (d : Data) : Valid (dataJson d) :=
  valid_obj_append (valid_obj_append (valid_obj_append (valid_obj_append
    (valid_obj_cons .bool (valid_obj_cons .bool (valid_obj_cons .bool (valid_obj_cons .bool (valid_obj_cons .bool valid_obj_nil)))))
    (valid_optField valid_nat _)) (valid_optField valid_nat _)) (valid_optField valid_nat _)) (valid_optField valid_nat _)

theorem valid_flow (f : WFlow) : Valid (flowJson f) :=
  valid_obj_cons .bool (valid_obj_cons (valid_range _) (valid_obj_cons (by cases f.kind <;> exact .str) valid_obj_nil))

theorem valid_boundary (b : WBoundary) : Valid (boundaryJson b) :=
  valid_obj_append (valid_obj_cons (valid_pos _) (valid_obj_cons (valid_perms _) (valid_obj_cons (valid_perms _)
    (valid_obj_cons (valid_data _) valid_obj_nil)))) (valid_optField valid_flow _)

theorem valid_valueStep {α : Type} {f : α → Json} (h : ∀ x, Valid (f x)) (s : Step α) : Valid (valueStepJson f s) := by
  cases s with
  | high v => exact valid_tagged _ (h v)
  | low => exact valid_obj_cons .str valid_obj_nil
  | none v => exact valid_obj_cons .str (valid_optField h v)

theorem valid_bstep (s : Step Bool) : Valid (valueStepJson .bool s) := valid_valueStep (fun _ => .bool) s
theorem valid_nstep (s : Step Nat) : Valid (valueStepJson natJson s) := valid_valueStep valid_nat s

theorem valid_permsDiff (d : PermsDiff) : Valid (permsDiffJson d) :=
  valid_obj_cons (valid_bstep _) (valid_obj_cons (valid_bstep _) (valid_obj_cons (valid_bstep _) valid_obj_nil))

theorem valid_diff (d : DataDiff) : Valid (diffJson d) :=
  valid_obj_cons (valid_bstep _) (valid_obj_cons (valid_bstep _) (valid_obj_cons (valid_bstep _) (valid_obj_cons (valid_nstep _)
    (valid_obj_cons (valid_bstep _) (valid_obj_cons (valid_nstep _) (valid_obj_cons (valid_nstep _) (valid_obj_cons (valid_nstep _)
    (valid_obj_cons (valid_permsDiff _) valid_obj_nil))))))))

theorem valid_table (t : WTable) : Valid (tableJson t) :=
  valid_obj_cons (valid_range _) (valid_obj_cons (valid_range _) (valid_obj_cons (valid_arr_map fun r _ =>
    valid_arr_cons .str (valid_arr_cons (valid_diff _) valid_arr_nil)) valid_obj_nil))

theorem valid_line (l : WLine) : Valid (lineJson l) :=
  valid_obj_cons (valid_range _) (valid_obj_cons (valid_arr_map fun t _ => valid_table t) valid_obj_nil)

theorem valid_region (r : WRegion) : Valid (regionJson r) :=
  valid_obj_cons (by cases r.refiner <;> exact valid_obj_cons (valid_nat _) valid_obj_nil)
    (valid_obj_cons (valid_arr_map fun r _ => valid_range r) valid_obj_nil)

theorem valid_map {α : Type} {f : α → Json} (h : ∀ x, Valid (f x)) (m : List (Nat × α)) : Valid (mapJson f m) :=
  .obj fun x hx => by obtain ⟨e, -, rfl⟩ := List.mem_map.1 hx; exact h e.2

theorem valid_output (o : WOutput) : Valid (outputJson o) :=
  valid_obj_cons (valid_range _) (valid_obj_cons (valid_arr_map fun b _ => valid_boundary b) (valid_obj_cons
    (valid_arr_map fun l _ => valid_line l) (valid_obj_cons (valid_map valid_range _) (valid_obj_cons (valid_map valid_region _)
    (valid_obj_cons (valid_map valid_range _) (valid_obj_cons (valid_map valid_region _) valid_obj_nil))))))

theorem valid_error (e : WError) : Valid (errorJson e) := by
  cases e with
  | build r => exact valid_obj_cons .str (valid_obj_cons (valid_opt valid_range r) valid_obj_nil)
  | analysis m => exact valid_obj_cons .str (valid_obj_cons .str valid_obj_nil)

theorem valid_res {α : Type} {f : α → Json} (h : ∀ x, Valid (f x)) (r : Except WError α) : Valid (resJson f r) := by
  cases r with
  | ok x => exact valid_obj_cons (h x) valid_obj_nil
  | error e => exact valid_obj_cons (valid_error e) valid_obj_nil

theorem valid_outputs (rs : List (Except WError WOutput)) : Valid (outputsJson rs) := valid_arr_map fun r _ => valid_res valid_output r

end Verif.Wire
