import Verif.Wire.TypeScript
/-!
# C119: what is printed has the type for which the page is compiled
-/
namespace Verif.Wire
open Verif.Preproc (Json kErr kBuildError)
open Verif.Value (MValue MSeg MKind PSeg Prim)
open Verif.Trace.Locals (MLocal)
open Verif.Annotations (Annots PathMatcher)

/-! ## What keeps a value from having its type -/

mutual
/-- A value and all values inside it. -/
def parts : MValue → List MValue
  | .tuple vs => .tuple vs :: partsOf vs
  | .all vs => .all vs :: partsOf vs
  | .only vs l => .only vs l :: (partsOf vs ++ parts l)
  | .adt n v fs k => .adt n v fs k :: partsOfFields fs
  | v => [v]
def partsOf : List MValue → List MValue
  | [] => []
  | v :: vs => parts v ++ partsOf vs
def partsOfFields : List (String × MValue) → List MValue
  | [] => []
  | f :: fs => partsOfField f ++ partsOfFields fs
def partsOfField : String × MValue → List MValue
  | (_, v) => parts v
end

/-- A float that is not finite. -/
def notFinite : MValue → Bool
  | .prim (.float bits) => !Frontend.finite bits
  | _ => false

/-- A number of 64 bits: an integer, a length, or a range. -/
def wide : MValue → Bool
  | .prim (.uint _) => true
  | .prim (.int _) => true
  | .adt _ _ _ (some (.string _)) => true
  | .adt _ _ _ (some (.vec _)) => true
  | .pointer _ _ (some _) => true
  | _ => false

/-- Nothing in the way, in the value itself. -/
def fits (lax : Bool) (v : MValue) : Bool := !notFinite v && (lax || !wide v)

mutual
/-- The levels of a value. -/
def levels : MValue → Nat
  | .tuple vs => levelsOf vs + 1
  | .all vs => levelsOf vs + 1
  | .only vs l => max (levelsOf vs) (levels l) + 1
  | .adt _ _ fs _ => levelsOfFields fs + 1
  | _ => 1
def levelsOf : List MValue → Nat
  | [] => 0
  | v :: vs => max (levels v) (levelsOf vs)
def levelsOfFields : List (String × MValue) → Nat
  | [] => 0
  | f :: fs => max (levelsOfField f) (levelsOfFields fs)
def levelsOfField : String × MValue → Nat
  | (_, v) => levels v
end

theorem lookup_cons' {α : Type} (k k' : List Char) (v : α) (l : List (List Char × α)) :
    ((k', v) :: l).lookup k = if k = k' then some v else l.lookup k := by
  rw [List.lookup]
  by_cases h : k = k'
  · simp [h]
  · rw [if_neg h]
    have : (k == k') = false := by simp [h]
    rw [this]

theorem check_prim (lax : Bool) (rec : Json → Bool) (F : Floats) (p : Prim) :
    check lax rec (toTs valueRs) (primJson F p) = fits lax (.prim p) := by
  cases p with
  | float bits =>
    cases h : Frontend.finite bits <;> simp (decide := true) [primJson, tagged, valueRs, toTs, toTsVariants, toTsFields, check, checkAlts,
      checkFields, lookup_cons', TsFields.has, fits, notFinite, wide, abbreviatedRs, h]
  | _ => simp (decide := true) [primJson, tagged, valueRs, toTs, toTsVariants, toTsFields, check, checkAlts, checkFields, lookup_cons',
      TsFields.has, natJson, intJson, fits, notFinite, wide, abbreviatedRs]

theorem check_seg (lax : Bool) (rec : Json → Bool) (x : MSeg) : check lax rec (toTs segRs) (segJson x) = true := by
  cases x <;> simp (decide := true) [segJson, tagged, segRs, toTs, toTsVariants, toTsFields, check, checkAlts, checkFields, lookup_cons',
      TsFields.has, natJson]

theorem check_part (lax : Bool) (rec : Json → Bool) (x : PSeg) : check lax rec (toTs partRs) (partJson x) = true := by
  cases x <;> simp (decide := true) [partJson, tagged, partRs, toTs, toTsVariants, toTsFields, check, checkAlts, checkFields, lookup_cons',
      TsFields.has, natJson]

theorem check_kind (lax : Bool) (rec : Json → Bool) (x : MKind) :
    check lax rec (toTs kindRs) (kindJson x) = (lax || decide (x = .box)) := by
  cases x <;> simp (decide := true) [kindJson, tagged, tagOnly, kindRs, toTs, toTsVariants, toTsFields, check, checkAlts, checkFields, lookup_cons',
      TsFields.has, natJson]

theorem check_tuple (lax : Bool) (rec : Json → Bool) (xs : List Json) :
    check lax rec (toTs valueRs) (tagged vTuple (.arr xs)) = xs.all rec := by
  simp (decide := true) [tagged, valueRs, toTs, toTsVariants, toTsFields, check, checkAlts, checkFields, lookup_cons', TsFields.has,
    abbreviatedRs]

theorem check_all (lax : Bool) (rec : Json → Bool) (xs : List Json) :
    check lax rec (toTs valueRs) (tagged vArray (tagged vAll (.arr xs))) = xs.all rec := by
  simp (decide := true) [tagged, valueRs, toTs, toTsVariants, toTsFields, check, checkAlts, checkFields, lookup_cons', TsFields.has,
    abbreviatedRs]

theorem check_only (lax : Bool) (rec : Json → Bool) (xs : List Json) (l : Json) :
    check lax rec (toTs valueRs) (tagged vArray (tagged vOnly (.arr [.arr xs, l]))) = (xs.all rec && rec l) := by
  simp (decide := true) [tagged, valueRs, toTs, toTsVariants, toTsFields, check, checkAlts, checkFields, lookup_cons', TsFields.has,
    abbreviatedRs]

theorem check_optKind (lax : Bool) (rec : Json → Bool) (k : Option MKind) :
    (check lax rec (toTs kindRs) (optJson kindJson k) || check lax rec .null (optJson kindJson k)) =
      (lax || !wide (.adt "" none [] k)) := by
  cases k with
  | none =>
    simp (decide := true) [optJson, kindRs, toTs, toTsVariants, toTsFields, check, checkAlts, checkFields, wide]
  | some k =>
    rw [optJson, check_kind]
    cases k <;> simp [wide, kindJson, tagged, tagOnly, check]

theorem check_adt (lax : Bool) (rec : Json → Bool) (n : String) (v : Option String) (xs : List (String × Json)) (k : Option MKind) :
    check lax rec (toTs valueRs) (tagged vAdt (.obj [(fName, .str n.toList), (fVariant, optJson (fun s => .str s.toList) v),
      (fFields, .arr (xs.map fun x => .arr [.str x.1.toList, x.2])), (fAllocKind, optJson kindJson k)])) =
      (xs.all (fun x => rec x.2) && (lax || !wide (.adt "" none [] k))) := by
  rw [← check_optKind lax rec k]
  have hv : (check lax rec .string (optJson (fun s : String => .str s.toList) v) ||
      check lax rec .null (optJson (fun s : String => .str s.toList) v)) = true := by
    cases v <;> simp [optJson, check]
  generalize optJson (fun s : String => Json.str s.toList) v = jv at *
  generalize optJson kindJson k = jk at *
  generalize hk : kindRs = kr
  simp (decide := true) [tagged, valueRs, toTs, toTsVariants, toTsFields, check, checkAlts, checkFields, lookup_cons', TsFields.has,
    abbreviatedRs, hk, List.all_map, Function.comp_def]
  simp [check] at hv
  exact fun _ _ => hv

theorem check_path (lax : Bool) (rec : Json → Bool) (s : MSeg) (ps : List PSeg) :
    check lax rec (toTs pathRs) (.obj [(fSegment, segJson s), (fParts, .arr (ps.map partJson))]) = true := by
  have hs := check_seg lax rec s
  have hp : ∀ x, check lax rec (toTs partRs) (partJson x) = true := check_part lax rec
  generalize segJson s = js at *
  generalize hk : segRs = sr at *
  generalize hk' : partRs = pr at *
  simp (decide := true) [pathRs, toTs, toTsFields, check, checkFields, lookup_cons', TsFields.has, hk, hk', hs, hp]

theorem check_pointer (lax : Bool) (rec : Json → Bool) (s : MSeg) (ps : List PSeg) (r : Option Nat) :
    check lax rec (toTs valueRs) (tagged vPointer (.obj [(fPath, .obj [(fSegment, segJson s), (fParts, .arr (ps.map partJson))]),
      (fRange, optJson natJson r)])) = (lax || !wide (.pointer s ps r)) := by
  have hp := check_path lax rec s ps
  generalize Json.obj [(fSegment, segJson s), (fParts, .arr (ps.map partJson))] = jp at *
  generalize hk : pathRs = pr at *
  cases r <;> simp (decide := true) [tagged, valueRs, toTs, toTsVariants, toTsFields, check, checkAlts, checkFields, lookup_cons',
    TsFields.has, abbreviatedRs, hk, hp, optJson, wide, natJson]

theorem check_unallocated (lax : Bool) (rec : Json → Bool) (id : Option Nat) :
    check lax rec (toTs valueRs) (tagged vUnallocated (.obj [(fAllocId, optJson natJson id)])) = true := by
  cases id <;> simp (decide := true) [tagged, valueRs, toTs, toTsVariants, toTsFields, check, checkAlts, checkFields, lookup_cons',
    TsFields.has, abbreviatedRs, optJson, natJson]

theorem wide_adt (n n' : String) (v v' : Option String) (fs fs' : List (String × MValue)) (k : Option MKind) :
    wide (.adt n v fs k) = wide (.adt n' v' fs' k) := by
  cases k with
  | none => rfl
  | some k => cases k <;> rfl

theorem fieldsJson_map (F : Floats) (fs : List (String × MValue)) :
    fieldsJson F fs = (fs.map fun f => (f.1, valueJson F f.2)).map fun x => .arr [.str x.1.toList, x.2] := by
  induction fs with
  | nil => rfl
  | cons f fs ih => obtain ⟨k, v⟩ := f; simp [fieldsJson, fieldJson, ih]

theorem levels_pos (v : MValue) : 1 ≤ levels v := by
  cases v <;> simp [levels]

theorem le_max (a b n : Nat) : decide (max a b ≤ n) = (decide (a ≤ n) && decide (b ≤ n)) := by
  rw [Bool.eq_iff_iff]; simp; omega

theorem and_swap (a b c d : Bool) : ((a && b) && (c && d)) = ((a && c) && (b && d)) := by
  cases a <;> cases b <;> cases c <;> cases d <;> rfl

theorem le_one (a n : Nat) : decide (a + 1 ≤ n + 1) = decide (a ≤ n) := by rw [Bool.eq_iff_iff]; simp

mutual
/-- Whether the text of a value has the type `MValue`. -/
theorem isValue_valueJson (F : Floats) (lax : Bool) (v : MValue) (n : Nat) :
    isValue lax n (valueJson F v) = (decide (levels v ≤ n) && (parts v).all (fits lax)) := by
  match n, v with
  | 0, v =>
    have := levels_pos v
    have h : decide (levels v ≤ 0) = false := by simp; omega
    rw [h]; rfl
  | n + 1, .prim p =>
    rw [isValue, valueJson, check_prim]
    simp [levels, parts]
  | n + 1, .tuple vs =>
    rw [isValue, valueJson, check_tuple, isValue_valuesJson F lax vs n]
    rw [levels, parts, le_one, List.all_cons]
    simp [fits, notFinite, wide]
  | n + 1, .all vs =>
    rw [isValue, valueJson, check_all, isValue_valuesJson F lax vs n]
    rw [levels, parts, le_one, List.all_cons]
    simp [fits, notFinite, wide]
  | n + 1, .only vs l =>
    rw [isValue, valueJson, check_only, isValue_valuesJson F lax vs n, isValue_valueJson F lax l n]
    rw [levels, parts, le_one, le_max, List.all_cons, List.all_append, and_swap]
    simp [fits, notFinite, wide]
  | n + 1, .adt nm v fs k =>
    rw [isValue, valueJson, fieldsJson_map, check_adt, List.all_map]
    have := isValue_fieldsJson F lax fs n
    simp only [Function.comp_def] at this ⊢
    rw [this, levels, parts, le_one, List.all_cons]
    rw [wide_adt "" nm none v [] fs k]
    simp only [fits, notFinite, Bool.not_false, Bool.true_and]
    generalize decide (levelsOfFields fs ≤ n) = a
    generalize (partsOfFields fs).all (fits lax) = b
    generalize (lax || !wide (.adt nm v fs k)) = c
    cases a <;> cases b <;> cases c <;> rfl
  | n + 1, .pointer s ps r =>
    rw [isValue, valueJson, check_pointer]
    simp [levels, parts, fits, notFinite]
  | n + 1, .unallocated id =>
    rw [isValue, valueJson, check_unallocated]
    simp [levels, parts, fits, notFinite, wide]
theorem isValue_valuesJson (F : Floats) (lax : Bool) (vs : List MValue) (n : Nat) :
    (valuesJson F vs).all (isValue lax n) = (decide (levelsOf vs ≤ n) && (partsOf vs).all (fits lax)) := by
  match vs with
  | [] => simp [valuesJson, levelsOf, partsOf]
  | v :: vs =>
    rw [valuesJson, List.all_cons, isValue_valueJson F lax v n, isValue_valuesJson F lax vs n, levelsOf, partsOf, le_max,
      List.all_append, and_swap]
theorem isValue_fieldsJson (F : Floats) (lax : Bool) (fs : List (String × MValue)) (n : Nat) :
    fs.all (fun f => isValue lax n (valueJson F f.2)) = (decide (levelsOfFields fs ≤ n) && (partsOfFields fs).all (fits lax)) := by
  match fs with
  | [] => simp [levelsOfFields, partsOfFields]
  | f :: fs =>
    rw [List.all_cons, isValue_fieldJson F lax f n, isValue_fieldsJson F lax fs n, levelsOfFields, partsOfFields, le_max,
      List.all_append, and_swap]
theorem isValue_fieldJson (F : Floats) (lax : Bool) (f : String × MValue) (n : Nat) :
    isValue lax n (valueJson F f.2) = (decide (levelsOfField f ≤ n) && (partsOfField f).all (fits lax)) := by
  match f with
  | (k, v) => rw [levelsOfField, partsOfField]; exact isValue_valueJson F lax v n
end

/-! ## Traces -/

theorem check_range (lax : Bool) (rec : Json → Bool) (r : Range) : check lax rec (toTs rangeRs) (rangeJson r) = true := by
  simp (decide := true) [rangeJson, posJson, rangeRs, posRs, toTs, toTsFields, check, checkFields, lookup_cons', TsFields.has, natJson]

theorem check_pos (lax : Bool) (rec : Json → Bool) (r : Frontend.Pos) : check lax rec (toTs posRs) (posJson r) = true := by
  simp (decide := true) [posJson, posRs, toTs, toTsFields, check, checkFields, lookup_cons', TsFields.has, natJson]

theorem check_local (lax : Bool) (rec : Json → Bool) (F : Floats) (l : MLocal) :
    check lax rec (toTs localRs) (localJson F l) = rec (valueJson F l.value) := by
  have hp : ∀ x, check lax rec (toTs partRs) (partJson x) = true := check_part lax rec
  generalize hk' : partRs = pr at *
  simp (decide := true) [localJson, localRs, toTs, toTsFields, check, checkFields, lookup_cons', TsFields.has, hk', hp]

theorem check_frame (lax : Bool) (rec : Json → Bool) (F : Floats) (f : WFrame) :
    check lax rec (toTs frameRs) (frameJson F f) = f.locals.all fun l => rec (valueJson F l.value) := by
  have hp := check_local lax rec F
  have hr := check_range lax rec
  generalize hk : localRs = pr at *
  generalize hk' : rangeRs = rr at *
  rw [Bool.eq_iff_iff]
  simp (decide := true) [frameJson, frameRs, toTs, toTsFields, check, checkFields, lookup_cons', TsFields.has, hk, hk', hp, hr]

theorem check_step (lax : Bool) (rec : Json → Bool) (F : Floats) (s : WStep) :
    check lax rec (toTs stepRs) (stepJson F s) =
      (s.frames.all (fun f => f.locals.all fun l => rec (valueJson F l.value)) && (valuesJson F s.heap).all rec) := by
  have hp := check_frame lax rec F
  generalize hk : frameRs = pr at *
  rw [Bool.eq_iff_iff]
  simp (decide := true) [stepJson, stepRs, toTs, toTsFields, check, checkFields, lookup_cons', TsFields.has, hk, hp]

theorem check_result (lax : Bool) (rec : Json → Bool) (r : WResult) : check lax rec (toTs resultRs) (resultJson r) = true := by
  cases r <;> simp (decide := true) [resultJson, tagged, tagOnly, resultRs, toTs, toTsVariants, toTsFields, check, checkAlts, checkFields,
    lookup_cons', TsFields.has, natJson]

/-- The values of the variables and of the heap, in all steps. -/
def valuesIn (t : WTrace) : List MValue :=
  t.steps.flatMap fun s => s.frames.flatMap (fun f => f.locals.map (·.value)) ++ s.heap

theorem valuesJson_map (F : Floats) (vs : List MValue) : valuesJson F vs = vs.map (valueJson F) := by
  induction vs with
  | nil => rfl
  | cons v vs ih => rw [valuesJson, ih]; rfl

theorem check_trace (lax : Bool) (rec : Json → Bool) (F : Floats) (t : WTrace) :
    check lax rec (toTs traceRs) (traceJson F t) = (valuesIn t).all fun v => rec (valueJson F v) := by
  have hp := check_step lax rec F
  have hr := check_result lax rec
  generalize hk : stepRs = pr at *
  generalize hk' : resultRs = rr at *
  rw [Bool.eq_iff_iff]
  simp (decide := true) [traceJson, traceRs, toTs, toTsFields, check, checkFields, lookup_cons', TsFields.has, hk, hk', hp, hr,
    valuesIn, valuesJson_map]

theorem levels_bound (vs : List MValue) : ∃ n, ∀ v ∈ vs, levels v ≤ n := by
  induction vs with
  | nil => exact ⟨0, by simp⟩
  | cons v vs ih =>
    obtain ⟨n, hn⟩ := ih
    refine ⟨max (levels v) n, fun x hx => ?_⟩
    rcases List.mem_cons.1 hx with rfl | hx
    · omega
    · have := hn x hx; omega

theorem hasType_trace (lax : Bool) (F : Floats) (t : WTrace) :
    HasType lax traceRs (traceJson F t) ↔ ∀ v ∈ valuesIn t, ∀ x ∈ parts v, fits lax x = true := by
  unfold HasType
  constructor
  · rintro ⟨n, h⟩ v hv x hx
    rw [check_trace, List.all_eq_true] at h
    have := h v hv
    rw [isValue_valueJson, Bool.and_eq_true, List.all_eq_true] at this
    exact this.2 x hx
  · intro h
    obtain ⟨n, hn⟩ := levels_bound (valuesIn t)
    refine ⟨n, ?_⟩
    rw [check_trace, List.all_eq_true]
    intro v hv
    rw [isValue_valueJson, Bool.and_eq_true, List.all_eq_true]
    exact ⟨decide_eq_true (hn v hv), h v hv⟩

/-! ## Results and annotations -/

theorem check_perms (lax : Bool) (rec : Json → Bool) (p : Permissions.Perms) : check lax rec (toTs permsRs) (permsJson p) = true := by
  simp (decide := true) [permsJson, permsRs, toTs, toTsFields, check, checkFields, lookup_cons', TsFields.has]

theorem check_data (lax : Bool) (rec : Json → Bool) (d : Permissions.Data) : check lax rec (toTs dataRs) (dataJson d) = true := by
  obtain ⟨a, b, c, e, f, g, h, i, j⟩ := d
  cases g <;> cases h <;> cases i <;> cases j <;> simp (decide := true) [dataJson, optField, dataRs, toTs, toTsFields, check, checkFields,
    lookup_cons', TsFields.has, natJson]

theorem check_flow (lax : Bool) (rec : Json → Bool) (f : WFlow) : check lax rec (toTs flowRs) (flowJson f) = true := by
  have hr := check_range lax rec
  generalize hk' : rangeRs = rr at *
  obtain ⟨a, b, k⟩ := f
  cases k <;> simp (decide := true) [flowJson, flowKindJson, flowRs, flowKindRs, toTs, toTsFields, toTsVariants, check, checkFields, checkAlts,
    lookup_cons', TsFields.has, hk', hr]

theorem check_boundary (lax : Bool) (rec : Json → Bool) (b : WBoundary) : check lax rec (toTs boundaryRs) (boundaryJson b) = true := by
  have hr := check_pos lax rec
  have h2 := check_perms lax rec
  have h3 := check_data lax rec
  have h4 := check_flow lax rec
  generalize hk1 : posRs = r1 at *
  generalize hk2 : permsRs = r2 at *
  generalize hk3 : dataRs = r3 at *
  generalize hk4 : flowRs = r4 at *
  obtain ⟨a, b, c, d, f⟩ := b
  cases f <;> simp (decide := true) [boundaryJson, optField, boundaryRs, toTs, toTsFields, check, checkFields, lookup_cons', TsFields.has,
    hk1, hk2, hk3, hk4, hr, h2, h3, h4]

theorem check_step_bool (lax : Bool) (rec : Json → Bool) (s : Steps.Step Bool) :
    check lax rec (toTs (valueStepRs .bool)) (valueStepJson .bool s) = true := by
  rcases s with v | _ | (_ | v) <;> simp (decide := true) [valueStepJson, optField, tagged, tagOnly, valueStepRs, toTs, toTsFields,
    toTsVariants, check, checkFields, checkAlts, lookup_cons', TsFields.has]

theorem check_step_nat (lax : Bool) (rec : Json → Bool) (s : Steps.Step Nat) :
    check lax rec (toTs (valueStepRs .u32)) (valueStepJson natJson s) = true := by
  rcases s with v | _ | (_ | v) <;> simp (decide := true) [valueStepJson, optField, tagged, tagOnly, valueStepRs, toTs, toTsFields,
    toTsVariants, check, checkFields, checkAlts, lookup_cons', TsFields.has, natJson]

theorem check_permsDiff (lax : Bool) (rec : Json → Bool) (d : Steps.PermsDiff) :
    check lax rec (toTs permsDiffRs) (permsDiffJson d) = true := by
  have h1 := check_step_bool lax rec
  generalize hk1 : valueStepRs .bool = r1 at *
  simp (decide := true) [permsDiffJson, permsDiffRs, toTs, toTsFields, check, checkFields, lookup_cons', TsFields.has, hk1, h1]

theorem check_diff (lax : Bool) (rec : Json → Bool) (d : Steps.DataDiff) : check lax rec (toTs diffRs) (diffJson d) = true := by
  have h1 := check_step_bool lax rec
  have h2 := check_step_nat lax rec
  have h3 := check_permsDiff lax rec
  generalize hk1 : valueStepRs .bool = r1 at *
  generalize hk2 : valueStepRs .u32 = r2 at *
  generalize hk3 : permsDiffRs = r3 at *
  simp (decide := true) [diffJson, diffRs, toTs, toTsFields, check, checkFields, lookup_cons', TsFields.has, hk1, h1, hk2, h2, hk3, h3]

theorem check_line (lax : Bool) (rec : Json → Bool) (l : WLine) : check lax rec (toTs lineRs) (lineJson l) = true := by
  have h1 := check_range lax rec
  have h2 := check_diff lax rec
  generalize hk1 : rangeRs = r1 at *
  generalize hk2 : diffRs = r2 at *
  simp (decide := true) [lineJson, tableJson, rowJson, lineRs, tableRs, toTs, toTsFields, check, checkFields, lookup_cons', TsFields.has,
    hk1, h1, hk2, h2]

theorem check_region (lax : Bool) (rec : Json → Bool) (r : WRegion) : check lax rec (toTs regionRs) (regionJson r) = true := by
  have h1 := check_range lax rec
  generalize hk1 : rangeRs = r1 at *
  obtain ⟨f, rs⟩ := r
  cases f <;> simp (decide := true) [regionJson, refinerJson, regionRs, refinerRs, toTs, toTsFields, toTsVariants, check, checkFields,
    checkAlts, lookup_cons', TsFields.has, hk1, h1, natJson]

theorem check_map {α : Type} (lax : Bool) (rec : Json → Bool) (t : Rs) (f : α → Json) (m : List (Nat × α))
    (h : ∀ x, check lax rec (toTs t) (f x) = true) : check lax rec (toTs (.map t)) (mapJson f m) = true := by
  simp only [toTs, mapJson, check, List.all_map, List.all_eq_true]
  intro e _
  simp only [Function.comp_def, h, Bool.and_true, List.all_eq_true]
  exact fun c hc => Nat.isDigit_of_mem_toDigits (by decide) (by decide) hc

theorem check_output (lax : Bool) (rec : Json → Bool) (o : WOutput) : check lax rec (toTs outputRs) (outputJson o) = true := by
  have h1 := check_range lax rec
  have h2 := check_boundary lax rec
  have h3 := check_line lax rec
  have h4 := fun m => check_map lax rec rangeRs rangeJson m h1
  have h5 := fun m => check_map lax rec regionRs regionJson m (check_region lax rec)
  unfold outputRs outputJson
  generalize hm1 : Rs.map rangeRs = m1 at *
  generalize hm2 : Rs.map regionRs = m2 at *
  generalize hk1 : rangeRs = r1 at *
  generalize hk2 : boundaryRs = r2 at *
  generalize hk3 : lineRs = r3 at *
  simp (decide := true) [toTs, toTsFields, check, checkFields, lookup_cons', TsFields.has, h1, h2, h3, h4, h5]

theorem check_error (lax : Bool) (rec : Json → Bool) (e : WError) : check lax rec (toTs errorRs) (errorJson e) = true := by
  have h1 := check_range lax rec
  generalize hk1 : rangeRs = r1 at *
  rcases e with (_ | r) | m <;> simp (decide := true) [errorJson, optJson, errorRs, toTs, toTsFields, toTsVariants, check, checkFields,
    checkAlts, lookup_cons', TsFields.has, hk1, h1]

theorem check_matcher (lax : Bool) (rec : Json → Bool) (x : PathMatcher) : check lax rec (toTs matcherRs) (matcherJson x) = true := by
  cases x <;> simp (decide := true) [matcherJson, matcherRs, toTs, toTsFields, toTsVariants, check, checkFields, checkAlts, lookup_cons',
    TsFields.has]

theorem check_annots (lax : Bool) (rec : Json → Bool) (a : Annots) (paths : List (Nat × List PathMatcher)) :
    check lax rec (toTs annotsRs) (annotsJson a paths) = true := by
  have h1 := check_matcher lax rec
  have h2 : check lax rec (toTs (.map (.vec matcherRs))) (mapJson (fun x => .arr (x.map matcherJson)) paths) = true := by
    refine check_map lax rec _ _ _ fun x => ?_
    simp [toTs, check, h1]
  unfold mapJson at h2
  unfold annotsRs annotsJson
  generalize hj : (Json.obj (paths.map fun e => (Nat.toDigits 10 e.1, Json.arr (e.2.map matcherJson))) : Json) = jm at h2 ⊢
  generalize hm : Rs.map (.vec matcherRs) = rm at h2 ⊢
  simp (decide := true) [toTs, toTsFields, check, checkFields, lookup_cons', TsFields.has, h2, natJson]

/-! ## What may be missing -/

/-- The fields of a type. -/
def RsFields.list : RsFields → List (List Char × Bool × Rs)
  | .nil => []
  | .cons n s t r => (n, s, t) :: r.list

/-- A property need not be there, or is there and may be `null`. -/
inductive Lack | missing | null
  deriving DecidableEq, Repr

/-- Whether `null` is one of the alternatives. -/
def TsAlts.hasNull : TsAlts → Bool
  | .nil => false
  | .cons .null _ => true
  | .cons _ r => r.hasNull

def Ts.hasNull : Ts → Bool
  | .union as => as.hasNull
  | _ => false

mutual
/-- The properties of a type, at any depth, that need not be there or may be `null`. -/
def lacks : Ts → List (List Char × Lack)
  | .array t => lacks t
  | .pair a b => lacks a ++ lacks b
  | .record t => lacks t
  | .obj fs => lacksFields fs
  | .union as => lacksAlts as
  | _ => []
def lacksFields : TsFields → List (List Char × Lack)
  | .nil => []
  | .cons n o t r => (if o then [(n, .missing)] else []) ++ ((if t.hasNull then [(n, .null)] else []) ++
      (lacks t ++ lacksFields r))
def lacksAlts : TsAlts → List (List Char × Lack)
  | .nil => []
  | .cons t r => lacks t ++ lacksAlts r
end

theorem toTsFields_cons (n : List Char) (s : Bool) (t : Rs) (r : RsFields) :
    (s = true ∧ ∃ u, t = .opt u ∧ toTsFields (.cons n s t r) = .cons n true (toTs u) (toTsFields r)) ∨
      toTsFields (.cons n s t r) = .cons n false (toTs t) (toTsFields r) := by
  cases s with
  | false => exact .inr (by simp [toTsFields])
  | true =>
    cases t with
    | opt u => exact .inl ⟨rfl, u, rfl, by simp [toTsFields]⟩
    | _ => exact .inr (by simp [toTsFields])

theorem checkFields_mem (lax : Bool) (rec : Json → Bool) : ∀ (fs : RsFields) (l : List (List Char × Json)),
    checkFields lax rec (toTsFields fs) l = true → ∀ n s t, (n, s, t) ∈ fs.list →
      (∃ v, l.lookup n = some v ∧ (check lax rec (toTs t) v = true ∨ (s = true ∧ ∃ u, t = .opt u ∧ check lax rec (toTs u) v = true))) ∨
      (s = true ∧ (∃ u, t = .opt u) ∧ l.lookup n = none)
  | .nil, _, _, _, _, _, hm => by cases hm
  | .cons n s t r, l, h, n', s', t', hm => by
    have key : ((∃ v, l.lookup n = some v ∧ (check lax rec (toTs t) v = true ∨
        (s = true ∧ ∃ u, t = .opt u ∧ check lax rec (toTs u) v = true))) ∨
        (s = true ∧ (∃ u, t = .opt u) ∧ l.lookup n = none)) ∧ checkFields lax rec (toTsFields r) l = true := by
      rcases toTsFields_cons n s t r with ⟨hs, u, hu, he⟩ | he
      · rw [he, checkFields, Bool.and_eq_true] at h
        refine ⟨?_, h.2⟩
        cases hl : l.lookup n with
        | none => exact .inr ⟨hs, ⟨_, hu⟩, rfl⟩
        | some v =>
          rw [hl] at h
          exact .inl ⟨v, rfl, .inr ⟨hs, _, hu, h.1⟩⟩
      · rw [he, checkFields, Bool.and_eq_true] at h
        refine ⟨?_, h.2⟩
        cases hl : l.lookup n with
        | none =>
          rw [hl] at h
          exact absurd h.1 (by simp)
        | some v =>
          rw [hl] at h
          exact .inl ⟨v, rfl, .inl h.1⟩
    rcases List.mem_cons.1 hm with he | hm
    · cases he
      exact key.1
    · exact checkFields_mem lax rec r l key.2 n' s' t' hm

/-! ## The statements -/

/-- **C119 (results).** What is printed for a body, or as an error, has the type for which the page is compiled: all
properties are there with values of their types, and no others. -/
theorem C119_results (o : WOutput) (e : WError) : HasType false outputRs (outputJson o) ∧ HasType false errorRs (errorJson e) :=
  ⟨⟨0, check_output _ _ o⟩, ⟨0, check_error _ _ e⟩⟩

/-- **C119 (annotations).** The annotations of a block have theirs, in whatever order the hash map is written. -/
theorem C119_annotations (a : Annots) (paths : List (Nat × List PathMatcher)) : HasType false annotsRs (annotsJson a paths) :=
  ⟨0, check_annots _ _ a paths⟩

/-- **C119 (traces).** If numbers are taken for `bigint`s, a trace has its type exactly if all floats in it are finite. -/
theorem C119_trace_partial (F : Floats) (t : WTrace) :
    HasType true traceRs (traceJson F t) ↔ ∀ v ∈ valuesIn t, ∀ x ∈ parts v, notFinite x = false := by
  rw [hasType_trace]
  simp [fits]

/-- **C119 fails for numbers of 64 bits.** In a trace that has its type there are no integers, no vectors or strings on the
heap and no slices; otherwise some value is declared as a `bigint`, which nothing in a JSON text is. -/
theorem C119_bigint (F : Floats) (t : WTrace) :
    HasType false traceRs (traceJson F t) ↔ ∀ v ∈ valuesIn t, ∀ x ∈ parts v, notFinite x = false ∧ wide x = false := by
  rw [hasType_trace]
  simp [fits]

/-- **C119 (what is there).** An object of the type of a struct has every field that is not skipped if it is `None`, with
a value of its type, and nothing that is no field. -/
theorem C119_present (lax : Bool) (fs : RsFields) (j : Json) (h : HasType lax (.struct fs) j) :
    ∃ l, j = .obj l ∧ (∀ n s t, (n, s, t) ∈ fs.list → (s = false ∨ ∀ u, t ≠ .opt u) →
      ∃ v, l.lookup n = some v ∧ HasType lax t v) ∧ ∀ e ∈ l, ∃ s t, (e.1, s, t) ∈ fs.list := by
  obtain ⟨k, h⟩ := h
  rw [toTs, check.eq_def] at h
  cases j with
  | obj l =>
    simp only [Bool.and_eq_true, List.all_eq_true] at h
    refine ⟨l, rfl, ?_, ?_⟩
    · intro n s t hm hs
      rcases checkFields_mem _ _ fs l h.1 n s t hm with ⟨v, hv, hc | ⟨h1, u, h2, -⟩⟩ | ⟨h1, ⟨u, h2⟩, -⟩
      · exact ⟨v, hv, k, hc⟩
      · rcases hs with hs | hs
        · rw [h1] at hs
          cases hs
        · exact absurd h2 (hs u)
      · rcases hs with hs | hs
        · rw [h1] at hs
          cases hs
        · exact absurd h2 (hs u)
    · have hh : ∀ (fs : RsFields) (n : List Char), (toTsFields fs).has n = true → ∃ s t, (n, s, t) ∈ fs.list := by
        intro fs n
        induction fs using RsFields.rec (motive_1 := fun _ => True) (motive_3 := fun _ => True) with
        | nil => intro h; cases h
        | cons m s t r _ ih =>
          intro h
          have : m = n ∨ (toTsFields r).has n = true := by
            rcases toTsFields_cons m s t r with ⟨-, u, -, he⟩ | he <;> rw [he] at h <;> simpa [TsFields.has] using h
          rcases this with rfl | h
          · exact ⟨s, t, List.mem_cons_self⟩
          · obtain ⟨s', t', hm⟩ := ih h
            exact ⟨s', t', List.mem_cons_of_mem _ hm⟩
        | _ => trivial
      exact fun e he => hh fs e.1 (h.2 e he)
  | _ => simp at h

/-- **C119 (what may be missing).** In traces nothing may be missing, and `null` are only the variant and the kind of a
value that has none, the range of a pointer that is no slice, and the number of memory that is gone.  In results only the
moves and loans that take permissions away, the flow and the value of a step that changes nothing may be missing.  The
place of an error may be `null`.  The annotations are complete. -/
theorem C119_lacks :
    lacks (toTs valueRs) = [(fVariant, .null), (fAllocKind, .null), (fRange, .null), (fAllocId, .null)] ∧
    lacks (toTs traceRs) = [] ∧
    lacks (toTs errorRs) = [(fRange, .null)] ∧
    lacks (toTs annotsRs) = [] ∧
    lacks (toTs dataRs) = [(fPathMoved, .missing), (fLoanRead, .missing), (fLoanWrite, .missing), (fLoanDrop, .missing)] ∧
    lacks (toTs lineRs) = List.replicate 11 (kValue, .missing) ∧
    lacks (toTs outputRs) = lacks (toTs dataRs) ++ (fExpectingFlow, .missing) :: lacks (toTs lineRs) := by
  decide

/-- A frame without its place has no type. -/
example (a b : Json) : ¬ HasType true frameRs (.obj [(fName, .str []), (fBodySpan, a), (fLocals, b)]) := by
  intro h
  obtain ⟨l, hl, h1, -⟩ := C119_present true _ _ h
  cases hl
  obtain ⟨v, hv, -⟩ := h1 fLocation false rangeRs (by simp [RsFields.list]) (.inl rfl)
  revert hv
  simp (decide := true) [lookup_cons']

/-! ## Examples -/

/-- A trace of one step with one variable. -/
def oneTrace (v : MValue) : WTrace :=
  ⟨[⟨[⟨['m'], ⟨⟨0, 0⟩, ⟨1, 0⟩⟩, ⟨⟨0, 1⟩, ⟨0, 2⟩⟩, [⟨"x", v, []⟩]⟩], []⟩], .success⟩

example (F : Floats) : HasType false traceRs (traceJson F (oneTrace (.tuple [.prim (.bool true), .prim (.char 97)]))) :=
  (C119_bigint F _).2 (by simp [oneTrace, valuesIn, parts, partsOf, notFinite, wide])

/-- `let x = 1;` -/
example (F : Floats) : ¬ HasType false traceRs (traceJson F (oneTrace (.prim (.uint 1)))) ∧
    HasType true traceRs (traceJson F (oneTrace (.prim (.uint 1)))) :=
  ⟨fun h => by simpa [oneTrace, valuesIn, parts, wide] using (C119_bigint F _).1 h,
    (C119_trace_partial F _).2 (by simp [oneTrace, valuesIn, parts, notFinite])⟩

/-- The checks are strict: a missing, additional or ill-typed property, or an unknown tag, is found. -/
example : ¬ HasType true posRs (.obj [(fLine, natJson 1)]) ∧ ¬ HasType true posRs (.obj [(fLine, natJson 1), (fColumn, .null)]) ∧
    ¬ HasType true posRs (.obj [(fLine, natJson 1), (fColumn, natJson 1), (fLen, natJson 1)]) ∧
    ¬ HasType true resultRs (tagOnly vBox) := by
  refine ⟨?_, ?_, ?_, ?_⟩ <;> rintro ⟨n, h⟩ <;> revert h <;> simp (decide := true) [posRs, resultRs, tagOnly, toTs, toTsFields,
    toTsVariants, check, checkFields, checkAlts, lookup_cons', TsFields.has, natJson]

end Verif.Wire
