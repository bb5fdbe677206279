import Verif.Wire.AnalysisProps
import Verif.Wire.Props
/-!
# C116: what the analyser prints is what the page draws
-/
namespace Verif.Wire
open Verif.Preproc (Json Responses kErr kBuildError)
open Verif.Value (MValue MSeg MKind PSeg Prim)
open Verif.Trace.Locals (MLocal)
open Verif.Block (Block)
open Verif.Permissions (Perms)
open Verif.Embed (kOk opInterpreter opPermissions okIn splitResults)

/-! ## Floats that are not finite -/

theorem mapM_isSome_cons {α : Type} {g : Json → Option α} {x : Json} {xs : List Json} (h : ((x :: xs).mapM g).isSome = true) :
    (g x).isSome = true ∧ (xs.mapM g).isSome = true := by
  rw [List.mapM_cons] at h
  cases h1 : g x with
  | none => simp [h1] at h
  | some y =>
    cases h2 : xs.mapM g with
    | none => simp [h1, h2] at h
    | some ys => simp

theorem mapM_isSome_mem {α β : Type} {f : β → Json} {g : Json → Option α} {l : List β} (h : ((l.map f).mapM g).isSome = true)
    {x : β} (hx : x ∈ l) : (g (f x)).isSome = true := by
  induction l with
  | nil => simp at hx
  | cons y l ih =>
    have := mapM_isSome_cons h
    rcases List.mem_cons.1 hx with rfl | hx
    · exact this.1
    · exact ih this.2 hx

mutual
theorem value_finite (F : Floats) : (v : MValue) → ∀ n, (asValue F n (valueJson F v)).isSome = true → finiteIn v = true
  | .prim p, n, h => by
    cases n with
    | zero => simp [asValue] at h
    | succ n =>
      cases p with
      | float bits =>
        simp only [finiteIn]
        cases hb : Frontend.finite bits with
        | true => rfl
        | false =>
          simp [valueJson, primJson, asValue, show vFloat ≠ vBool by decide, show vFloat ≠ vUint by decide,
            show vFloat ≠ vInt by decide, hb, asFloat] at h
      | _ => rfl
  | .tuple vs, n, h => by
    cases n with
    | zero => simp [asValue] at h
    | succ n =>
      refine values_finite F vs n ?_
      simpa [valueJson, asValue, show vTuple ≠ vBool by decide, show vTuple ≠ vUint by decide,
        show vTuple ≠ vInt by decide, show vTuple ≠ vFloat by decide, show vTuple ≠ vChar by decide] using h
  | .all vs, n, h => by
    cases n with
    | zero => simp [asValue] at h
    | succ n =>
      refine values_finite F vs n ?_
      simpa [valueJson, asValue, show vArray ≠ vBool by decide, show vArray ≠ vUint by decide,
        show vArray ≠ vInt by decide, show vArray ≠ vFloat by decide, show vArray ≠ vChar by decide,
        show vArray ≠ vTuple by decide, show vArray ≠ vAdt by decide, show vArray ≠ vPointer by decide] using h
  | .only vs l, n, h => by
    cases n with
    | zero => simp [asValue] at h
    | succ n =>
      simp [valueJson, asValue, show vArray ≠ vBool by decide, show vArray ≠ vUint by decide,
        show vArray ≠ vInt by decide, show vArray ≠ vFloat by decide, show vArray ≠ vChar by decide,
        show vArray ≠ vTuple by decide, show vArray ≠ vAdt by decide, show vArray ≠ vPointer by decide,
        show vOnly ≠ vAll by decide, asPair] at h
      cases h1 : (valuesJson F vs).mapM (asValue F n) with
      | none => simp [h1] at h
      | some ws =>
        simp [h1] at h
        simp only [finiteIn, Bool.and_eq_true]
        exact ⟨values_finite F vs n (by simp [h1]), value_finite F l n (by simpa using h)⟩
  | .adt name v fs k, n, h => by
    cases n with
    | zero => simp [asValue] at h
    | succ n =>
      refine fields_finite F fs n ?_
      have h2 := asOpt_json (f := asText) (g := fun s => .str s.toList) asText_str (by simp) v
      have h3 := asOpt_json asKind_json kindJson_ne k
      simp [valueJson, asValue, show vAdt ≠ vBool by decide, show vAdt ≠ vUint by decide,
        show vAdt ≠ vInt by decide, show vAdt ≠ vFloat by decide, show vAdt ≠ vChar by decide,
        show vAdt ≠ vTuple by decide, prop_tail (k := fName) (k' := fVariant) (by decide),
        prop_tail (k := fName) (k' := fFields) (by decide), prop_tail (k := fVariant) (k' := fFields) (by decide),
        prop_tail (k := fName) (k' := fAllocKind) (by decide), prop_tail (k := fVariant) (k' := fAllocKind) (by decide),
        prop_tail (k := fFields) (k' := fAllocKind) (by decide), h2, h3] at h
      unfold asField
      cases h1 : (fieldsJson F fs).mapM fun x =>
        (asPair x).bind fun p => (asText p.1).bind fun k => (asValue F n p.2).map fun w => (k, w) with
      | none => simp [h1] at h
      | some _ => rfl
  | .pointer _ _ _, _, _ => rfl
  | .unallocated _, _, _ => rfl
theorem values_finite (F : Floats) : (vs : List MValue) → ∀ n, ((valuesJson F vs).mapM (asValue F n)).isSome = true → finiteAll vs = true
  | [], _, _ => rfl
  | v :: vs, n, h => by
    have := mapM_isSome_cons (by simpa only [valuesJson] using h)
    simp only [finiteAll, Bool.and_eq_true]
    exact ⟨value_finite F v n this.1, values_finite F vs n this.2⟩
theorem fields_finite (F : Floats) : (fs : List (String × MValue)) → ∀ n, ((fieldsJson F fs).mapM (asField F n)).isSome = true →
    finiteFields fs = true
  | [], _, _ => rfl
  | f :: fs, n, h => by
    have := mapM_isSome_cons (by simpa only [fieldsJson] using h)
    simp only [finiteFields, Bool.and_eq_true]
    exact ⟨field_finite F f n this.1, fields_finite F fs n this.2⟩
theorem field_finite (F : Floats) : (f : String × MValue) → ∀ n, (asField F n (fieldJson F f)).isSome = true → finiteField f = true
  | (k, v), n, h => by
    simp only [finiteField]
    refine value_finite F v n ?_
    simpa [asField, fieldJson, asPair] using h
end

theorem local_finite (F : Floats) (l : MLocal) (n : Nat) (h : (asLocal F n (localJson F l)).isSome = true) : finiteIn l.value = true := by
  refine value_finite F _ n ?_
  unfold asLocal localJson at h
  rw [prop_tail (k := fName) (k' := kValue) (by decide), prop_head] at h
  simp only [Option.bind_some] at h
  cases hv : asValue F n (valueJson F l.value) with
  | none => simp [hv] at h
  | some _ => rfl

theorem frame_finite (F : Floats) (f : WFrame) (n : Nat) (h : (asFrame F n (frameJson F f)).isSome = true) : finiteFrame f := by
  intro l hl
  refine local_finite F l n (mapM_isSome_mem (f := localJson F) ?_ hl)
  unfold asFrame frameJson at h
  simp (decide := true) only [prop_cons, ↓reduceIte, Option.bind_some, asArr_arr, asStr_str, asRange_json] at h
  cases hv : (f.locals.map (localJson F)).mapM (asLocal F n) with
  | none =>
    rw [hv] at h
    split at h
    · rename_i h4; cases h4
    · cases h
  | some _ => rfl

theorem step_finite (F : Floats) (s : WStep) (n : Nat) (h : (asStep F n (stepJson F s)).isSome = true) : finiteStep s := by
  unfold asStep stepJson at h
  rw [prop_head, prop_tail (k := fStack) (k' := fHeap) (by decide), prop_head] at h
  simp only [Option.bind_some, prop_head, asArr_arr] at h
  constructor
  · intro f hf
    refine frame_finite F f n (mapM_isSome_mem (f := frameJson F) ?_ hf)
    cases hv : (s.frames.map (frameJson F)).mapM (asFrame F n) with
    | none => rw [hv] at h; cases h
    | some _ => rfl
  · refine values_finite F _ n ?_
    cases hv : (valuesJson F s.heap).mapM (asValue F n) with
    | none =>
      rw [hv] at h
      split at h
      · rename_i h4; cases h4
      · cases h
    | some _ => rfl

theorem trace_finite (F : Floats) (t : WTrace) (n : Nat) (h : (asTrace F n (traceJson F t)).isSome = true) : finiteTrace t := by
  unfold asTrace traceJson at h
  rw [prop_head, prop_tail (k := fSteps) (k' := fResult) (by decide), prop_head] at h
  simp only [Option.bind_some, asArr_arr, asResult_json] at h
  intro s hs
  refine step_finite F s n (mapM_isSome_mem (f := stepJson F) ?_ hs)
  cases hv : (t.steps.map (stepJson F)).mapM (asStep F n) with
  | none => rw [hv] at h; cases h
  | some _ => rfl

theorem traceOf_json (F : Floats) (hF : F.Exact) (t : WTrace) (h : finiteTrace t) : traceOf F (traceJson F t) = some t :=
  trace_back F hF t h _ (size_write _ (valid_trace F hF t))

/-! ## The limit of nesting -/

theorem read_printed {j : Json} (h : Valid j) : read (printed j) = some j := by
  have := (read_write ((printed j).length + 1)).1 j ['\n'] (by simp [printed]; omega) h (ends_cons (by decide))
  unfold read printed
  unfold printed at this
  rw [this]
  rfl

theorem parse_printed {j : Json} (h : Valid j) : parse (printed j) = if depth j ≤ 127 then some j else none := by
  unfold parse
  rw [read_printed h]
  by_cases hd : depth j ≤ 127 <;> simp [Option.filter, hd]

theorem fdepths_le {fs : List (List Char × Json)} {n : Nat} : fdepths fs ≤ n ↔ ∀ f ∈ fs, depth f.2 ≤ n := by
  induction fs with
  | nil => simp [fdepths]
  | cons f fs ih =>
    obtain ⟨k, v⟩ := f
    simp only [fdepths, fdepth, List.forall_mem_cons, ← ih]; omega

theorem depths_le {xs : List Json} {n : Nat} : depths xs ≤ n ↔ ∀ x ∈ xs, depth x ≤ n := by
  induction xs with
  | nil => simp [depths]
  | cons x xs ih => simp only [depths, List.forall_mem_cons, ← ih]; omega

theorem parse_map {outs : List (List Char × Json)} (hv : ∀ x ∈ outs, Valid x.2) (hd : ∀ x ∈ outs, depth x.2 ≤ 127) :
    (outs.map fun x => (x.1, printed x.2)).mapM (fun x => (parse x.2).map fun j => (x.1, j)) = some outs := by
  induction outs with
  | nil => rfl
  | cons x l ih =>
    rw [List.map_cons, List.mapM_cons, ih (fun y hy => hv y (by simp [hy])) (fun y hy => hd y (by simp [hy])),
      parse_printed (hv x (by simp)), if_pos (hd x (by simp))]
    rfl

theorem parse_map_none {outs : List (List Char × Json)} (hv : ∀ x ∈ outs, Valid x.2) {x : List Char × Json} (hx : x ∈ outs)
    (hd : ¬ depth x.2 ≤ 127) :
    (outs.map fun x => (x.1, printed x.2)).mapM (fun x => (parse x.2).map fun j => (x.1, j)) = none := by
  induction outs with
  | nil => simp at hx
  | cons y l ih =>
    rw [List.map_cons, List.mapM_cons]
    rcases List.mem_cons.1 hx with rfl | hx
    · rw [parse_printed (hv x (by simp)), if_neg hd]; rfl
    · rw [ih (fun y hy => hv y (by simp [hy])) hx]
      cases (parse (printed y.2)).map fun j => (y.1, j) <;> rfl

/-- **C116.** The answers come through the book builder unchanged if none is nested more than 126 deep; otherwise there are
none, and the build fails. -/
theorem C116_book {outs : List (List Char × Json)} (hv : ∀ x ∈ outs, Valid x.2) :
    bookResponses (outs.map fun x => (x.1, printed x.2)) = if ∀ x ∈ outs, depth x.2 ≤ 126 then some outs else none := by
  unfold bookResponses
  by_cases hd : ∀ x ∈ outs, depth x.2 ≤ 127
  · rw [parse_map hv hd, Option.bind_some]
    have hr := C115_cached hv
    unfold parse
    rw [hr]
    have : depth (.obj outs) ≤ 127 ↔ ∀ x ∈ outs, depth x.2 ≤ 126 := by
      rw [← fdepths_le]; simp only [depth]; omega
    by_cases h : ∀ x ∈ outs, depth x.2 ≤ 126
    · rw [if_pos h]; simp [Option.filter, this.2 h, asObj]
    · have h' : ¬ depth (.obj outs) ≤ 127 := fun e => h (this.1 e)
      rw [if_neg h]; simp [Option.filter, h']
  · rw [if_neg fun h => hd fun x hx => by have := h x hx; omega]
    obtain ⟨x, hx, hd⟩ : ∃ x ∈ outs, ¬ depth x.2 ≤ 127 := Classical.byContradiction fun h => hd fun x hx =>
      Classical.byContradiction fun h' => h ⟨x, hx, h'⟩
    rw [parse_map_none hv hx hd]
    rfl

/-! ## Traces -/

/-- **C116** (partial: finite floats). A trace whose floats are finite is read back from its text as it was: every step, frame, local, value, path and
position, and the result. -/
theorem C116_trace_partial (F : Floats) (hF : F.Exact) (t : WTrace) (h : finiteTrace t) : readTrace F (write (traceJson F t)) = some t := by
  unfold readTrace
  rw [read_write_eq (valid_trace F hF t), Option.bind_some, traceOf_json F hF t h]

/-- **C116.** Different traces have different texts. -/
theorem C116_trace_injective (F : Floats) (hF : F.Exact) {t t' : WTrace} (h : finiteTrace t) (h' : finiteTrace t')
    (e : write (traceJson F t) = write (traceJson F t')) : t = t' := by
  have h1 := C116_trace_partial F hF t h
  rw [e, C116_trace_partial F hF t' h'] at h1
  exact (Option.some.inj h1).symm

/-- **C116.** With a float that is not finite the text is not that of any trace. -/
theorem C116_not_finite (F : Floats) (hF : F.Exact) (t : WTrace) (h : ¬ finiteTrace t) : readTrace F (write (traceJson F t)) = none := by
  unfold readTrace
  rw [read_write_eq (valid_trace F hF t), Option.bind_some]
  cases he : traceOf F (traceJson F t) with
  | none => rfl
  | some u => exact absurd (trace_finite F t _ (by unfold traceOf at he; rw [he]; rfl)) h

/-! ## Results of the analysis -/

/-- **C116.** A result of the analysis is read back from its text: the boundaries and the steps in their order, the points and
the regions in the order of their keys. -/
theorem C116_output (o : WOutput) : ∃ o', (read (write (outputJson o))).bind asOutput = some o' ∧ o'.body = o.body ∧
    o'.boundaries = o.boundaries ∧ o'.steps = o.steps ∧ o'.loanPoints.Perm o.loanPoints ∧ o'.loanRegions.Perm o.loanRegions ∧
    o'.movePoints.Perm o.movePoints ∧ o'.moveRegions.Perm o.moveRegions ∧
    (o'.loanRegions.Pairwise fun a b => a.1 ≤ b.1) ∧ o'.moveRegions.Pairwise fun a b => a.1 ≤ b.1 := by
  refine ⟨o.sorted, ?_, rfl, rfl, rfl, sortKeys_perm _, sortKeys_perm _, sortKeys_perm _, sortKeys_perm _, sortKeys_sorted _,
    sortKeys_sorted _⟩
  rw [read_write_eq (valid_output o), Option.bind_some, asOutput_json]

/-- **C116.** The order in which the hash maps were written, which is not the same in two runs, makes no difference. -/
theorem C116_order (o : WOutput) (lp mp : List (Nat × Range)) (lr mr : List (Nat × WRegion))
    (h1 : (o.loanPoints.map (·.1)).Nodup) (h2 : (o.loanRegions.map (·.1)).Nodup) (h3 : (o.movePoints.map (·.1)).Nodup)
    (h4 : (o.moveRegions.map (·.1)).Nodup) (p1 : o.loanPoints.Perm lp) (p2 : o.loanRegions.Perm lr) (p3 : o.movePoints.Perm mp)
    (p4 : o.moveRegions.Perm mr) :
    (read (write (outputJson { o with loanPoints := lp, loanRegions := lr, movePoints := mp, moveRegions := mr }))).bind asOutput
      = (read (write (outputJson o))).bind asOutput := by
  rw [read_write_eq (valid_output _), read_write_eq (valid_output _), Option.bind_some, Option.bind_some, asOutput_json, asOutput_json]
  simp only [WOutput.sorted, sortKeys_unique h1 p1, sortKeys_unique h2 p2, sortKeys_unique h3 p3, sortKeys_unique h4 p4]

/-- The good ones among results. -/
def goods {α : Type} (rs : List (Except WError α)) : List α := rs.filterMap fun r => match r with | .ok x => some x | .error _ => none

/-- The errors among results. -/
def errors {α : Type} (rs : List (Except WError α)) : List WError := rs.filterMap fun r => match r with | .ok _ => none | .error e => some e

/-- **C116.** Of the results of all bodies the page takes the good ones, in their order, and the errors, in their order, and
can read all of them. -/
theorem C116_results (rs : List (Except WError WOutput)) : ∃ js good bad, read (write (outputsJson rs)) = some (.arr js) ∧
    splitResults js = some (good, bad) ∧ good.mapM asOutput = some ((goods rs).map WOutput.sorted) ∧
    bad.mapM (fun j => j.bind asError) = some (errors rs) := by
  have key : ∀ rs : List (Except WError WOutput), ∃ good bad, splitResults (rs.map (resJson outputJson)) = some (good, bad) ∧
      good.mapM asOutput = some ((goods rs).map WOutput.sorted) ∧ bad.mapM (fun j => j.bind asError) = some (errors rs) := by
    intro rs
    induction rs with
    | nil => exact ⟨[], [], rfl, rfl, rfl⟩
    | cons r rs ih =>
      obtain ⟨good, bad, h1, h2, h3⟩ := ih
      cases r with
      | ok o =>
        refine ⟨outputJson o :: good, bad, ?_, ?_, ?_⟩
        · rw [List.map_cons, splitResults, h1]
          have : okIn (resJson outputJson (.ok o)) = some (some (outputJson o)) := by simp [okIn, resJson, List.lookup]
          rw [this]
        · rw [List.mapM_cons, h2, asOutput_json]; rfl
        · exact h3
      | error e =>
        refine ⟨good, some (errorJson e) :: bad, ?_, h2, ?_⟩
        · rw [List.map_cons, splitResults, h1]
          have : okIn (resJson outputJson (.error e)) = some none := by
            simp [okIn, resJson, List.lookup, show (kOk == kErr) = false by decide]
          rw [this]
          simp [resJson, Json.get, List.lookup]
        · rw [List.mapM_cons, h3, Option.bind_some, asError_json]; rfl
  obtain ⟨good, bad, h⟩ := key rs
  exact ⟨_, good, bad, read_write_eq (valid_outputs rs), h⟩

/-! ## Through the book -/

/-- **C116.** What the page finds in the element of a block is what the analyser printed for the block, for every operation. -/
theorem C116_page {b : Block} {r : Responses} {e : Entries} (hr : Represents e b r) {outs : List (List Char × Json)}
    (hv : ∀ x ∈ outs, Valid x.2) (hb : bookResponses (outs.map fun x => (x.1, printed x.2)) = some e.responses)
    {attrs : List (List Char × List Char)} (ha : attrs.Perm (blockAttrs b e)) :
    ∃ h, (readElement (writeElement attrs)).bind readPage = some (h, true) ∧ ∀ op j, (op, j) ∈ outs → h.responses op = some j := by
  have ho : outs = e.responses := by
    rw [C116_book hv] at hb
    split at hb
    · exact Option.some.inj hb
    · cases hb
  obtain ⟨h, h1, h2, -⟩ := C115_round_trip hr (fun op j hj => hv (op, j) (ho ▸ (hr.responses.2 op j).2 hj)) ha
  refine ⟨h, h1, fun op j hj => ?_⟩
  rw [h2]
  exact (hr.responses.2 op j).1 (ho ▸ hj)

/-- **C116** (partial: finite floats, not too deep). So the page draws the trace that the interpreter made. -/
theorem C116_page_trace_partial (F : Floats) (hF : F.Exact) {b : Block} {r : Responses} {e : Entries} (hr : Represents e b r)
    {outs : List (List Char × Json)} (hv : ∀ x ∈ outs, Valid x.2)
    (hb : bookResponses (outs.map fun x => (x.1, printed x.2)) = some e.responses) {attrs : List (List Char × List Char)}
    (ha : attrs.Perm (blockAttrs b e)) {t : WTrace} (ht : finiteTrace t)
    (hm : (opInterpreter, resJson (traceJson F) (.ok t)) ∈ outs) :
    ∃ h j j', (readElement (writeElement attrs)).bind readPage = some (h, true) ∧ h.responses opInterpreter = some j ∧
      okIn j = some (some j') ∧ traceOf F j' = some t := by
  obtain ⟨h, h1, h2⟩ := C116_page hr hv hb ha
  exact ⟨h, _, traceJson F t, h1, h2 _ _ hm, by simp [okIn, resJson, List.lookup], traceOf_json F hF t ht⟩

/-- **C116.** And the results of the analysis. -/
theorem C116_page_results {b : Block} {r : Responses} {e : Entries} (hr : Represents e b r)
    {outs : List (List Char × Json)} (hv : ∀ x ∈ outs, Valid x.2)
    (hb : bookResponses (outs.map fun x => (x.1, printed x.2)) = some e.responses) {attrs : List (List Char × List Char)}
    (ha : attrs.Perm (blockAttrs b e)) {rs : List (Except WError WOutput)} (hm : (opPermissions, outputsJson rs) ∈ outs) :
    ∃ h js good bad, (readElement (writeElement attrs)).bind readPage = some (h, true) ∧ h.responses opPermissions = some (.arr js) ∧
      splitResults js = some (good, bad) ∧ good.mapM asOutput = some ((goods rs).map WOutput.sorted) ∧
      bad.mapM (fun j => j.bind asError) = some (errors rs) := by
  obtain ⟨h, h1, h2⟩ := C116_page hr hv hb ha
  obtain ⟨js, good, bad, h3, h4⟩ := C116_results rs
  rw [read_write_eq (valid_outputs rs), Option.some.injEq] at h3
  exact ⟨h, js, good, bad, h1, by rw [h2 _ _ hm, h3], h4⟩

/-! ## How deep the answers are -/

theorem depth_obj {fs : List (List Char × Json)} {n : Nat} (h : ∀ f ∈ fs, depth f.2 ≤ n) : depth (.obj fs) ≤ n + 1 := by
  have := fdepths_le.2 h; simp only [depth]; omega

theorem depth_arr {xs : List Json} {n : Nat} (h : ∀ x ∈ xs, depth x ≤ n) : depth (.arr xs) ≤ n + 1 := by
  have := depths_le.2 h; simp only [depth]; omega

theorem depth_nat (n : Nat) : depth (natJson n) = 0 := by simp [natJson, depth]

theorem depth_range (r : Range) : depth (rangeJson r) = 2 := by
  simp [rangeJson, posJson, depth, fdepths, fdepth, depth_nat]

theorem depth_perms (p : Perms) : depth (permsJson p) = 1 := by simp [permsJson, depth, fdepths, fdepth]

theorem depth_optField {α : Type} {k : List Char} {f : α → Json} {n : Nat} (h : ∀ x, depth (f x) ≤ n) (o : Option α) :
    ∀ x ∈ optField k f o, depth x.2 ≤ n := by
  cases o with
  | none => simp [optField]
  | some x => simpa [optField] using h x

theorem depth_data (d : Permissions.Data) : depth (dataJson d) ≤ 1 := by
  refine depth_obj fun f hf => ?_
  have hn : ∀ n, depth (natJson n) ≤ 0 := fun n => by rw [depth_nat]; omega
  simp only [List.mem_append] at hf
  rcases hf with (((hf | hf) | hf) | hf) | hf
  · simp only [List.mem_cons, List.not_mem_nil, or_false] at hf
    rcases hf with rfl | rfl | rfl | rfl | rfl <;> simp [depth]
  all_goals exact depth_optField hn _ f hf

theorem depth_boundary (b : WBoundary) : depth (boundaryJson b) ≤ 4 := by
  refine depth_obj fun f hf => ?_
  rcases List.mem_append.1 hf with hf | hf
  · have := depth_data b.data
    simp only [List.mem_cons, List.not_mem_nil, or_false] at hf
    rcases hf with rfl | rfl | rfl | rfl
    · simp [posJson, depth, fdepths, fdepth, depth_nat]
    · simp [depth_perms]
    · simp [depth_perms]
    · dsimp only; omega
  · refine depth_optField (fun w => ?_) _ f hf
    have : depth (flowKindJson w.kind) = 0 := by cases w.kind <;> rfl
    simp [flowJson, depth, fdepths, fdepth, depth_range, this]

theorem depth_valueStep {α : Type} {f : α → Json} (h : ∀ x, depth (f x) = 0) (s : Steps.Step α) : depth (valueStepJson f s) ≤ 1 := by
  cases s with
  | high v => simp [valueStepJson, tagged, depth, fdepths, fdepth, h]
  | low => simp [valueStepJson, tagOnly, depth, fdepths, fdepth]
  | none v => cases v <;> simp [valueStepJson, optField, depth, fdepths, fdepth, h]

theorem depth_bool (b : Bool) : depth (.bool b) = 0 := by simp [depth]

theorem depth_diff (d : Steps.DataDiff) : depth (diffJson d) ≤ 3 := by
  have hb := fun s => depth_valueStep depth_bool s
  have hn := fun s => depth_valueStep depth_nat s
  have hp : depth (permsDiffJson d.permissions) ≤ 2 := by
    refine depth_obj fun f hf => ?_
    simp only [List.mem_cons, List.not_mem_nil, or_false] at hf
    rcases hf with rfl | rfl | rfl <;> exact hb _
  refine depth_obj fun f hf => ?_
  simp only [List.mem_cons, List.not_mem_nil, or_false] at hf
  rcases hf with rfl | rfl | rfl | rfl | rfl | rfl | rfl | rfl | rfl
  all_goals first | exact hp | exact Nat.le_succ_of_le (hb _) | exact Nat.le_succ_of_le (hn _)

theorem depth_line (l : WLine) : depth (lineJson l) ≤ 8 := by
  refine depth_obj fun f hf => ?_
  simp only [List.mem_cons, List.not_mem_nil, or_false] at hf
  rcases hf with rfl | rfl
  · simp [depth_range]
  · refine depth_arr fun x hx => ?_
    obtain ⟨t, -, rfl⟩ := List.mem_map.1 hx
    refine depth_obj fun f hf => ?_
    simp only [List.mem_cons, List.not_mem_nil, or_false] at hf
    rcases hf with rfl | rfl | rfl
    · simp [depth_range]
    · simp [depth_range]
    · refine depth_arr fun x hx => ?_
      obtain ⟨w, -, rfl⟩ := List.mem_map.1 hx
      have := depth_diff w.2
      simp only [rowJson, depth, depths]; omega

theorem depth_map {α : Type} {f : α → Json} {n : Nat} (h : ∀ x, depth (f x) ≤ n) (m : List (Nat × α)) : depth (mapJson f m) ≤ n + 1 :=
  depth_obj fun x hx => by obtain ⟨e, -, rfl⟩ := List.mem_map.1 hx; exact h e.2

theorem depth_region (r : WRegion) : depth (regionJson r) ≤ 4 := by
  refine depth_obj fun f hf => ?_
  simp only [List.mem_cons, List.not_mem_nil, or_false] at hf
  rcases hf with rfl | rfl
  · cases r.refiner <;> simp [refinerJson, depth, fdepths, fdepth, depth_nat]
  · refine depth_arr fun x hx => ?_
    obtain ⟨t, -, rfl⟩ := List.mem_map.1 hx
    simp [depth_range]

theorem depth_error (e : WError) : depth (errorJson e) ≤ 3 := by
  cases e with
  | build r => cases r <;> simp [errorJson, optJson, depth, fdepths, fdepth, depth_range]
  | analysis m => simp [errorJson, depth, fdepths, fdepth]

/-- **C116.** The results of the analysis are never too deep for the book builder. -/
theorem C116_depth (rs : List (Except WError WOutput)) : depth (outputsJson rs) ≤ 12 := by
  refine depth_arr fun x hx => ?_
  obtain ⟨r, -, rfl⟩ := List.mem_map.1 hx
  cases r with
  | error e => have := depth_error e; simp only [resJson, depth, fdepths, fdepth]; omega
  | ok o =>
    refine depth_obj fun f hf => ?_
    simp only [List.mem_cons, List.not_mem_nil, or_false] at hf
    subst hf
    have hr : ∀ r, depth (rangeJson r) ≤ 2 := fun r => by rw [depth_range]; omega
    refine depth_obj fun f hf => ?_
    simp only [List.mem_cons, List.not_mem_nil, or_false] at hf
    rcases hf with rfl | rfl | rfl | rfl | rfl | rfl | rfl
    · simp [depth_range]
    · refine depth_arr fun x hx => ?_
      obtain ⟨b, -, rfl⟩ := List.mem_map.1 hx
      have := depth_boundary b; omega
    · refine depth_arr fun x hx => ?_
      obtain ⟨b, -, rfl⟩ := List.mem_map.1 hx
      exact depth_line b
    · have := depth_map hr o.loanPoints; dsimp only; omega
    · have := depth_map depth_region o.loanRegions; dsimp only; omega
    · have := depth_map hr o.movePoints; dsimp only; omega
    · have := depth_map depth_region o.moveRegions; dsimp only; omega

/-- A tuple in a tuple, and so on. -/
def nest : Nat → MValue
  | 0 => .prim (.bool true)
  | n + 1 => .tuple [nest n]

/-- A program with such a variable. -/
def deepTrace (n : Nat) : WTrace :=
  { steps := [{ frames := [{ name := ['m', 'a', 'i', 'n'], body := ⟨⟨0, 0⟩, ⟨2, 1⟩⟩, location := ⟨⟨1, 2⟩, ⟨1, 8⟩⟩,
                             locals := [{ name := "x", value := nest n, movedPaths := [] }] }], heap := [] }],
    result := .success }

theorem depth_nest (F : Floats) (n : Nat) : depth (valueJson F (nest n)) = 2 * n + 1 := by
  induction n with
  | zero => simp [nest, valueJson, primJson, tagged, depth, fdepths, fdepth]
  | succ n ih => simp [nest, valueJson, valuesJson, tagged, depth, depths, fdepths, fdepth, ih]; omega

/-- **C116 fails** for deep values: a variable with 59 tuples one inside the other is traced, but the book builder cannot
read the trace. -/
theorem C116_deep (F : Floats) (hF : F.Exact) (n : Nat) :
    bookResponses [(opInterpreter, printed (resJson (traceJson F) (.ok (deepTrace n))))] = none ↔ 59 ≤ n := by
  have hd : depth (resJson (traceJson F) (.ok (deepTrace n))) = 2 * n + 10 := by
    simp only [resJson, deepTrace, traceJson, stepJson, frameJson, localJson, resultJson, tagOnly, List.map_cons, List.map_nil, depth,
      depths, fdepths, fdepth, depth_nest, depth_range, valuesJson]
    omega
  have := C116_book (outs := [(opInterpreter, resJson (traceJson F) (.ok (deepTrace n)))])
    (by simpa using valid_res (valid_trace F hF) (.ok (deepTrace n)))
  simp only [List.map_cons, List.map_nil] at this
  rw [this]
  by_cases h : 59 ≤ n
  · simp only [List.forall_mem_singleton, hd, h, iff_true]
    rw [if_neg (by omega)]
  · simp only [List.forall_mem_singleton, hd, h, iff_false]
    rw [if_pos (by omega)]
    simp

end Verif.Wire
