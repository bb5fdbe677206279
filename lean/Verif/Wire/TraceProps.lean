import Verif.Wire.Trace
import Verif.Wire.PageProps
/-!
# Reading back a trace
-/
namespace Verif.Wire
open Verif.Preproc (Json)
open Verif.Value (MValue MSeg MKind PSeg Prim)
open Verif.Trace.Locals (MLocal)
open Verif.Frontend (Pos)

/-! ## Sizes -/

mutual
def jsize : Json → Nat
  | .null => 1
  | .bool _ => 1
  | .num _ => 1
  | .str _ => 1
  | .arr xs => 1 + jsizes xs
  | .obj fs => 1 + fsizes fs
def jsizes : List Json → Nat
  | [] => 0
  | x :: xs => jsize x + jsizes xs
def fsizes : List (List Char × Json) → Nat
  | [] => 0
  | f :: fs => fsize f + fsizes fs
def fsize : List Char × Json → Nat
  | (_, v) => jsize v
end

mutual
theorem size_write : (j : Json) → Valid j → jsize j ≤ (write j).length
  | .null, _ => by simp [jsize, write]
  | .bool true, _ => by simp [jsize, write]
  | .bool false, _ => by simp [jsize, write]
  | .num s, h => by
    cases h with
    | num h =>
      obtain ⟨-, c, r, e, -⟩ := number_num h
      simp [jsize, write, e]
  | .str s, _ => by simp [jsize, write, writeStr]
  | .arr [], _ => by simp [jsize, jsizes, write, writeFirst]
  | .arr (x :: xs), h => by
    cases h with
    | arr h =>
      have h1 := size_write x (h x (by simp))
      have h2 := size_items xs fun y hy => h y (by simp [hy])
      simp only [jsize, jsizes, write, writeFirst, List.length_cons, List.length_append]; omega
  | .obj [], _ => by simp [jsize, fsizes, write, writeFirstField]
  | .obj (f :: fs), h => by
    cases h with
    | obj h =>
      have h1 := size_field f (h f (by simp))
      have h2 := size_fields fs fun y hy => h y (by simp [hy])
      simp only [jsize, fsizes, write, writeFirstField, List.length_cons, List.length_append]; omega
theorem size_items : (xs : List Json) → (∀ x ∈ xs, Valid x) → jsizes xs ≤ (writeItems xs).length
  | [], _ => by simp [jsizes]
  | x :: xs, h => by
    have h1 := size_write x (h x (by simp))
    have h2 := size_items xs fun y hy => h y (by simp [hy])
    simp only [jsizes, writeItems, List.length_cons, List.length_append]; omega
theorem size_fields : (fs : List (List Char × Json)) → (∀ f ∈ fs, Valid f.2) → fsizes fs ≤ (writeFields fs).length
  | [], _ => by simp [fsizes]
  | f :: fs, h => by
    have h1 := size_field f (h f (by simp))
    have h2 := size_fields fs fun y hy => h y (by simp [hy])
    simp only [fsizes, writeFields, List.length_cons, List.length_append]; omega
theorem size_field : (f : List Char × Json) → Valid f.2 → fsize f ≤ (writeField f).length
  | (k, v), h => by
    have := size_write v h
    simp only [fsize, writeField, List.length_append, List.length_cons]; omega
end

/-! ## Properties of objects -/

@[simp] theorem prop_head (k : List Char) (v : Json) (fs : List (List Char × Json)) : prop (.obj ((k, v) :: fs)) k = some v := by
  simp [prop, asObj, List.lookup]

theorem prop_tail {k k' : List Char} (h : k ≠ k') (v : Json) (fs : List (List Char × Json)) :
    prop (.obj ((k, v) :: fs)) k' = prop (.obj fs) k' := by
  have : (k' == k) = false := by simpa using fun e => h e.symm
  simp [prop, asObj, List.lookup, this]

@[simp] theorem tag_tagged (t : List Char) (v : Json) : tagOf (tagged t v) = some t := by simp [tagOf, tagged, asStr]
@[simp] theorem value_tagged (t : List Char) (v : Json) : prop (tagged t v) kValue = some v := by
  simp [tagged, prop_tail (k := kType) (k' := kValue) (by decide)]
@[simp] theorem tag_only (t : List Char) : tagOf (tagOnly t) = some t := by simp [tagOf, tagOnly, asStr]

theorem size_tagged (t : List Char) (v : Json) : jsize (tagged t v) = jsize v + 2 := by
  simp [tagged, jsize, fsizes, fsize]; omega

/-! ## Parts -/

@[simp] theorem asNat_nat (n : Nat) : asNat (natJson n) = some n := asNat_natJson n
@[simp] theorem asText_str (s : String) : asText (.str s.toList) = some s := by simp [asText, asStr]
@[simp] theorem asStr_str (s : List Char) : asStr (.str s) = some s := rfl
@[simp] theorem asArr_arr (l : List Json) : asArr (.arr l) = some l := rfl

theorem asInt_json (i : Int) : asInt (intJson i) = some i := by
  unfold intJson
  split
  · rename_i h
    have := asNat_natJson i.natAbs
    simp only [natJson] at this
    simp only [asInt, this]
    show some _ = some _
    rw [Option.some.injEq]
    dsimp only
    omega
  · rename_i h
    have hn := asNat_natJson i.natAbs
    simp only [natJson] at hn
    unfold asInt
    split
    · rename_i s hs
      injection hs with hs
      have := digits_all i.natAbs
      rw [hs] at this
      exact absurd this (by simp [show Char.isDigit '-' = false by decide])
    · simp only [hn]
      show some _ = some _
      rw [Option.some.injEq]
      dsimp only
      omega

theorem asOpt_json {α : Type} {f : Json → Option α} {g : α → Json} (h : ∀ x, f (g x) = some x) (hn : ∀ x, g x ≠ .null)
    (o : Option α) : asOpt f (optJson g o) = some o := by
  cases o with
  | none => rfl
  | some x =>
    have := hn x
    simp only [optJson]
    unfold asOpt
    split
    · exact absurd ‹_› this
    · simp [h]

theorem asSeg_json (s : MSeg) : asSeg (segJson s) = some s := by
  cases s with
  | stack f l =>
    simp [asSeg, segJson, show vStack ≠ vHeap by decide, prop_tail (k := fFrame) (k' := fLocal) (by decide)]
  | heap i => simp [asSeg, segJson]

theorem asPart_json (p : PSeg) : asPart (partJson p) = some p := by
  cases p with
  | field i => simp [asPart, partJson, show vField ≠ vIndex by decide]
  | index i => simp [asPart, partJson]
  | subslice lo hi =>
    have := nats_arr [lo, hi]
    simp only [List.map_cons, List.map_nil] at this
    simp [asPart, partJson, show vSubslice ≠ vIndex by decide, show vSubslice ≠ vField by decide, this]

theorem asParts_json (l : List PSeg) : (l.map partJson).mapM asPart = some l := by
  rw [mapM_map partJson asPart id asPart_json]; simp

theorem asParts_comp (l : List PSeg) : l.mapM (asPart ∘ partJson) = some l := by
  rw [← asParts_json l, List.mapM_map]

theorem asKind_json (k : MKind) : asKind (kindJson k) = some k := by
  cases k with
  | string n => simp [asKind, kindJson]
  | vec n => simp [asKind, kindJson, show vVec ≠ vString by decide]
  | box => simp [asKind, kindJson, show vBox ≠ vString by decide, show vBox ≠ vVec by decide]

theorem natJson_ne (n : Nat) : natJson n ≠ .null := by simp [natJson]
theorem kindJson_ne (k : MKind) : kindJson k ≠ .null := by cases k <;> simp [kindJson, tagged, tagOnly]

/-! ## Values -/

/-- What is asked of the texts of floats: they are numbers of JSON, and reading gives the float back. -/
structure Floats.Exact (F : Floats) : Prop where
  number : ∀ bits, Frontend.finite bits = true → isNumber (F.text bits) = true
  back : ∀ bits, Frontend.finite bits = true → F.back (F.text bits) = some bits

mutual
/-- All floats in a value are finite. -/
def finiteIn : MValue → Bool
  | .prim (.float bits) => Frontend.finite bits
  | .prim _ => true
  | .tuple vs => finiteAll vs
  | .all vs => finiteAll vs
  | .only vs l => finiteAll vs && finiteIn l
  | .adt _ _ fs _ => finiteFields fs
  | .pointer _ _ _ => true
  | .unallocated _ => true
def finiteAll : List MValue → Bool
  | [] => true
  | v :: vs => finiteIn v && finiteAll vs
def finiteFields : List (String × MValue) → Bool
  | [] => true
  | f :: fs => finiteField f && finiteFields fs
def finiteField : String × MValue → Bool
  | (_, v) => finiteIn v
end

/-- Reading of one field. -/
def asField (F : Floats) (n : Nat) (x : Json) : Option (String × MValue) :=
  (asPair x).bind fun p => (asText p.1).bind fun k => (asValue F n p.2).map fun w => (k, w)

theorem tags_ne : [vBool, vUint, vInt, vFloat, vChar, vTuple, vAdt, vPointer, vArray, vUnallocated].Nodup := by decide

mutual
theorem value_back (F : Floats) (hF : F.Exact) : (v : MValue) → finiteIn v = true → ∀ n, jsize (valueJson F v) ≤ n →
    asValue F n (valueJson F v) = some v
  | .prim p, h, n, hn => by
    obtain ⟨n, rfl⟩ : ∃ k, n = k + 1 := ⟨n - 1, by cases p <;> (simp only [valueJson, primJson, size_tagged] at hn; omega)⟩
    cases p with
    | bool b => simp [valueJson, primJson, asValue, asBool]
    | char c => simp [valueJson, primJson, asValue, show vChar ≠ vBool by decide, show vChar ≠ vUint by decide,
        show vChar ≠ vInt by decide, show vChar ≠ vFloat by decide]
    | uint m => simp [valueJson, primJson, asValue, show vUint ≠ vBool by decide]
    | int i => simp [valueJson, primJson, asValue, show vInt ≠ vBool by decide, show vInt ≠ vUint by decide, asInt_json]
    | float bits =>
      simp only [finiteIn] at h
      simp [valueJson, primJson, asValue, show vFloat ≠ vBool by decide, show vFloat ≠ vUint by decide,
        show vFloat ≠ vInt by decide, h, asFloat, hF.back bits h]
  | .tuple vs, h, n, hn => by
    simp only [valueJson, size_tagged, jsize] at hn
    obtain ⟨n, rfl⟩ : ∃ k, n = k + 1 := ⟨n - 1, by omega⟩
    have := values_back F hF vs (by simpa [finiteIn] using h) n (by omega)
    simp [valueJson, asValue, show vTuple ≠ vBool by decide, show vTuple ≠ vUint by decide,
        show vTuple ≠ vInt by decide, show vTuple ≠ vFloat by decide, show vTuple ≠ vChar by decide, this]
  | .all vs, h, n, hn => by
    simp only [valueJson, size_tagged, jsize] at hn
    obtain ⟨n, rfl⟩ : ∃ k, n = k + 1 := ⟨n - 1, by omega⟩
    have := values_back F hF vs (by simpa [finiteIn] using h) n (by omega)
    simp [valueJson, asValue, show vArray ≠ vBool by decide, show vArray ≠ vUint by decide,
        show vArray ≠ vInt by decide, show vArray ≠ vFloat by decide, show vArray ≠ vChar by decide,
        show vArray ≠ vTuple by decide, show vArray ≠ vAdt by decide, show vArray ≠ vPointer by decide, this]
  | .only vs l, h, n, hn => by
    simp only [valueJson, size_tagged, jsize, jsizes] at hn
    obtain ⟨n, rfl⟩ : ∃ k, n = k + 1 := ⟨n - 1, by omega⟩
    simp only [finiteIn, Bool.and_eq_true] at h
    have h1 := values_back F hF vs h.1 n (by omega)
    have h2 := value_back F hF l h.2 n (by omega)
    simp [valueJson, asValue, show vArray ≠ vBool by decide, show vArray ≠ vUint by decide,
        show vArray ≠ vInt by decide, show vArray ≠ vFloat by decide, show vArray ≠ vChar by decide,
        show vArray ≠ vTuple by decide, show vArray ≠ vAdt by decide, show vArray ≠ vPointer by decide,
        show vOnly ≠ vAll by decide, asPair, h1, h2]
  | .adt name v fs k, h, n, hn => by
    simp only [valueJson, size_tagged, jsize, fsizes, fsize] at hn
    obtain ⟨n, rfl⟩ : ∃ k, n = k + 1 := ⟨n - 1, by omega⟩
    have h1 := fields_back F hF fs (by simpa [finiteIn] using h) n (by omega)
    have h2 := asOpt_json (f := asText) (g := fun s => .str s.toList) asText_str (by simp) v
    have h3 := asOpt_json asKind_json kindJson_ne k
    unfold asField at h1
    simp [valueJson, asValue, show vAdt ≠ vBool by decide, show vAdt ≠ vUint by decide,
        show vAdt ≠ vInt by decide, show vAdt ≠ vFloat by decide, show vAdt ≠ vChar by decide,
        show vAdt ≠ vTuple by decide, prop_tail (k := fName) (k' := fVariant) (by decide),
        prop_tail (k := fName) (k' := fFields) (by decide), prop_tail (k := fVariant) (k' := fFields) (by decide),
        prop_tail (k := fName) (k' := fAllocKind) (by decide), prop_tail (k := fVariant) (k' := fAllocKind) (by decide),
        prop_tail (k := fFields) (k' := fAllocKind) (by decide), h1, h2, h3]
  | .pointer s ps r, _, n, hn => by
    simp only [valueJson, size_tagged, jsize, fsizes, fsize] at hn
    obtain ⟨n, rfl⟩ : ∃ k, n = k + 1 := ⟨n - 1, by omega⟩
    have h3 := asOpt_json (f := asNat) asNat_natJson natJson_ne r
    simp [valueJson, asValue, show vPointer ≠ vBool by decide, show vPointer ≠ vUint by decide,
        show vPointer ≠ vInt by decide, show vPointer ≠ vFloat by decide, show vPointer ≠ vChar by decide,
        show vPointer ≠ vTuple by decide, show vPointer ≠ vAdt by decide,
        prop_tail (k := fPath) (k' := fRange) (by decide), prop_tail (k := fSegment) (k' := fParts) (by decide),
        asSeg_json, asParts_comp, h3]
  | .unallocated id, _, n, hn => by
    simp only [valueJson, size_tagged, jsize, fsizes, fsize] at hn
    obtain ⟨n, rfl⟩ : ∃ k, n = k + 1 := ⟨n - 1, by omega⟩
    have h3 := asOpt_json (f := asNat) asNat_natJson natJson_ne id
    simp [valueJson, asValue, show vUnallocated ≠ vBool by decide, show vUnallocated ≠ vUint by decide,
        show vUnallocated ≠ vInt by decide, show vUnallocated ≠ vFloat by decide, show vUnallocated ≠ vChar by decide,
        show vUnallocated ≠ vTuple by decide, show vUnallocated ≠ vAdt by decide, show vUnallocated ≠ vPointer by decide,
        show vUnallocated ≠ vArray by decide, h3]
theorem values_back (F : Floats) (hF : F.Exact) : (vs : List MValue) → finiteAll vs = true → ∀ n, jsizes (valuesJson F vs) ≤ n →
    (valuesJson F vs).mapM (asValue F n) = some vs
  | [], _, _, _ => rfl
  | v :: vs, h, n, hn => by
    simp only [finiteAll, Bool.and_eq_true] at h
    simp only [valuesJson, jsizes] at hn
    have h1 := value_back F hF v h.1 n (by omega)
    have h2 := values_back F hF vs h.2 n (by omega)
    simp [valuesJson, List.mapM_cons, h1, h2]
theorem fields_back (F : Floats) (hF : F.Exact) : (fs : List (String × MValue)) → finiteFields fs = true →
    ∀ n, jsizes (fieldsJson F fs) ≤ n → (fieldsJson F fs).mapM (asField F n) = some fs
  | [], _, _, _ => rfl
  | f :: fs, h, n, hn => by
    simp only [finiteFields, Bool.and_eq_true] at h
    simp only [fieldsJson, jsizes] at hn
    have h1 := field_back F hF f h.1 n (by omega)
    have h2 := fields_back F hF fs h.2 n (by omega)
    simp [fieldsJson, List.mapM_cons, h1, h2]
theorem field_back (F : Floats) (hF : F.Exact) : (f : String × MValue) → finiteField f = true →
    ∀ n, jsize (fieldJson F f) ≤ n → asField F n (fieldJson F f) = some f
  | (k, v), h, n, hn => by
    simp only [finiteField] at h
    simp only [fieldJson, jsize, jsizes] at hn
    have h1 := value_back F hF v h n (by omega)
    simp [fieldJson, asField, asPair, h1]
end

/-! ## The rest of a trace -/

theorem asPos_json (p : Pos) : asPos (posJson p) = some p := by
  simp [asPos, posJson, prop_tail (k := fLine) (k' := fColumn) (by decide)]

theorem asRange_json (r : Range) : asRange (rangeJson r) = some r := by
  simp [asRange, rangeJson, prop_tail (k := fStart) (k' := fEnd) (by decide), asPos_json]

/-- `mapM` over a written list, if each item is read back. -/
theorem mapM_back {α : Type} {f : α → Json} {g : Json → Option α} {l : List α} (h : ∀ x ∈ l, g (f x) = some x) :
    (l.map f).mapM g = some l := by
  induction l with
  | nil => rfl
  | cons x l ih =>
    have h1 := h x (by simp)
    have h2 := ih fun y hy => h y (by simp [hy])
    rw [List.map_cons, List.mapM_cons, h1, h2]; rfl

theorem jsizes_map {α : Type} {f : α → Json} {l : List α} {x : α} (h : x ∈ l) : jsize (f x) ≤ jsizes (l.map f) := by
  induction l with
  | nil => simp at h
  | cons y l ih =>
    simp only [List.map_cons, jsizes]
    rcases List.mem_cons.1 h with rfl | h
    · omega
    · have := ih h; omega

theorem local_back (F : Floats) (hF : F.Exact) (l : MLocal) (h : finiteIn l.value = true) (n : Nat)
    (hn : jsize (localJson F l) ≤ n) : asLocal F n (localJson F l) = some l := by
  simp only [localJson, jsize, fsizes, fsize] at hn
  have h1 := value_back F hF l.value h n (by omega)
  have h2 : (l.movedPaths.map fun p => Json.arr (p.map partJson)).mapM (fun p => (asArr p).bind (·.mapM asPart)) = some l.movedPaths :=
    mapM_back fun p _ => by rw [asArr_arr, Option.bind_some, asParts_json]
  unfold asLocal localJson
  rw [prop_head, prop_tail (k := fName) (k' := kValue) (by decide), prop_head,
    prop_tail (k := fName) (k' := fMovedPaths) (by decide), prop_tail (k := kValue) (k' := fMovedPaths) (by decide), prop_head]
  simp only [Option.bind_some, asText_str, h1, asArr_arr, h2]

def finiteFrame (f : WFrame) : Prop := ∀ l ∈ f.locals, finiteIn l.value = true
def finiteStep (s : WStep) : Prop := (∀ f ∈ s.frames, finiteFrame f) ∧ finiteAll s.heap = true
/-- All floats in a trace are finite. -/
def finiteTrace (t : WTrace) : Prop := ∀ s ∈ t.steps, finiteStep s

theorem frame_back (F : Floats) (hF : F.Exact) (f : WFrame) (h : finiteFrame f) (n : Nat)
    (hn : jsize (frameJson F f) ≤ n) : asFrame F n (frameJson F f) = some f := by
  simp only [frameJson, jsize, fsizes, fsize] at hn
  have h1 : (f.locals.map (localJson F)).mapM (asLocal F n) = some f.locals :=
    mapM_back fun l hl => local_back F hF l (h l hl) n (by have := jsizes_map (f := localJson F) hl; omega)
  unfold asFrame frameJson
  rw [prop_head, prop_tail (k := fName) (k' := fBodySpan) (by decide), prop_head,
    prop_tail (k := fName) (k' := fLocation) (by decide), prop_tail (k := fBodySpan) (k' := fLocation) (by decide), prop_head,
    prop_tail (k := fName) (k' := fLocals) (by decide), prop_tail (k := fBodySpan) (k' := fLocals) (by decide),
    prop_tail (k := fLocation) (k' := fLocals) (by decide), prop_head]
  simp only [Option.bind_some, asStr_str, asRange_json, asArr_arr, h1]

theorem step_back (F : Floats) (hF : F.Exact) (s : WStep) (h : finiteStep s) (n : Nat)
    (hn : jsize (stepJson F s) ≤ n) : asStep F n (stepJson F s) = some s := by
  simp only [stepJson, jsize, fsizes, fsize] at hn
  have h1 : (s.frames.map (frameJson F)).mapM (asFrame F n) = some s.frames :=
    mapM_back fun l hl => frame_back F hF l (h.1 l hl) n (by have := jsizes_map (f := frameJson F) hl; omega)
  have h2 := values_back F hF s.heap h.2 n (by omega)
  unfold asStep stepJson
  rw [prop_head, prop_tail (k := fStack) (k' := fHeap) (by decide), prop_head]
  simp only [Option.bind_some, prop_head, asArr_arr, h1, h2]

theorem asResult_json (r : WResult) : asResult (resultJson r) = some r := by
  cases r with
  | success => simp [asResult, resultJson, show vSuccess ≠ vError by decide]
  | useAfterFree id => simp [asResult, resultJson]
  | other m => simp [asResult, resultJson, show vOther ≠ vUseAfterFree by decide]

theorem trace_back (F : Floats) (hF : F.Exact) (t : WTrace) (h : finiteTrace t) (n : Nat)
    (hn : jsize (traceJson F t) ≤ n) : asTrace F n (traceJson F t) = some t := by
  simp only [traceJson, jsize, fsizes, fsize] at hn
  have h1 : (t.steps.map (stepJson F)).mapM (asStep F n) = some t.steps :=
    mapM_back fun l hl => step_back F hF l (h l hl) n (by have := jsizes_map (f := stepJson F) hl; omega)
  unfold asTrace traceJson
  rw [prop_head, prop_tail (k := fSteps) (k' := fResult) (by decide), prop_head]
  simp only [Option.bind_some, asArr_arr, h1, asResult_json]

/-! ## The JSON of a trace is JSON -/

theorem valid_nat (n : Nat) : Valid (natJson n) := .num (digits_number n)

theorem valid_obj_nil : Valid (.obj []) := .obj (by simp)

theorem valid_obj_cons {k : List Char} {v : Json} {fs : List (List Char × Json)} (h1 : Valid v) (h2 : Valid (.obj fs)) :
    Valid (.obj ((k, v) :: fs)) := by
  cases h2 with
  | obj h2 => exact .obj fun f hf => by rcases List.mem_cons.1 hf with rfl | hf; (exact h1); exact h2 f hf

theorem valid_arr_nil : Valid (.arr []) := .arr (by simp)

theorem valid_arr_cons {v : Json} {vs : List Json} (h1 : Valid v) (h2 : Valid (.arr vs)) : Valid (.arr (v :: vs)) := by
  cases h2 with
  | arr h2 => exact .arr fun f hf => by rcases List.mem_cons.1 hf with rfl | hf; (exact h1); exact h2 f hf

theorem valid_arr_map {α : Type} {f : α → Json} {l : List α} (h : ∀ x ∈ l, Valid (f x)) : Valid (.arr (l.map f)) :=
  .arr fun x hx => by obtain ⟨y, hy, rfl⟩ := List.mem_map.1 hx; exact h y hy

theorem valid_tagged (t : List Char) {v : Json} (h : Valid v) : Valid (tagged t v) :=
  valid_obj_cons .str (valid_obj_cons h valid_obj_nil)

theorem valid_opt {α : Type} {f : α → Json} (h : ∀ x, Valid (f x)) (o : Option α) : Valid (optJson f o) := by
  cases o with
  | none => exact .null
  | some x => exact h x

theorem valid_int (i : Int) : Valid (intJson i) := by
  refine .num ?_
  have h := digits_number i.natAbs
  split
  · unfold isNumber at h
    unfold isNumber
    split at h
    · rename_i r hr
      have := digits_all i.natAbs
      rw [hr] at this
      exact absurd this (by simp [show Char.isDigit '-' = false by decide])
    · exact h
  · exact h

theorem valid_prim (F : Floats) (hF : F.Exact) (p : Prim) : Valid (primJson F p) := by
  cases p with
  | bool b => exact valid_tagged _ .bool
  | char c => exact valid_tagged _ (valid_nat _)
  | uint n => exact valid_tagged _ (valid_nat _)
  | int i => exact valid_tagged _ (valid_int i)
  | float bits =>
    refine valid_tagged _ ?_
    split
    · exact .num (hF.number _ (by assumption))
    · exact .null

theorem valid_seg (s : MSeg) : Valid (segJson s) := by
  cases s with
  | stack f l => exact valid_tagged _ (valid_obj_cons (valid_nat _) (valid_obj_cons .str valid_obj_nil))
  | heap i => exact valid_tagged _ (valid_obj_cons (valid_nat _) valid_obj_nil)

theorem valid_part (p : PSeg) : Valid (partJson p) := by
  cases p with
  | field i => exact valid_tagged _ (valid_nat _)
  | index i => exact valid_tagged _ (valid_nat _)
  | subslice lo hi => exact valid_tagged _ (valid_arr_cons (valid_nat _) (valid_arr_cons (valid_nat _) valid_arr_nil))

theorem valid_kind (k : MKind) : Valid (kindJson k) := by
  cases k with
  | string n => exact valid_tagged _ (valid_obj_cons (valid_nat _) valid_obj_nil)
  | vec n => exact valid_tagged _ (valid_obj_cons (valid_nat _) valid_obj_nil)
  | box => exact valid_obj_cons .str valid_obj_nil

mutual
theorem valid_value (F : Floats) (hF : F.Exact) : (v : MValue) → Valid (valueJson F v)
  | .prim p => by simp only [valueJson]; exact valid_prim F hF p
  | .tuple vs => by simp only [valueJson]; exact valid_tagged _ (valid_values F hF vs)
  | .all vs => by simp only [valueJson]; exact valid_tagged _ (valid_tagged _ (valid_values F hF vs))
  | .only vs l => by
    simp only [valueJson]
    exact valid_tagged _ (valid_tagged _ (valid_arr_cons (valid_values F hF vs) (valid_arr_cons (valid_value F hF l) valid_arr_nil)))
  | .adt n v fs k => by
    simp only [valueJson]
    exact valid_tagged _ (valid_obj_cons .str (valid_obj_cons (valid_opt (fun _ => .str) v)
      (valid_obj_cons (valid_vfields F hF fs) (valid_obj_cons (valid_opt valid_kind k) valid_obj_nil))))
  | .pointer s ps r => by
    simp only [valueJson]
    exact valid_tagged _ (valid_obj_cons (valid_obj_cons (valid_seg s) (valid_obj_cons (valid_arr_map fun p _ => valid_part p) valid_obj_nil))
      (valid_obj_cons (valid_opt valid_nat r) valid_obj_nil))
  | .unallocated id => by
    simp only [valueJson]
    exact valid_tagged _ (valid_obj_cons (valid_opt valid_nat id) valid_obj_nil)
theorem valid_values (F : Floats) (hF : F.Exact) : (vs : List MValue) → Valid (.arr (valuesJson F vs))
  | [] => by simp only [valuesJson]; exact valid_arr_nil
  | v :: vs => by simp only [valuesJson]; exact valid_arr_cons (valid_value F hF v) (valid_values F hF vs)
theorem valid_vfields (F : Floats) (hF : F.Exact) : (fs : List (String × MValue)) → Valid (.arr (fieldsJson F fs))
  | [] => by simp only [fieldsJson]; exact valid_arr_nil
  | f :: fs => by simp only [fieldsJson]; exact valid_arr_cons (valid_vfield F hF f) (valid_vfields F hF fs)
theorem valid_vfield (F : Floats) (hF : F.Exact) : (f : String × MValue) → Valid (fieldJson F f)
  | (k, v) => by
    simp only [fieldJson]
    exact valid_arr_cons .str (valid_arr_cons (valid_value F hF v) valid_arr_nil)
end

theorem valid_pos (p : Pos) : Valid (posJson p) := valid_obj_cons (valid_nat _) (valid_obj_cons (valid_nat _) valid_obj_nil)
theorem valid_range (r : Range) : Valid (rangeJson r) := valid_obj_cons (valid_pos _) (valid_obj_cons (valid_pos _) valid_obj_nil)

theorem valid_local (F : Floats) (hF : F.Exact) (l : MLocal) : Valid (localJson F l) :=
  valid_obj_cons .str (valid_obj_cons (valid_value F hF _) (valid_obj_cons
    (valid_arr_map fun _ _ => valid_arr_map fun p _ => valid_part p) valid_obj_nil))

theorem valid_frame (F : Floats) (hF : F.Exact) (f : WFrame) : Valid (frameJson F f) :=
  valid_obj_cons .str (valid_obj_cons (valid_range _) (valid_obj_cons (valid_range _) (valid_obj_cons
    (valid_arr_map fun l _ => valid_local F hF l) valid_obj_nil)))

theorem valid_step (F : Floats) (hF : F.Exact) (s : WStep) : Valid (stepJson F s) :=
  valid_obj_cons (valid_obj_cons (valid_arr_map fun f _ => valid_frame F hF f) valid_obj_nil)
    (valid_obj_cons (valid_obj_cons (valid_values F hF _) valid_obj_nil) valid_obj_nil)

theorem valid_result (r : WResult) : Valid (resultJson r) := by
  cases r with
  | success => exact valid_obj_cons .str valid_obj_nil
  | useAfterFree id => exact valid_tagged _ (valid_tagged _ (valid_obj_cons (valid_nat _) valid_obj_nil))
  | other m => exact valid_tagged _ (valid_tagged _ .str)

theorem valid_trace (F : Floats) (hF : F.Exact) (t : WTrace) : Valid (traceJson F t) :=
  valid_obj_cons (valid_arr_map fun s _ => valid_step F hF s) (valid_obj_cons (valid_result _) valid_obj_nil)

end Verif.Wire
