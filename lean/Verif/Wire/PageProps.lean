import Verif.Wire.Page
import Verif.Wire.HtmlProps
import Verif.Embed.Model
/-!
# What the book builder writes is what the page reads (C115)
-/
namespace Verif.Wire
open Verif.Preproc (Json Html Responses configMap render)
open Verif.Block (Block)
open Verif.Annotations (Annots PathMatcher)

/-! ## The statement -/

/-- The entries of a map, each key once. -/
def Entry {κ ν : Type} (l : List (κ × ν)) (f : κ → Option ν) : Prop :=
  (l.map (·.1)).Nodup ∧ ∀ k v, (k, v) ∈ l ↔ f k = some v

/-- The entries are those of the maps of the block, in any order. -/
structure Represents (e : Entries) (b : Block) (r : Responses) : Prop where
  responses : Entry e.responses r
  config : Entry e.config (configMap b.config)
  paths : Entry e.paths fun n => if b.annotations.focusedPathsAt n = [] then none else some (b.annotations.focusedPathsAt n)

/-- The same annotations: the same lists, and the same paths in each line. -/
structure Same (a a' : Annots) : Prop where
  hidden : a.hiddenLines = a'.hiddenLines
  states : a.stateLocations = a'.stateLocations
  steps : a.stepperLines = a'.stepperLines
  bounds : a.boundaryLines = a'.boundaryLines
  paths : ∀ n, a.focusedPathsAt n = a'.focusedPathsAt n

/-! ## Numbers -/

theorem digits_head (n : Nat) (h : 0 < n) : ∃ c r, Nat.toDigits 10 n = c :: r ∧ c ≠ '0' := by
  induction n using Nat.strongRecOn with
  | _ n ih =>
    by_cases hn : n < 10
    · rw [Nat.toDigits_of_lt_base hn]
      refine ⟨_, _, rfl, ?_⟩
      have : ∀ k : Fin 10, 0 < k.1 → Nat.digitChar k.1 ≠ '0' := by decide
      exact this ⟨n, hn⟩ h
    · rw [Nat.toDigits_of_base_le (by decide) (by omega)]
      obtain ⟨c, r, e, hc⟩ := ih (n / 10) (by omega) (by omega)
      exact ⟨c, r ++ [Nat.digitChar (n % 10)], by rw [e]; rfl, hc⟩

theorem digits_all (n : Nat) : (Nat.toDigits 10 n).all Char.isDigit = true := by
  rw [List.all_eq_true]
  exact fun c hc => Nat.isDigit_of_mem_toDigits (by decide) (by decide) hc

theorem digits_number (n : Nat) : isNumber (Nat.toDigits 10 n) = true := by
  have hd := digits_all n
  rcases Nat.eq_zero_or_pos n with rfl | h
  · rw [Nat.toDigits_zero]; decide
  · obtain ⟨c, r, e, hc⟩ := digits_head n h
    rw [e] at hd ⊢
    simp only [List.all_cons, Bool.and_eq_true] at hd
    have hm : c ≠ '-' := by rintro rfl; exact absurd hd.1 (by decide)
    have hr : r.dropWhile Char.isDigit = [] := by
      have h := List.all_eq_true.1 hd.2
      clear e hd
      induction r with
      | nil => rfl
      | cons x r ih => rw [List.dropWhile_cons_of_pos (h x (by simp))]; exact ih fun y hy => h y (by simp [hy])
    unfold isNumber
    split
    · simp_all
    · unfold isUnsigned
      split
      · simp_all
      · rename_i h1; injection h1 with h1 h2; subst h1; subst h2; rw [hr, hd.1]; decide
      · simp_all

theorem asNat_natJson (n : Nat) : asNat (natJson n) = some n := by
  simp [asNat, natJson, digits_all, Nat.ofDigitChars_ten_toDigits]

theorem mapM_map {α β γ : Type} (f : α → β) (g : β → Option γ) (h : α → γ) (hg : ∀ x, g (f x) = some (h x)) (l : List α) :
    (l.map f).mapM g = some (l.map h) := by
  induction l with
  | nil => rfl
  | cons x l ih => simp [List.mapM_cons, hg, ih]

theorem nats_arr (l : List Nat) : nats (.arr (l.map natJson)) = some l := by
  simp only [nats, asArr, Option.bind_some]
  rw [mapM_map natJson asNat id asNat_natJson]; simp

theorem asMatcher_json (m : PathMatcher) : asMatcher (matcherJson m) = some m := by
  cases m with
  | literal s => simp [matcherJson, asMatcher, List.lookup, show (kValue == kType) = false by decide, asStr]
  | regex s =>
    simp [matcherJson, asMatcher, List.lookup, show (kValue == kType) = false by decide, asStr, show kRegex ≠ kLiteral by decide]

theorem asEntry_json (e : Nat × List PathMatcher) :
    asEntry (Nat.toDigits 10 e.1, .arr (e.2.map matcherJson)) = some (e.2.map fun m => (e.1, m)) := by
  have h1 : asNat (.num (Nat.toDigits 10 e.1)) = some e.1 := asNat_natJson e.1
  have h2 : (e.2.map matcherJson).mapM asMatcher = some e.2 := by
    rw [mapM_map matcherJson asMatcher id asMatcher_json]; simp
  simp [asEntry, h1, asArr, h2]

theorem asAnnots_json (a : Annots) (paths : List (Nat × List PathMatcher)) :
    asAnnots (annotsJson a paths) = some { a with stepperPaths := (paths.map fun e => e.2.map fun m => (e.1, m)).flatten } := by
  have hp : (paths.map fun e => (Nat.toDigits 10 e.1, Json.arr (e.2.map matcherJson))).mapM asEntry
      = some (paths.map fun e => e.2.map fun m => (e.1, m)) :=
    mapM_map _ asEntry _ asEntry_json paths
  have n1 : (kInterp == kHiddenLines) = false := by decide
  have n2 : (kStepper == kHiddenLines) = false := by decide
  have n3 : (kStepper == kInterp) = false := by decide
  have n4 : (kBoundaries == kHiddenLines) = false := by decide
  have n5 : (kBoundaries == kInterp) = false := by decide
  have n6 : (kBoundaries == kStepper) = false := by decide
  have n7 : (kFocusedPaths == kFocusedLines) = false := by decide
  simp [asAnnots, annotsJson, prop, asObj, List.lookup, nats_arr, hp, n1, n2, n3, n4, n5, n6, n7]

/-! ## Attributes -/

theorem find_unique {α : Type} {p : α → Bool} {l : List α} {a : α} (ha : a ∈ l) (hp : p a = true)
    (hu : ∀ x ∈ l, p x = true → x = a) : l.find? p = some a := by
  cases h : l.find? p with
  | none => exact absurd hp (by simpa using List.find?_eq_none.1 h a ha)
  | some x => rw [hu x (List.mem_of_find?_eq_some h) (List.find?_some h)]

theorem lookup_entry {κ ν : Type} [BEq κ] [LawfulBEq κ] {l : List (κ × ν)} {f : κ → Option ν} (h : Entry l f) (k : κ) :
    l.lookup k = f k := by
  have hm : ∀ {l : List (κ × ν)} {v}, l.lookup k = some v → (k, v) ∈ l := by
    intro l v hl
    induction l with
    | nil => simp at hl
    | cons x l ih =>
      obtain ⟨x1, x2⟩ := x
      simp only [List.lookup] at hl
      split at hl
      · rename_i hk; rw [eq_of_beq hk]; simp_all
      · exact List.mem_cons_of_mem _ (ih hl)
  have hn : ∀ {l : List (κ × ν)}, l.lookup k = none → ∀ v, (k, v) ∉ l := by
    intro l hl v hv
    induction l with
    | nil => simp at hv
    | cons x l ih =>
      obtain ⟨x1, x2⟩ := x
      simp only [List.lookup] at hl
      split at hl
      · simp at hl
      · rename_i hk
        rcases List.mem_cons.1 hv with hv | hv
        · injection hv with h1 _; subst h1; simp at hk
        · exact ih hl hv
  cases hl : l.lookup k with
  | some v => rw [(h.2 k v).1 (hm hl)]
  | none =>
    cases hf : f k with
    | none => rfl
    | some v => exact absurd ((h.2 k v).2 hf) (hn hl v)

theorem maybeParse_write {j : Json} (h : Valid j) : maybeParse (some (write j)) = some (some j) := by
  obtain ⟨c, r, e, -⟩ := write_head h
  have := read_write_eq h
  rw [e] at this ⊢
  simp [maybeParse, this]

theorem valid_nats (l : List Nat) : Valid (.arr (l.map natJson)) :=
  .arr fun x hx => by obtain ⟨n, -, rfl⟩ := List.mem_map.1 hx; exact .num (digits_number n)

theorem valid_matcher (m : PathMatcher) : Valid (matcherJson m) := by
  cases m <;> exact .obj fun f hf => by
    simp only [List.mem_cons, List.not_mem_nil, or_false] at hf
    rcases hf with rfl | rfl <;> exact .str

theorem valid_annots (a : Annots) (paths : List (Nat × List PathMatcher)) : Valid (annotsJson a paths) := by
  refine .obj fun f hf => ?_
  simp only [List.mem_cons, List.not_mem_nil, or_false] at hf
  rcases hf with rfl | rfl | rfl | rfl
  · exact valid_nats _
  · refine .obj fun f hf => ?_
    simp only [List.mem_cons, List.not_mem_nil, or_false] at hf
    subst hf; exact valid_nats _
  · refine .obj fun f hf => ?_
    simp only [List.mem_cons, List.not_mem_nil, or_false] at hf
    rcases hf with rfl | rfl
    · exact valid_nats _
    · refine .obj fun f hf => ?_
      obtain ⟨e, -, rfl⟩ := List.mem_map.1 hf
      refine .arr fun x hx => ?_
      obtain ⟨m, -, rfl⟩ := List.mem_map.1 hx
      exact valid_matcher m
  · refine .obj fun f hf => ?_
    simp only [List.mem_cons, List.not_mem_nil, or_false] at hf
    subst hf; exact valid_nats _

/-- The property under which each attribute is found. -/
theorem dataset_of {attrs : List (List Char × List Char)} {b : Block} {e : Entries} (ha : attrs.Perm (blockAttrs b e))
    (key prop v : List Char) (hm : (kData ++ key, v) ∈ blockAttrs b e) (hp : camel key = prop)
    (hu : ∀ x ∈ [kCode, kAnnotations, kOperations, kResponses, kConfig, kNoInteract], camel x = prop → x = key) :
    dataset attrs prop = some v := by
  unfold dataset
  rw [find_unique (a := (kData ++ key, v)) (ha.mem_iff.2 hm)]
  · rfl
  · simp [← hp, kData]
  · intro x hx hp'
    have hx := ha.mem_iff.1 hx
    have hd : ∀ k : List Char, (kData ++ k).drop 5 = k := fun k => rfl
    simp only [Bool.and_eq_true, beq_iff_eq] at hp'
    obtain ⟨h1, h2⟩ := hp'
    simp only [blockAttrs, dataAttr, List.mem_cons, List.not_mem_nil, or_false] at hx hm
    rcases hx with rfl | rfl | rfl | rfl | rfl | rfl | rfl
    · exact absurd h1 (by decide)
    all_goals
      rw [hd] at h2
      have hk := hu _ (by simp) h2
      subst hk
      simp [kData, kClass, kCode, kAnnotations, kOperations, kResponses, kConfig, kNoInteract] at hm ⊢
      exact hm.symm

end Verif.Wire
