import Verif.Embed.Model
import Verif.Preproc.Props
/-!
# C80: the options of a block; C90: the blocks of a page
-/
namespace Verif.Embed
open Verif.Block Verif.Preproc

/-! ## Options -/

/-- The option `k` is given in the header of the block. -/
def Given (cfg : List (List Char × List Char)) (k : List Char) : Prop := ∃ v, (k, v) ∈ cfg

/-- The option `k`, if given, is given as `k` or `k=true`. -/
def Plain (cfg : List (List Char × List Char)) (k : List Char) : Prop := ∀ v, (k, v) ∈ cfg → v = kTrue

theorem lookup_mem {k v : List Char} : ∀ {cfg : List (List Char × List Char)}, cfg.lookup k = some v → (k, v) ∈ cfg
  | [], h => by simp at h
  | (k', v') :: r, h => by
    simp only [List.lookup_cons] at h
    split at h
    · rename_i hk
      simp only [Option.some.injEq] at h
      simp only [beq_iff_eq] at hk
      simp [hk, h]
    · exact List.mem_cons_of_mem _ (lookup_mem h)

theorem lookup_none {k : List Char} : ∀ {cfg : List (List Char × List Char)}, cfg.lookup k = none → ¬Given cfg k
  | [], _ => by simp [Given]
  | (k', v') :: r, h => by
    simp only [List.lookup_cons] at h
    split at h
    · simp at h
    · rename_i hk
      rintro ⟨v, hv⟩
      rcases List.mem_cons.1 hv with he | hm
      · simp only [Prod.mk.injEq] at he
        simp [he.1] at hk
      · exact lookup_none h ⟨v, hm⟩

theorem config_mem {cfg : List (List Char × List Char)} {k v} (h : configMap cfg k = some v) : (k, v) ∈ cfg := by
  simpa using lookup_mem h

theorem config_none {cfg : List (List Char × List Char)} {k} (h : configMap cfg k = none) : ¬Given cfg k := by
  have := lookup_none h
  simpa [Given] using this

/-- The value of an option is the one given last. -/
theorem config_last (a b : List (List Char × List Char)) (k v : List Char) (h : ¬Given b k) :
    configMap (a ++ (k, v) :: b) k = some v := by
  have h' : ∀ l : List (List Char × List Char), ¬Given l k → l.lookup k = none := by
    intro l hl
    cases hh : l.lookup k with
    | none => rfl
    | some v => exact absurd ⟨v, lookup_mem hh⟩ hl
  have hb : b.reverse.lookup k = none := h' _ (by simpa [Given] using h)
  simp [configMap, List.lookup_append, hb]

theorem truthy_plain {cfg k} (h : Plain cfg k) : truthy (configMap cfg k) = true ↔ Given cfg k := by
  cases hc : configMap cfg k with
  | none => simpa [truthy] using config_none hc
  | some v =>
    have hv := config_mem hc
    rw [h v hv]
    exact ⟨fun _ => ⟨v, hv⟩, fun _ => rfl⟩

theorem isTrue_plain {cfg k} (h : Plain cfg k) : isTrue (configMap cfg k) = true ↔ Given cfg k := by
  cases hc : configMap cfg k with
  | none => simpa [isTrue] using config_none hc
  | some v =>
    have hv := config_mem hc
    rw [h v hv]
    exact ⟨fun _ => ⟨v, hv⟩, fun _ => rfl⟩

/-- A drawing has the options of the element. -/
def Fits (h : Html) : Drawing → Prop
  | .diagram _ m hz c => m = h.annotations.stateLocations ∧ hz = truthy (h.config kHorizontal) ∧
      c = truthy (h.config kConcreteTypes)
  | .perms _ s b => s = isTrue (h.config kStepper) ∧ b = isTrue (h.config kBoundaries)

/-- The drawing is a diagram. -/
def Drawing.isDiagram : Drawing → Bool
  | .diagram .. => true
  | .perms .. => false

/-- What holds of a block after any operations. -/
structure Inv (h : Html) (e : Ed) : Prop where
  fits : ∀ d ∈ e.drawn, Fits h d
  banner : e.banner = true → truthy (h.config kShouldFail) = true
  banner' : e.drawn ≠ [] → truthy (h.config kShouldFail) = true → e.banner = true
  gone : e.unmounted = true → truthy (h.config kHideCode) = true
  gone' : (∃ d ∈ e.drawn, d.isDiagram = true) → truthy (h.config kHideCode) = true → e.unmounted = true

theorem common_drawn (e : Ed) (h : Html) : (e.common h).drawn = e.drawn ∧ (e.common h).unmounted = e.unmounted ∧
    (e.common h).rejected = e.rejected ∧ (e.common h).asked = e.asked ∧ (e.common h).reports = e.reports := by
  unfold Ed.common
  dsimp only
  refine ⟨?_, ?_, ?_, ?_, ?_⟩ <;> (split <;> split <;> rfl)

theorem common_banner (e : Ed) (h : Html) :
    (e.common h).banner = (e.banner || truthy (h.config kShouldFail)) := by
  unfold Ed.common
  dsimp only
  by_cases ht : truthy (h.config kShouldFail) = true
  · rw [if_pos ht]; simp [ht]
  · rw [if_neg ht]
    split <;> simp [Bool.eq_false_iff.2 ht]

/-- `e'` has the same drawings and the same visibility as `e`, and a banner allowed by the options. -/
theorem Inv.keep {h : Html} {e e' : Ed} (hi : Inv h e) (h1 : e'.drawn = e.drawn) (h2 : e'.unmounted = e.unmounted)
    (h3 : e'.banner = e.banner ∨ e'.banner = (e.banner || truthy (h.config kShouldFail))) : Inv h e' where
  fits := by rw [h1]; exact hi.fits
  banner := by
    intro hb
    rcases h3 with h3 | h3
    · exact hi.banner (h3 ▸ hb)
    · rw [h3, Bool.or_eq_true] at hb
      exact hb.elim hi.banner id
  banner' := by
    intro hd ht
    rcases h3 with h3 | h3
    · rw [h3]; exact hi.banner' (h1 ▸ hd) ht
    · rw [h3, ht]; simp
  gone := by rw [h2]; exact hi.gone
  gone' := by rw [h1, h2]; exact hi.gone'

theorem inv_op (D : Draws) (h : Html) (e : Ed) (op : List Char) (hi : Inv h e) : Inv h (e.renderOperation D h op) := by
  obtain ⟨c1, c2, -⟩ := common_drawn e h
  have cb := common_banner e h
  unfold Ed.renderOperation
  split
  · exact hi.keep rfl rfl (.inl rfl)
  · rename_i j hj
    split
    · exact hi.keep rfl rfl (.inl rfl)
    · dsimp only
      split
      · exact hi.keep c1 c2 (.inr cb)
      · rename_i hu
        split
        · split
          · exact hi.keep c1 c2 (.inr cb)
          · rename_i trace ht
            unfold Ed.renderInterpreter
            dsimp only
            by_cases hh : truthy (h.config kHideCode) = true
            · rw [if_pos hh]
              split
              · constructor
                · intro d hd
                  simp only [c1, List.mem_append, List.mem_singleton] at hd
                  rcases hd with hd | rfl
                  · exact hi.fits d hd
                  · exact ⟨rfl, rfl, rfl⟩
                · intro hb
                  simp only [cb, Bool.or_eq_true] at hb
                  exact hb.elim hi.banner id
                · intro _ ht; simp only [cb, ht, Bool.or_true]
                · intro _; exact hh
                · intro _ _; rfl
              · constructor
                · simp only [c1]; exact hi.fits
                · intro hb
                  simp only [cb, Bool.or_eq_true] at hb
                  exact hb.elim hi.banner id
                · intro _ ht; simp only [cb, ht, Bool.or_true]
                · intro _; exact hh
                · intro _ _; rfl
            · rw [if_neg hh]
              split
              · constructor
                · intro d hd
                  simp only [c1, List.mem_append, List.mem_singleton] at hd
                  rcases hd with hd | rfl
                  · exact hi.fits d hd
                  · exact ⟨rfl, rfl, rfl⟩
                · intro hb
                  simp only [cb, Bool.or_eq_true] at hb
                  exact hb.elim hi.banner id
                · intro _ ht; simp only [cb, ht, Bool.or_true]
                · simp only [c2]; exact hi.gone
                · intro _ ht; exact absurd ht hh
              · exact hi.keep c1 c2 (.inr cb)
          · exact hi.keep c1 c2 (.inr cb)
        · split
          · split
            · split
              · exact hi.keep c1 c2 (.inr cb)
              · split
                · constructor
                  · intro d hd
                    simp only [c1, List.mem_append, List.mem_singleton] at hd
                    rcases hd with hd | rfl
                    · exact hi.fits d hd
                    · exact ⟨rfl, rfl⟩
                  · intro hb
                    simp only [cb, Bool.or_eq_true] at hb
                    exact hb.elim hi.banner id
                  · intro _ ht; simp only [cb, ht, Bool.or_true]
                  · simp only [c2]; exact hi.gone
                  · rintro ⟨d, hd, hd'⟩ ht
                    simp only [c1, List.mem_append, List.mem_singleton] at hd
                    simp only [c2]
                    rcases hd with hd | rfl
                    · exact hi.gone' ⟨d, hd, hd'⟩ ht
                    · simp [Drawing.isDiagram] at hd'
                · exact hi.keep c1 c2 (.inr cb)
            · exact hi.keep c1 c2 (.inr cb)
          · exact hi.keep c1 c2 (.inr cb)

theorem inv_ops (D : Draws) (h : Html) (ops : List (List Char)) (e : Ed) (hi : Inv h e) :
    Inv h (ops.foldl (Ed.renderOperation D h) e) := by
  induction ops generalizing e with
  | nil => exact hi
  | cons op ops ih => exact ih _ (inv_op D h e op hi)

theorem inv_open {D : Draws} {h : Html} {e : Ed} (ho : openBlock D h = some e) : Inv h e := by
  unfold openBlock at ho
  split at ho
  · simp at ho
  · simp only [Option.some.injEq] at ho
    subst ho
    exact inv_ops D h _ _ ⟨by simp, by simp, by simp, by simp, by simp⟩

/-- **C80.** If options are given only as `k` or `k=true`, then whatever is drawn for the block has exactly the given
options: diagrams are horizontal or show concrete types iff the option is given, steps and boundaries are shown iff the
option is given, the banner is there iff `shouldFail` is given, and the code is hidden iff `hideCode` is given and a
diagram is drawn. -/
theorem C80_plain_partial (D : Draws) (b : Block) (r : Responses) (e : Ed) (ho : openBlock D (render b r) = some e)
    (hp : ∀ k, Plain b.config k) :
    (∀ t m hz c, Drawing.diagram t m hz c ∈ e.drawn →
      (hz = true ↔ Given b.config kHorizontal) ∧ (c = true ↔ Given b.config kConcreteTypes) ∧
      (e.unmounted = true ↔ Given b.config kHideCode)) ∧
    (∀ rs s bd, Drawing.perms rs s bd ∈ e.drawn →
      (s = true ↔ Given b.config kStepper) ∧ (bd = true ↔ Given b.config kBoundaries)) ∧
    (e.drawn ≠ [] → (e.banner = true ↔ Given b.config kShouldFail)) ∧
    (e.unmounted = true → Given b.config kHideCode) := by
  have hi := inv_open ho
  refine ⟨?_, ?_, ?_, ?_⟩
  · intro t m hz c hd
    obtain ⟨-, h2, h3⟩ := hi.fits _ hd
    refine ⟨?_, ?_, ?_⟩
    · rw [h2]; exact truthy_plain (hp _)
    · rw [h3]; exact truthy_plain (hp _)
    · exact ⟨fun hu => (truthy_plain (hp _)).1 (hi.gone hu),
        fun hg => hi.gone' ⟨_, hd, rfl⟩ ((truthy_plain (hp _)).2 hg)⟩
  · intro rs s bd hd
    obtain ⟨h2, h3⟩ := hi.fits _ hd
    exact ⟨by rw [h2]; exact isTrue_plain (hp _), by rw [h3]; exact isTrue_plain (hp _)⟩
  · intro hd
    exact ⟨fun hu => (truthy_plain (hp _)).1 (hi.banner hu), fun hg => hi.banner' hd ((truthy_plain (hp _)).2 hg)⟩
  · intro hu
    exact (truthy_plain (hp _)).1 (hi.gone hu)

/-- **C80.** The page and the tool agree about `shouldFail` whenever its last value is not empty: the banner is shown
iff the tool was told to expect a failure. -/
theorem C80_tool_partial (D : Draws) (b : Block) (r : Responses) (e : Ed) (ho : openBlock D (render b r) = some e)
    (hd : e.drawn ≠ []) (hv : configMap b.config kShouldFail ≠ some []) (op : List Char) :
    e.banner = true ↔ ∃ fl, args b op = argAquascope :: argShouldFail :: op :: fl := by
  have hi := inv_open ho
  have hg : e.banner = true ↔ Given b.config kShouldFail := by
    cases hc : configMap b.config kShouldFail with
    | none =>
      refine ⟨fun h => ?_, fun h => absurd h (config_none hc)⟩
      have := hi.banner h
      rw [show (render b r).config kShouldFail = none from hc] at this
      simp [truthy] at this
    | some v =>
      refine ⟨fun _ => ⟨v, config_mem hc⟩, fun _ => hi.banner' hd ?_⟩
      rw [show (render b r).config kShouldFail = some v from hc]
      cases v with
      | nil => exact absurd hc hv
      | cons => rfl
  rw [hg]
  have ha : b.config.any (fun p => p.1 == kShouldFail) = true ↔ Given b.config kShouldFail := by
    simp only [List.any_eq_true, beq_iff_eq, Given]
    constructor
    · rintro ⟨⟨k', v⟩, h, rfl⟩; exact ⟨v, h⟩
    · rintro ⟨v, h⟩; exact ⟨_, h, rfl⟩
  rw [← ha]
  cases hh : b.config.any (fun p => p.1 == kShouldFail) with
  | true =>
    simp only [args, hh, if_true, true_iff]
    exact ⟨_, rfl⟩
  | false =>
    simp only [args, hh, Bool.false_eq_true, if_false, false_iff]
    rintro ⟨fl, hfl⟩
    simp only [List.append_nil, List.cons_append, List.nil_append, List.cons.injEq, true_and] at hfl
    obtain ⟨h1, h2⟩ := hfl
    split at h2
    · simp only [List.cons.injEq] at h2
      rw [← h2.1] at h1
      exact absurd h1 (by decide)
    · simp at h2

/-- **C80** (the code does otherwise): for any option that is read as a condition, giving it as `k=false` last switches
it on. -/
theorem C80_false_is_on (D : Draws) (b : Block) (r : Responses) (e : Ed) (ho : openBlock D (render b r) = some e)
    (hd : e.drawn ≠ []) (x y : List (List Char × List Char)) (hb : b.config = x ++ (kShouldFail, kFalse) :: y)
    (hy : ¬Given y kShouldFail) : e.banner = true := by
  apply (inv_open ho).banner' hd
  show truthy (configMap b.config kShouldFail) = true
  rw [hb, config_last _ _ _ _ hy]
  rfl

/-- The tool is told the same. -/
theorem C80_false_to_tool (b : Block) (op v : List Char) (hb : (kShouldFail, v) ∈ b.config) :
    ∃ fl, args b op = argAquascope :: argShouldFail :: op :: fl := by
  have hh : b.config.any (fun p => p.1 == kShouldFail) = true := by
    simp only [List.any_eq_true, beq_iff_eq]; exact ⟨_, hb, rfl⟩
  simp only [args, hh, if_true]
  exact ⟨_, rfl⟩

/-! ### Concrete blocks -/

/-- Everything can be drawn. -/
def drawsAll : Draws := ⟨fun _ _ _ => true, fun _ _ _ => true⟩

/-- A trace. -/
def demoTrace : Json := .obj [(kOk, .str ['t'])]

/-- Permission results of two bodies. -/
def demoPerms : Json := .arr [.obj [(kOk, .str ['p'])], .obj [(kOk, .str ['q'])]]

/-- The answers for both operations. -/
def demoResponses : Responses := fun op =>
  if op = opInterpreter then some demoTrace else if op = opPermissions then some demoPerms else none

/-- A block with these options. -/
def demoBlock' (ops : List (List Char)) (cfg : List (List Char × List Char)) : Block :=
  { operations := ops, config := cfg, code := ['x'], annotations := {} }

/-- The header `shouldFail=false,hideCode=false`. -/
def falseBlock : Block := demoBlock' [opInterpreter] [(kShouldFail, kFalse), (kHideCode, kFalse)]

/-- **C80** (the code does otherwise): with `shouldFail=false,hideCode=false` the banner is shown, the code is hidden
and the tool expects a failure. -/
theorem C80_false_witness :
    (openBlock drawsAll (render falseBlock demoResponses)).map
        (fun e => (e.banner, e.unmounted, e.drawn.length)) = some (true, true, 1) ∧
    args falseBlock opInterpreter = [argAquascope, argShouldFail, opInterpreter] := by
  decide +kernel

/-- The options of that block as the author writes them. -/
example : (parse (['`', '`', '`', 'a', 'q', 'u', 'a', 's', 'c', 'o', 'p', 'e', ','] ++ opInterpreter ++ [','] ++
      kShouldFail ++ ['='] ++ kFalse ++ [','] ++ kHideCode ++ ['='] ++ kFalse ++
      ['\n', 'x', '\n', '`', '`', '`'])).map (fun p => p.2) = some falseBlock := by
  decide +kernel

/-- **C80** (the code does otherwise): the page and the tool can disagree. With `shouldFail=` the tool expects a failure
and the page shows no banner. -/
theorem C80_empty_differs :
    (openBlock drawsAll (render (demoBlock' [opInterpreter] [(kShouldFail, [])]) demoResponses)).map
        (fun e => (e.banner, e.drawn.length)) = some (false, 1) ∧
    args (demoBlock' [opInterpreter] [(kShouldFail, [])]) opInterpreter =
      [argAquascope, argShouldFail, opInterpreter] := by
  decide +kernel

/-- **C80** (the code does otherwise): the options for steps and boundaries are read differently, `stepper=yes` shows no
steps although `horizontal=yes` is accepted. -/
theorem C80_yes_differs : ∃ e, openBlock drawsAll (render (demoBlock' [opPermissions, opInterpreter]
      [(kStepper, ['y', 'e', 's']), (kHorizontal, ['y', 'e', 's'])]) demoResponses) = some e ∧
    e.drawn.map (fun d => match d with | .diagram _ _ hz _ => hz | .perms _ s _ => s) = [false, true] :=
  ⟨_, rfl, by decide +kernel⟩

/-- A block with flags: steps but no boundaries, a horizontal diagram. -/
example : (openBlock drawsAll (render (demoBlock' [opPermissions, opInterpreter]
      [(kStepper, kTrue), (kHorizontal, kTrue)]) demoResponses)).map (fun e =>
        (e.drawn.map (fun d => match d with | .diagram _ _ hz c => (hz, c) | .perms _ s b => (s, b)), e.banner)) =
    some ([(true, false), (true, false)], false) := by
  decide +kernel

end Verif.Embed
