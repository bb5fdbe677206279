import Verif.Embed.Component
import Verif.Embed.Props
/-!
# C137: the component shows what it is given
-/
namespace Verif.Embed
open Verif.Block Verif.Preproc

/-! ## Specification -/

/-- The diagrams for given steps: one, horizontal, if they are a good answer that can be drawn. -/
def diagramsOf (D : Draws) (code : List Char) : Option Json → List Drawing
  | some (.obj fs) => match fs.lookup kOk with
    | some t => if D.trace code t [] then [.diagram t [] true false] else []
    | none => []
  | _ => []

/-- The good results among the answers for the bodies; `none` if one of them is no answer at all. -/
def goodResults : List Json → Option (List Json)
  | [] => some []
  | .obj fs :: js => match goodResults js, fs.lookup kOk with
    | some l, some x => some (x :: l)
    | some l, none => some l
    | none, _ => none
  | .arr _ :: js => goodResults js
  | _ :: _ => none

/-- The permissions shown, always with steps and boundaries. -/
def permissionsOf (D : Draws) (code : List Char) : Option Json → List Drawing
  | some (.arr js) => match goodResults js with
    | some l => if D.perms code l {} then [.perms l true true] else []
    | none => []
  | _ => []

/-! ## Proofs -/

theorem splitResults_good : ∀ js : List Json, (splitResults js).map (·.1) = goodResults js
  | [] => rfl
  | j :: js => by
    have ih := splitResults_good js
    cases j with
    | obj fs =>
      simp only [splitResults, okIn, goodResults]
      rw [← ih]
      cases splitResults js with
      | none => rfl
      | some p => cases fs.lookup kOk <;> rfl
    | arr xs =>
      simp only [splitResults, okIn, goodResults]
      rw [← ih]
      cases splitResults js <;> rfl
    | null => rfl
    | bool b => rfl
    | num s => rfl
    | str s => rfl

theorem common_given (e : Ed) (code op : List Char) (j : Json) (cfg : List Char → Option (List Char)) (h : cfg kShouldFail = none) :
    e.common (given code op j cfg) = e := by
  simp [Ed.common, given, h, truthy]

theorem interpreter_given (D : Draws) (e : Ed) (code : List Char) (j t : Json) :
    e.renderInterpreter D (given code opInterpreter j stepsConfig) t =
      if D.trace code t [] then { e with drawn := e.drawn ++ [.diagram t [] true false] }
      else { e with rejected := e.rejected ++ [opInterpreter] } := rfl

theorem operate_steps (D : Draws) (code : List Char) (x : Option Json) (e : Ed) (hu : e.unmounted = false) :
    (operate D code opInterpreter stepsConfig x e).drawn = e.drawn ++ diagramsOf D code x ∧
    (operate D code opInterpreter stepsConfig x e).asked = e.asked ∧
    (operate D code opInterpreter stepsConfig x e).unmounted = false ∧
    (operate D code opInterpreter stepsConfig x e).code = e.code ∧
    (operate D code opInterpreter stepsConfig x e).banner = e.banner ∧
    (operate D code opInterpreter stepsConfig x e).hidden = e.hidden := by
  cases x with
  | none => simp [operate, diagramsOf, hu]
  | some j =>
    simp only [operate]
    split
    · rename_i hf
      cases j <;> simp_all [falsy, diagramsOf]
    · rename_i hf
      have hg : (given code opInterpreter j stepsConfig).responses opInterpreter = some j := by simp [given]
      simp only [Ed.renderOperation, hg]
      rw [if_neg hf, common_given _ _ _ _ _ (by decide), hu]
      simp only [Bool.false_eq_true, if_false, if_true]
      cases j with
      | obj fs =>
        simp only [okIn, diagramsOf]
        cases fs.lookup kOk with
        | none => simp [hu]
        | some t =>
          dsimp only
          rw [interpreter_given]
          split <;> simp [hu]
      | arr js => simp [okIn, diagramsOf, hu]
      | null => simp [okIn, diagramsOf, hu]
      | bool b => simp [okIn, diagramsOf, hu]
      | num s => simp [okIn, diagramsOf, hu]
      | str s => simp [okIn, diagramsOf, hu]

theorem operate_permissions (D : Draws) (code : List Char) (x : Option Json) (e : Ed) (hu : e.unmounted = false) :
    (operate D code opPermissions permissionsConfig x e).drawn = e.drawn ++ permissionsOf D code x ∧
    (operate D code opPermissions permissionsConfig x e).asked = e.asked ∧
    (operate D code opPermissions permissionsConfig x e).unmounted = false ∧
    (operate D code opPermissions permissionsConfig x e).code = e.code ∧
    (operate D code opPermissions permissionsConfig x e).banner = e.banner ∧
    (operate D code opPermissions permissionsConfig x e).hidden = e.hidden := by
  cases x with
  | none => simp [operate, permissionsOf, hu]
  | some j =>
    simp only [operate]
    split
    · rename_i hf
      cases j <;> simp_all [falsy, permissionsOf]
    · rename_i hf
      have hg : (given code opPermissions j permissionsConfig).responses opPermissions = some j := by simp [given]
      simp only [Ed.renderOperation, hg]
      rw [if_neg hf, common_given _ _ _ _ _ (by decide), hu]
      rw [if_neg (by decide), if_neg (show ¬ opPermissions = opInterpreter by decide), if_pos trivial]
      cases j with
      | arr js =>
        simp only [permissionsOf]
        rw [← splitResults_good js]
        cases splitResults js with
        | none => simp [hu]
        | some q =>
          obtain ⟨good, bad⟩ := q
          simp only [Option.map_some]
          rw [show (given code opPermissions (.arr js) permissionsConfig).code = code from rfl,
            show (given code opPermissions (.arr js) permissionsConfig).annotations = {} from rfl,
            show isTrue ((given code opPermissions (.arr js) permissionsConfig).config kStepper) = true from rfl,
            show isTrue ((given code opPermissions (.arr js) permissionsConfig).config kBoundaries) = true from rfl]
          split <;> simp [hu]
      | obj fs => simp [permissionsOf, hu]
      | null => simp [permissionsOf, hu]
      | bool b => simp [permissionsOf, hu]
      | num s => simp [permissionsOf, hu]
      | str s => simp [permissionsOf, hu]

/-- The component draws the diagram of the steps it is given, horizontally, then the permissions with steps and boundaries; each as
if the other were not there.  The code is there. -/
theorem C137_shows (D : Draws) (p : Props) :
    (openComponent D p).drawn = diagramsOf D p.code p.steps ++ permissionsOf D p.code p.permissions ∧
    (openComponent D p).code = p.code ∧ (openComponent D p).unmounted = false ∧ (openComponent D p).banner = false ∧
    (openComponent D p).hidden = [] := by
  obtain ⟨a1, a2, a3, a4, a5, a6⟩ := operate_steps D p.code p.steps { code := p.code } rfl
  obtain ⟨b1, b2, b3, b4, b5, b6⟩ := operate_permissions D p.code p.permissions _ a3
  refine ⟨?_, b4.trans a4, b3, b5.trans a5, b6.trans a6⟩
  rw [openComponent, b1, a1]
  rfl

/-- Whatever it is given, it never asks a server. -/
theorem C137_asks_nothing (D : Draws) (p : Props) : (openComponent D p).asked = [] := by
  obtain ⟨a1, a2, a3, -⟩ := operate_steps D p.code p.steps { code := p.code } rfl
  obtain ⟨b1, b2, -⟩ := operate_permissions D p.code p.permissions _ a3
  rw [openComponent, b2, a2]

/-- What is in the element after something happened. -/
def after (D : Draws) (hs : List Happens) : Slot := hs.foldl (Slot.step D) {}

theorem step_live (D : Draws) {s : Slot} {p : Props} (h : s.live = some (p, openComponent D p)) : ∀ hs : List Happens,
    (∀ x ∈ hs, (∃ q, x = .render q) ∨ x = .again) →
    (hs.foldl (Slot.step D) s).live = some (p, openComponent D p) ∧
    (hs.foldl (Slot.step D) s).left =
      s.left ++ List.replicate (hs.countP (fun x => match x with | .again => true | _ => false)) (openComponent D p) := by
  intro hs
  induction hs generalizing s with
  | nil => intro; exact ⟨h, by simp⟩
  | cons x hs ih =>
    intro hx
    have hr := fun y hy => hx y (List.mem_cons_of_mem _ hy)
    rcases hx x List.mem_cons_self with ⟨q, rfl⟩ | rfl
    · have e : Slot.step D s (.render q) = s := by simp [Slot.step, h]
      rw [List.foldl_cons, e]
      obtain ⟨h1, h2⟩ := ih h hr
      exact ⟨h1, by rw [h2]; simp⟩
    · have e : Slot.step D s .again = { live := some (p, openComponent D p), left := s.left ++ [openComponent D p] } := by
        simp [Slot.step, h]
      rw [List.foldl_cons, e]
      obtain ⟨h1, h2⟩ := ih (s := { live := some (p, openComponent D p), left := s.left ++ [openComponent D p] }) rfl hr
      refine ⟨h1, ?_⟩
      rw [h2, List.countP_cons]
      simp [List.replicate_succ]

/-- As long as the component is there, it shows what it was given first; later values are ignored. -/
theorem C137_first (D : Draws) (p : Props) (qs : List Props) :
    (after D (.render p :: qs.map .render)).live = some (p, openComponent D p) ∧
    (after D (.render p :: qs.map .render)).left = [] := by
  obtain ⟨h1, h2⟩ := step_live D (s := { live := some (p, openComponent D p), left := [] }) rfl (qs.map .render)
    (fun x hx => by
      obtain ⟨q, -, rfl⟩ := List.mem_map.1 hx
      exact .inl ⟨q, rfl⟩)
  refine ⟨h1, h2.trans ?_⟩
  rw [List.countP_map, List.countP_eq_zero.2 (by simp)]
  rfl

/-- The code does otherwise: each time the effect is undone and run again in the same element, the diagram of the editor that was
destroyed stays on the page. -/
theorem C137_left (D : Draws) (p : Props) (n : Nat) :
    (after D (.render p :: List.replicate n .again)).left = List.replicate n (openComponent D p) := by
  obtain ⟨-, h2⟩ := step_live D (s := { live := some (p, openComponent D p), left := [] }) rfl (List.replicate n .again)
    (fun x hx => .inr (List.eq_of_mem_replicate hx))
  refine h2.trans ?_
  rw [List.countP_replicate]
  simp

/-- When it is removed, nothing of it stays on the page; a new component in its place starts afresh. -/
theorem C137_fresh (D : Draws) (hs : List Happens) (p : Props) :
    ((after D (hs ++ [.unmount])).live = none ∧ (after D (hs ++ [.unmount])).left = []) ∧
    (after D (hs ++ [.unmount, .render p])).live = some (p, openComponent D p) ∧
    (after D (hs ++ [.unmount, .render p])).left = [] := by
  simp only [after, List.foldl_append, List.foldl_cons, List.foldl_nil]
  exact ⟨⟨rfl, rfl⟩, rfl, rfl⟩

/-! ## Cases -/

example : (openComponent drawsAll ⟨['x'], some demoTrace, some demoPerms⟩).drawn =
    [.diagram (.str ['t']) [] true false, .perms [.str ['p'], .str ['q']] true true] :=
  (C137_shows drawsAll ⟨['x'], some demoTrace, some demoPerms⟩).1

/-- A component with permissions that are no list shows its diagram. -/
example : (openComponent drawsAll ⟨['x'], some demoTrace, some (.str ['o'])⟩).drawn = [.diagram (.str ['t']) [] true false] :=
  (C137_shows drawsAll ⟨['x'], some demoTrace, some (.str ['o'])⟩).1

end Verif.Embed
