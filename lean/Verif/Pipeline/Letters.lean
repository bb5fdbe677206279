import Verif.Boundaries.Checked
import Verif.Pipeline.BorrowedProps
/-!
# C112: the letters at the uses of a borrowed variable
-/
namespace Verif.Pipeline

open Verif.Cfg Verif.Segments Verif.Steps Verif.Permissions Verif.HirSteps
open Verif.Facts.Spec (WillUse Analysed Accepted Loans Follows Lent Away Reached MaybeUninit LiveOverlap)
open Verif.Boundaries (Whole Use Tells Rejected Plain Checker Marked Based CannotRead)

section

variable {i : Facts.Input} {used defined : Nat → Nat → Prop} {path : Nat} {L : Loans} {holders : Nat → List (Nat × Nat)}
  {w : Whole} {fl : Flow.Input} {use : Use} {ctx id : Nat} {place : Place} {icons : List (Frontend.Letter × Bool)}

/-- The loans of a variable that are live where a step begins, read off the source. -/
theorem out_told (p : Walk.Prog) (sp : Nat) {fuel : Nat} (hfu : fuel ≠ 0)
    {ord : List (Loc × Nat) → List (Loc × Nat)} (hord : ∀ l, (ord l).Perm l) {f : Frozen}
    {locals : List (Nat × List Nat)} (h : compute (.ofBody p.body fuel ord) (p.source sp) = .steps f locals)
    (ha : Analysed i used defined) (hF : Follows i L) (hl : Lent i used defined L (point p.body startLoc) path holders)
    (hf : Flow p.body i) {m : Mention}
    (hm : ∀ v, Matters i path holders v → Mentions p.body used defined v (m v).1 (m v).2) {k : Nat} {s : Seg}
    (hk : f.segs[k]? = some s) (l : Nat) :
    LiveOverlap i l path (point p.body s.from) ↔ Out i path holders (begins m p sp k) l := by
  obtain ⟨f', locals', h1, h2, _⟩ := Walk.C102_programs p sp hfu hord
  rw [h] at h1
  cases h1
  have hv := fun v (hv : Matters i path holders v) => alive_told p sp ha hf (hm v hv) h2 hk
  obtain ⟨_, _, i1, _⟩ := hv _ (.inl rfl)
  rw [Facts.lent_overlap hF hl (reached_inside p hf i1)]
  unfold Away Out
  refine and_congr_right fun h4 => and_congr_right fun h5 => exists_congr fun g => and_congr_right fun h6 => ?_
  exact (hv _ (.inr ⟨l, h4, h5, g, h6, rfl⟩)).1

/-- **C112 (letters).** For every program of statements, `let`s, calls, `if`s, `match`es and loops, nested in any way,
accepted by the borrow checker or not, and a use of a borrowed variable by the location where a step begins: R is missing
in the stack of the use exactly if a holder of a mutable loan of the variable is of use there, W and O exactly if they are
needed and forbidden by the declaration or the type, or a holder of any loan of the variable is of use there. -/
theorem C112_letters (p : Walk.Prog) (sp : Nat) {fuel : Nat} (hfu : fuel ≠ 0)
    {ord : List (Loc × Nat) → List (Loc × Nat)} (hord : ∀ l, (ord l).Perm l) {f : Frozen}
    {locals : List (Nat × List Nat)} (h : compute (.ofBody p.body fuel ord) (p.source sp) = .steps f locals)
    (ha : Analysed w.facts used defined) (hc : Accepted w.facts used defined path)
    (hrest : Rests p w.facts path) (hF : Follows w.facts L)
    (hl : Lent w.facts used defined L (point p.body startLoc) path holders) (hf : Flow p.body w.facts) {m : Mention}
    (hm : ∀ v, Matters w.facts path holders v → Mentions p.body used defined v (m v).1 (m v).2) {k : Nat} {s : Seg}
    (hk : f.segs[k]? = some s) (hs : w.start s.from = point p.body s.from) (hpa : w.path place = path)
    (hu : (m (w.facts.varOf path)).1 s.from = true) (ht : Tells w fl use ctx id (w.start s.from) place icons) :
    ((Frontend.Letter.R, true) ∈ icons ↔
      ∃ l, Out w.facts path holders (begins m p sp k) l ∧ w.facts.isMutLoan l = true) ∧
    ((Frontend.Letter.W, true) ∈ icons ↔ use.needsWrite ∧
      (w.facts.writeEnabled path = false ∨ ∃ l, Out w.facts path holders (begins m p sp k) l)) ∧
    ((Frontend.Letter.O, true) ∈ icons ↔ use.needsOwn ∧
      (w.facts.dropEnabled path = false ∨ ∃ l, Out w.facts path holders (begins m p sp k) l)) := by
  obtain ⟨f', locals', h1, h2, _⟩ := Walk.C102_programs p sp hfu hord
  rw [h] at h1
  cases h1
  obtain ⟨_, _, i1, _⟩ := alive_told p sp ha hf (hm _ (.inl rfl)) h2 hk
  have hout := out_told p sp hfu hord h ha hF hl hf hm hk
  have hused := ((hm _ (.inl rfl)) s.from i1).1.2 hu
  obtain ⟨n, hn⟩ := point_even p.body s.from
  have hwill : WillUse w.facts used defined (w.facts.varOf path) (point p.body s.from) := by
    refine .later ((hf _ _).2 (.inl ⟨_, i1, rfl, rfl⟩)) (fun hd => ?_) (.use hused)
    obtain ⟨n', hn'⟩ := ha.define _ _ hd
    omega
  have hin := hrest _ (stop_seg h2 (List.mem_of_getElem? hk)).1
  rw [hn] at hwill hin
  obtain ⟨n1, n2⟩ := Facts.willUse_settled ha hc hin hwill
  rw [← hn, ← hs] at n1 n2
  have hread : CannotRead w (w.start s.from) place ↔
      ∃ l, Out w.facts path holders (begins m p sp k) l ∧ w.facts.isMutLoan l = true := by
    unfold CannotRead
    rw [hpa]
    constructor
    · rintro (h | h | ⟨l, h3, h4⟩)
      · exact absurd h n1
      · exact absurd h n2
      · exact ⟨l, (hout l).1 (hs ▸ h3), h4⟩
    · rintro ⟨l, h3, h4⟩
      exact .inr (.inr ⟨l, hs ▸ (hout l).2 h3, h4⟩)
  have hbor : Boundaries.Borrowed w (w.start s.from) place ↔ ∃ l, Out w.facts path holders (begins m p sp k) l := by
    unfold Boundaries.Borrowed
    rw [hpa, hs]
    exact exists_congr hout
  rw [ht.read, ht.write, ht.own, hread, hbor, hpa]
  simp only [true_iff]
  refine ⟨trivial, and_congr_right fun _ => ?_, and_congr_right fun _ => ?_⟩
  · constructor
    · rintro (⟨l, h3, _⟩ | h3)
      · exact .inr ⟨l, h3⟩
      · exact h3
    · exact .inr
  · constructor
    · rintro (⟨l, h3, _⟩ | h3)
      · exact .inr ⟨l, h3⟩
      · exact h3
    · exact .inr

/-- **C112 (objections).** Apart from the cases in which the borrow checker is more lenient, it rejects such a use exactly
if a holder is of use where it is: a holder of a mutable loan, or of any loan if the use writes or moves; or if the
declaration or the type forbids it. -/
theorem C112_rejected_partial (p : Walk.Prog) (sp : Nat) {fuel : Nat} (hfu : fuel ≠ 0)
    {ord : List (Loc × Nat) → List (Loc × Nat)} (hord : ∀ l, (ord l).Perm l) {f : Frozen}
    {locals : List (Nat × List Nat)} (h : compute (.ofBody p.body fuel ord) (p.source sp) = .steps f locals)
    (ha : Analysed w.facts used defined) (hc : Accepted w.facts used defined path)
    (hrest : Rests p w.facts path) (hF : Follows w.facts L)
    (hl : Lent w.facts used defined L (point p.body startLoc) path holders) (hf : Flow p.body w.facts) {m : Mention}
    (hm : ∀ v, Matters w.facts path holders v → Mentions p.body used defined v (m v).1 (m v).2) {k : Nat} {s : Seg}
    (hk : f.segs[k]? = some s) (hs : w.start s.from = point p.body s.from) (hpa : w.path place = path)
    (hu : (m (w.facts.varOf path)).1 s.from = true) (ht : Tells w fl use ctx id (w.start s.from) place icons)
    {c : Checker} (hb : Based w c) (hp : Plain w c use s.from place) :
    Rejected w c use s.from place ↔
      (∃ l, Out w.facts path holders (begins m p sp k) l ∧
        (w.facts.isMutLoan l = true ∨ use.needsWrite ∨ use.needsOwn)) ∨
      (use.needsWrite ∧ w.facts.writeEnabled path = false) ∨ (use.needsOwn ∧ w.facts.dropEnabled path = false) := by
  obtain ⟨h1, h2, h3⟩ := C112_letters p sp hfu hord h ha hc hrest hF hl hf hm hk hs hpa hu ht
  have : Rejected w c use s.from place ↔ Marked icons :=
    ⟨Boundaries.C111_shown hb ht, Boundaries.C111_objection_partial hp ht⟩
  rw [this]
  unfold Marked
  rw [h1, h2, h3]
  constructor
  · rintro (⟨l, a, b⟩ | ⟨a, b | ⟨l, b⟩⟩ | ⟨a, b | ⟨l, b⟩⟩)
    · exact .inl ⟨l, a, .inl b⟩
    · exact .inr (.inl ⟨a, b⟩)
    · exact .inl ⟨l, b, .inr (.inl a)⟩
    · exact .inr (.inr ⟨a, b⟩)
    · exact .inl ⟨l, b, .inr (.inr a)⟩
  · rintro (⟨l, a, b | b | b⟩ | ⟨a, b⟩ | ⟨a, b⟩)
    · exact .inl ⟨l, a, b⟩
    · exact .inr (.inl ⟨b, .inr ⟨l, a⟩⟩)
    · exact .inr (.inr ⟨b, .inr ⟨l, a⟩⟩)
    · exact .inr (.inl ⟨a, .inl b⟩)
    · exact .inr (.inr ⟨a, .inl b⟩)

end

/-! ## `let x = ..; let r = &mut x; use(x); use(r); use(x)` -/

namespace LetterExample

def prog : Walk.Prog := .bind 1 [0] (.bind 2 [1] (.act 3 (.act 4 (.act 5 .fin))))

def mention : Mention
  | 0 => (fun l => l == ⟨0, 1⟩ || l == ⟨0, 2⟩ || l == ⟨0, 4⟩, fun l => l == ⟨0, 0⟩)
  | 1 => (fun l => l == ⟨0, 3⟩, fun l => l == ⟨0, 1⟩)
  | _ => (fun _ => false, fun _ => false)

def facts : Facts.Input := lending prog.body true true [(true, ⟨0, 1⟩)] [] []

/-- Where the steps begin, whether `x` is used there and whether its loan is out: at the borrow and at the last use it is
not, and the use in between is rejected. -/
example : (toldAll (mention 0).1 (mention 0).2 prog 9).zipIdx.map (fun e => (e.1.1.1, (mention 0).1 e.1.1.1,
      loansOut facts 0 (fun j => [(j + 1, 2 * (j + 1))]) (begins mention prog 9 e.2))) =
    [(⟨0, 0⟩, false, []), (⟨0, 1⟩, true, []), (⟨0, 2⟩, true, [0]), (⟨0, 3⟩, false, [0]), (⟨0, 4⟩, true, []),
      (⟨0, 5⟩, false, [])] := by decide

/-- There are facts for this program that meet the assumptions of C112. -/
example (c : Ctxt) (x : Place) : ∃ (i : Facts.Input) (used defined : Nat → Nat → Prop) (L : Loans),
    Analysed i used defined ∧ Accepted i used defined 0 ∧ Rests prog i 0 ∧ Follows i L ∧
    Lent i used defined L (point prog.body startLoc) 0 (fun j => [(j + 1, 2 * (j + 1))]) ∧ Flow prog.body i ∧
    (∀ v, Matters i 0 (fun j => [(j + 1, 2 * (j + 1))]) v →
      Mentions prog.body used defined v (mention v).1 (mention v).2) ∧ i.issued = [0] := by
  obtain ⟨i, used, defined, L, data, h1, h0, h2, h3, _, h4, _⟩ := C110_possible prog mention [(true, ⟨0, 1⟩)] (by
    intro j e he
    match j with
    | 0 => cases he; exact ⟨mem_locsOf.1 (by decide), fun l hl => by simpa [mention] using hl, by decide⟩
    | j + 1 => cases he) true true c x
  exact ⟨i, used, defined, L, h1.analysed, h1.accepted, h0, h1.follows, h1.lent, h2, h3, h4⟩

end LetterExample

end Verif.Pipeline
