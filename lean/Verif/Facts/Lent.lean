import Verif.Facts.Live
/-!
# C110: loans last as long as their holders are of use

Which loans are live at which point is computed by Polonius, called with `Algorithm::Naive`
(`permissions/output.rs:499-524`).  Its rules are stated here (`Within`, `Carries`, `Owed`), from memory of the library;
its source is not in this sandbox.  Origins are the names that the compiler gives to lifetimes.
-/
namespace Verif.Facts.Spec

/-- The facts about loans that rustc hands to Polonius. -/
structure Loans where
  /-- `loan_issued_at`, as (origin, loan, point) -/
  issuedAt : List (Nat × Nat × Nat)
  /-- `subset_base`, as (origin, origin, point) -/
  subsetBase : List (Nat × Nat × Nat)
  /-- `loan_killed_at`, as (loan, point) -/
  killedAt : List (Nat × Nat)
  /-- `origin_live_on_entry` -/
  live : Nat → Nat → Prop

/-- `subset`: at the point, what the first origin holds the second one holds, too. -/
inductive Within (i : Input) (L : Loans) : Nat → Nat → Nat → Prop
  | base {o o' p} : (o, o', p) ∈ L.subsetBase → Within i L o o' p
  | trans {o o' o'' p} : Within i L o o' p → Within i L o' o'' p → Within i L o o'' p
  | edge {o o' p q} : Within i L o o' p → (p, q) ∈ i.cfgEdge → L.live o q → L.live o' q → Within i L o o' q

/-- `origin_contains_loan_on_entry`. -/
inductive Carries (i : Input) (L : Loans) (loan : Nat) : Nat → Nat → Prop
  | issue {o p} : (o, loan, p) ∈ L.issuedAt → Carries i L loan o p
  | subset {o o' p} : Carries i L loan o p → Within i L o o' p → Carries i L loan o' p
  | edge {o p q} : Carries i L loan o p → (loan, p) ∉ L.killedAt → (p, q) ∈ i.cfgEdge → L.live o q → Carries i L loan o q

/-- `loan_live_at`. -/
def Owed (i : Input) (L : Loans) (loan point : Nat) : Prop := ∃ o, Carries i L loan o point ∧ L.live o point

/-- Polonius follows its rules. -/
def Follows (i : Input) (L : Loans) : Prop := ∀ loan p, (loan, p) ∈ i.loanLive ↔ Owed i L loan p

/-- Some way leads from the entry of the function to the point. -/
inductive Reached (i : Input) (entry : Nat) : Nat → Prop
  | entry : Reached i entry entry
  | edge {p q} : Reached i entry p → (p, q) ∈ i.cfgEdge → Reached i entry q

/-- A loan and the variables that hold it, with the origins of their types: variables without destructor that are set
only to the borrow itself or from other holders, as in `let r = &x; let s = r;`. -/
structure Held (i : Input) (used defined : Nat → Nat → Prop) (L : Loans) (entry loan : Nat) (holders : List (Nat × Nat)) :
    Prop where
  /-- the borrow, whose own origin is that of no variable -/
  issue : ∃ o at', (∀ o' q, (o', loan, q) ∈ L.issuedAt ↔ o' = o ∧ q = at') ∧ (∀ p, ¬ L.live o p) ∧
    (∀ o' q, (o, o', q) ∈ L.subsetBase → o' = o ∨ ∃ h ∈ holders, h.2 = o') ∧
    ∀ h ∈ holders, ∀ q, defined h.1 q → (q = at' ∧ (o, h.2, q) ∈ L.subsetBase) ∨
      ∃ g ∈ holders, used g.1 q ∧ (g.2, h.2, q) ∈ L.subsetBase
  /-- the origin of a holder is live while the holder is of use -/
  live : ∀ h ∈ holders, ∀ p, L.live h.2 p ↔ WillUse i used defined h.1 p
  /-- what a holder holds goes to no other variables -/
  flow : ∀ h ∈ holders, ∀ o' q, (h.2, o', q) ∈ L.subsetBase → ∃ g ∈ holders, g.2 = o'
  /-- what is borrowed is not assigned while a holder is of use -/
  kill : ∀ q q', (loan, q) ∈ L.killedAt → (q, q') ∈ i.cfgEdge → ∀ h ∈ holders, ¬ WillUse i used defined h.1 q'
  /-- no holder is used before it is set -/
  start : ∀ h ∈ holders, ¬ WillUse i used defined h.1 entry

end Verif.Facts.Spec

namespace Verif.Facts
open Spec

section

variable {i : Input} {used defined : Nat → Nat → Prop} {L : Loans} {entry loan : Nat} {holders : List (Nat × Nat)}

/-- A holder that is of use carries the loan. -/
theorem held_carries (h : Held i used defined L entry loan holders) {p : Nat} (hp : Reached i entry p) :
    ∀ g ∈ holders, WillUse i used defined g.1 p → Carries i L loan g.2 p := by
  obtain ⟨o, at', h1, h2, h3, h4⟩ := h.issue
  induction hp with
  | entry => exact fun g hg hw => absurd hw (h.start g hg)
  | @edge p q _ he ih =>
    intro g hg hw
    have hk : (loan, p) ∉ L.killedAt := fun hk => h.kill p q hk he g hg hw
    have go : Carries i L loan g.2 p → Carries i L loan g.2 q := fun hc => .edge hc hk he ((h.live g hg q).2 hw)
    by_cases hd : defined g.1 p
    · rcases h4 g hg p hd with ⟨rfl, hs⟩ | ⟨u, hu, huse, hs⟩
      · exact go (.subset (.issue ((h1 o p).2 ⟨rfl, rfl⟩)) (.base hs))
      · exact go (.subset (ih u hu (.use huse)) (.base hs))
    · exact go (ih g hg (.later he hd hw))

/-- Nothing else does. -/
theorem carries_held (h : Held i used defined L entry loan holders) {o₀ p : Nat} (hc : Carries i L loan o₀ p) :
    (∀ q, ¬ L.live o₀ q) ∨ ∃ g ∈ holders, g.2 = o₀ := by
  obtain ⟨o, at', h1, h2, h3, h4⟩ := h.issue
  have within : ∀ {a a' q : Nat}, Within i L a a' q → (a = o ∨ ∃ g ∈ holders, g.2 = a) →
      (a' = o ∨ ∃ g ∈ holders, g.2 = a') := by
    intro a a' q hw
    induction hw with
    | base hb =>
      rintro (rfl | ⟨g, hg, rfl⟩)
      · exact h3 _ _ hb
      · exact .inr (h.flow g hg _ _ hb)
    | trans _ _ ih1 ih2 => exact fun ih => ih2 (ih1 ih)
    | edge _ _ _ _ ih1 => exact ih1
  have key : o₀ = o ∨ ∃ g ∈ holders, g.2 = o₀ := by
    induction hc with
    | issue hi => exact .inl ((h1 _ _).1 hi).1
    | subset _ hw ih => exact within hw ih
    | edge _ _ _ _ ih => exact ih
  rcases key with rfl | hg
  · exact .inl h2
  · exact .inr hg

/-- **C110 (loans and holders).** By the rules of Polonius a loan is live at a point of the function exactly if one of
its holders may still be used. -/
theorem C110_owed (h : Held i used defined L entry loan holders) {p : Nat} (hp : Reached i entry p) :
    Owed i L loan p ↔ ∃ g ∈ holders, WillUse i used defined g.1 p := by
  constructor
  · rintro ⟨o, hc, hl⟩
    rcases carries_held h hc with hn | ⟨g, hg, rfl⟩
    · exact absurd hl (hn p)
    · exact ⟨g, hg, (h.live g hg p).1 hl⟩
  · rintro ⟨g, hg, hw⟩
    exact ⟨g.2, held_carries h hp g hg hw, (h.live g hg p).2 hw⟩

/-- Every loan of a path or of something that overlaps it has holders. -/
def Spec.Lent (i : Input) (used defined : Nat → Nat → Prop) (L : Loans) (entry path : Nat) (holders : Nat → List (Nat × Nat)) :
    Prop :=
  path ∈ i.paths ∧ ∀ l ∈ i.issued, i.conflict (i.borrowed l) path = true → Held i used defined L entry l (holders l)

/-- A holder of a loan of the path may still be used. -/
def Spec.Away (i : Input) (used defined : Nat → Nat → Prop) (path : Nat) (holders : Nat → List (Nat × Nat)) (l p : Nat) :
    Prop :=
  l ∈ i.issued ∧ i.conflict (i.borrowed l) path = true ∧ ∃ g ∈ holders l, WillUse i used defined g.1 p

theorem lent_overlap (hF : Follows i L) {path : Nat} {holders : Nat → List (Nat × Nat)}
    (hl : Lent i used defined L entry path holders) {p : Nat} (hp : Reached i entry p) (l : Nat) :
    LiveOverlap i l path p ↔ Away i used defined path holders l p := by
  constructor
  · rintro ⟨a, b, _, d⟩
    exact ⟨a, d, (C110_owed (hl.2 l a d) hp).1 ((hF l p).1 b)⟩
  · rintro ⟨a, d, e⟩
    exact ⟨a, (hF l p).2 ((C110_owed (hl.2 l a d) hp).2 e), hl.1, d⟩

/-- **C110 (permissions of a borrowed path).** In an accepted program a path may be read exactly while its variable is
of use and no holder of a mutable loan of it is; it may be written, or dropped, exactly while further its type or
declaration allows it and no holder of any loan of it is of use. -/
theorem C110_permissions (ha : Analysed i used defined) {path : Nat} (hc : Accepted i used defined path) {fuel : Nat}
    {o : Output} (h : derive fuel i = some o) (hF : Follows i L) {holders : Nat → List (Nat × Nat)}
    (hl : Lent i used defined L entry path holders) {k : Nat} (hk : Reached i entry (2 * k))
    (hs : InPlace i path (2 * k)) :
    let p := (dataAtPoint i o path (2 * k)).permissions
    (p.read = true ↔ WillUse i used defined (i.varOf path) (2 * k) ∧
      ¬ ∃ l, Away i used defined path holders l (2 * k) ∧ i.isMutLoan l = true) ∧
    (p.write = true ↔ WillUse i used defined (i.varOf path) (2 * k) ∧ i.writeEnabled path = true ∧
      ¬ ∃ l, Away i used defined path holders l (2 * k)) ∧
    (p.drop = true ↔ WillUse i used defined (i.varOf path) (2 * k) ∧ i.dropEnabled path = true ∧
      ¬ ∃ l, Away i used defined path holders l (2 * k)) := by
  obtain ⟨h1, h2, h3⟩ := C104_permissions ha hc h hs
  dsimp only at h1 h2 h3 ⊢
  simp only [lent_overlap hF hl hk] at h1 h2 h3
  exact ⟨h1, h2, h3⟩

end

end Verif.Facts
