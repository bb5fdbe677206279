import Verif.Pipeline.Borrowed
import Verif.Pipeline.SourceExample
/-!
# C110: what a loan takes and gives back; the assumptions can be met for every program
-/
namespace Verif.Pipeline

open Verif.Cfg Verif.Segments Verif.Steps Verif.Permissions Verif.HirSteps
open Verif.Facts.Spec (WillUse Analysed Accepted Loans Follows Lent Away Reached Held Owed Carries)

section

variable {i : Facts.Input} {path : Nat} {holders : Nat → List (Nat × Nat)} {alive alive' : Nat → Bool}

/-- Some loan of the path is out. -/
def Out (i : Facts.Input) (path : Nat) (holders : Nat → List (Nat × Nat)) (alive : Nat → Bool) (l : Nat) : Prop :=
  l ∈ i.issued ∧ i.conflict (i.borrowed l) path = true ∧ ∃ g ∈ holders l, alive g.1 = true

theorem mem_loansOut {l : Nat} : l ∈ loansOut i path holders alive ↔ Out i path holders alive l := by
  unfold loansOut Out
  simp only [List.mem_filter, List.any_eq_true, and_assoc]

theorem loansOut_empty (h : ∀ l, ¬ Out i path holders alive l) : loansOut i path holders alive = [] :=
  List.eq_nil_iff_forall_not_mem.2 fun l hl => h l (mem_loansOut.1 hl)

/-- **C110 (what a loan takes).** A variable that is of no use has no permissions; nor has one that is lent mutably to
a variable that is of use.  With shared loans out it can be read and nothing else; without loans it has all that its
type and declaration allow. -/
theorem C110_taken :
    (alive (i.varOf path) = false → lentPerms i path holders alive = ⟨false, false, false⟩) ∧
    ((∃ l, Out i path holders alive l ∧ i.isMutLoan l = true) → lentPerms i path holders alive = ⟨false, false, false⟩) ∧
    (alive (i.varOf path) = true → (∃ l, Out i path holders alive l) →
      (∀ l, Out i path holders alive l → i.isMutLoan l = false) → lentPerms i path holders alive = ⟨true, false, false⟩) ∧
    ((∀ l, ¬ Out i path holders alive l) → lentPerms i path holders alive = given i path (alive (i.varOf path))) := by
  have out : (∃ l, Out i path holders alive l) → (loansOut i path holders alive).isEmpty = false := by
    rintro ⟨l, hl⟩
    cases he : loansOut i path holders alive with
    | nil =>
      have := mem_loansOut.2 hl
      rw [he] at this
      cases this
    | cons _ _ => rfl
  refine ⟨?_, ?_, ?_, ?_⟩
  · intro h
    unfold lentPerms
    simp [h]
  · rintro ⟨l, hl, hm⟩
    have h1 : (loansOut i path holders alive).any i.isMutLoan = true := List.any_eq_true.2 ⟨l, mem_loansOut.2 hl, hm⟩
    unfold lentPerms
    simp [h1, out ⟨l, hl⟩]
  · intro ha ho hm
    have h1 : (loansOut i path holders alive).any i.isMutLoan = false := by
      rw [← Bool.not_eq_true, List.any_eq_true]
      rintro ⟨l, hl, h2⟩
      rw [hm l (mem_loansOut.1 hl)] at h2
      cases h2
    unfold lentPerms
    simp [ha, h1, out ho]
  · intro h
    unfold lentPerms given
    rw [loansOut_empty h]
    simp

/-- **C110 (lending and getting back).** Over a step that starts the first loan of a variable that stays of use, it loses
what the loan takes; over a step with the last use of the last holder it gets everything back. -/
theorem C110_lent (h1 : alive (i.varOf path) = true) (h2 : alive' (i.varOf path) = true)
    (hn : ∀ l, ¬ Out i path holders alive l) {l : Nat} (hl : Out i path holders alive' l)
    (hs : ∀ l', Out i path holders alive' l' → l' = l) :
    lentPerms i path holders alive = ⟨true, i.writeEnabled path, i.dropEnabled path⟩ ∧
    lentPerms i path holders alive' = ⟨!i.isMutLoan l, false, false⟩ := by
  constructor
  · rw [C110_taken.2.2.2 hn, h1, given, Bool.true_and, Bool.true_and]
  · cases hm : i.isMutLoan l with
    | true => exact C110_taken.2.1 ⟨l, hl, hm⟩
    | false => exact C110_taken.2.2.1 h2 ⟨l, hl⟩ fun l' h => by rw [hs l' h, hm]

/-- **C110 (shared loans).** The permission to read a variable that is never borrowed mutably comes and goes as if it
were not borrowed at all. -/
theorem C110_shared (hm : ∀ l ∈ i.issued, i.conflict (i.borrowed l) path = true → i.isMutLoan l = false) :
    (lentPerms i path holders alive).read = alive (i.varOf path) := by
  have h1 : (loansOut i path holders alive).any i.isMutLoan = false := by
    rw [← Bool.not_eq_true, List.any_eq_true]
    rintro ⟨l, hl, h2⟩
    obtain ⟨a, b, _⟩ := mem_loansOut.1 hl
    rw [hm l a b] at h2
    cases h2
  unfold lentPerms
  simp [h1]

end

/-! ## Facts for every program -/

/-- Uses and sets of several variables. -/
def mentioned (b : Body) (n : Nat) (at_ : Nat → Loc → Bool) (v q : Nat) : Prop :=
  v ≤ n ∧ ∃ l, Inside b l ∧ at_ v l = true ∧ q = point b l + 1

/-- The variable `0` is borrowed at the given locations, mutably or not; the loan `j` is held by the variable `j + 1`.
The origin of the variable `v` is `2 * v`, that of the borrow of the loan `j` is `2 * j + 1`. -/
def lending (b : Body) (w d : Bool) (ls : List (Bool × Loc)) (live loans : List (Nat × Nat)) : Facts.Input :=
  { bare b w d live with
    conflict := fun _ _ => true
    issued := List.range ls.length
    isMutLoan := fun j => ls[j]?.any (·.1)
    loanLive := loans
    varOf := id }

def lendingFacts (b : Body) (i : Facts.Input) (used defined : Nat → Nat → Prop) (ls : List (Bool × Loc)) : Loans where
  issuedAt := ls.zipIdx.map fun e => (2 * e.2 + 1, e.2, point b e.1.2 + 1)
  subsetBase := ls.zipIdx.map fun e => (2 * e.2 + 1, 2 * (e.2 + 1), point b e.1.2 + 1)
  killedAt := []
  live := fun o q => ∃ v, o = 2 * v ∧ WillUse i used defined v q

theorem within_edges {i j : Facts.Input} (h : i.cfgEdge = j.cfgEdge) {L : Loans} {o o' q : Nat}
    (hw : Facts.Spec.Within i L o o' q) : Facts.Spec.Within j L o o' q := by
  induction hw with
  | base hb => exact .base hb
  | trans _ _ a b => exact .trans a b
  | edge _ he a b ih => exact .edge ih (h ▸ he) a b

theorem carries_edges {i j : Facts.Input} (h : i.cfgEdge = j.cfgEdge) {L : Loans} {loan o q : Nat}
    (hc : Carries i L loan o q) : Carries j L loan o q := by
  induction hc with
  | issue hi => exact .issue hi
  | subset _ hw ih => exact .subset ih (within_edges h hw)
  | edge _ hk he hl ih => exact .edge ih hk (h ▸ he) hl

theorem carries_issued {i : Facts.Input} {L : Loans} {loan o q : Nat} (hc : Carries i L loan o q) :
    ∃ o' q', (o', loan, q') ∈ L.issuedAt := by
  induction hc with
  | issue hi => exact ⟨_, _, hi⟩
  | subset _ _ ih => exact ih
  | edge _ _ _ _ ih => exact ih

/-- **C110 (every program can be analysed).** For every program, every choice of borrows of the variable `0`, each held by
a variable of its own, and every choice of uses such that the holders are set where the borrows are and not used before,
there are facts that meet the assumptions of C110, and a context whose permissions are computed from them. -/
theorem C110_possible (p : Walk.Prog) (m : Mention) (ls : List (Bool × Loc))
    (hset : ∀ (j : Nat) (e : Bool × Loc), ls[j]? = some e → Inside p.body e.2 ∧
      (∀ l, (m (j + 1)).2 l = true → l = e.2) ∧ p.live (m (j + 1)).1 (m (j + 1)).2 0 0 false = false)
    (w d : Bool) (c : Ctxt) (x : Place) :
    ∃ (i : Facts.Input) (used defined : Nat → Nat → Prop) (L : Loans) (data : Loc → Place → Data),
      Borrowed { c with data := data } p.body i used defined x 0 L (fun j => [(j + 1, 2 * (j + 1))]) ∧ Rests p i 0 ∧ Flow p.body i ∧
      (∀ v, Matters i 0 (fun j => [(j + 1, 2 * (j + 1))]) v → Mentions p.body used defined v (m v).1 (m v).2) ∧
      i.varOf 0 = 0 ∧ i.issued = List.range ls.length ∧ (∀ l, i.conflict (i.borrowed l) 0 = true) ∧
      (∀ (j : Nat) (e : Bool × Loc), ls[j]? = some e → i.isMutLoan j = e.1) ∧
      i.writeEnabled 0 = w ∧ i.dropEnabled 0 = d := by
  classical
  let n := ls.length
  let used := mentioned p.body n (fun v => (m v).1)
  let defined := mentioned p.body n (fun v => (m v).2)
  let i₀ := lending p.body w d ls [] []
  let L := lendingFacts p.body i₀ used defined ls
  let all := (locsOf p.body).flatMap fun l => [point p.body l, point p.body l + 1]
  let live := (List.range (n + 1)).flatMap fun v =>
    (all.filter fun q => decide (WillUse i₀ used defined v q)).map fun q => (q, v)
  let loans := (List.range n).flatMap fun j => (all.filter fun q => decide (Owed i₀ L j q)).map fun q => (j, q)
  let i := lending p.body w d ls live loans
  obtain ⟨fuel, o, ho⟩ := Facts.C24_terminates i
  have hflow : Flow p.body i := fun x y => mem_edgesOf
  have hall : ∀ l, Inside p.body l → point p.body l ∈ all ∧ point p.body l + 1 ∈ all := by
    intro l hl
    exact ⟨List.mem_flatMap.2 ⟨l, mem_locsOf.2 hl, by simp⟩, List.mem_flatMap.2 ⟨l, mem_locsOf.2 hl, by simp⟩⟩
  have hwu : ∀ {v q}, WillUse i₀ used defined v q ↔ WillUse i used defined v q := willUse_edges (i := i₀) (j := i) rfl
  have hzero : ∀ v q, WillUse i used defined v q → v ≤ n ∧ q ∈ all := by
    intro v q hw
    induction hw with
    | use hu =>
      obtain ⟨hv, l, hl, _, rfl⟩ := hu
      exact ⟨hv, (hall l hl).2⟩
    | later he _ _ ih =>
      refine ⟨ih.1, ?_⟩
      rcases mem_edgesOf.1 he with ⟨l, hl, rfl, _⟩ | ⟨l, l', hl, _, rfl, _⟩
      · exact (hall l hl).1
      · exact (hall l hl).2
  have han : Analysed i used defined := by
    refine ⟨?_, ?_, ?_, ?_, ?_, by intro d p q h; cases h⟩
    · intro k q he
      rcases (hflow _ _).1 he with ⟨l, _, h1, h2⟩ | ⟨l, l', _, _, h1, h2⟩
      · omega
      · obtain ⟨k', hk'⟩ := point_even p.body l
        omega
    · intro k q he
      rcases (hflow _ _).1 he with ⟨l, _, h1, h2⟩ | ⟨l, l', _, _, h1, h2⟩
      · obtain ⟨k', hk'⟩ := point_even p.body l
        omega
      · obtain ⟨k', hk'⟩ := point_even p.body l'
        exact ⟨k', by omega⟩
    · rintro v q ⟨_, l, hl, _, rfl⟩
      obtain ⟨k', hk'⟩ := point_even p.body l
      exact ⟨k', by omega, (hflow _ _).2 (.inl ⟨l, hl, by omega, rfl⟩)⟩
    · rintro v q ⟨_, l, hl, _, rfl⟩
      obtain ⟨k', hk'⟩ := point_even p.body l
      exact ⟨k', by omega⟩
    · intro v q
      show (q, v) ∈ live ↔ _
      simp only [live, List.mem_flatMap, List.mem_range, List.mem_map, List.mem_filter, decide_eq_true_eq]
      constructor
      · rintro ⟨v', _, q', ⟨_, h2⟩, h3⟩
        cases h3
        exact hwu.1 h2
      · intro hw
        obtain ⟨hv, hq⟩ := hzero v q hw
        exact ⟨v, by omega, q, ⟨hq, hwu.2 hw⟩, rfl⟩
  have hmen : ∀ v, v ≤ n → Mentions p.body used defined v (m v).1 (m v).2 := by
    intro v hv l hl
    constructor
    · constructor
      · rintro ⟨_, l', hl', h, he⟩
        rw [point_inj hl hl' (by omega)]
        exact h
      · exact fun h => ⟨hv, l, hl, h, rfl⟩
    · constructor
      · rintro ⟨_, l', hl', h, he⟩
        rw [point_inj hl hl' (by omega)]
        exact h
      · exact fun h => ⟨hv, l, hl, h, rfl⟩
  have hiss : ∀ o j q, (o, j, q) ∈ L.issuedAt ↔ ∃ e, ls[j]? = some e ∧ o = 2 * j + 1 ∧ q = point p.body e.2 + 1 := by
    intro o j q
    show (o, j, q) ∈ ls.zipIdx.map _ ↔ _
    rw [List.mem_map]
    constructor
    · rintro ⟨⟨e, j'⟩, h1, h2⟩
      cases h2
      exact ⟨e, List.mem_zipIdx_iff_getElem?.1 h1, rfl, rfl⟩
    · rintro ⟨e, h1, rfl, rfl⟩
      exact ⟨(e, j), List.mem_zipIdx_iff_getElem?.2 h1, rfl⟩
  have hsub : ∀ o o' q, (o, o', q) ∈ L.subsetBase ↔
      ∃ j e, ls[j]? = some e ∧ o = 2 * j + 1 ∧ o' = 2 * (j + 1) ∧ q = point p.body e.2 + 1 := by
    intro o o' q
    show (o, o', q) ∈ ls.zipIdx.map _ ↔ _
    rw [List.mem_map]
    constructor
    · rintro ⟨⟨e, j'⟩, h1, h2⟩
      cases h2
      exact ⟨j', e, List.mem_zipIdx_iff_getElem?.1 h1, rfl, rfl, rfl⟩
    · rintro ⟨j, e, h1, rfl, rfl, rfl⟩
      exact ⟨(e, j), List.mem_zipIdx_iff_getElem?.2 h1, rfl⟩
  have hfollow : Follows i L := by
    intro j q
    show (j, q) ∈ loans ↔ _
    simp only [loans, List.mem_flatMap, List.mem_range, List.mem_map, List.mem_filter, decide_eq_true_eq]
    constructor
    · rintro ⟨j', _, q', ⟨_, o', h2, h3⟩, h4⟩
      cases h4
      exact ⟨o', carries_edges (i := i₀) (j := i) rfl h2, h3⟩
    · rintro ⟨o', h2, h3⟩
      obtain ⟨o'', q'', h4⟩ := carries_issued h2
      obtain ⟨e, h5, _⟩ := (hiss _ _ _).1 h4
      obtain ⟨hj, _⟩ := List.getElem?_eq_some_iff.1 h5
      obtain ⟨v, _, hw⟩ := id h3
      exact ⟨j, hj, q, ⟨(hzero v q (hwu.1 hw)).2, o', carries_edges (i := i) (j := i₀) rfl h2, h3⟩, rfl⟩
  refine ⟨i, used, defined, L, fun l _ => Facts.dataAtPoint i o 0 (point p.body l), ?_, ?_, hflow, ?_, rfl, rfl, fun _ => rfl,
    ?_, rfl, rfl⟩
  · refine ⟨⟨fuel, o, ho, fun _ => rfl⟩, han, ?_, hfollow, List.mem_singleton.2 rfl, ?_⟩
    · refine ⟨?_, ?_, ?_, ?_⟩
      · intro k mv p₀ s _ h
        cases h
      · intro k d _ _ h
        cases h
      · rintro mv q ⟨p₀, s, h, _⟩
        cases h
      · rintro q ⟨d, e, pred, _, _, h, _⟩
        cases h
    · intro j hj _
      have hj' : j < ls.length := List.mem_range.1 hj
      obtain ⟨e, he⟩ : ∃ e, ls[j]? = some e := ⟨_, List.getElem?_eq_getElem hj'⟩
      obtain ⟨hin, hs, hst⟩ := hset j e he
      have one : ∀ (g : Nat × Nat), g ∈ [(j + 1, 2 * (j + 1))] → g = (j + 1, 2 * (j + 1)) := fun g hg => List.mem_singleton.1 hg
      refine ⟨⟨2 * j + 1, point p.body e.2 + 1, ?_, ?_, ?_, ?_⟩, ?_, ?_, ?_, ?_⟩
      · intro o' q
        rw [hiss]
        constructor
        · rintro ⟨e', h1, h2, h3⟩
          rw [he] at h1
          cases h1
          exact ⟨h2, h3⟩
        · rintro ⟨rfl, rfl⟩
          exact ⟨e, he, rfl, rfl⟩
      · rintro q ⟨v, h, _⟩
        omega
      · intro o' q h
        obtain ⟨j', e', _, h2, rfl, _⟩ := (hsub _ _ _).1 h
        exact .inr ⟨_, List.mem_singleton.2 rfl, by dsimp only; omega⟩
      · intro g hg q hd
        rw [one g hg] at hd ⊢
        obtain ⟨_, l, hl, h1, rfl⟩ := hd
        have := hs l h1
        subst this
        exact .inl ⟨rfl, (hsub _ _ _).2 ⟨j, e, he, rfl, rfl, rfl⟩⟩
      · intro g hg q
        rw [one g hg]
        constructor
        · rintro ⟨v, h1, h2⟩
          have : v = j + 1 := by dsimp only at h1; omega
          subst this
          exact hwu.1 h2
        · exact fun h => ⟨j + 1, rfl, hwu.2 h⟩
      · intro g hg o' q h
        rw [one g hg] at h
        obtain ⟨j', e', _, h2, _⟩ := (hsub _ _ _).1 h
        dsimp only at h2
        omega
      · intro q q' h
        cases h
      · intro g hg h
        rw [one g hg] at h
        have := ((alive_wanted p han hflow (hmen (j + 1) hj') (start_inside p)).trans
          (live_exact p 0 0 .ret false (Walk.body_slice p) (leaves_ret _)).iff).1 h
        rw [hst] at this
        cases this
  · intro l _
    refine ⟨?_, ?_⟩
    · rintro mv ⟨p₀, s, h, _⟩
      cases h
    · rintro ⟨d, e, pred, _, _, h, _⟩
      cases h
  · rintro v (rfl | ⟨j, hj, _, g, hg, rfl⟩)
    · exact hmen _ (Nat.zero_le _)
    · rw [List.mem_singleton.1 hg]
      exact hmen _ (List.mem_range.1 hj)
  · intro j e he
    show ls[j]?.any (·.1) = e.1
    rw [he]
    rfl

/-! ## `let mut x = ..; let r = &x; while c() { use(r); }; let s = &mut x; use(s); drop(x); y = 1` -/

namespace LendExample

def prog : Walk.Prog :=
  .bind 1 [0] (.bind 2 [1] (.whl 20 3 4 5 6 1 (.act 7 .fin) (.bind 8 [2] (.act 9 (.act 10 (.act 11 .fin))))))

/-- `x` is set, borrowed, borrowed again and dropped; `r` is used in the loop; `s` is used once. -/
def mention : Mention
  | 0 => (fun l => l == ⟨0, 1⟩ || l == ⟨5, 1⟩ || l == ⟨5, 3⟩, fun l => l == ⟨0, 0⟩)
  | 1 => (fun l => l == ⟨4, 0⟩, fun l => l == ⟨0, 1⟩)
  | 2 => (fun l => l == ⟨5, 2⟩, fun l => l == ⟨5, 1⟩)
  | _ => (fun _ => false, fun _ => false)

def loans : List (Bool × Loc) := [(false, ⟨0, 1⟩), (true, ⟨5, 1⟩)]

def facts : Facts.Input := lending prog.body true true loans [] []

def rows : List (Nat × Perms × Perms) :=
  (toldAll (mention 0).1 (mention 0).2 prog 99).zipIdx.map fun e => (e.1.1.2.2,
    lentPerms facts 0 (fun j => [(j + 1, 2 * (j + 1))]) (begins mention prog 99 e.2),
    lentPerms facts 0 (fun j => [(j + 1, 2 * (j + 1))]) (ends mention prog 99 e.2))

/-- `x` has all permissions after its `let`; only that to read once `r` is set, and so through the whole loop; the rest
comes back where the loop is left; the mutable borrow takes everything and the last use of `s` gives it back. -/
example : rows.filter (fun e => e.2.1 ≠ e.2.2) =
    [(1, ⟨false, false, false⟩, ⟨true, true, true⟩), (2, ⟨true, true, true⟩, ⟨true, false, false⟩),
      (5, ⟨true, false, false⟩, ⟨true, true, true⟩), (8, ⟨true, true, true⟩, ⟨false, false, false⟩),
      (9, ⟨false, false, false⟩, ⟨true, true, true⟩), (10, ⟨true, true, true⟩, ⟨false, false, false⟩)] := by decide

/-- C110 speaks of this program. -/
example (c : Ctxt) (x : Place) : ∃ (i : Facts.Input) (used defined : Nat → Nat → Prop) (L : Loans)
    (data : Loc → Place → Data),
    Borrowed { c with data := data } prog.body i used defined x 0 L (fun j => [(j + 1, 2 * (j + 1))]) ∧
    Rests prog i 0 ∧ Flow prog.body i ∧ (∀ v, Matters i 0 (fun j => [(j + 1, 2 * (j + 1))]) v →
      Mentions prog.body used defined v (mention v).1 (mention v).2) ∧ i.issued = [0, 1] := by
  obtain ⟨i, used, defined, L, data, h1, h0, h2, h3, _, h4, _⟩ := C110_possible prog mention loans (by
    intro j e he
    match j with
    | 0 => cases he; exact ⟨mem_locsOf.1 (by decide), fun l hl => by simpa [mention] using hl, by decide⟩
    | 1 => cases he; exact ⟨mem_locsOf.1 (by decide), fun l hl => by simpa [mention] using hl, by decide⟩
    | j + 2 => cases he) true true c x
  exact ⟨i, used, defined, L, data, h1, h0, h2, h3, h4⟩

end LendExample

end Verif.Pipeline
