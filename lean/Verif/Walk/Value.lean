import Verif.Walk.Props
/-!
# C109: where the value of a variable is of use, read off the source

`uses` and `sets` say which locations use the variable and which give it a new value.  The definitions follow the
structure of the program, not its control flow: in particular there is no iteration for loops.
-/
namespace Verif.Walk

open Verif.Cfg Verif.Segments Verif.HirSteps

section

variable (uses sets : Loc → Bool)

/-- Before a location the value is of use if the location uses it, or does not replace it and it is of use later. -/
def before (l : Loc) (later : Bool) : Bool := uses l || (!sets l && later)

/-- Before some statements of a block. -/
def beforeRun (k : Nat) : Nat → Nat → Bool → Bool
  | _, 0, a => a
  | n, c + 1, a => before uses sets ⟨k, n⟩ (beforeRun k (n + 1) c a)

/-- Before some blocks that contain nothing but a call. -/
def beforeCalls : Nat → Nat → Bool → Bool
  | _, 0, a => a
  | k, c + 1, a => before uses sets ⟨k, 0⟩ (beforeCalls (k + 1) c a)

mutual
/-- Before a program that begins at `⟨k, n⟩`, if it is of use afterwards or not. -/
def Prog.live : Prog → Nat → Nat → Bool → Bool
  | .fin, k, n, a => before uses sets ⟨k, n⟩ (before uses sets ⟨k, n + 1⟩ a)
  | .act _ r, k, n, a => before uses sets ⟨k, n⟩ (r.live k (n + 1) a)
  | .bind _ _ r, k, n, a => before uses sets ⟨k, n⟩ (r.live k (n + 1) a)
  | .call _ r, k, n, a => before uses sets ⟨k, n⟩ (r.live (k + 1) 0 a)
  | .ite _ _ _ _ t e r, k, n, a =>
    let j := r.live (k + 1 + e.size + t.size) 0 a
    before uses sets ⟨k, n⟩ (before uses sets ⟨k, n + 1⟩ (e.live (k + 1) 0 j || t.live (k + 1 + e.size) 0 j))
  | .only _ _ _ t r, k, n, a =>
    let j := r.live (k + 1 + 1 + t.size) 0 a
    before uses sets ⟨k, n⟩ (before uses sets ⟨k, n + 1⟩
      (before uses sets ⟨k + 1, 0⟩ (before uses sets ⟨k + 1, 1⟩ j) || t.live (k + 1 + 1) 0 j))
  | .mtch _ ds i f as r, k, n, a =>
    let j := r.live (k + 1 + 1 + f.size + as.size) 0 a
    before uses sets ⟨k, n⟩ (beforeRun uses sets k (n + 1) ds (before uses sets ⟨k, n + 1 + ds⟩
      (before uses sets ⟨k + 1, 0⟩ (beforeRun uses sets (k + 1 + 1) 0 i.nb (f.live (k + 1 + 1) i.nb j) ||
          as.live (k + 1 + 1 + f.size) j) ||
        as.lives (k + 1 + 1 + f.size) j)))
  | .whl _ _ _ _ _ c t r, k, n, a =>
    let out := before uses sets ⟨k + 3 + c + t.size, 0⟩ (r.live (k + 3 + c + t.size) 1 a)
    before uses sets ⟨k, n⟩ (before uses sets ⟨k + 1, 0⟩ (beforeCalls uses sets (k + 2) c
      (before uses sets ⟨k + 2 + c, 0⟩ (before uses sets ⟨k + 2 + c, 1⟩ (out || t.live (k + 3 + c) 0 false)))))
  | .frl _ _ _ _ _ _ _ nb t r, k, n, a =>
    let out := before uses sets ⟨k + 6 + t.size, 0⟩ (r.live (k + 6 + t.size) 1 a)
    let inn := beforeRun uses sets (k + 6) 0 nb (t.live (k + 6) nb false)
    before uses sets ⟨k, n⟩ (before uses sets ⟨k + 1, 0⟩ (before uses sets ⟨k + 1, 1⟩ (before uses sets ⟨k + 2, 0⟩
      (before uses sets ⟨k + 3, 0⟩ (before uses sets ⟨k + 3, 1⟩ (before uses sets ⟨k + 4, 0⟩
        (before uses sets ⟨k + 4, 1⟩ (before uses sets ⟨k + 5, 0⟩ (out || inn) || inn))))))))
/-- Before the first of the arms, if it is of use where they come together or not. -/
def Arms.live : Arms → Nat → Bool → Bool
  | .last i f, k, j => beforeRun uses sets k 0 i.nb (f.live k i.nb j)
  | .cons i f as, k, j => before uses sets ⟨k, 0⟩
      (beforeRun uses sets (k + 1) 0 i.nb (f.live (k + 1) i.nb j) || as.live (k + 1 + f.size) j)
/-- Before one of the arms. -/
def Arms.lives : Arms → Nat → Bool → Bool
  | .last i f, k, j => beforeRun uses sets k 0 i.nb (f.live k i.nb j)
  | .cons i f as, k, j => before uses sets ⟨k, 0⟩
      (beforeRun uses sets (k + 1) 0 i.nb (f.live (k + 1) i.nb j) || as.live (k + 1 + f.size) j) ||
        as.lives (k + 1 + f.size) j
end

/-- Where the bodies of the arms begin, the ends of their patterns, and whether the value is of use there. -/
def Arms.inside : Arms → Nat → Bool → List ((Loc × Nat) × Bool)
  | .last i f, k, j => [((⟨k, i.nb⟩, i.pat), f.live uses sets k i.nb j)]
  | .cons i f as, k, j => ((⟨k + 1, i.nb⟩, i.pat), f.live uses sets (k + 1) i.nb j) :: as.inside (k + 1 + f.size) j

/-- A step and whether the value is of use where it begins and where it ends. -/
abbrev Told := Step × Bool × Bool

mutual
/-- The steps of a program, with whether the value is of use where they begin and where they end. -/
def Prog.told : Prog → Nat → Nat → Bool → List Told
  | .fin, _, _, _ => []
  | .act sp r, k, n, a =>
    ((⟨k, n⟩, ⟨k, n + 1⟩, sp), Prog.live uses sets (.act sp r) k n a, r.live uses sets k (n + 1) a) :: r.told k (n + 1) a
  | .bind sp vs r, k, n, a =>
    ((⟨k, n⟩, ⟨k, n + 1⟩, sp), Prog.live uses sets (.bind sp vs r) k n a, r.live uses sets k (n + 1) a) ::
      r.told k (n + 1) a
  | .call sp r, k, n, a =>
    ((⟨k, n⟩, ⟨k + 1, 0⟩, sp), Prog.live uses sets (.call sp r) k n a, r.live uses sets (k + 1) 0 a) :: r.told (k + 1) 0 a
  | .ite sp lt le hi t e r, k, n, a =>
    let j := r.live uses sets (k + 1 + e.size + t.size) 0 a
    let el := e.live uses sets (k + 1) 0 j
    let tl := t.live uses sets (k + 1 + e.size) 0 j
    let s := before uses sets ⟨k, n + 1⟩ (el || tl)
    ((⟨k, n⟩, ⟨k, n + 1⟩, sp), Prog.live uses sets (.ite sp lt le hi t e r) k n a, s) ::
      ((⟨k, n + 1⟩, ⟨k + 1, 0⟩, le), s, el) :: ((⟨k, n + 1⟩, ⟨k + 1 + e.size, 0⟩, lt), s, tl) ::
      (t.told (k + 1 + e.size) 0 j ++ (e.told (k + 1) 0 j ++ r.told (k + 1 + e.size + t.size) 0 a))
  | .only sp lt hi t r, k, n, a =>
    let j := r.live uses sets (k + 1 + 1 + t.size) 0 a
    let el := before uses sets ⟨k + 1, 0⟩ (before uses sets ⟨k + 1, 1⟩ j)
    let tl := t.live uses sets (k + 1 + 1) 0 j
    let s := before uses sets ⟨k, n + 1⟩ (el || tl)
    ((⟨k, n⟩, ⟨k, n + 1⟩, sp), Prog.live uses sets (.only sp lt hi t r) k n a, s) ::
      ((⟨k, n + 1⟩, ⟨k + 1, 0⟩, hi), s, el) :: ((⟨k, n + 1⟩, ⟨k + 1 + 1, 0⟩, lt), s, tl) ::
      (t.told (k + 1 + 1) 0 j ++ r.told (k + 1 + 1 + t.size) 0 a)
  | .mtch sp ds i f as r, k, n, a =>
    let j := r.live uses sets (k + 1 + 1 + f.size + as.size) 0 a
    let fl := f.live uses sets (k + 1 + 1) i.nb j
    let s := beforeRun uses sets k (n + 1) ds (before uses sets ⟨k, n + 1 + ds⟩
      (before uses sets ⟨k + 1, 0⟩ (beforeRun uses sets (k + 1 + 1) 0 i.nb fl || as.live uses sets (k + 1 + 1 + f.size) j) ||
        as.lives uses sets (k + 1 + 1 + f.size) j))
    ((⟨k, n⟩, ⟨k, n + 1⟩, sp), Prog.live uses sets (.mtch sp ds i f as r) k n a, s) ::
      ((((⟨k + 1 + 1, i.nb⟩, i.pat), fl) :: as.inside uses sets (k + 1 + 1 + f.size) j).map
          (fun e => ((⟨k, n + 1⟩, e.1.1, e.1.2), s, e.2)) ++
        ((((⟨k + 1 + 1, i.nb⟩, ⟨k + 1 + 1, i.nb⟩, i.lo), fl, fl) :: f.told (k + 1 + 1) i.nb j) ++
          (as.told (k + 1 + 1 + f.size) j ++ r.told (k + 1 + 1 + f.size + as.size) 0 a)))
  | .whl sp sc lt hi sb c t r, k, n, a =>
    let rl := r.live uses sets (k + 3 + c + t.size) 1 a
    let out := before uses sets ⟨k + 3 + c + t.size, 0⟩ rl
    let head := before uses sets ⟨k + 1, 0⟩ (beforeCalls uses sets (k + 2) c
      (before uses sets ⟨k + 2 + c, 0⟩ (before uses sets ⟨k + 2 + c, 1⟩ (out || t.live uses sets (k + 3 + c) 0 false))))
    let inn := t.live uses sets (k + 3 + c) 0 head
    let s := before uses sets ⟨k + 2 + c, 1⟩ (out || inn)
    ((⟨k, n⟩, ⟨k + 2 + c, 1⟩, sc), Prog.live uses sets (.whl sp sc lt hi sb c t r) k n a, s) ::
      ((⟨k + 2 + c, 1⟩, ⟨k + 3 + c + t.size, 0⟩, hi), s, out) :: ((⟨k + 2 + c, 1⟩, ⟨k + 3 + c, 0⟩, lt), s, inn) ::
      (t.told (k + 3 + c) 0 head ++
        (((⟨k + 3 + c + t.size, 0⟩, ⟨k + 3 + c + t.size, 0⟩, sb), out, out) ::
          ((⟨k + 3 + c + t.size, 0⟩, ⟨k + 3 + c + t.size, 1⟩, sp), out, rl) :: r.told (k + 3 + c + t.size) 1 a))
  | .frl sp sa sc hi sn lb li nb t r, k, n, a =>
    let rl := r.live uses sets (k + 6 + t.size) 1 a
    let out := before uses sets ⟨k + 6 + t.size, 0⟩ rl
    let once := beforeRun uses sets (k + 6) 0 nb (t.live uses sets (k + 6) nb false)
    let head := before uses sets ⟨k + 2, 0⟩ (before uses sets ⟨k + 3, 0⟩ (before uses sets ⟨k + 3, 1⟩
      (before uses sets ⟨k + 4, 0⟩ (before uses sets ⟨k + 4, 1⟩ (before uses sets ⟨k + 5, 0⟩ (out || once) || once)))))
    let tl := t.live uses sets (k + 6) nb head
    let inn := beforeRun uses sets (k + 6) 0 nb tl
    let s := before uses sets ⟨k + 4, 0⟩ (before uses sets ⟨k + 4, 1⟩ (before uses sets ⟨k + 5, 0⟩ (out || inn) || inn))
    let q := before uses sets ⟨k + 3, 0⟩ (before uses sets ⟨k + 3, 1⟩ s)
    ((⟨k, n⟩, ⟨k + 3, 0⟩, sa), Prog.live uses sets (.frl sp sa sc hi sn lb li nb t r) k n a, q) ::
      ((⟨k + 3, 0⟩, ⟨k + 4, 0⟩, sc), q, s) :: ((⟨k + 4, 0⟩, ⟨k + 6 + t.size, 0⟩, hi), s, out) ::
      ((⟨k + 4, 0⟩, ⟨k + 6, nb⟩, lb), s, tl) :: ((⟨k + 6 + t.size, 0⟩, ⟨k + 6 + t.size, 0⟩, sn), out, out) ::
      ((⟨k + 6, nb⟩, ⟨k + 6, nb⟩, li), tl, tl) ::
      (t.told (k + 6) nb head ++
        (((⟨k + 6 + t.size, 0⟩, ⟨k + 6 + t.size, 1⟩, sp), out, rl) :: r.told (k + 6 + t.size) 1 a))
def Arms.told : Arms → Nat → Bool → List Told
  | .last i f, k, j =>
    ((⟨k, i.nb⟩, ⟨k, i.nb⟩, i.lo), f.live uses sets k i.nb j, f.live uses sets k i.nb j) :: f.told k i.nb j
  | .cons i f as, k, j =>
    (((⟨k + 1, i.nb⟩, ⟨k + 1, i.nb⟩, i.lo), f.live uses sets (k + 1) i.nb j, f.live uses sets (k + 1) i.nb j) ::
      f.told (k + 1) i.nb j) ++ as.told (k + 1 + f.size) j
end

theorem Arms.inside_entries : ∀ (as : Arms) (k : Nat) (j : Bool),
    (as.inside uses sets k j).map (·.1) = as.entries k
  | .last i f, k, j => rfl
  | .cons i f as, k, j => by simp only [Arms.inside, Arms.entries, List.map_cons, Arms.inside_entries as]

mutual
/-- These are the steps of the program. -/
theorem Prog.told_expected : ∀ (p : Prog) (k n : Nat) (a : Bool), (p.told uses sets k n a).map (·.1) = p.expected k n
  | .fin, _, _, _ => rfl
  | .act sp r, k, n, a => by simp only [Prog.told, Prog.expected, List.map_cons, Prog.told_expected r]
  | .bind sp vs r, k, n, a => by simp only [Prog.told, Prog.expected, List.map_cons, Prog.told_expected r]
  | .call sp r, k, n, a => by simp only [Prog.told, Prog.expected, List.map_cons, Prog.told_expected r]
  | .ite sp lt le hi t e r, k, n, a => by
    simp only [Prog.told, Prog.expected, List.map_cons, List.map_append, Prog.told_expected t, Prog.told_expected e,
      Prog.told_expected r]
  | .only sp lt hi t r, k, n, a => by
    simp only [Prog.told, Prog.expected, List.map_cons, List.map_append, Prog.told_expected t, Prog.told_expected r]
  | .mtch sp ds i f as r, k, n, a => by
    simp only [Prog.told, Prog.expected, List.map_cons, List.map_append, List.map_map, Prog.told_expected f,
      Arms.told_expected as, Prog.told_expected r, ← Arms.inside_entries uses sets as _
        (r.live uses sets (k + 1 + 1 + f.size + as.size) 0 a)]
    rfl
  | .whl sp sc lt hi sb c t r, k, n, a => by
    simp only [Prog.told, Prog.expected, List.map_cons, List.map_append, Prog.told_expected t, Prog.told_expected r]
  | .frl sp sa sc hi sn lb li nb t r, k, n, a => by
    simp only [Prog.told, Prog.expected, List.map_cons, List.map_append, Prog.told_expected t, Prog.told_expected r]
theorem Arms.told_expected : ∀ (as : Arms) (k : Nat) (j : Bool), (as.told uses sets k j).map (·.1) = (as.expected k).flatten
  | .last i f, k, j => by
    simp only [Arms.told, Arms.expected, List.map_cons, List.flatten_cons, List.flatten_nil, List.append_nil,
      Prog.told_expected f]
  | .cons i f as, k, j => by
    simp only [Arms.told, Arms.expected, List.map_cons, List.map_append, List.flatten_cons, Prog.told_expected f,
      Arms.told_expected as]
end

end

end Verif.Walk
