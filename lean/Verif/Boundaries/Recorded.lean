import Verif.Boundaries.Model
/-!
# The model against recorded outputs: boundaries

`crates/aquascope/tests/snapshots/boundaries__*.snap` are outputs of the real tool for the programs in
`crates/aquascope/tests/boundaries/`. Here the programs are written as expressions of the model, and the uses found and
what they need are compared with the recorded `expected` fields, in order. These are tests of the model, not proofs about
it. The visitor's answer is compared before uses without a MIR place are dropped; where that drops something it is noted.
-/
namespace Verif.Boundaries.Recorded
open Verif.Boundaries
open Verif.Permissions (Perms)

def r : Perms := ⟨true, false, false⟩
def rw : Perms := ⟨true, true, false⟩
def rd : Perms := ⟨true, false, true⟩

/-- a variable that is moved, copied, or automatically borrowed -/
def mv (i : Nat) : Expr := .var { id := i }
def cp (i : Nat) : Expr := .var { id := i, copy := true }
def auto (i : Nat) (m : Bool) : Expr := .var { id := i, autoBorrow := some m }
def call (cs : List Expr) : Expr := .other { id := 100 } cs
def lit : Expr := .lit { id := 101 }
def nd : Node := { id := 102 }

/-- What the uses need, in the order in which they are found. -/
def needs (e : Expr) : List Perms := (visit e).map (·.expected)

/-- add_ref.test: `let r = &n; v.push(r);` -/
example : needs (call [.addrOf nd false (mv 1), .methodCall nd false (auto 2 true) [cp 3]]) = [r, rw, r] := by
  decide +kernel

/-- array.test: `a[0] += 1` for an array and for a reference to one -/
example : needs (.assignOp nd (.index nd (mv 1) lit) lit) = [rw] ∧
    needs (.assignOp nd (.index nd (cp 1) lit) lit) = [rw] := by decide +kernel

/-- box.test: `*bx += 1` -/
example : needs (call [call [lit], .assignOp nd (.deref { id := 5, copy := true } (mv 1)) lit]) = [rw] := by
  decide +kernel

/-- coerced_0.test: `let b = &mut s; let coerced: &mut String = b; coerced.push_str("b"); b.push_str("c");` — the typed
`let` reborrows -/
example : needs (call [.addrOf nd true (mv 1), auto 2 true, .methodCall nd false (auto 3 true) [lit],
    .methodCall nd false (auto 2 true) [lit]]) = [rw, rw, rw, rw] := by decide +kernel

/-- moved_0.test: the same without a type: the reference is moved -/
example : needs (call [.addrOf nd true (mv 1), mv 2, .methodCall nd false (auto 3 true) [lit],
    .methodCall nd false (auto 2 true) [lit]]) = [rw, rd, rw, rw] := by decide +kernel

/-- dangling_pointer.test: `&s` -/
example : needs (call [call [lit], .addrOf nd false (mv 1)]) = [r] := by decide +kernel

/-- deref_assign_0.test: `*self = *self` with a type that is not `Copy`, and `*x += 1` -/
example : needs (.assign nd (.deref nd (mv 1)) (.deref nd (mv 1))) = [rw, rd] ∧
    needs (.assignOp nd (.deref { id := 5, copy := true } (mv 1)) lit) = [rw] := by decide +kernel

/-- mut_assign.test: `*s = String::new()` -/
example : needs (.assign nd (.deref nd (mv 1)) (call [])) = [rw] := by decide +kernel

/-- if_0.test -/
example : needs (call [call [lit], call [lit],
    call [lit, .addrOf nd true (mv 1), .addrOf nd true (mv 2)],
    .methodCall nd false (auto 3 true) [lit], .methodCall nd false (auto 1 true) [lit],
    .methodCall nd false (auto 2 true) [lit]]) = [rw, rw, rw, rw, rw] := by decide +kernel

/-- if_1.test: the same with `let b;` and `b = &mut s1;`: the left-hand sides are not recorded -/
example : needs (call [call [lit], call [lit],
    call [lit, .assign nd (mv 3) (.addrOf nd true (mv 1)), .assign nd (mv 3) (.addrOf nd true (mv 2))],
    .methodCall nd false (auto 3 true) [lit], .methodCall nd false (auto 1 true) [lit],
    .methodCall nd false (auto 2 true) [lit]]) = [rw, rw, rw, rw, rw] := by decide +kernel

/-- match_0.test and `refit` of match_1.test: `match opt { Some(_) => …, None => … }; drop(opt);` -/
example : needs (call [call [lit], .match_ nd (mv 1) [call [], call []], call [mv 1]]) = [r, rd] := by decide +kernel

/-- `moveit` of match_1.test: `match &opt { Some(mut s) => println!("{s}"), … }`; the `s` in the format string comes from
the expansion -/
example : needs (call [call [lit], .match_ nd (.addrOf nd false (mv 1))
    [call [.addrOf nd false (.var { id := 2, expansion := true })], call []]]) = [r] := by decide +kernel

/-- read_on_copy_0.test: `s.consume()` where `s = &S(0)` and `S : Copy`: the receiver is dereferenced and copied -/
example : needs (call [.addrOf nd false (call [lit]), .methodCall nd false (cp 1) [], .methodCall nd false (cp 1) [],
    .methodCall nd false (cp 1) [], .methodCall nd false (cp 1) []]) = [r, r, r, r] := by decide +kernel

/-- struct_udpate.test: `a.age += 1; let b = User { age: 1, ..a }; a.age += 1; println!("{} {}", b.name, b.age);` -/
example : needs (call [call [call [lit], lit], .assignOp nd (.field { id := 5, copy := true } (mv 1)) lit,
    call [lit, mv 1], .assignOp nd (.field { id := 5, copy := true } (mv 1)) lit,
    call [.addrOf nd false (.field nd (mv 2)), .addrOf nd false (.field { id := 5, copy := true } (mv 2))]]) =
    [rw, rd, rw, r, r] := by decide +kernel

/-- assignop_path_resolution.test: `let y = &x; let z = *y; x += x * z * *y;` -/
example : needs (call [.addrOf nd false (cp 1), .deref { id := 5, copy := true } (cp 2),
    .assignOp nd (cp 1) (call [call [cp 1, cp 3], .deref { id := 5, copy := true } (cp 2)])]) =
    [r, r, rw, r, r, r] := by decide +kernel

/-- `print_first` and `get_first` of type-driven-flows.test -/
example : needs (call [.addrOf nd false (.index { id := 5, copy := true } (cp 1) lit), .addrOf nd false (cp 2)]) = [r, r] ∧
    needs (call [.addrOf nd false (.index { id := 5, copy := true } (cp 1) lit), cp 2]) = [r, r] := by decide +kernel

/-- closure_0.test: the body of the closure is visited with the function around it; `yay()` borrows `yay` -/
example : needs (call [call [lit], call [.methodCall nd false (auto 1 true) [lit]],
    call [auto 2 true], call [auto 2 true], call [auto 2 true], .addrOf nd false (mv 1)]) = [rw, rw, rw, rw, r] := by
  decide +kernel

/-- closure_1.test: `dst.iter().max_by_key(|s| s.len()).unwrap()` has a use of `dst` and one of `s`; then
`for s in src { if s.len() > largest.len() { dst.push(s.clone()); } }`. A `for` loop is a `match` on a call. -/
example : needs (call [
    .methodCall nd false (.methodCall nd false (.methodCall nd false (auto 1 false) [])
      [call [.methodCall nd false (auto 3 false) []]]) [],
    .match_ nd (call [cp 2]) [call [.match_ nd (call [.addrOf nd true (.var { id := 9, expansion := true })]) [call [],
      call [call [.methodCall nd false (auto 4 false) [], .methodCall nd false (auto 5 false) []],
        .methodCall nd false (auto 1 true) [.methodCall nd false (auto 4 false) []]]]]]]) =
    [r, r, r, r, r, rw, r] := by decide +kernel

/-- captured_0.test, `main`: `let cloner = make_a_cloner(&s_own); drop(s_own); cloner();`. The use of `cloner` in the last
line is found and not in the recorded output, since it is behind the first error (C30). -/
example : needs (call [call [lit], call [.addrOf nd false (mv 1)], call [mv 1], call [auto 2 false]]) = [r, rd, r] := by
  decide +kernel

/-- array_1.test: `let s = a[0]` and `let i = a[0]; drop(i);`. The variable of the place is found, and what it needs is
decided by the type of the variable, not of the element: the recorded output says so for a moved string -/
example : needs (call [.index nd (mv 1) lit]) = [rd] ∧ needs (call [.index nd (cp 1) lit, call [cp 2]]) = [r, r] := by
  decide +kernel

end Verif.Boundaries.Recorded
