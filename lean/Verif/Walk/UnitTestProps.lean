import Verif.Walk.UnitTest
import Verif.Walk.Accepted
import Verif.Walk.PanicsAccepted
import Verif.HirSteps.Coverage
import Verif.HirSteps.Examples
/-!
# C133: what the unit tests of the steps say

A test without an expected panic passes if the analysis gives accepted steps for every body, or if the compiler stops
before; with an expected panic only the first body that fails counts.
-/
namespace Verif.Walk

open Verif.Cfg Verif.Segments Verif.Graph Verif.HirSteps
open Verif.TestRun (Part containsText)

/-! ## Specification -/

/-- The analysis gives steps for the function, and the check accepts them. -/
def Fn.Good (x : Fn) : Prop := ∃ f locals, compute x.E x.value = .steps f locals ∧ validate x.b f = .ok ()

/-- What the test should say about a function for which it is not good. -/
def Fn.Says (x : Fn) : Msg → Prop
  | .unsupported => compute x.E x.value = .unsupported
  | .internal => ∃ es, compute x.E x.value = .internal es
  | .freeze => compute x.E x.value = .notFinished
  | .invalid => ∃ f locals e, compute x.E x.value = .steps f locals ∧ validate x.b f = .error e
  | .crash e => compute x.E x.value = .crash e

/-- A part of the program that panics. -/
def Fails : Part Fn → Panic → Prop
  | .got x, .test m => x.Says m
  | .panic, .compiler => True
  | _, _ => False

/-- A part of the program with nothing wrong. -/
def Sound (p : Part Fn) : Prop := ∃ x, p = .got x ∧ x.Good

/-! ## Proofs -/

theorem Fn.test_cases (x : Fn) : (x.test = none ↔ x.Good) ∧ ∀ m, x.test = some m ↔ x.Says m := by
  unfold Fn.test Fn.Good Fn.Says compute
  cases hv : visitBody x.E x.value V.make with
  | error e =>
    refine ⟨by simp, fun m => ?_⟩
    cases m <;> simp
  | ok v =>
    dsimp only
    by_cases h1 : v.unsupported ≠ 0
    · rw [if_pos h1, if_pos h1]
      refine ⟨by simp, fun m => ?_⟩
      cases m <;> simp
    rw [if_neg h1, if_neg h1]
    by_cases h2 : v.fatal ≠ []
    · rw [if_pos h2, if_pos h2]
      refine ⟨by simp, fun m => ?_⟩
      cases m <;> simp
    rw [if_neg h2, if_neg h2]
    cases hf : v.st.freeze with
    | error e =>
      refine ⟨by simp, fun m => ?_⟩
      cases m <;> simp
    | ok f =>
      dsimp only
      cases hc : validate x.b f with
      | error e =>
        refine ⟨by simp [hc], fun m => ?_⟩
        cases m <;> simp [hc]
      | ok u =>
        refine ⟨by simp [hc], fun m => ?_⟩
        cases m <;> simp [hc]

theorem each_none : ∀ ps : List (Part Fn), eachBody ps = none ↔
    ∀ (i : Nat) (p : Part Fn), ps[i]? = some p → (∀ j, j < i → ps[j]? ≠ some .fatal) → p = .fatal ∨ Sound p
  | [] => by simp [eachBody]
  | .fatal :: r => by
    simp only [eachBody, true_iff]
    intro i p hp h
    cases i with
    | zero => exact .inl (Option.some.inj hp).symm
    | succ i => exact absurd rfl (h 0 (Nat.succ_pos _))
  | .panic :: r => by
    simp only [eachBody, reduceCtorEq, false_iff]
    intro h
    rcases h 0 .panic rfl (fun j hj => absurd hj (Nat.not_lt_zero _)) with h | ⟨x, h, _⟩ <;> cases h
  | .got x :: r => by
    rw [eachBody]
    cases ht : x.test with
    | some m =>
      simp only [reduceCtorEq, false_iff]
      intro h
      rcases h 0 (.got x) rfl (fun j hj => absurd hj (Nat.not_lt_zero _)) with h | ⟨y, h, hg⟩
      · cases h
      · cases h
        rw [(x.test_cases).1.2 hg] at ht
        cases ht
    | none =>
      dsimp only
      rw [each_none r]
      constructor
      · intro h i p hp hj
        cases i with
        | zero => exact .inr ⟨x, (Option.some.inj hp).symm, (x.test_cases).1.1 ht⟩
        | succ i => exact h i p hp (fun j hlt => hj (j + 1) (Nat.succ_lt_succ hlt))
      · intro h i p hp hj
        refine h (i + 1) p hp (fun j hlt => ?_)
        cases j with
        | zero => simp
        | succ j => exact hj j (Nat.lt_of_succ_lt_succ hlt)

theorem each_some : ∀ (ps : List (Part Fn)) (q : Panic), eachBody ps = some q ↔
    ∃ l p r, ps = l ++ p :: r ∧ (∀ y ∈ l, Sound y) ∧ Fails p q
  | [], q => by simp [eachBody]
  | .fatal :: r, q => by
    simp only [eachBody, reduceCtorEq, false_iff]
    rintro ⟨l, p, r', h, h1, h2⟩
    cases l with
    | nil =>
      cases h
      cases q <;> exact h2
    | cons y l =>
      cases h
      obtain ⟨x, hx, _⟩ := h1 _ List.mem_cons_self
      cases hx
  | .panic :: r, q => by
    rw [eachBody, Option.some.injEq]
    constructor
    · rintro rfl
      exact ⟨[], .panic, r, rfl, by simp, trivial⟩
    · rintro ⟨l, p, r', h, h1, h2⟩
      cases l with
      | nil =>
        cases h
        cases q with
        | compiler => rfl
        | test m => exact h2.elim
      | cons y l =>
        cases h
        obtain ⟨x, hx, _⟩ := h1 _ List.mem_cons_self
        cases hx
  | .got x :: r, q => by
    rw [eachBody]
    cases ht : x.test with
    | some m =>
      dsimp only
      rw [Option.some.injEq]
      constructor
      · rintro rfl
        exact ⟨[], .got x, r, rfl, by simp, ((x.test_cases).2 m).1 ht⟩
      · rintro ⟨l, p, r', h, h1, h2⟩
        cases l with
        | nil =>
          cases h
          cases q with
          | compiler => exact h2.elim
          | test m' =>
            rw [((x.test_cases).2 m').2 h2] at ht
            cases ht
            rfl
        | cons y l =>
          cases h
          obtain ⟨x', hx, hg⟩ := h1 _ List.mem_cons_self
          cases hx
          rw [(x.test_cases).1.2 hg] at ht
          cases ht
    | none =>
      dsimp only
      rw [each_some r q]
      constructor
      · rintro ⟨l, p, r', rfl, h1, h2⟩
        refine ⟨.got x :: l, p, r', rfl, ?_, h2⟩
        intro y hy
        rcases List.mem_cons.1 hy with rfl | hy
        · exact ⟨x, rfl, (x.test_cases).1.1 ht⟩
        · exact h1 y hy
      · rintro ⟨l, p, r', h, h1, h2⟩
        cases l with
        | nil =>
          cases h
          cases q with
          | compiler => exact h2.elim
          | test m' =>
            rw [((x.test_cases).2 m').2 h2] at ht
            cases ht
        | cons y l =>
          cases h
          exact ⟨l, p, r', rfl, fun z hz => h1 z (List.mem_cons_of_mem _ hz), h2⟩

/-! ## Theorems -/

section
variable (text : Panic → List Char)

/-- **C133 (no panic expected).** The test passes exactly if every body up to the first fatal error of the compiler has
steps, and the check accepts them; so it passes if the compiler stops before. -/
theorem C133_plain (bodies : Option (List (Part Fn))) : Form.passes text bodies .plain = true ↔
    ∀ ps, bodies = some ps → ∀ (i : Nat) (p : Part Fn), ps[i]? = some p → (∀ j, j < i → ps[j]? ≠ some .fatal) →
      p = .fatal ∨ ∃ x : Fn, p = .got x ∧ ∃ f locals, compute x.E x.value = .steps f locals ∧ validate x.b f = .ok () := by
  unfold Form.passes
  cases bodies with
  | none => simp [compileAndRun]
  | some ps =>
    rw [Option.isNone_iff_eq_none, compileAndRun, each_none]
    constructor
    · intro h ps' he
      cases he
      exact h
    · intro h
      exact h ps rfl

/-- **C133 (a panic expected).** The test passes exactly if there is a first body that fails, whatever the others are, and
what is said about it contains the expected text. -/
theorem C133_expected (bodies : Option (List (Part Fn))) (s : List Char) :
    Form.passes text bodies (.panicsWith s) = true ↔
      ∃ l p r q, bodies = some (l ++ p :: r) ∧ (∀ y ∈ l, ∃ x : Fn, y = .got x ∧ x.Good) ∧ Fails p q ∧
        containsText s (text q) = true := by
  unfold Form.passes
  cases bodies with
  | none => simp [compileAndRun]
  | some ps =>
    rw [compileAndRun]
    constructor
    · intro h
      cases hc : eachBody ps with
      | none => rw [hc] at h; exact absurd h (by simp)
      | some q =>
        rw [hc] at h
        obtain ⟨l, p, r, h1, h2, h3⟩ := (each_some ps q).1 hc
        exact ⟨l, p, r, q, by rw [h1], h2, h3, h⟩
    · rintro ⟨l, p, r, q, h1, h2, h3, h4⟩
      rw [(each_some ps q).2 ⟨l, p, r, Option.some.inj h1, h2, h3⟩]
      exact h4

/-- Any panic will do. -/
theorem C133_any (bodies : Option (List (Part Fn))) :
    Form.passes text bodies .shouldPanic = !Form.passes text bodies .plain := by
  unfold Form.passes
  cases compileAndRun bodies <;> rfl

/-- **C133 (programs).** The test of any programs passes. -/
theorem C133_programs (xs : List (Prog × Nat)) {fuel : Nat} (hfu : fuel ≠ 0)
    {order : List (Loc × Nat) → List (Loc × Nat)} (ho : ∀ l, (order l).Perm l) :
    Form.passes text (some (xs.map fun x => .got ⟨x.1.body, .ofBody x.1.body fuel order, x.1.source x.2⟩)) .plain = true := by
  rw [C133_plain]
  intro ps he i p hp _
  cases he
  rw [List.getElem?_map, Option.map_eq_some_iff] at hp
  obtain ⟨x, _, rfl⟩ := hp
  exact .inr ⟨_, rfl, C132_programs x.1 x.2 hfu ho⟩

/-- **C133 (early return).** With an early return, the test passes exactly if nothing branches after it, although nothing
after it is shown (`C132_early`). -/
theorem C133_early (x : Early) (sp : Nat) {fuel : Nat} (hfu : fuel ≠ 0)
    {order : List (Loc × Nat) → List (Loc × Nat)} (ho : ∀ l, (order l).Perm l) :
    Form.passes text (some [.got ⟨x.body, .ofBody x.body fuel order, x.source sp⟩]) .plain = true ↔ x.q.forks = 0 := by
  rw [C133_plain]
  constructor
  · intro h
    rcases h _ rfl 0 _ rfl (fun j hj => absurd hj (Nat.not_lt_zero _)) with h | ⟨y, h, f, locals, h1, _⟩
    · cases h
    · cases h
      refine Classical.byContradiction fun hq => ?_
      exact C84_branching x hq sp f locals h1
  · intro hq ps he i p hp _
    cases he
    match i with
    | 0 =>
      cases hp
      obtain ⟨f, locals, h1, h2, _⟩ := C132_early x hq sp hfu ho
      exact .inr ⟨_, rfl, f, locals, h1, h2⟩
    | i + 1 => cases hp

/-- **C133 (panics).** The test of functions in which arms of conditionals panic passes, although nothing of these arms is
shown (`C132_panics`). -/
theorem C133_panics (xs : List (Panics.Code × Nat)) {fuel : Nat} (hfu : fuel ≠ 0)
    {order : List (Loc × Nat) → List (Loc × Nat)} (ho : ∀ l, (order l).Perm l) :
    Form.passes text (some (xs.map fun x => .got ⟨x.1.body, .ofBody x.1.body fuel order, x.1.source x.2⟩)) .plain = true := by
  rw [C133_plain]
  intro ps he i p hp _
  cases he
  rw [List.getElem?_map, Option.map_eq_some_iff] at hp
  obtain ⟨x, _, rfl⟩ := hp
  obtain ⟨f, locals, h1, h2, _⟩ := Panics.C132_panics x.1 x.2 hfu ho
  exact .inr ⟨_, rfl, f, locals, h1, h2⟩

/-- **C133 (guards).** If the first function with something wrong has an `if` at an arm of a `match`, and the walk along it
finds nothing else wrong, the test that expects this passes, and no other test does. -/
theorem C133_guard {l r : List (Part Fn)} (hl : ∀ y ∈ l, ∃ x : Fn, y = .got x ∧ x.Good) {x : Fn}
    (hg : Due.guard ∈ dueBody x.E.m.isSwitch x.E.next x.value) {v : V} (hv : visitBody x.E x.value V.make = .ok v)
    (hf : v.fatal = []) (s : List Char) :
    Form.passes text (some (l ++ .got x :: r)) .plain = false ∧
    Form.passes text (some (l ++ .got x :: r)) (.panicsWith s) = containsText s (text (.test .unsupported)) := by
  have hc := (C86_unsupported x.E x.value).2 hg v hv hf
  have he := (each_some (l ++ .got x :: r) (.test .unsupported)).2 ⟨l, .got x, r, rfl, hl, hc⟩
  unfold Form.passes compileAndRun
  dsimp only
  rw [he]
  exact ⟨rfl, rfl⟩

end

/-- **C133 (texts).** A test that expects "unsupported feature" or "internal error" is not satisfied by the other reports of
the test itself: only a panic of the code under test, or what is printed of a builder, might contain the same words. -/
theorem C133_texts (crashed : Err → List Char) (unfinished : List Char) (m : Msg) :
    (containsText "unsupported feature".toList (m.text crashed unfinished) = true ↔ m = .unsupported ∨
      (m = .freeze ∧ containsText "unsupported feature".toList unfinished = true) ∨
      ∃ e, m = .crash e ∧ containsText "unsupported feature".toList (crashed e) = true) ∧
    (containsText "internal error".toList (m.text crashed unfinished) = true ↔ m = .internal ∨
      (m = .freeze ∧ containsText "internal error".toList unfinished = true) ∨
      ∃ e, m = .crash e ∧ containsText "internal error".toList (crashed e) = true) ∧
    (containsText "invalid smir".toList (m.text crashed unfinished) = true ↔ m = .invalid ∨
      (m = .freeze ∧ containsText "invalid smir".toList unfinished = true) ∨
      ∃ e, m = .crash e ∧ containsText "invalid smir".toList (crashed e) = true) := by
  cases m with
  | freeze => simp [Msg.text]
  | crash e => simp [Msg.text]
  | unsupported => simp only [Msg.text, reduceCtorEq, false_and, false_or, or_false, exists_false, true_or]; decide
  | internal => simp only [Msg.text, reduceCtorEq, false_and, false_or, or_false, exists_false, true_or]; decide
  | invalid => simp only [Msg.text, reduceCtorEq, false_and, false_or, or_false, exists_false, true_or]; decide

/-! ## Examples -/

/-- The texts as they are, nothing known about the others. -/
def plainText : Panic → List Char
  | .test m => m.text (fun _ => []) []
  | .compiler => []

/-- A structured function; one that the compiler rejects; and a function with a guard after a good one: "unsupported
feature" is expected, "internal error" is not the reason. -/
example : Form.passes plainText (some [.got ⟨Example.large.body, .ofBody Example.large.body 1 id, Example.large.source 99⟩])
    .plain = true :=
  C133_programs plainText [(Example.large, 99)] (fuel := 1) (by omega) (order := id) (fun _ => .refl _)

example : Form.passes plainText (some [.got ⟨Panics.Example.panicking.body, .ofBody Panics.Example.panicking.body 1 id, Panics.Example.panicking.source 99⟩])
    .plain = true :=
  C133_panics plainText [(Panics.Example.panicking, 99)] (fuel := 1) (by omega) (order := id) (fun _ => .refl _)

example : Form.passes plainText none .plain = true ∧ Form.passes plainText none .shouldPanic = false := ⟨rfl, rfl⟩

example : Form.passes plainText (some [.got ⟨plainBody, plainEnv plainBody, guardFn⟩, .panic])
      (.panicsWith ['f', 'e', 'a', 't', 'u', 'r', 'e']) = true ∧
    Form.passes plainText (some [.got ⟨plainBody, plainEnv plainBody, guardFn⟩, .panic])
      (.panicsWith ['i', 'n', 't', 'e', 'r', 'n', 'a', 'l', ' ', 'e', 'r', 'r', 'o', 'r']) = false := by
  constructor <;> decide +kernel

example : Form.passes plainText (some [.got ⟨(Early.mk (.act 1 .fin) 2 3 4 (.act 5 .fin) (.only 6 7 8 (.act 9 .fin) .fin)).body,
    .ofBody (Early.mk (.act 1 .fin) 2 3 4 (.act 5 .fin) (.only 6 7 8 (.act 9 .fin) .fin)).body 1 id,
    (Early.mk (.act 1 .fin) 2 3 4 (.act 5 .fin) (.only 6 7 8 (.act 9 .fin) .fin)).source 10⟩]) .plain ≠ true := by
  rw [Ne, C133_early plainText _ _ (fuel := 1) (by omega) (order := id) (fun _ => .refl _)]
  decide

end Verif.Walk
