import Verif.Facts.Props
/-!
# C104: permissions in programs that the borrow checker accepts

rustc and Polonius are not in the repository; what is used of them is stated here as hypotheses.
Points come in pairs: `2 * k` is the start of a MIR location and `2 * k + 1` its middle, where its effect takes
place (`permissions/context.rs:109-118`, `Permissions.startIndex`, `midIndex`).
-/
namespace Verif.Facts.Spec

/-- The value that variable `v` has on entry to the point may still be used: some way through the function comes to a
use of `v` without a definition of `v` before it (Polonius' `var_live_on_entry`). -/
inductive WillUse (i : Input) (used defined : Nat → Nat → Prop) (v : Nat) : Nat → Prop
  | use {p} : used v p → WillUse i used defined v p
  | later {p q} : (p, q) ∈ i.cfgEdge → ¬ defined v p → WillUse i used defined v q → WillUse i used defined v p

/-- A move of `path`, a part of it or a whole it is a part of, reaches the point. -/
def Moved (i : Input) (path point : Nat) : Prop := ∃ mv, Touches i mv path ∧ Reaches i mv point

/-- What rustc and Polonius say of the uses, definitions and initialisation of variables. -/
structure Analysed (i : Input) (used defined : Nat → Nat → Prop) : Prop where
  /-- the start of a location is followed by its middle -/
  start : ∀ k q, (2 * k, q) ∈ i.cfgEdge → q = 2 * k + 1
  /-- the middle of a location is followed by the starts of locations -/
  middle : ∀ k q, (2 * k + 1, q) ∈ i.cfgEdge → ∃ j, q = 2 * j
  /-- uses have their effect in the middle -/
  use : ∀ v p, used v p → ∃ k, p = 2 * k + 1 ∧ (2 * k, p) ∈ i.cfgEdge
  /-- and so have definitions -/
  define : ∀ v p, defined v p → ∃ k, p = 2 * k + 1
  /-- `var_live_on_entry` -/
  live : ∀ v p, (p, v) ∈ i.varLive ↔ WillUse i used defined v p
  /-- `path_maybe_uninitialized_on_exit` is kept until the path, or a whole it is a part of, is assigned -/
  uninit : ∀ d p q, (p, d) ∈ i.uninitExit → (p, q) ∈ i.cfgEdge →
    (q, d) ∈ i.uninitExit ∨ ∃ e, Ancestor i d e ∧ (e, q) ∈ i.assigned

/-- An assignment at the point sets the whole variable.  That of a statement has its effect in the middle of its
location.  That of a call has it at the start of the location that the call returns to, and that of an argument at the
start of the function; the variable is defined in the middle before, if there is one. -/
def Sets (i : Input) (defined : Nat → Nat → Prop) (v q : Nat) : Prop :=
  (∃ k, q = 2 * k + 1 ∧ defined v q) ∨ ∃ k, q = 2 * k ∧ ∀ p, (p, q) ∈ i.cfgEdge → defined v p

/-- An assignment at the point ends this move of the path, a part of it or a whole it is a part of. -/
def GivesBack (i : Input) (mv path point : Nat) : Prop :=
  ∃ path₀ source, i.moves[mv]? = some (path₀, source) ∧ Touches i mv path ∧ Reaches i mv point ∧ AssignedAt i path₀ point

/-- An assignment at the point initialises the path or a part of it. -/
def Initialises (i : Input) (path point : Nat) : Prop :=
  ∃ d e pred, Ancestor i d path ∧ (pred, point) ∈ i.cfgEdge ∧ (pred, d) ∈ i.uninitExit ∧ Ancestor i d e ∧
    (e, point) ∈ i.assigned

/-- The program is accepted as far as `path` is concerned: it is not used while moved or uninitialised, and where
it gets a value, or gets it back, the whole variable is set. -/
structure Accepted (i : Input) (used defined : Nat → Nat → Prop) (path : Nat) : Prop where
  moved : ∀ k mv path₀ source, used (i.varOf path) (2 * k + 1) → i.moves[mv]? = some (path₀, source) →
    Touches i mv path → Reaches i mv (2 * k) → AssignedAt i path₀ (2 * k)
  uninit : ∀ k d, used (i.varOf path) (2 * k + 1) → Ancestor i d path → (2 * k, d) ∉ i.uninitExit
  whole : ∀ mv q, GivesBack i mv path q → Sets i defined (i.varOf path) q
  init : ∀ q, Initialises i path q → Sets i defined (i.varOf path) q

/-- The path does not get its value right at this point: what a call returns has only arrived in its variable after the
start of the location the call returns to. -/
def InPlace (i : Input) (path point : Nat) : Prop :=
  (∀ mv, ¬ GivesBack i mv path point) ∧ ¬ Initialises i path point

/-- Nothing that overlaps the path is ever borrowed. -/
def Unborrowed (i : Input) (path : Nat) : Prop := ∀ l ∈ i.issued, i.conflict (i.borrowed l) path = false

/-- The first point of a way. -/
def From (a : Nat) (w : List Nat) : Prop := w.head? = some a

/-- The last point of a way. -/
def To (b : Nat) (w : List Nat) : Prop := w.getLast? = some b

end Verif.Facts.Spec

namespace Verif.Facts
open Spec

section

variable {i : Input} {used defined : Nat → Nat → Prop}

theorem reaches_step {mv point q path₀ source : Nat} (hm : i.moves[mv]? = some (path₀, source)) (h : Reaches i mv point)
    (hn : ¬ AssignedAt i path₀ point) (he : (point, q) ∈ i.cfgEdge) : Reaches i mv q := by
  obtain ⟨p', s', btw, h1, h2, h3⟩ := h
  rw [hm] at h1
  cases h1
  refine ⟨path₀, source, btw ++ [point], hm, ?_, ?_⟩
  · have := (walk_snoc (l := source :: btw)).2 ⟨h2, he⟩
    simpa using this
  · intro x hx
    rcases List.mem_append.1 hx with hx | hx
    · exact h3 x hx
    · rw [List.mem_singleton.1 hx]
      exact hn

/-- A path whose variable may still be used has been neither moved nor left uninitialised, once the assignments at the
start of the location have taken place. -/
theorem willUse_ready (ha : Analysed i used defined) {path : Nat} (hc : Accepted i used defined path) {p : Nat}
    (h : WillUse i used defined (i.varOf path) p) :
    ∀ k, p = 2 * k ∨ (p = 2 * k + 1 ∧ (2 * k, p) ∈ i.cfgEdge) →
      (∀ mv path₀ source, i.moves[mv]? = some (path₀, source) → Touches i mv path → Reaches i mv (2 * k) →
        AssignedAt i path₀ (2 * k)) ∧ ∀ d, Ancestor i d path → (2 * k, d) ∉ i.uninitExit := by
  induction h with
  | @use p hu =>
    intro k hk
    obtain ⟨k', rfl, he⟩ := ha.use _ _ hu
    obtain rfl : k' = k := by omega
    exact ⟨fun mv p₀ s => hc.moved _ mv p₀ s hu, fun d => hc.uninit _ d hu⟩
  | @later p q he hd _ ih =>
    rintro k (rfl | ⟨rfl, he0⟩)
    · have := ha.start _ _ he
      subst this
      exact ih k (.inr ⟨rfl, he⟩)
    · obtain ⟨j, rfl⟩ := ha.middle _ _ he
      obtain ⟨h1, h2⟩ := ih j (.inl rfl)
      have mid : ¬ Sets i defined (i.varOf path) (2 * k + 1) := by
        rintro (⟨_, _, h⟩ | ⟨x, hx, _⟩)
        · exact hd h
        · omega
      have next : ¬ Sets i defined (i.varOf path) (2 * j) := by
        rintro (⟨x, hx, _⟩ | ⟨_, _, h⟩)
        · omega
        · exact hd (h _ he)
      refine ⟨?_, ?_⟩
      · intro mv path₀ source hm ht hr
        refine Classical.byContradiction fun n1 => ?_
        have r1 := reaches_step hm hr n1 he0
        have n2 : ¬ AssignedAt i path₀ (2 * k + 1) := fun hA => mid (hc.whole mv _ ⟨path₀, source, hm, ht, r1, hA⟩)
        have r2 := reaches_step hm r1 n2 he
        exact next (hc.whole mv _ ⟨path₀, source, hm, ht, r2, h1 mv path₀ source hm ht r2⟩)
      · intro d e3 e4
        rcases ha.uninit _ _ _ e4 he0 with e5 | ⟨e, e5, e6⟩
        · rcases ha.uninit _ _ _ e5 he with e6 | ⟨e, e6, e7⟩
          · exact h2 d e3 e6
          · exact next (hc.init _ ⟨d, e, _, e3, he, e5, e6, e7⟩)
        · exact mid (hc.init _ ⟨d, e, _, e3, he0, e4, e5, e6⟩)

/-- So it is at the start of a location where it does not only just get its value. -/
theorem willUse_settled (ha : Analysed i used defined) {path : Nat} (hc : Accepted i used defined path) {k : Nat}
    (hs : InPlace i path (2 * k)) (h : WillUse i used defined (i.varOf path) (2 * k)) :
    ¬ Moved i path (2 * k) ∧ ¬ MaybeUninit i path (2 * k) := by
  obtain ⟨h1, h2⟩ := willUse_ready ha hc h k (.inl rfl)
  refine ⟨?_, ?_⟩
  · rintro ⟨mv, ht, hr⟩
    obtain ⟨path₀, source, hm, _⟩ := id ht
    exact hs.1 mv ⟨path₀, source, hm, ht, hr, h1 mv path₀ source hm ht hr⟩
  · rintro ⟨pred, d, e1, e2, e3⟩
    rcases ha.uninit _ _ _ e2 e1 with e4 | ⟨e, e4, e5⟩
    · exact h2 d e3 e4
    · exact hs.2 ⟨d, e, pred, e3, e1, e2, e4, e5⟩

/-- **C104 (permissions follow use).** In a program the borrow checker accepts, a path may be read at the start of a
location exactly if its variable's value may still be used and it is not mutably borrowed; it may be written, or
dropped, exactly if further its type or declaration allows it and it is not borrowed at all.  (Not so where a call has
only just returned the value: `C104_landing`.) -/
theorem C104_permissions (ha : Analysed i used defined) {path : Nat} (hc : Accepted i used defined path) {fuel : Nat}
    {o : Output} (h : derive fuel i = some o) {k : Nat} (hs : InPlace i path (2 * k)) :
    let p := (dataAtPoint i o path (2 * k)).permissions
    (p.read = true ↔ WillUse i used defined (i.varOf path) (2 * k) ∧
      ¬ ∃ l, LiveOverlap i l path (2 * k) ∧ i.isMutLoan l = true) ∧
    (p.write = true ↔ WillUse i used defined (i.varOf path) (2 * k) ∧ i.writeEnabled path = true ∧
      ¬ ∃ l, LiveOverlap i l path (2 * k)) ∧
    (p.drop = true ↔ WillUse i used defined (i.varOf path) (2 * k) ∧ i.dropEnabled path = true ∧
      ¬ ∃ l, LiveOverlap i l path (2 * k)) := by
  obtain ⟨h1, h2, h3⟩ := C22_at_point fuel i o h path (2 * k)
  dsimp only
  have hr : (dataAtPoint i o path (2 * k)).permissions.read = true ↔
      WillUse i used defined (i.varOf path) (2 * k) ∧ ¬ ∃ l, LiveOverlap i l path (2 * k) ∧ i.isMutLoan l = true := by
    rw [h1, ha.live]
    constructor
    · rintro ⟨a, _, _, b⟩; exact ⟨a, b⟩
    · rintro ⟨a, b⟩
      obtain ⟨c, d⟩ := willUse_settled ha hc hs a
      exact ⟨a, c, d, b⟩
  refine ⟨hr, ?_, ?_⟩
  · rw [h2, hr]
    constructor
    · rintro ⟨⟨a, _⟩, b, c⟩; exact ⟨a, b, c⟩
    · rintro ⟨a, b, c⟩; exact ⟨⟨a, fun ⟨l, hl, _⟩ => c ⟨l, hl⟩⟩, b, c⟩
  · rw [h3, hr]
    constructor
    · rintro ⟨⟨a, _⟩, b, c⟩; exact ⟨a, b, c⟩
    · rintro ⟨a, b, c⟩; exact ⟨⟨a, fun ⟨l, hl, _⟩ => c ⟨l, hl⟩⟩, b, c⟩

theorem Spec.Unborrowed.none {path : Nat} (hb : Unborrowed i path) (point : Nat) : ¬ ∃ l, LiveOverlap i l path point := by
  rintro ⟨l, h1, _, _, h2⟩
  rw [hb l h1] at h2
  cases h2

/-- **C104 (never borrowed).** For a path that is never borrowed all three permissions come and go together, with the
use of the variable. -/
theorem C104_unborrowed (ha : Analysed i used defined) {path : Nat} (hc : Accepted i used defined path)
    (hb : Unborrowed i path) {fuel : Nat} {o : Output} (h : derive fuel i = some o) {k : Nat}
    (hs : InPlace i path (2 * k)) :
    let p := (dataAtPoint i o path (2 * k)).permissions
    let live := WillUse i used defined (i.varOf path) (2 * k)
    (p.read = true ↔ live) ∧ (p.write = true ↔ live ∧ i.writeEnabled path = true) ∧
      (p.drop = true ↔ live ∧ i.dropEnabled path = true) := by
  obtain ⟨h1, h2, h3⟩ := C104_permissions ha hc h hs
  have hn := hb.none (2 * k)
  have hn' : ¬ ∃ l, LiveOverlap i l path (2 * k) ∧ i.isMutLoan l = true := fun ⟨l, hl, _⟩ => hn ⟨l, hl⟩
  dsimp only at h1 h2 h3 ⊢
  rw [h1, h2, h3]
  exact ⟨and_iff_left hn', by rw [and_iff_left hn], by rw [and_iff_left hn]⟩

/-- A use is carried back along a way without definitions. -/
theorem willUse_back {v : Nat} : ∀ {w : List Nat} {a b : Nat}, Walk i.cfgEdge w → From a w → To b w →
    WillUse i used defined v b → (∀ q ∈ w.dropLast, ¬ defined v q) → WillUse i used defined v a
  | [], a, b, _, h, _, _, _ => by simp [From] at h
  | [x], a, b, _, h, h', hu, _ => by
    simp only [From, To, List.head?_cons, List.getLast?_singleton, Option.some.injEq] at h h'
    subst h h'
    exact hu
  | x :: y :: w, a, b, hw, h, h', hu, hd => by
    simp only [From, List.head?_cons, Option.some.injEq] at h
    subst h
    rw [List.dropLast_cons₂] at hd
    refine .later hw.1 (hd x (by simp)) (willUse_back (w := y :: w) hw.2 rfl ?_ hu ?_)
    · simpa [To, List.getLast?_cons_cons] using h'
    · intro q hq
      exact hd q (List.mem_cons_of_mem _ hq)

/-- What is live is used on some way, with no definition before. -/
theorem willUse_way {v a : Nat} (h : WillUse i used defined v a) :
    ∃ w q, Walk i.cfgEdge w ∧ From a w ∧ To q w ∧ used v q ∧ (∀ x ∈ w.dropLast, ¬ defined v x) ∧
      ∀ x ∈ w, WillUse i used defined v x := by
  induction h with
  | @use p hu => exact ⟨[p], p, trivial, rfl, rfl, hu, by simp, by simpa using .use hu⟩
  | @later p q he hd hq ih =>
    obtain ⟨w, r, h1, h2, h3, h4, h5, h6⟩ := ih
    obtain ⟨y, w, rfl⟩ : ∃ y w', w = y :: w' := by
      cases w with
      | nil => simp [From] at h2
      | cons y w => exact ⟨y, w, rfl⟩
    simp only [From, List.head?_cons, Option.some.injEq] at h2
    subst h2
    refine ⟨p :: y :: w, r, ⟨he, h1⟩, rfl, ?_, h4, ?_, ?_⟩
    · simpa [To, List.getLast?_cons_cons] using h3
    · rw [List.dropLast_cons₂]
      intro x hx
      rcases List.mem_cons.1 hx with rfl | hx
      · exact hd
      · exact h5 x hx
    · intro x hx
      rcases List.mem_cons.1 hx with rfl | hx
      · exact .later he hd hq
      · exact h6 x hx

/-- **C104 (gained by a definition).** If a path that is never borrowed may be read at `b` but not at `a`, its variable
is defined on every way from `a` to `b`, before `b`. -/
theorem C104_gained (ha : Analysed i used defined) {path : Nat} (hc : Accepted i used defined path)
    (hb : Unborrowed i path) {fuel : Nat} {o : Output} (h : derive fuel i = some o) {a b : Nat}
    (hsa : InPlace i path (2 * a)) (hsb : InPlace i path (2 * b))
    (h1 : (dataAtPoint i o path (2 * a)).permissions.read = false)
    (h2 : (dataAtPoint i o path (2 * b)).permissions.read = true) {w : List Nat} (hw : Walk i.cfgEdge w)
    (hf : From (2 * a) w) (ht : To (2 * b) w) : ∃ q ∈ w.dropLast, defined (i.varOf path) q := by
  refine Classical.byContradiction fun hn => ?_
  have := (C104_unborrowed ha hc hb h hsa).1.2
    (willUse_back hw hf ht ((C104_unborrowed ha hc hb h hsb).1.1 h2) (fun q hq hd => hn ⟨q, hq, hd⟩))
  rw [h1] at this
  cases this

/-- **C104 (lost by the last use).** If a path that is never borrowed may be read at `a` but no longer at `b`, its
variable is used on some way from `a` that does not come through `b`. -/
theorem C104_lost (ha : Analysed i used defined) {path : Nat} (hc : Accepted i used defined path)
    (hb : Unborrowed i path) {fuel : Nat} {o : Output} (h : derive fuel i = some o) {a b : Nat}
    (hsa : InPlace i path (2 * a)) (hsb : InPlace i path (2 * b))
    (h1 : (dataAtPoint i o path (2 * a)).permissions.read = true)
    (h2 : (dataAtPoint i o path (2 * b)).permissions.read = false) :
    ∃ w q, Walk i.cfgEdge w ∧ From (2 * a) w ∧ To q w ∧ used (i.varOf path) q ∧
      (∀ x ∈ w.dropLast, ¬ defined (i.varOf path) x) ∧ 2 * b ∉ w := by
  obtain ⟨w, q, w1, w2, w3, w4, w5, w6⟩ := willUse_way ((C104_unborrowed ha hc hb h hsa).1.1 h1)
  refine ⟨w, q, w1, w2, w3, w4, w5, ?_⟩
  intro hx
  have := (C104_unborrowed ha hc hb h hsb).1.2 (w6 _ hx)
  rw [h2] at this
  cases this

/-- **C104 (one location).** Before a location a path that is never borrowed may be read exactly if the location uses
its variable, or if it does not define it and the path may be read before one of the locations that come next. -/
theorem C104_location (ha : Analysed i used defined) {path : Nat} (hc : Accepted i used defined path)
    (hb : Unborrowed i path) {fuel : Nat} {o : Output} (h : derive fuel i = some o) {a : Nat}
    (h0 : (2 * a, 2 * a + 1) ∈ i.cfgEdge) (hsa : InPlace i path (2 * a))
    (hsb : ∀ b, (2 * a + 1, 2 * b) ∈ i.cfgEdge → InPlace i path (2 * b)) :
    (dataAtPoint i o path (2 * a)).permissions.read = true ↔ used (i.varOf path) (2 * a + 1) ∨
      (¬ defined (i.varOf path) (2 * a + 1) ∧
        ∃ b, (2 * a + 1, 2 * b) ∈ i.cfgEdge ∧ (dataAtPoint i o path (2 * b)).permissions.read = true) := by
  have eb : (∃ b, (2 * a + 1, 2 * b) ∈ i.cfgEdge ∧ (dataAtPoint i o path (2 * b)).permissions.read = true) ↔
      ∃ b, (2 * a + 1, 2 * b) ∈ i.cfgEdge ∧ WillUse i used defined (i.varOf path) (2 * b) :=
    exists_congr fun b => and_congr_right fun he => (C104_unborrowed ha hc hb h (hsb b he)).1
  rw [(C104_unborrowed ha hc hb h hsa).1, eb]
  constructor
  · intro hw
    cases hw with
    | use hu =>
      obtain ⟨k, hk, _⟩ := ha.use _ _ hu
      omega
    | later he hd hw =>
      obtain rfl := ha.start _ _ he
      cases hw with
      | use hu => exact .inl hu
      | later he' hd' hw =>
        obtain ⟨b, rfl⟩ := ha.middle _ _ he'
        exact .inr ⟨hd', b, he', hw⟩
  · have hn : ¬ defined (i.varOf path) (2 * a) := by
      intro hd
      obtain ⟨k, hk⟩ := ha.define _ _ hd
      omega
    rintro (hu | ⟨hd, b, he, hw⟩)
    · exact .later h0 hn (.use hu)
    · exact .later h0 hn (.later he hd hw)

/-- **C104 (right after a call).** At the start of the location to which a call returns, the path that it initialises has
no permissions yet, although its value is there and may be of use. -/
theorem C104_landing {path point : Nat} {fuel : Nat} {o : Output} (h : derive fuel i = some o)
    (hi : Initialises i path point) : (dataAtPoint i o path point).permissions = ⟨false, false, false⟩ := by
  obtain ⟨h1, h2, h3⟩ := C22_at_point fuel i o h path point
  obtain ⟨d, _, pred, e1, e2, e3, _⟩ := hi
  have hr : (dataAtPoint i o path point).permissions.read ≠ true := fun hr => (h1.1 hr).2.2.1 ⟨pred, d, e2, e3, e1⟩
  have hw : (dataAtPoint i o path point).permissions.write ≠ true := fun hw => hr (h2.1 hw).1
  have hd : (dataAtPoint i o path point).permissions.drop ≠ true := fun hd => hr (h3.1 hd).1
  generalize (dataAtPoint i o path point).permissions = p at *
  obtain ⟨r, w, d⟩ := p
  simp only [Bool.not_eq_true] at hr hw hd
  rw [hr, hw, hd]

end

/-! ## A program

`let x = ..; drop(x); ..`: five locations, `x` is defined by the first and moved by the second. -/

namespace LiveExample

def facts : Input :=
  { cfgEdge := (List.range 9).map (fun n => (n, n + 1))
    uninitExit := (0, 0) :: (List.range 7).map (fun n => (n + 3, 0))
    childPath := []
    moves := [(0, 2)]
    interior := fun p => [p]
    parents := fun _ => []
    assigned := [(0, 1)]
    conflict := fun a b => a == b
    issued := []
    borrowed := fun _ => 0
    isMutLoan := fun _ => false
    loanLive := []
    paths := [0]
    varLive := [(2, 0), (3, 0)]
    varOf := fun p => p
    writeEnabled := fun _ => false
    dropEnabled := fun _ => true
    copyable := fun _ => false }

def used (v p : Nat) : Prop := v = 0 ∧ p = 3
def defined (v p : Nat) : Prop := v = 0 ∧ p = 1

theorem edge {p q : Nat} (h : (p, q) ∈ facts.cfgEdge) : q = p + 1 ∧ p ≤ 8 := by
  simp only [facts, List.mem_map, List.mem_range, Prod.mk.injEq] at h
  obtain ⟨n, h1, rfl, rfl⟩ := h
  omega

theorem edge_of {p : Nat} (h : p ≤ 8) : (p, p + 1) ∈ facts.cfgEdge :=
  List.mem_map.2 ⟨p, List.mem_range.2 (by omega), rfl⟩

theorem uninit {p d : Nat} : (p, d) ∈ facts.uninitExit ↔ d = 0 ∧ (p = 0 ∨ (3 ≤ p ∧ p ≤ 9)) := by
  simp only [facts, List.mem_cons, List.mem_map, List.mem_range, Prod.mk.injEq]
  constructor
  · rintro (⟨rfl, rfl⟩ | ⟨n, h, rfl, rfl⟩) <;> omega
  · rintro ⟨rfl, rfl | h⟩
    · exact .inl ⟨rfl, rfl⟩
    · exact .inr ⟨p - 3, by omega, by omega, rfl⟩

theorem forward : ∀ {w : List Nat} {a b : Nat}, Walk facts.cfgEdge (a :: (w ++ [b])) → a < b ∧ ∀ x ∈ w, a < x ∧ x < b
  | [], a, b, h => ⟨by have := edge h.1; omega, by simp⟩
  | y :: w, a, b, h => by
    have h1 := edge h.1
    obtain ⟨h2, h3⟩ := forward (w := w) h.2
    refine ⟨by omega, ?_⟩
    intro x hx
    rcases List.mem_cons.1 hx with rfl | hx
    · omega
    · have := h3 x hx
      omega

theorem analysed : Analysed facts used defined where
  start k q h := (edge h).1
  middle k q h := ⟨k + 1, by have := edge h; omega⟩
  use := by
    rintro v p ⟨-, rfl⟩
    exact ⟨1, rfl, by decide⟩
  define := by
    rintro v p ⟨-, rfl⟩
    exact ⟨0, rfl⟩
  live := by
    intro v p
    constructor
    · intro h
      have h : (p = 2 ∧ v = 0) ∨ (p = 3 ∧ v = 0) := by
        simpa only [facts, List.mem_cons, Prod.mk.injEq, List.not_mem_nil, or_false] using h
      have hu : WillUse facts used defined 0 3 := .use ⟨rfl, rfl⟩
      rcases h with ⟨rfl, rfl⟩ | ⟨rfl, rfl⟩
      · exact .later (q := 3) (by decide) (by rintro ⟨_, h⟩; cases h) hu
      · exact hu
    · intro h
      have : v = 0 ∧ (p = 2 ∨ p = 3) := by
        induction h with
        | use hu => exact ⟨hu.1, .inr hu.2⟩
        | later he hd _ ih =>
          obtain ⟨h1, h2⟩ := ih
          have := (edge he).1
          refine ⟨h1, ?_⟩
          have : ¬ _ = 1 := fun h => hd ⟨h1, h⟩
          omega
      rcases this with ⟨rfl, rfl | rfl⟩ <;> decide
  uninit := by
    intro d p q h1 h2
    obtain ⟨rfl, h2⟩ := edge h2
    obtain ⟨rfl, h1⟩ := uninit.1 h1
    by_cases hp : p = 0
    · subst hp
      exact .inr ⟨0, .self, by decide⟩
    · exact .inl (uninit.2 ⟨rfl, by omega⟩)

theorem only {mv path₀ source : Nat} (h : facts.moves[mv]? = some (path₀, source)) : path₀ = 0 ∧ source = 2 := by
  cases mv with
  | zero =>
    simp only [facts, List.getElem?_cons_zero, Option.some.injEq, Prod.mk.injEq] at h
    exact ⟨h.1.symm, h.2.symm⟩
  | succ n => simp [facts] at h

theorem set {d q : Nat} (h : (d, q) ∈ facts.assigned) : d = 0 ∧ q = 1 := by
  simpa only [facts, List.mem_singleton, Prod.mk.injEq] using h

theorem after {mv p : Nat} (h : Reaches facts mv p) : 2 < p := by
  obtain ⟨path, source, btw, h1, h2, -⟩ := h
  obtain ⟨-, rfl⟩ := only h1
  exact (forward h2).1

theorem accepted : Accepted facts used defined 0 where
  moved := by
    rintro k mv path₀ source ⟨-, hk⟩ - - hr
    have := after hr
    omega
  uninit := by
    rintro k d ⟨-, hk⟩ - h
    have := uninit.1 h
    omega
  whole := by
    rintro mv q ⟨path₀, source, -, -, hr, other, h, -⟩
    have := after hr
    have := (set h).2
    omega
  init := by
    rintro q ⟨d, e, pred, -, -, -, -, h⟩
    obtain ⟨-, rfl⟩ := set h
    exact .inl ⟨0, rfl, rfl, rfl⟩

theorem settled (k : Nat) : InPlace facts 0 (2 * k) := by
  refine ⟨?_, ?_⟩
  · rintro mv ⟨path₀, source, -, -, hr, other, h, -⟩
    have := (set h).2
    omega
  · rintro ⟨d, e, pred, -, -, -, -, h⟩
    have := (set h).2
    omega

/-- The hypotheses of C104 are met; `x` may be read and dropped between its definition and its move only. -/
example : Analysed facts used defined ∧ Accepted facts used defined 0 ∧ Unborrowed facts 0 ∧
    (∀ k, InPlace facts 0 (2 * k)) ∧
    (derive 20 facts).map (fun o => [0, 2, 4, 6].map (fun k => (dataAtPoint facts o 0 k).permissions)) =
      some [⟨false, false, false⟩, ⟨true, false, true⟩, ⟨false, false, false⟩, ⟨false, false, false⟩] :=
  ⟨analysed, accepted, (by intro l hl; cases hl), settled, by decide +kernel⟩

end LiveExample

/-! ## A call

`fn f(y) { let x = g(y); drop(x) }`: the locations are the storage of `x`, the call, the read of `x` that belongs to the
`let` (where the call returns to), the move of `x` and the return. -/

namespace CallExample

def facts : Input :=
  { cfgEdge := (List.range 9).map (fun n => (n, n + 1))
    uninitExit := (List.range 4).map (fun n => (n, 0)) ++ (List.range 3).map (fun n => (n + 7, 0)) ++
      (List.range 7).map (fun n => (n + 3, 1))
    childPath := []
    moves := [(1, 2), (0, 6)]
    interior := fun p => [p]
    parents := fun _ => []
    assigned := [(1, 0), (0, 4)]
    conflict := fun a b => a == b
    issued := []
    borrowed := fun _ => 0
    isMutLoan := fun _ => false
    loanLive := []
    paths := [0, 1]
    varLive := (List.range 4).map (fun n => (n, 1)) ++ (List.range 4).map (fun n => (n + 4, 0))
    varOf := fun p => p
    writeEnabled := fun _ => false
    dropEnabled := fun _ => true
    copyable := fun _ => false }

def used (v p : Nat) : Prop := (v = 0 ∧ (p = 5 ∨ p = 7)) ∨ (v = 1 ∧ p = 3)
def defined (v p : Nat) : Prop := v = 0 ∧ p = 3

theorem edge {p q : Nat} (h : (p, q) ∈ facts.cfgEdge) : q = p + 1 ∧ p ≤ 8 := LiveExample.edge h

theorem edge_of {p : Nat} (h : p ≤ 8) : (p, p + 1) ∈ facts.cfgEdge := LiveExample.edge_of h

theorem uninit {p d : Nat} : (p, d) ∈ facts.uninitExit ↔
    (d = 0 ∧ (p ≤ 3 ∨ (7 ≤ p ∧ p ≤ 9))) ∨ (d = 1 ∧ 3 ≤ p ∧ p ≤ 9) := by
  simp only [facts, List.mem_append, List.mem_map, List.mem_range, Prod.mk.injEq]
  constructor
  · rintro ((⟨n, h, rfl, rfl⟩ | ⟨n, h, rfl, rfl⟩) | ⟨n, h, rfl, rfl⟩) <;> omega
  · rintro (⟨rfl, h | h⟩ | ⟨rfl, h⟩)
    · exact .inl (.inl ⟨p, by omega, rfl, rfl⟩)
    · exact .inl (.inr ⟨p - 7, by omega, by omega, rfl⟩)
    · exact .inr ⟨p - 3, by omega, by omega, rfl⟩

theorem live {p v : Nat} : (p, v) ∈ facts.varLive ↔ (v = 1 ∧ p ≤ 3) ∨ (v = 0 ∧ 4 ≤ p ∧ p ≤ 7) := by
  simp only [facts, List.mem_append, List.mem_map, List.mem_range, Prod.mk.injEq]
  constructor
  · rintro (⟨n, h, rfl, rfl⟩ | ⟨n, h, rfl, rfl⟩) <;> omega
  · rintro (⟨rfl, h⟩ | ⟨rfl, h⟩)
    · exact .inl ⟨p, by omega, rfl, rfl⟩
    · exact .inr ⟨p - 4, by omega, by omega, rfl⟩

theorem only {mv path₀ source : Nat} (h : facts.moves[mv]? = some (path₀, source)) :
    (path₀ = 1 ∧ source = 2) ∨ (path₀ = 0 ∧ source = 6) := by
  match mv, h with
  | 0, h =>
    simp only [facts, List.getElem?_cons_zero, Option.some.injEq, Prod.mk.injEq] at h
    omega
  | 1, h =>
    simp only [facts, List.getElem?_cons_succ, List.getElem?_cons_zero, Option.some.injEq, Prod.mk.injEq] at h
    omega
  | n + 2, h => simp [facts] at h

theorem touch {mv path₀ source path : Nat} (h : facts.moves[mv]? = some (path₀, source)) (ht : Touches facts mv path) :
    path = path₀ := by
  obtain ⟨p, s, h1, h2⟩ := ht
  rw [h] at h1
  cases h1
  simpa [facts] using h2

theorem set {d q : Nat} : (d, q) ∈ facts.assigned ↔ (d = 1 ∧ q = 0) ∨ (d = 0 ∧ q = 4) := by
  simp only [facts, List.mem_cons, Prod.mk.injEq, List.not_mem_nil, or_false]

theorem anc {d p : Nat} (h : Ancestor facts d p) : p = d := by
  cases h with
  | self => rfl
  | up _ h => simp [facts] at h

theorem after {mv p path₀ source : Nat} (hm : facts.moves[mv]? = some (path₀, source)) (h : Reaches facts mv p) :
    source < p := by
  obtain ⟨path, s, btw, h1, h2, -⟩ := h
  rw [hm] at h1
  cases h1
  exact (LiveExample.forward h2).1

theorem analysed : Analysed facts used defined where
  start k q h := (edge h).1
  middle k q h := ⟨k + 1, by have := edge h; omega⟩
  use := by
    rintro v p (⟨-, rfl | rfl⟩ | ⟨-, rfl⟩)
    · exact ⟨2, rfl, edge_of (by omega)⟩
    · exact ⟨3, rfl, edge_of (by omega)⟩
    · exact ⟨1, rfl, edge_of (by omega)⟩
  define := by
    rintro v p ⟨-, rfl⟩
    exact ⟨1, rfl⟩
  live := by
    intro v p
    rw [live]
    constructor
    · have back : ∀ n v q, used v (q + n) → q + n ≤ 8 → (∀ r, q ≤ r → r < q + n → ¬ defined v r) →
          WillUse facts used defined v q := by
        intro n
        induction n with
        | zero => intro v q hu _ _; exact .use hu
        | succ n ih =>
          intro v q hu hn hd
          refine .later (edge_of (by omega)) (hd q (by omega) (by omega)) (ih v (q + 1) ?_ (by omega) ?_)
          · rw [show q + 1 + n = q + (n + 1) by omega]; exact hu
          · exact fun r h1 h2 => hd r (by omega) (by omega)
      rintro (⟨rfl, h⟩ | ⟨rfl, h⟩)
      · exact back (3 - p) 1 p (.inr ⟨rfl, by omega⟩) (by omega) (by rintro r _ _ ⟨h, _⟩; cases h)
      · exact back (7 - p) 0 p (.inl ⟨rfl, .inr (by omega)⟩) (by omega) (by rintro r _ _ ⟨_, h⟩; omega)
    · intro h
      induction h with
      | use hu => unfold used at hu; omega
      | later he hd _ ih =>
        have := (edge he).1
        unfold defined at hd
        omega
  uninit := by
    intro d p q h1 h2
    obtain ⟨rfl, h2⟩ := edge h2
    rw [uninit] at h1 ⊢
    by_cases hp : d = 0 ∧ p = 3
    · obtain ⟨rfl, rfl⟩ := hp
      exact .inr ⟨0, .self, by decide⟩
    · exact .inl (by omega)

theorem accepted {path : Nat} (hp : path ≤ 1) : Accepted facts used defined path where
  moved := by
    intro k mv path₀ source hu hm ht hr
    have h1 := after hm hr
    have h2 := only hm
    have h3 := touch hm ht
    have hu : (path = 0 ∧ (2 * k + 1 = 5 ∨ 2 * k + 1 = 7)) ∨ (path = 1 ∧ 2 * k + 1 = 3) := hu
    omega
  uninit := by
    intro k d hu ha h
    have ha := anc ha
    have h := uninit.1 h
    have hu : (path = 0 ∧ (2 * k + 1 = 5 ∨ 2 * k + 1 = 7)) ∨ (path = 1 ∧ 2 * k + 1 = 3) := hu
    omega
  whole := by
    rintro mv q ⟨path₀, source, hm, -, hr, other, h, hc⟩
    have h1 := after hm hr
    have h2 := only hm
    have h3 := set.1 h
    have h4 : other = path₀ := by simpa [facts] using hc
    omega
  init := by
    rintro q ⟨d, e, pred, h1, h2, -, h4, h5⟩
    have h1 := anc h1
    have h4 := anc h4
    have h2 := edge h2
    have h5 := set.1 h5
    refine .inr ⟨2, by omega, fun p hq => ?_⟩
    have := edge hq
    exact ⟨show path = 0 by omega, by omega⟩

theorem settled {path k : Nat} (h : path = 1 ∨ k ≠ 2) : InPlace facts path (2 * k) := by
  refine ⟨?_, ?_⟩
  · rintro mv ⟨path₀, source, hm, -, hr, other, h, hc⟩
    have h1 := after hm hr
    have h2 := only hm
    have h3 := set.1 h
    have h4 : other = path₀ := by simpa [facts] using hc
    omega
  · rintro ⟨d, e, pred, h1, h2, -, h4, h5⟩
    have h1 := anc h1
    have h4 := anc h4
    have h2 := edge h2
    have h5 := set.1 h5
    omega

/-- The hypotheses of C104 are met for the argument and for what the call returns.  The argument has its permissions until
it is moved into the call.  `x` has none where the call returns to, although it is about to be used there; it has them
from the end of the `let` until it is moved. -/
example : Analysed facts used defined ∧ (∀ path, path ≤ 1 → Accepted facts used defined path) ∧
    (∀ path k, path = 1 ∨ k ≠ 2 → InPlace facts path (2 * k)) ∧
    (WillUse facts used defined 0 4 ∧ Initialises facts 0 4) ∧
    (derive 20 facts).map (fun o => [0, 2, 4, 6, 8].map (fun k => (dataAtPoint facts o 1 k).permissions.drop)) =
      some [true, true, false, false, false] ∧
    (derive 20 facts).map (fun o => [0, 2, 4, 6, 8].map (fun k => (dataAtPoint facts o 0 k).permissions.drop)) =
      some [false, false, false, true, false] :=
  ⟨analysed, fun _ => accepted, fun _ _ => settled, ⟨(analysed.live 0 4).1 (live.2 (by omega)),
    0, 0, 3, .self, edge_of (by omega), uninit.2 (by omega), .self, set.2 (by omega)⟩, by decide +kernel, by decide +kernel⟩

end CallExample

end Verif.Facts
