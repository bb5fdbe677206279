import Verif.Facts.Live
/-!
# C129: moves of parts

A place has parts: `x.f` is a part of `x`.  Moving a part takes it from the whole, and assigning a part or the whole gives
it back.  rustc knows the parts of a variable that are moved or assigned somewhere (its move paths); aquascope asks for the
permissions of others as well.
-/
namespace Verif.Facts.Spec

/-- How the paths of the facts lie: `Part a b` says that `a` is `b` or a part of it
(its place continues that of `b` by fields), and `known` are the move paths. -/
structure Tree (i : Input) (Part : Nat → Nat → Prop) (known : Nat → Prop) : Prop where
  refl : ∀ a, Part a a
  trans : ∀ {a b c}, Part a b → Part b c → Part a c
  /-- wholes of the same part lie in each other -/
  line : ∀ {d a b}, Part d a → Part d b → Part a b ∨ Part b a
  /-- `child_path` is the tree of move paths -/
  child : ∀ a, known a → ∀ b, Ancestor i a b ↔ Part a b ∧ known b
  /-- what is moved and what is assigned is a move path -/
  moved : ∀ (mv path₀ source : Nat), i.moves[mv]? = some (path₀, source) → known path₀
  assigned : ∀ e q, (e, q) ∈ i.assigned → known e
  /-- `interior_paths` and the parents of a move path -/
  touch : ∀ (mv path₀ source : Nat), i.moves[mv]? = some (path₀, source) →
    ∀ path, (path ∈ i.interior path₀ ∨ path ∈ i.parents path₀) ↔ (Part path path₀ ∨ Part path₀ path)
  /-- move paths conflict if one is a part of the other -/
  conflict : ∀ a b, known a → known b → (i.conflict a b = true ↔ Part a b ∨ Part b a)
  /-- what overlaps with a part overlaps with the whole -/
  lent : ∀ l d path, i.conflict (i.borrowed l) d = true → Part d path → i.conflict (i.borrowed l) path = true
  /-- a part belongs to the same variable -/
  var : ∀ a b, Part a b → i.varOf a = i.varOf b

/-- What Polonius says of a move path that may be without a value on exit from a point (`path_maybe_uninitialized_on_exit`):
it was moved there, or the function starts there and it belongs to a variable that is no argument (`fresh`), or it came
without a value and is not assigned. -/
inductive LeftEmpty (i : Input) (entry : Nat) (fresh : Nat → Prop) (d : Nat) : Nat → Prop
  | move {mv path₀ k : Nat} : i.moves[mv]? = some (path₀, 2 * k) → Ancestor i d path₀ → LeftEmpty i entry fresh d (2 * k + 1)
  | start {r : Nat} : fresh r → Ancestor i d r → LeftEmpty i entry fresh d entry
  | keep {p q : Nat} : LeftEmpty i entry fresh d p → (p, q) ∈ i.cfgEdge → ¬ (∃ e, Ancestor i d e ∧ (e, q) ∈ i.assigned) →
    LeftEmpty i entry fresh d q

/-- The facts about initialisation are those of Polonius. -/
structure Ruled (i : Input) (Part : Nat → Nat → Prop) (known : Nat → Prop) (entry : Nat) (fresh : Nat → Prop) : Prop where
  tree : Tree i Part known
  /-- the start of a location is followed by its middle -/
  start : ∀ k q, (2 * k, q) ∈ i.cfgEdge → q = 2 * k + 1
  /-- moves are recorded with the start of their location -/
  source : ∀ (mv path₀ source : Nat), i.moves[mv]? = some (path₀, source) →
    ∃ k, source = 2 * k ∧ (2 * k, 2 * k + 1) ∈ i.cfgEdge
  uninit : ∀ p d, (p, d) ∈ i.uninitExit ↔ known d ∧ LeftEmpty i entry fresh d p
  fresh : ∀ r, fresh r → known r ∧ ∀ a, Part r a → a = r

/-- At the point a value is put into `d`, by itself or with a whole it is a part of. -/
def Given (i : Input) (Part : Nat → Nat → Prop) (d q : Nat) : Prop := ∃ e, Part d e ∧ (e, q) ∈ i.assigned

/-- In the middle of a location `d` is moved, by itself or with a whole it is a part of. -/
def MovedAt (i : Input) (Part : Nat → Nat → Prop) (d p : Nat) : Prop :=
  ∃ (mv path₀ k : Nat), i.moves[mv]? = some (path₀, 2 * k) ∧ Part d path₀ ∧ p = 2 * k + 1

/-- On some way to the point no value has been put into `d` since `p`. -/
def Since (i : Input) (Part : Nat → Nat → Prop) (d p point : Nat) : Prop :=
  ∃ between, Walk i.cfgEdge (p :: (between ++ [point])) ∧ ∀ q ∈ between, ¬ Given i Part d q

/-- On some way to the point `d` has been moved and has not got a value since. -/
def Gone (i : Input) (Part : Nat → Nat → Prop) (d point : Nat) : Prop :=
  ∃ p, MovedAt i Part d p ∧ Since i Part d p point

/-- On some way to the point `d` has never got a value. -/
def Blank (i : Input) (Part : Nat → Nat → Prop) (entry : Nat) (fresh : Nat → Prop) (d point : Nat) : Prop :=
  (∃ r, fresh r ∧ Part d r) ∧ Since i Part d entry point

/-- `d` may be without a value at the point. -/
def Missing (i : Input) (Part : Nat → Nat → Prop) (entry : Nat) (fresh : Nat → Prop) (d point : Nat) : Prop :=
  Gone i Part d point ∨ Blank i Part entry fresh d point

/-- What the borrow checker demands of assignments and moves: a part is assigned only if no whole of it is gone, and no
location moves something and assigns a part or a whole of it in one go. -/
structure Careful (i : Input) (Part : Nat → Nat → Prop) : Prop where
  part : ∀ e q a, (e, q) ∈ i.assigned → Part e a → ¬ Part a e → ¬ Gone i Part a q
  apart : ∀ (mv path₀ k : Nat), i.moves[mv]? = some (path₀, 2 * k) → ¬ AssignedAt i path₀ (2 * k + 1)

end Verif.Facts.Spec

namespace Verif.Facts
open Spec

section

variable {i : Input} {Part : Nat → Nat → Prop} {known fresh : Nat → Prop} {entry : Nat}

theorem given_of_part (h : Tree i Part known) {d e q : Nat} (hp : Part d e) (hg : Given i Part e q) : Given i Part d q := by
  obtain ⟨a, h1, h2⟩ := hg
  exact ⟨a, h.trans hp h1, h2⟩

theorem since_of_part (h : Tree i Part known) {d e p q : Nat} (hp : Part d e) (hs : Since i Part d p q) :
    Since i Part e p q := by
  obtain ⟨w, h1, h2⟩ := hs
  exact ⟨w, h1, fun x hx hg => h2 x hx (given_of_part h hp hg)⟩

theorem given_known (h : Tree i Part known) {d q : Nat} (hk : known d) :
    Given i Part d q ↔ ∃ e, Ancestor i d e ∧ (e, q) ∈ i.assigned := by
  constructor
  · rintro ⟨e, h1, h2⟩
    exact ⟨e, (h.child d hk e).2 ⟨h1, h.assigned e q h2⟩, h2⟩
  · rintro ⟨e, h1, h2⟩
    exact ⟨e, ((h.child d hk e).1 h1).1, h2⟩

/-- The places that a missing value comes from. -/
def Source (i : Input) (Part : Nat → Nat → Prop) (entry : Nat) (fresh : Nat → Prop) (d p : Nat) : Prop :=
  MovedAt i Part d p ∨ (p = entry ∧ ∃ r, fresh r ∧ Part d r)

theorem missing_iff {d point : Nat} :
    Missing i Part entry fresh d point ↔ ∃ p, Source i Part entry fresh d p ∧ Since i Part d p point := by
  constructor
  · rintro (⟨p, h1, h2⟩ | ⟨h1, h2⟩)
    · exact ⟨p, .inl h1, h2⟩
    · exact ⟨entry, .inr ⟨rfl, h1⟩, h2⟩
  · rintro ⟨p, h1 | ⟨rfl, h1⟩, h2⟩
    · exact .inl ⟨p, h1, h2⟩
    · exact .inr ⟨h1, h2⟩

theorem since_snoc {d p q r : Nat} (hs : Since i Part d p q) (hn : ¬ Given i Part d q) (he : (q, r) ∈ i.cfgEdge) :
    Since i Part d p r := by
  obtain ⟨w, h1, h2⟩ := hs
  refine ⟨w ++ [q], ?_, ?_⟩
  · have := (walk_snoc (l := p :: w)).2 ⟨h1, he⟩
    simpa using this
  · intro x hx
    rcases List.mem_append.1 hx with hx | hx
    · exact h2 x hx
    · rw [List.mem_singleton.1 hx]
      exact hn

/-- What Polonius says of a move path, in terms of ways. -/
theorem leftEmpty_since (h : Ruled i Part known entry fresh) {d p q : Nat} (hk : known d)
    (hl : LeftEmpty i entry fresh d p) (he : (p, q) ∈ i.cfgEdge) : Missing i Part entry fresh d q := by
  rw [missing_iff]
  induction hl generalizing q with
  | @move mv path₀ k hm ha =>
    exact ⟨_, .inl ⟨mv, path₀, k, hm, ((h.tree.child d hk _).1 ha).1, rfl⟩, [], ⟨he, trivial⟩, by simp⟩
  | @start r hr ha =>
    exact ⟨_, .inr ⟨rfl, r, hr, ((h.tree.child d hk _).1 ha).1⟩, [], ⟨he, trivial⟩, by simp⟩
  | @keep p p' _ he' hn ih =>
    obtain ⟨p0, h1, h2⟩ := ih he'
    exact ⟨p0, h1, since_snoc h2 (fun hg => hn ((given_known h.tree hk).1 hg)) he⟩

theorem leftEmpty_of (h : Ruled i Part known entry fresh) {d : Nat} (hk : known d) :
    ∀ {w : List Nat} {p q : Nat}, LeftEmpty i entry fresh d p → Walk i.cfgEdge (p :: (w ++ [q])) →
      (∀ x ∈ w, ¬ Given i Part d x) → ∃ p', LeftEmpty i entry fresh d p' ∧ (p', q) ∈ i.cfgEdge
  | [], p, q, hp, hw, _ => ⟨p, hp, hw.1⟩
  | x :: w, p, q, hp, hw, hn =>
    leftEmpty_of h hk (w := w) (.keep hp hw.1 fun hg => hn x (by simp) ((given_known h.tree hk).2 hg)) hw.2
      fun y hy => hn y (List.mem_cons_of_mem _ hy)

theorem uninit_missing (h : Ruled i Part known entry fresh) {path point : Nat} (hm : MaybeUninit i path point) :
    ∃ d, Part d path ∧ Missing i Part entry fresh d point := by
  obtain ⟨pred, d, h1, h2, h3⟩ := hm
  obtain ⟨h4, h5⟩ := (h.uninit _ _).1 h2
  exact ⟨d, ((h.tree.child d h4 path).1 h3).1, leftEmpty_since h h4 h5 h1⟩

/-- **C129 (initialisation).** A move path is reported as maybe uninitialised on entry to a point exactly if on some way
there it or a part of it has been moved, or has not got a value yet, and has not got one since. -/
theorem C129_uninit (h : Ruled i Part known entry fresh) {path : Nat} (hk : known path) (point : Nat) :
    MaybeUninit i path point ↔ ∃ d, Part d path ∧ Missing i Part entry fresh d point := by
  constructor
  · exact uninit_missing h
  · rintro ⟨d, hd, hm⟩
    rw [missing_iff] at hm
    obtain ⟨p, hs, w, hw, hn⟩ := hm
    have main : ∀ d', known d' → Part d d' → Part d' path → LeftEmpty i entry fresh d' p → MaybeUninit i path point := by
      intro d' k1 k2 k3 k4
      obtain ⟨p', e1, e2⟩ := leftEmpty_of h k1 k4 hw fun x hx hg => hn x hx (given_of_part h.tree k2 hg)
      exact ⟨p', d', e2, (h.uninit _ _).2 ⟨k1, e1⟩, (h.tree.child d' k1 path).2 ⟨k3, hk⟩⟩
    rcases hs with ⟨mv, path₀, k, hm, hp, rfl⟩ | ⟨rfl, r, hr, hp⟩
    · have hk₀ := h.tree.moved mv path₀ _ hm
      rcases h.tree.line hd hp with h1 | h1
      · exact main path hk hd (h.tree.refl _) (.move hm ((h.tree.child path hk _).2 ⟨h1, hk₀⟩))
      · exact main path₀ hk₀ hp h1 (.move hm ((h.tree.child path₀ hk₀ _).2 ⟨h.tree.refl _, hk₀⟩))
    · obtain ⟨hkr, hroot⟩ := h.fresh r hr
      have h1 : Part path r := by
        rcases h.tree.line hd hp with h1 | h1
        · exact h1
        · rw [hroot path h1]
          exact h.tree.refl _
      exact main path hk hd (h.tree.refl _) (.start hr ((h.tree.child path hk _).2 ⟨h1, hkr⟩))

/-- **C129 (a reported move is one).** If a path is reported as moved at the start of a location, on some way there it, a
part of it or a whole it is a part of has been moved and has not got a value since.  So it is for every path and
every program. -/
theorem C129_true (h : Ruled i Part known entry fresh) {path k : Nat} (hm : Moved i path (2 * k)) :
    ∃ d, Part d path ∧ Gone i Part d (2 * k) := by
  obtain ⟨mv, ht, path₀, source, w, e1, e2, e3⟩ := hm
  obtain ⟨s, rfl, _⟩ := h.source mv path₀ source e1
  have htouch : Part path path₀ ∨ Part path₀ path := by
    obtain ⟨p', s', t1, t2⟩ := ht
    rw [e1] at t1
    cases t1
    exact (h.tree.touch mv path₀ _ e1 path).1 t2
  -- the first step leads to the middle of the location of the move
  obtain ⟨w', rfl⟩ : ∃ w', w = (2 * s + 1) :: w' := by
    cases w with
    | nil =>
      have := h.start _ _ e2.1
      omega
    | cons y w' =>
      have := h.start _ _ e2.1
      exact ⟨w', by rw [this]⟩
  have hsince : ∀ d, Part d path₀ → Since i Part d (2 * s + 1) (2 * k) := by
    intro d hd
    refine ⟨w', e2.2, ?_⟩
    rintro q hq ⟨e, g1, g2⟩
    refine e3 q (List.mem_cons_of_mem _ hq) ⟨e, g2, (h.tree.conflict e path₀ (h.tree.assigned e q g2) (h.tree.moved mv path₀ _ e1)).2 ?_⟩
    exact h.tree.line g1 hd
  rcases htouch with hp | hp
  · exact ⟨path, h.tree.refl _, _, ⟨mv, path₀, s, e1, hp, rfl⟩, hsince path hp⟩
  · exact ⟨path₀, hp, _, ⟨mv, path₀, s, e1, h.tree.refl _, rfl⟩, hsince path₀ (h.tree.refl _)⟩

/-- **C129 (every move is reported).** In a program whose assignments the borrow checker accepts a path is reported as
moved at the start of a location exactly if on some way there it or a part of it has been moved, by itself or with a
whole, and has not got a value since. -/
theorem C129_moved (h : Ruled i Part known entry fresh) (hc : Careful i Part) {path k : Nat} {fuel : Nat} {o : Output}
    (ho : derive fuel i = some o) :
    (dataAtPoint i o path (2 * k)).pathMoved.isSome = true ↔ ∃ d, Part d path ∧ Gone i Part d (2 * k) := by
  have hM : (dataAtPoint i o path (2 * k)).pathMoved.isSome = true ↔ Moved i path (2 * k) :=
    C23_moved fuel i o ho path (2 * k)
  rw [hM]
  refine ⟨C129_true h, ?_⟩
  rintro ⟨d, hd, p, ⟨mv, path₀, s, hm, hp, rfl⟩, w, hw, hn⟩
  have hn₀ : ∀ x ∈ w, ¬ Given i Part path₀ x := fun x hx hg => hn x hx (given_of_part h.tree hp hg)
  -- what is assigned on the way is neither a whole nor a part of what was moved
  have key : ∀ (w₁ : List Nat) (x : Nat) (w₂ : List Nat), w = w₁ ++ x :: w₂ → ¬ AssignedAt i path₀ x := by
    rintro w₁ x w₂ rfl ⟨e, g1, g2⟩
    rcases (h.tree.conflict e path₀ (h.tree.assigned e x g1) (h.tree.moved mv path₀ _ hm)).1 g2 with g3 | g3
    · by_cases g4 : Part path₀ e
      · exact hn₀ x (by simp) ⟨e, g4, g1⟩
      · refine hc.part e x path₀ g1 g3 g4 ⟨_, ⟨mv, path₀, s, hm, h.tree.refl _, rfl⟩, w₁, ?_, fun y hy => hn₀ y (by simp [hy])⟩
        have : ∀ (a : List Nat) (z : Nat) (b : List Nat), Walk i.cfgEdge (a ++ z :: b) → Walk i.cfgEdge (a ++ [z]) := by
          intro a
          induction a with
          | nil => intro z b _; trivial
          | cons y a ih =>
            intro z b hb
            cases a with
            | nil => exact ⟨hb.1, trivial⟩
            | cons y' a => exact ⟨hb.1, ih z b hb.2⟩
        have hw' : Walk i.cfgEdge (((2 * s + 1) :: w₁) ++ x :: (w₂ ++ [2 * k])) := by simpa using hw
        exact this _ _ _ hw'
    · exact hn₀ x (by simp) ⟨e, g3, g1⟩
  obtain ⟨s', e1, e2⟩ := h.source mv path₀ _ hm
  obtain rfl : s' = s := by omega
  refine ⟨mv, ⟨path₀, _, hm, (h.tree.touch mv path₀ _ hm path).2 (h.tree.line hd hp)⟩, path₀, _, (2 * s' + 1) :: w, hm, ⟨e2, hw⟩, ?_⟩
  intro x hx
  rcases List.mem_cons.1 hx with rfl | hx
  · exact hc.apart mv path₀ s' hm
  · obtain ⟨w₁, w₂, e⟩ := List.append_of_mem hx
    exact key w₁ x w₂ e

/-- **C129 (reading).** A move path may be read at the start of a location exactly if its variable is live there, no way
to it leaves the path or a part of it without a value, and it is not mutably lent. -/
theorem C129_read (h : Ruled i Part known entry fresh) {path k : Nat} (hk : known path) {fuel : Nat} {o : Output}
    (ho : derive fuel i = some o) :
    (dataAtPoint i o path (2 * k)).permissions.read = true ↔
      (2 * k, i.varOf path) ∈ i.varLive ∧ (∀ d, Part d path → ¬ Missing i Part entry fresh d (2 * k)) ∧
        ¬ ∃ l, LiveOverlap i l path (2 * k) ∧ i.isMutLoan l = true := by
  rw [(C22_at_point fuel i o ho path (2 * k)).1, C129_uninit h hk]
  constructor
  · rintro ⟨a, -, b, c⟩
    exact ⟨a, fun d hd hm => b ⟨d, hd, hm⟩, c⟩
  · rintro ⟨a, b, c⟩
    refine ⟨a, fun hm => ?_, fun ⟨d, hd, hm⟩ => b d hd hm, c⟩
    obtain ⟨d, hd, hg⟩ := C129_true h hm
    exact b d hd (.inl hg)

theorem overlap_whole (h : Tree i Part known) {d path l point : Nat} (hin : path ∈ i.paths) (hp : Part d path)
    (hl : LiveOverlap i l d point) :
    LiveOverlap i l path point := by
  obtain ⟨h1, h2, _, h4⟩ := hl
  exact ⟨h1, h2, hin, h.lent l d path h4 hp⟩

/-- **C129 (parts of what may be read).** Where a move path may be read, so may each part of it, whether it is a move path or
not; and where it may be written (or dropped), so may each part whose type and declaration allow it. -/
theorem C129_parts (h : Ruled i Part known entry fresh) {path d k : Nat} (hk : known path) (hin : path ∈ i.paths)
    (hp : Part d path) {fuel : Nat} {o : Output} (ho : derive fuel i = some o) :
    let p := (dataAtPoint i o path (2 * k)).permissions
    let q := (dataAtPoint i o d (2 * k)).permissions
    (p.read = true → q.read = true) ∧ (p.write = true → i.writeEnabled d = true → q.write = true) ∧
      (p.drop = true → i.dropEnabled d = true → q.drop = true) := by
  obtain ⟨a1, a2, a3⟩ := C22_at_point fuel i o ho path (2 * k)
  obtain ⟨b1, b2, b3⟩ := C22_at_point fuel i o ho d (2 * k)
  dsimp only
  have hread : (dataAtPoint i o path (2 * k)).permissions.read = true →
      (dataAtPoint i o d (2 * k)).permissions.read = true := by
    intro hr
    obtain ⟨c1, c2, c3⟩ := (C129_read h hk ho).1 hr
    refine b1.2 ⟨?_, ?_, ?_, ?_⟩
    · rw [h.tree.var d path hp]
      exact c1
    · intro hm
      obtain ⟨x, hx, hg⟩ := C129_true h hm
      exact c2 x (h.tree.trans hx hp) (.inl hg)
    · intro hm
      obtain ⟨x, hx, hg⟩ := uninit_missing h hm
      exact c2 x (h.tree.trans hx hp) hg
    · rintro ⟨l, hl, hmut⟩
      exact c3 ⟨l, overlap_whole h.tree hin hp hl, hmut⟩
  refine ⟨hread, ?_, ?_⟩
  · intro hw he
    obtain ⟨c1, _, c3⟩ := a2.1 hw
    exact b2.2 ⟨hread c1, he, fun ⟨l, hl⟩ => c3 ⟨l, overlap_whole h.tree hin hp hl⟩⟩
  · intro hw he
    obtain ⟨c1, _, c3⟩ := a3.1 hw
    exact b3.2 ⟨hread c1, he, fun ⟨l, hl⟩ => c3 ⟨l, overlap_whole h.tree hin hp hl⟩⟩

end

/-! A variable `x` (path 0) with the parts `x.f` (path 1) and `x.g` (path 2).  It gets its value at 0, `x.f` is moved at 1 and
assigned at 3; at 2 `x.g` is used, at 4 `x`.  `x.g` is no move path. -/

namespace PartsExample

def facts : Input :=
  { cfgEdge := (List.range 9).map (fun n => (n, n + 1))
    uninitExit := [(0, 0), (0, 1), (3, 1), (4, 1), (5, 1), (6, 1)]
    childPath := [(1, 0)]
    moves := [(1, 2)]
    interior := fun p => if p == 0 then [0, 1, 2] else [p]
    parents := fun p => if p == 1 then [0] else []
    assigned := [(0, 1), (1, 7)]
    conflict := fun a b => a == b || (a == 0 && decide (b ≤ 2)) || (b == 0 && decide (a ≤ 2))
    issued := []
    borrowed := fun _ => 0
    isMutLoan := fun _ => false
    loanLive := []
    paths := [0, 1, 2]
    varLive := (List.range 8).map (fun n => (n + 2, 0))
    varOf := fun _ => 0
    writeEnabled := fun _ => true
    dropEnabled := fun _ => true
    copyable := fun _ => false }

def Part (a b : Nat) : Prop := a = b ∨ (b = 0 ∧ a ≤ 2)
def known (a : Nat) : Prop := a ≤ 1
def fresh (r : Nat) : Prop := r = 0

theorem edge {p q : Nat} (h : (p, q) ∈ facts.cfgEdge) : q = p + 1 ∧ p ≤ 8 := by
  simp only [facts, List.mem_map, List.mem_range, Prod.mk.injEq] at h
  obtain ⟨n, h1, rfl, rfl⟩ := h
  omega

theorem edge_of {p : Nat} (h : p ≤ 8) : (p, p + 1) ∈ facts.cfgEdge :=
  List.mem_map.2 ⟨p, List.mem_range.2 (by omega), rfl⟩

theorem only {mv path₀ source : Nat} (h : facts.moves[mv]? = some (path₀, source)) : path₀ = 1 ∧ source = 2 := by
  cases mv with
  | zero =>
    simp only [facts, List.getElem?_cons_zero, Option.some.injEq, Prod.mk.injEq] at h
    exact ⟨h.1.symm, h.2.symm⟩
  | succ n => simp [facts] at h

theorem set {d q : Nat} : (d, q) ∈ facts.assigned ↔ (d = 0 ∧ q = 1) ∨ (d = 1 ∧ q = 7) := by
  simp only [facts, List.mem_cons, Prod.mk.injEq, List.not_mem_nil, or_false]

theorem uninit {p d : Nat} : (p, d) ∈ facts.uninitExit ↔ (d ≤ 1 ∧ p = 0) ∨ (d = 1 ∧ 3 ≤ p ∧ p ≤ 6) := by
  simp only [facts, List.mem_cons, Prod.mk.injEq, List.not_mem_nil, or_false]
  omega

theorem ancestor {a b : Nat} : Ancestor facts a b ↔ a = b ∨ (a = 1 ∧ b = 0) := by
  constructor
  · intro h
    induction h with
    | self => exact .inl rfl
    | up _ hc ih =>
      simp only [facts, List.mem_singleton, Prod.mk.injEq] at hc
      omega
  · rintro (rfl | ⟨rfl, rfl⟩)
    · exact .self
    · exact .up .self (by decide)

theorem tree : Tree facts Part known where
  refl a := .inl rfl
  trans := by
    intro a b c h1 h2
    unfold Part at *
    omega
  line := by
    intro d a b h1 h2
    unfold Part at *
    omega
  child := by
    intro a ha b
    rw [ancestor]
    unfold Part known at *
    omega
  moved := by
    intro mv path₀ source h
    have := only h
    unfold known
    omega
  assigned := by
    intro e q h
    have := set.1 h
    unfold known
    omega
  touch := by
    intro mv path₀ source h path
    obtain ⟨rfl, rfl⟩ := only h
    simp [facts, Part]
    omega
  conflict := by
    intro a b ha hb
    simp [facts, Part]
    omega
  lent := by
    intro l d path h1 h2
    simp [facts, Part] at *
    omega
  var _ _ _ := rfl

theorem leftEmpty {d : Nat} (hd : d ≤ 1) {p : Nat} :
    LeftEmpty facts 0 fresh d p ↔ (d ≤ 1 ∧ p = 0) ∨ (d = 1 ∧ 3 ≤ p ∧ p ≤ 6) := by
  constructor
  · intro h
    induction h with
    | move hm ha =>
      have := only hm
      have := ancestor.1 ha
      omega
    | start _ _ => omega
    | @keep p q _ he hn ih =>
      have := edge he
      have h1 : ¬ (d ≤ 1 ∧ q = 1) := fun ⟨h, hq⟩ => hn ⟨0, ancestor.2 (by omega), set.2 (by omega)⟩
      have h2 : ¬ (d = 1 ∧ q = 7) := fun ⟨h, hq⟩ => hn ⟨1, ancestor.2 (by omega), set.2 (by omega)⟩
      omega
  · have base : LeftEmpty facts 0 fresh 1 3 := .move (mv := 0) (path₀ := 1) (k := 1) rfl .self
    have step : ∀ n, n ≤ 3 → LeftEmpty facts 0 fresh 1 (n + 3) := by
      intro n
      induction n with
      | zero => exact fun _ => base
      | succ n ih =>
        intro hn
        refine .keep (ih (by omega)) (edge_of (by omega)) ?_
        rintro ⟨e, _, h⟩
        have := set.1 h
        omega
    rintro (⟨_, rfl⟩ | ⟨rfl, h1, h2⟩)
    · exact .start (r := 0) rfl (ancestor.2 (by omega))
    · have := step (p - 3) (by omega)
      rwa [show p - 3 + 3 = p by omega] at this

theorem ruled : Ruled facts Part known 0 fresh where
  tree := tree
  start k q h := (edge h).1
  source mv path₀ source h := ⟨1, (only h).2, by decide⟩
  uninit p d := by
    rw [uninit]
    unfold known
    constructor
    · intro h
      have hd : d ≤ 1 := by omega
      exact ⟨hd, (leftEmpty hd).2 h⟩
    · rintro ⟨hd, h⟩
      exact (leftEmpty hd).1 h
  fresh := by
    rintro r rfl
    refine ⟨by unfold known; omega, ?_⟩
    intro a h
    unfold Part at h
    omega

theorem careful : Careful facts Part where
  part := by
    intro e q a h1 h2 h3
    rintro ⟨p, ⟨mv, path₀, k, hm, hp, _⟩, _⟩
    obtain ⟨rfl, _⟩ := only hm
    have := set.1 h1
    unfold Part at *
    omega
  apart := by
    intro mv path₀ k hm
    obtain ⟨rfl, h⟩ := only hm
    rintro ⟨e, h1, _⟩
    have := set.1 h1
    omega

/-- The permission to read `x`, `x.f` and `x.g` at the starts of the locations. -/
def reads (path : Nat) : Option (List Bool) :=
  (derive 100 facts).map fun o => (List.range 5).map fun k => (dataAtPoint facts o path (2 * k)).permissions.read

example : reads 0 = some [false, true, false, false, true] := by decide +kernel
example : reads 1 = some [false, true, false, false, true] := by decide +kernel
example : reads 2 = some [false, true, true, true, true] := by decide +kernel

/-- `x.f` is gone at the start of location 2 and back at that of location 4. -/
example : ∃ d, Part d 0 ∧ Gone facts Part d (2 * 2) := by
  cases h : derive 100 facts with
  | none => exact absurd h (by decide +kernel)
  | some o =>
    refine (C129_moved ruled careful (path := 0) (k := 2) h).1 ?_
    have : ((derive 100 facts).map fun o => (dataAtPoint facts o 0 (2 * 2)).pathMoved.isSome) = some true := by
      decide +kernel
    rw [h] at this
    simpa using this

end PartsExample

end Verif.Facts
