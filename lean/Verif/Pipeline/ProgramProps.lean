import Verif.Pipeline.Programs
/-!
# C101: the page of a program with conditionals
-/
namespace Verif.Pipeline

open Verif.Cfg Verif.Segments Verif.Steps Verif.Permissions Verif.HirSteps

/-- No other step on the line changes the place, nor does it get its first permissions there. -/
def Alone (c : Ctxt) (src : List Char) (f : Frozen) (p : Place) (k line : Nat) : Prop :=
  (∀ (j : Nat) (s : Seg), f.segs[j]? = some s → Changes c p s → lineOf src (c.endOf s.span) = line → j = k) ∧
  (lineOf src c.brace = line → bottomData.permissions = (c.data c.start p).permissions)

theorem nodup_index {α β : Type} {f : α → β} {l : List α} {r : List β} (h : (l.map f ++ r).Nodup) {i j : Nat} {a b : α}
    (hi : l[i]? = some a) (hj : l[j]? = some b) (he : f a = f b) : i = j := by
  have h' := (List.nodup_append.1 h).1
  have hlt : i < (l.map f).length := by
    rw [List.length_map]
    exact (List.getElem?_eq_some_iff.1 hi).1
  refine (List.getElem?_inj hlt h').1 ?_
  rw [List.getElem?_map, List.getElem?_map, hi, hj, Option.map_some, Option.map_some, he]

/-- **C101 (every change is shown).** For every program of actions, calls and nested `if`s, and whatever is known of
its places: the page is made, and every step that changes a visible place, and is the only one on its line to do so,
has a row with exactly the permissions before and after. -/
theorem C101_page (p : Prog) (sp : Nat) {fuel : Nat} (hfu : fuel ≠ 0)
    {ord : List (Loc × Nat) → List (Loc × Nat)} (hord : ∀ l, (ord l).Perm l) (c : Ctxt) {order : Tables → Tables}
    (ho : ∀ m, (order m).Perm m) (src : List Char) (err : Option Nat) (visible : Place → Bool) :
    ∃ f locals ds, compute (.ofBody p.body fuel ord) (p.source sp) = .steps f locals ∧
      finalizeBody c f locals order src err visible .changes = some ds ∧
      f.segs.map (fun g => (g.from, g.to, g.span)) =
        p.expected 0 0 ++ [(p.finAt 0 0, ⟨(p.finAt 0 0).block, (p.finAt 0 0).idx + 1⟩, sp)] ∧
      ∀ x ∈ c.places, visible x = true → ∀ (k : Nat) (s : Seg) (line : Nat), f.segs[k]? = some s → Changes c x s →
        OnLine src err (c.endOf s.span) line → Alone c src f x k line →
        ∃ d, Shown src ds line x d ∧ Says d (c.data s.from x).permissions (c.data s.to x).permissions := by
  obtain ⟨f, locals, h1, h2, h3⟩ := C100_programs p sp hfu hord
  have hk := program_known p sp h1 h2 h3
  obtain ⟨ds, hds⟩ := C97_total h1 hk.splits c order ho src err visible .changes
  refine ⟨f, locals, ds, h1, hds, h2, ?_⟩
  intro x hx hv k s line hs hne hl ha
  refine C101_shown_partial h1 ho hds hx hv ?_ hs hne ?_ ?_ hl ha.1 ha.2
  · rw [Prog.no_lets_source]
    simp
  · intro j s' hs' _ he
    exact nodup_index hk.nodup hs' hs he
  · intro b hb he
    have := (List.nodup_append.1 hk.nodup).2.2 s.to (List.mem_map.2 ⟨s, List.mem_of_getElem? hs, rfl⟩) b.reachTo
      (List.mem_map.2 ⟨b, hb, rfl⟩)
    exact this he.symm

/-- **C101 (the start is shown).** The permissions a visible place has from the start are shown at the opening brace,
if no step on that line changes them. -/
theorem C101_entry (p : Prog) (sp : Nat) {fuel : Nat} (hfu : fuel ≠ 0)
    {ord : List (Loc × Nat) → List (Loc × Nat)} (hord : ∀ l, (ord l).Perm l) {c : Ctxt} (hst : c.start = startLoc)
    {order : Tables → Tables} (ho : ∀ m, (order m).Perm m) {src : List Char} {err : Option Nat}
    {visible : Place → Bool} {f : Frozen} {locals : List (Nat × List Nat)} {ds : List Display}
    (h : compute (.ofBody p.body fuel ord) (p.source sp) = .steps f locals)
    (hd : finalizeBody c f locals order src err visible .changes = some ds) {x : Place} (hx : x ∈ c.places)
    (hv : visible x = true) (hne : (c.data c.start x).permissions ≠ ⟨false, false, false⟩) {line : Nat}
    (hl : OnLine src err c.brace line)
    (hu : ∀ s ∈ f.segs, lineOf src (c.endOf s.span) = line → ¬ Changes c x s) :
    ∃ d, Shown src ds line x d ∧ Says d ⟨false, false, false⟩ (c.data c.start x).permissions := by
  obtain ⟨f', locals', h1, h2, h3⟩ := C100_programs p sp hfu hord
  rw [h] at h1
  cases h1
  have hk := program_known p sp h h2 h3
  obtain ⟨_, hatt⟩ := C97_not_hidden (c := c) h hx (by
    show ∀ e ∈ letsExpr _ _ (p.source sp), _
    rw [Prog.no_lets_source]
    simp)
  have hbot : bottomData.permissions = ⟨false, false, false⟩ := by decide
  have := C97_shown_partial ho hd (t := .entry) (l := startLoc) (line := line) (.inl ⟨rfl, ?_⟩) (.entry hx) hl hv
    (by rw [hbot]; exact fun h => hne h.symm) ?_
  · rw [hbot] at this
    exact this
  · intro t ht
    apply hk.start
    rw [hst] at ht
    rcases inTree_made ht with ⟨sid, s, e1, _, e2, _⟩ | ⟨bid, b, e1, e2, _⟩
    · exact List.mem_append_left _ (List.mem_map.2 ⟨s, List.mem_of_getElem? e1, e2.symm⟩)
    · exact List.mem_append_right _ (List.mem_map.2 ⟨b, List.mem_of_getElem? e1, e2.symm⟩)
  · intro t a b hi _ hc hl' hn
    cases hc with
    | entry _ => rfl
    | seg _ hs _ => exact absurd hn (hu _ (List.mem_of_getElem? hs) hl')
    | attached a1 a2 a3 a4 a5 => exact (hatt _ _ _ _ (.attached a1 a2 a3 a4 a5)).elim

/-- Where the story of a step begins: at the start of the function or at the join of one of its `if`s. -/
def Origin (f : Frozen) (o : Loc) : Prop := o = startLoc ∨ ∃ b ∈ f.branches, o = b.reachTo

/-- Every step of a program is reached from the start or from a join by steps that follow each other. -/
theorem program_along (p : Prog) (sp : Nat) {f : Frozen}
    (hs : f.segs.map (fun g => (g.from, g.to, g.span)) =
        p.expected 0 0 ++ [(p.finAt 0 0, ⟨(p.finAt 0 0).block, (p.finAt 0 0).idx + 1⟩, sp)])
    (hj : f.branches.map (fun x => (x.reachFrom, x.reachTo)) = p.joins 0 0) {s : Seg} (hm : s ∈ f.segs) :
    ∃ o ss, Origin f o ∧ Along f o (ss ++ [s]) s.to := by
  have key : ∃ o ss, Origin f o ∧ Along f o ss s.from := by
    have h := Prog.expected_from p 0 0 (f.segs.map (fun g => (g.from, g.to, g.span)))
      (f.branches.map (·.reachTo)) (fun l => ∃ o ss, Origin f o ∧ Along f o ss l) (by
        intro x hx
        rw [hs]
        exact List.mem_append_left _ hx) (by
        intro x hx
        rw [← hj] at hx
        obtain ⟨b, hb, rfl⟩ := List.mem_map.1 hx
        exact List.mem_map.2 ⟨b, hb, rfl⟩) (by
        intro l hl
        obtain ⟨b, hb, rfl⟩ := List.mem_map.1 hl
        exact ⟨_, [], .inr ⟨b, hb, rfl⟩, .nil⟩) (by
        rintro x hx ⟨o, ss, h1, h2⟩
        obtain ⟨g, hg, rfl⟩ := List.mem_map.1 hx
        exact ⟨o, ss ++ [g], h1, .snoc h2 hg rfl⟩) ⟨_, [], .inl rfl, .nil⟩
    have hx : (s.from, s.to, s.span) ∈ f.segs.map (fun g => (g.from, g.to, g.span)) := List.mem_map.2 ⟨s, hm, rfl⟩
    rw [hs] at hx
    rcases List.mem_append.1 hx with hx | hx
    · exact h.1 _ hx
    · rw [List.mem_singleton] at hx
      have := congrArg Prod.fst hx
      dsimp only at this
      rw [this]
      exact h.2
  obtain ⟨o, ss, h1, h2⟩ := key
  exact ⟨o, ss, h1, .snoc h2 hm rfl⟩

/-- **C101 (the story since the last join).** In every program of actions, calls and nested `if`s whose steps that
change a visible place end on different lines, the rows tell the permissions of the place after every step, along the
steps that lead to it from the start or from the last join: they are what the last row on this way says; if there is
none on this way, they are what they were at its beginning, and at the start of the function that is what the row at
the opening brace says, or none if there is no such row.  Missing for the whole story: the permissions at a join. -/
theorem C101_story_partial (p : Prog) (sp : Nat) {fuel : Nat} (hfu : fuel ≠ 0)
    {ord : List (Loc × Nat) → List (Loc × Nat)} (hord : ∀ l, (ord l).Perm l) {c : Ctxt} (hst : c.start = startLoc)
    {order : Tables → Tables} (ho : ∀ m, (order m).Perm m) {src : List Char} {visible : Place → Bool} {f : Frozen}
    {locals : List (Nat × List Nat)} {ds : List Display}
    (h : compute (.ofBody p.body fuel ord) (p.source sp) = .steps f locals)
    (hd : finalizeBody c f locals order src none visible .changes = some ds) {x : Place} (hx : x ∈ c.places)
    (hv : visible x = true)
    (hu : ∀ (k : Nat) (s : Seg), f.segs[k]? = some s → Changes c x s → Alone c src f x k (lineOf src (c.endOf s.span)))
    {s : Seg} (hs : s ∈ f.segs) :
    ∃ o ss, Origin f o ∧ Along f o (ss ++ [s]) s.to ∧
      ((∃ pre g post d, ss ++ [s] = pre ++ g :: post ∧ Shown src ds (lineOf src (c.endOf g.span)) x d ∧
          Says d (c.data g.from x).permissions (c.data s.to x).permissions ∧ ∀ y ∈ post, ¬ Changes c x y) ∨
        ((∀ y ∈ ss ++ [s], ¬ Changes c x y) ∧ (c.data s.to x).permissions = (c.data o x).permissions ∧
          (o = startLoc → (∃ d, Shown src ds (lineOf src c.brace) x d ∧
              Says d ⟨false, false, false⟩ (c.data s.to x).permissions) ∨
            (c.data s.to x).permissions = ⟨false, false, false⟩))) := by
  obtain ⟨f', locals', ds', e1, e2, e3, hshow⟩ := C101_page p sp hfu hord c ho src none visible
  rw [h] at e1
  cases e1
  rw [hd, Option.some.injEq] at e2
  subst e2
  obtain ⟨f', locals', e1, _, hj⟩ := C100_programs p sp hfu hord
  rw [h] at e1
  cases e1
  have hline : ∀ hi, OnLine src none hi (lineOf src hi) := fun hi => ⟨rfl, by simp⟩
  obtain ⟨o, ss, h1, h2⟩ := program_along p sp e3 hj hs
  refine ⟨o, ss, h1, h2, ?_⟩
  have hsh : ∀ g ∈ f.segs, Changes c x g → ∃ d, Shown src ds (lineOf src (c.endOf g.span)) x d ∧
      Says d (c.data g.from x).permissions (c.data g.to x).permissions := by
    intro g hg hne
    obtain ⟨k, hk⟩ := List.mem_iff_getElem?.1 hg
    exact hshow x hx hv k g _ hk hne (hline _) (hu k g hk hne)
  rcases along_told hsh h2 with h3 | ⟨h3, h4⟩
  · exact .inl h3
  · refine .inr ⟨h3, h4, ?_⟩
    rintro rfl
    by_cases hb : (c.data c.start x).permissions = ⟨false, false, false⟩
    · right
      rw [h4, ← hst, hb]
    · left
      rw [h4, ← hst]
      refine C101_entry p sp hfu hord hst ho h hd hx hv hb (hline _) ?_
      intro g hg hl hne
      obtain ⟨k, hk⟩ := List.mem_iff_getElem?.1 hg
      have := (hu k g hk hne).2 hl.symm
      exact hb (this.symm.trans (by decide))

/-- **C101 (joins are silent).** What happens to a place where the arms of an `if` come together is never shown: if no
step of a program changes the place and it has no permissions at the start, the page has no row for it at all, whatever
its permissions are at the joins. -/
theorem C101_silent (p : Prog) (sp : Nat) {fuel : Nat}
    {ord : List (Loc × Nat) → List (Loc × Nat)} {c : Ctxt} {order : Tables → Tables} (ho : ∀ m, (order m).Perm m)
    {src : List Char} {err : Option Nat} {visible : Place → Bool} {f : Frozen} {locals : List (Nat × List Nat)}
    {ds : List Display} (h : compute (.ofBody p.body fuel ord) (p.source sp) = .steps f locals)
    (hd : finalizeBody c f locals order src err visible .changes = some ds) {x : Place}
    (hn : ∀ s ∈ f.segs, ¬ Changes c x s) (h0 : (c.data c.start x).permissions = ⟨false, false, false⟩)
    (line : Nat) (d : DataDiff) : ¬ Shown src ds line x d := by
  refine C97_silent ho hd ?_ d
  intro t a b hi hc _
  have hx : x ∈ c.places := by cases hc <;> assumption
  obtain ⟨_, hatt⟩ := C97_not_hidden (c := c) h hx (by
    show ∀ e ∈ letsExpr _ _ (p.source sp), _
    rw [Prog.no_lets_source]
    simp)
  cases hc with
  | entry _ => rw [h0]; decide
  | seg _ hs _ => exact Classical.not_not.1 (hn _ (List.mem_of_getElem? hs))
  | attached a1 a2 a3 a4 a5 => exact (hatt _ _ _ _ (.attached a1 a2 a3 a4 a5)).elim

/-! ## A program

`{ if c { drop(s); } w = 2; }`, one part per line. -/

namespace Example

def prog : Prog := .only 1 2 3 (.call 4 .fin) (.act 5 .fin)

def src : List Char := ['{', '\n', 'i', 'f', '\n', 'd', '\n', '}', '\n', 'w', '\n', '}']

/-- `s` may be read and dropped before the conditional, in the way around `drop(s)`, and up to the call. -/
def held (l : Loc) : Bool := l.block = 0 || l.block = 1 || l.block = 2

def heldData (l : Loc) : Data :=
  { typeDroppable := true, typeWriteable := false, typeCopyable := false, isLive := held l,
    pathUninitialized := false, pathMoved := none, loanReadRefined := none, loanWriteRefined := none,
    loanDropRefined := none }

def ctxt : Ctxt where
  places := [px]
  data := fun l _ => heldData l
  endOf := fun sp => match sp with | 1 => 4 | 2 => 4 | 4 => 6 | 3 => 8 | 5 => 10 | _ => 12
  locSpan := fun _ => (0, 0)
  start := ⟨0, 0⟩
  brace := 1

def frozen : Frozen :=
  ⟨[⟨[.linear 0, .branch 0, .linear 4, .linear 5], none⟩, ⟨[], some ⟨4, 0⟩⟩, ⟨[.linear 3], some ⟨4, 0⟩⟩],
    [⟨0, ⟨0, 1⟩, ⟨4, 0⟩, [1, 2], [1, 2]⟩],
    [⟨⟨0, 0⟩, ⟨0, 1⟩, 1, 2⟩, ⟨⟨0, 1⟩, ⟨1, 0⟩, 3, 2⟩, ⟨⟨0, 1⟩, ⟨2, 0⟩, 2, 2⟩, ⟨⟨2, 0⟩, ⟨3, 0⟩, 4, 3⟩,
      ⟨⟨4, 0⟩, ⟨4, 1⟩, 5, 1⟩, ⟨⟨4, 1⟩, ⟨4, 2⟩, 6, 0⟩],
    [(1, 0), (2, 1), (3, 2), (4, 3), (5, 1)]⟩

theorem steps : compute (.ofBody prog.body 3 id) (prog.source 6) = .steps frozen [] := by decide +kernel

/-- The rows on the page: the line, and for R, W and O whether the permission is there before and after. -/
def rows : Option (List (Nat × List (Bool × Bool))) :=
  (finalizeBody ctxt frozen [] id src none (fun _ => true) .changes).map
    (·.flatMap fun d => d.state.map fun e => (lineOf src d.pos, (Frontend.cells e.2).map (·.mark.says)))

/-- **C101 (a loss that is not on the way).** The page shows that `s` may be read and dropped from the opening brace
on, and that it is lost in the line of `drop(s)`.  On the way around this line, whose last step is that to the end of
the conditional, no row tells that it is lost: after the conditional it is. -/
theorem C101_lost_at_join : rows = some [(0, [(false, true), (false, false), (false, true)]),
      (2, [(true, false), (false, false), (true, false)])] ∧
    compute (.ofBody prog.body 3 id) (prog.source 6) = .steps frozen [] ∧
    Along frozen startLoc [⟨⟨0, 0⟩, ⟨0, 1⟩, 1, 2⟩, ⟨⟨0, 1⟩, ⟨1, 0⟩, 3, 2⟩] ⟨1, 0⟩ ∧ prog.body.succ 1 = [4] ∧
    (ctxt.data ⟨1, 0⟩ px).permissions = ⟨true, false, true⟩ ∧ (ctxt.data ⟨1, 1⟩ px).permissions = ⟨true, false, true⟩ ∧
    (ctxt.data ⟨4, 0⟩ px).permissions = ⟨false, false, false⟩ := by
  refine ⟨by decide +kernel, steps, ?_, by decide +kernel, by decide +kernel, by decide +kernel, by decide +kernel⟩
  exact .snoc (g := ⟨⟨0, 1⟩, ⟨1, 0⟩, 3, 2⟩) (.snoc (g := ⟨⟨0, 0⟩, ⟨0, 1⟩, 1, 2⟩) .nil (by decide) (by decide))
    (by decide) (by decide)

end Example

end Verif.Pipeline
