import Verif.Pipeline.Props
import Verif.Facts.Props
import Verif.HirSteps.Results

/-! # C97: when the tables are put together, and what a function without conditionals shows -/
namespace Verif.Pipeline

open Verif.Cfg Verif.Segments Verif.Steps Verif.Permissions Verif.HirSteps

/-! ## The tables can always be put together -/

/-- The table refers to something that exists. -/
def TabValid (f : Frozen) : Tab → Prop
  | .entry => False
  | .seg sid => sid < f.segs.length
  | .attached bid => bid < f.branches.length

theorem inTree_valid {f : Frozen} {cid : Nat} {l : Loc} {t : Tab} (h : InTree f cid l t) : TabValid f t := by
  induction h with
  | linear _ _ h3 _ => exact (List.getElem?_eq_some_iff.1 h3).1
  | split _ _ _ _ h3 _ => exact (List.getElem?_eq_some_iff.1 h3).1
  | attached _ _ h3 => exact (List.getElem?_eq_some_iff.1 h3).1
  | nested _ _ _ _ _ ih => exact ih

theorem tableOf_total {c : Ctxt} {f : Frozen} {locals : List (Nat × List Nat)} (hc : Complete f)
    (hs : ∀ b ∈ f.branches, b.splits ≠ []) {t : Tab} (h : t = .entry ∨ ∃ l, InTree f 0 l t) :
    ∃ T, tableOf c f locals t = some T := by
  cases t with
  | entry =>
    obtain ⟨r, hr, _⟩ := entry_domain c
    exact ⟨_, by simp only [tableOf, entryTable, hr]; rfl⟩
  | seg sid =>
    rcases h with h | ⟨l, h⟩
    · exact absurd h (by simp)
    · have hlt : sid < f.segs.length := inTree_valid h
      obtain ⟨r, hr, _⟩ := diff_domains c f.segs[sid].from f.segs[sid].to
      exact ⟨_, by simp only [tableOf, List.getElem?_eq_getElem hlt, segTable, hr]; rfl⟩
  | attached bid =>
    rcases h with h | ⟨l, h⟩
    · exact absurd h (by simp)
    · have hlt : bid < f.branches.length := inTree_valid h
      have hb := List.getElem?_eq_getElem hlt
      have hm := List.getElem_mem hlt
      obtain ⟨r, hr, _⟩ := diff_domains c f.branches[bid].reachFrom f.branches[bid].reachTo
      have hsc : ∃ sc, f.branchScope bid = some sc := by
        unfold Frozen.branchScope
        rw [hb]
        dsimp only
        cases hsl : f.branches[bid].splits with
        | nil => exact absurd hsl (hs _ hm)
        | cons sid rest =>
          dsimp only
          rw [List.getElem?_eq_getElem ((hc.2.2 _ hm).1 sid (by simp [hsl]))]
          exact ⟨_, rfl⟩
      obtain ⟨sc, hsc⟩ := hsc
      exact ⟨_, by simp only [tableOf, hb, attachedTable, hsc, hr]; rfl⟩

theorem finalize_total {c : Ctxt} {f : Frozen} {locals : List (Nat × List Nat)} {order : Tables → Tables}
    {src : List Char} {err : Option Nat} {visible : Place → Bool} {mode : Mode} (ho : ∀ m, (order m).Perm m)
    (hc : Complete f) (hs : ∀ b ∈ f.branches, b.splits ≠ []) {m : Tables} (hm : filedTables c f = some m) :
    ∃ ds, finalizeBody c f locals order src err visible mode = some ds := by
  unfold finalizeBody
  rw [hm]
  dsimp only
  obtain ⟨ys, hys⟩ := mapM_total (tableOf c f locals) ((order m).flatMap (·.2)) (by
    intro t ht
    obtain ⟨l, hl⟩ := (mem_ordered ho t).1 ht
    apply tableOf_total hc hs
    rcases C44_only (by simp) hm hl with h1 | h1
    · obtain ⟨v, hv, htv⟩ := h1
      simp only [List.mem_singleton, Prod.mk.injEq] at hv
      rw [hv.2] at htv
      exact .inl (by simpa using htv)
    · exact .inr ⟨l, h1⟩)
  rw [hys]
  exact ⟨_, rfl⟩

/-- **C97 (no failure).** Whenever a function is given steps and all its branches have split steps, its tables
are put together without a failed lookup, whatever is known about its places. -/
theorem C97_total {b : Body} {fuel : Nat} {ord : List (Loc × Nat) → List (Loc × Nat)} {value : Expr} {f : Frozen}
    {locals : List (Nat × List Nat)} (h : compute (.ofBody b fuel ord) value = .steps f locals)
    (hs : ∀ br ∈ f.branches, br.splits ≠ []) (c : Ctxt) (order : Tables → Tables) (ho : ∀ m, (order m).Perm m)
    (src : List Char) (err : Option Nat) (visible : Place → Bool) (mode : Mode) :
    ∃ ds, finalizeBody c f locals order src err visible mode = some ds := by
  obtain ⟨v, h1, _, _, h4, _⟩ := compute_steps h
  obtain ⟨g, hmv⟩ := all_body (tracked_closed (E := .ofBody b fuel ord) (mapper_proper b)) value V.make v h1 [] .make
  obtain ⟨m, hm⟩ := C44_total (mapper_proper b) hmv.run h4 hs [(c.start, [.entry])]
  exact finalize_total ho (C47_complete (mapper_proper b) hmv.run h4).1 hs hm

/-- **C97 (a change is shown).** For any control flow: if exactly one step on a line changes the permissions of a
visible place, not declared around the step, and no other table of the function ends at the location where this
step ends, the page shows the change.  Missing for the full claim: tables with a common end (C44), several
changes on one line (C43), and variables that are declared around the step. -/
theorem C97_shown_partial {c : Ctxt} {f : Frozen} {locals : List (Nat × List Nat)} {order : Tables → Tables}
    {src : List Char} {err : Option Nat} {visible : Place → Bool} {ds : List Display}
    (ho : ∀ m, (order m).Perm m) (h : finalizeBody c f locals order src err visible .changes = some ds)
    {line : Nat} {p : Place} {a b : Data} {hi : Nat} {t : Tab} {l : Loc}
    (ht : (t = .entry ∧ (∀ t', ¬ InTree f 0 c.start t')) ∨
      (InTree f 0 l t ∧ ∀ t', InTree f 0 l t' → t' = t))
    (hc : Covers c f locals t p a b hi) (hol : OnLine src err hi line) (hv : visible p = true)
    (hne : a.permissions ≠ b.permissions)
    (hu : ∀ t' a' b' hi', (t' = .entry ∨ ∃ l, InTree f 0 l t') → Covers c f locals t' p a' b' hi' →
      lineOf src hi' = line → a'.permissions ≠ b'.permissions → t' = t) :
    ∃ d, Shown src ds line p d ∧ Says d a.permissions b.permissions := by
  refine ⟨_, shown_only ho h ?_ hc hol hv hne hu, Frontend.C76_cells a b⟩
  obtain ⟨m, _, hm, _, _, _⟩ := finalize_tables ho h
  have hk := C44_kept_partial (by simp) hm
  rcases ht with ⟨rfl, h1⟩ | ⟨h1, h2⟩
  · exact ⟨m, c.start, hm, hk.2 _ _ ⟨[.entry], by simp, by simp⟩ h1⟩
  · exact ⟨m, l, hm, hk.1 l t h1 h2⟩

/-! ## Functions without conditionals -/

theorem filed_insertSegment {f : Frozen} {r : Tables} {sid : Nat} (hs : sid < f.segs.length) :
    ∃ r', insertSegment f r sid = some r' ∧ ∀ l t, Filed r' l t ↔ Filed r l t ∨ SegTab f sid l t := by
  unfold insertSegment
  have he := List.getElem?_eq_getElem hs
  rw [he]
  dsimp only
  by_cases hft : f.segs[sid].from = f.segs[sid].to
  · rw [if_pos hft]
    refine ⟨r, rfl, fun l t => ⟨.inl, ?_⟩⟩
    rintro (h | ⟨s, h1, h2, _⟩)
    · exact h
    · rw [he, Option.some.injEq] at h1
      subst h1
      exact absurd hft h2
  · rw [if_neg hft]
    refine ⟨_, rfl, fun l t => ?_⟩
    rw [filed_pushTab]
    refine or_congr_right ?_
    constructor
    · rintro ⟨rfl, rfl⟩; exact ⟨_, he, hft, rfl, rfl⟩
    · rintro ⟨s, h1, _, rfl, rfl⟩
      rw [he, Option.some.injEq] at h1
      subst h1
      exact ⟨rfl, rfl⟩

theorem filed_linear {f : Frozen} (g : Tables → CF → Option Tables)
    (hg : ∀ r sid, g r (.linear sid) = insertSegment f r sid) (sids : List Nat)
    (hs : ∀ sid ∈ sids, sid < f.segs.length) (r : Tables) :
    ∃ r', (sids.map CF.linear).foldlM g r = some r' ∧
      ∀ l t, Filed r' l t ↔ Filed r l t ∨ ∃ sid ∈ sids, SegTab f sid l t := by
  induction sids generalizing r with
  | nil => exact ⟨r, rfl, fun l t => by simp⟩
  | cons sid rest ih =>
    obtain ⟨r1, h1, e1⟩ := filed_insertSegment (r := r) (hs sid (by simp))
    obtain ⟨r2, h2, e2⟩ := ih (fun x hx => hs x (List.mem_cons_of_mem _ hx)) r1
    refine ⟨r2, ?_, fun l t => ?_⟩
    · rw [List.map_cons, List.foldlM_cons, hg, h1]
      exact h2
    · rw [e2, e1]
      simp only [List.mem_cons]
      constructor
      · rintro ((h | h) | ⟨x, hx, h⟩)
        · exact .inl h
        · exact .inr ⟨sid, .inl rfl, h⟩
        · exact .inr ⟨x, .inr hx, h⟩
      · rintro (h | ⟨x, rfl | hx, h⟩)
        · exact .inl (.inl h)
        · exact .inl (.inr h)
        · exact .inr ⟨x, hx, h⟩

/-- Without conditionals no table is lost. -/
theorem filed_straight (c : Ctxt) {f : Frozen}
    (hcl : f.colls = [⟨(List.range f.segs.length).map CF.linear, none⟩]) :
    ∃ m, filedTables c f = some m ∧
      ∀ l t, Filed m l t ↔ (l = c.start ∧ t = .entry) ∨ ∃ sid, SegTab f sid l t := by
  unfold filedTables
  rw [hcl]
  change ∃ m, insertCollection f (0 + 1) _ 0 = some m ∧ _
  rw [insertCollection]
  dsimp only
  rw [hcl]
  dsimp only [List.getElem?_cons_zero]
  have key : ∀ g : Tables → CF → Option Tables, (∀ r sid, g r (.linear sid) = insertSegment f r sid) →
      ∃ m, ((List.range f.segs.length).map CF.linear).foldlM g [(c.start, [.entry])] = some m ∧
        ∀ l t, Filed m l t ↔ (l = c.start ∧ t = .entry) ∨ ∃ sid, SegTab f sid l t := by
    intro g hg
    obtain ⟨r', h1, h2⟩ := filed_linear g hg (List.range f.segs.length) (fun sid h => List.mem_range.1 h)
      [(c.start, [.entry])]
    refine ⟨r', h1, fun l t => ?_⟩
    rw [h2]
    refine or_congr ?_ ?_
    · rw [filed_cons]
      simp only [List.mem_singleton, filed_nil, or_false]
    · constructor
      · rintro ⟨sid, _, h⟩; exact ⟨sid, h⟩
      · rintro ⟨sid, s, hs, h⟩
        exact ⟨sid, List.mem_range.2 (List.getElem?_eq_some_iff.1 hs).1, s, hs, h⟩
  refine key _ ?_
  intro r sid
  rfl

theorem complete_straight {f : Frozen} (hb : f.branches = [])
    (hcl : f.colls = [⟨(List.range f.segs.length).map CF.linear, none⟩]) : Complete f := by
  refine ⟨by rw [hcl]; simp, ?_, by rw [hb]; simp⟩
  intro c hc part hp
  rw [hcl, List.mem_singleton] at hc
  subst hc
  obtain ⟨sid, hs, rfl⟩ := List.mem_map.1 hp
  exact List.mem_range.1 hs

/-- A function without conditionals: the steps are those of the straight walk, and the page is made. -/
structure Straight (b : Body) (fuel : Nat) (ord : List (Loc × Nat) → List (Loc × Nat)) (value : Expr) : Prop where
  fuel : fuel ≠ 0
  noFork : ∀ l, Due.fork l ∉ dueBody b.mapper.isSwitch b.locationSuccessor value
  noGuard : Due.guard ∉ dueBody b.mapper.isSwitch b.locationSuccessor value

/-- **C97 (without conditionals, a change is shown).** A function without conditionals is always given its page.
If exactly one step on a line changes the permissions of a visible place that is not declared around the step,
the page shows on that line exactly the permissions before and after. -/
theorem C97_straight {b : Body} {fuel : Nat} {ord : List (Loc × Nat) → List (Loc × Nat)} {value : Expr}
    (hst : Straight b fuel ord value) (c : Ctxt) (order : Tables → Tables) (ho : ∀ m, (order m).Perm m)
    (src : List Char) (err : Option Nat) (visible : Place → Bool) :
    ∃ f locals ds, compute (.ofBody b fuel ord) value = .steps f locals ∧
      finalizeBody c f locals order src err visible .changes = some ds ∧
      f.segs.map (fun g => (g.from, g.to, g.span)) =
        line b.mapper startLoc (dueBody b.mapper.isSwitch b.locationSuccessor value) ∧
      ∀ t line p a b' hi, Covers c f locals t p a b' hi → OnLine src err hi line → visible p = true →
        a.permissions ≠ b'.permissions →
        (∀ t' x y hi', Covers c f locals t' p x y hi' → lineOf src hi' = line → x.permissions ≠ y.permissions →
          t' = t) →
        ∃ d, Shown src ds line p d ∧ Says d a.permissions b'.permissions := by
  obtain ⟨f, locals, h1, h2, h3, h4⟩ := C89_straight b hst.fuel ord value hst.noFork hst.noGuard
  obtain ⟨m, hm, hfl⟩ := filed_straight c h4
  obtain ⟨ds, hds⟩ := finalize_total (c := c) (locals := locals) (src := src) (err := err) (visible := visible)
    (mode := .changes) ho (complete_straight h3 h4) (by rw [h3]; simp) hm
  refine ⟨f, locals, ds, h1, hds, h2, ?_⟩
  intro t line p a b' hi hc hol hv hne hu
  refine ⟨_, shown_only ho hds ?_ hc hol hv hne (fun t' x y hi' _ h => hu t' x y hi' h), Frontend.C76_cells a b'⟩
  cases hc with
  | entry hp => exact ⟨m, c.start, hm, (hfl _ _).2 (.inl ⟨rfl, rfl⟩)⟩
  | @seg _ sid s hp hs hh =>
    refine ⟨m, s.to, hm, (hfl _ _).2 (.inr ⟨sid, s, hs, ?_, rfl, rfl⟩)⟩
    intro he
    rw [he] at hne
    exact hne rfl
  | attached hp hb _ _ _ => rw [h3] at hb; exact absurd hb (by simp)

theorem says_injective {d : DataDiff} {x y x' y' : Perms} (h : Says d x y) (h' : Says d x' y') : x = x' ∧ y = y' := by
  unfold Says at h h'
  rw [h] at h'
  cases x; cases y; cases x'; cases y'
  simp at h'
  simp [h']

/-- **C97 (without conditionals, the page tells the whole story).** In a function without conditionals whose
steps that change a visible place all end on different lines, with the place not declared around a step, the rows
tell the permissions of the place after every step: they are what the last row up to this step says, or, if there is
none, what the row at the opening brace says, or none if there is no such row. -/
theorem C97_story {b : Body} {fuel : Nat} {ord : List (Loc × Nat) → List (Loc × Nat)} {value : Expr}
    (hst : Straight b fuel ord value) {c : Ctxt} (hstart : c.start = startLoc) {order : Tables → Tables}
    (ho : ∀ m, (order m).Perm m) {src : List Char} {visible : Place → Bool} {f : Frozen}
    {locals : List (Nat × List Nat)} {ds : List Display}
    (hf : compute (.ofBody b fuel ord) value = .steps f locals)
    (hd : finalizeBody c f locals order src none visible .changes = some ds)
    {p : Place} (hp : p ∈ c.places) (hv : visible p = true)
    (hdecl : ∀ s ∈ f.segs, ∀ scope, Above f.scopes s.scope scope → ¬ DeclaredAt locals scope p.local_)
    (hu : ∀ t x y hi t' x' y' hi', Covers c f locals t p x y hi → Covers c f locals t' p x' y' hi' →
      x.permissions ≠ y.permissions → x'.permissions ≠ y'.permissions → lineOf src hi = lineOf src hi' → t' = t)
    {k : Nat} {s : Seg} (hs : f.segs[k]? = some s) :
    (∃ j sj d, j ≤ k ∧ f.segs[j]? = some sj ∧ Shown src ds (lineOf src (c.endOf sj.span)) p d ∧
      Says d (c.data sj.from p).permissions (c.data s.to p).permissions ∧
      ∀ i si, j < i → i ≤ k → f.segs[i]? = some si →
        (c.data si.from p).permissions = (c.data si.to p).permissions) ∨
    ((∀ i si, i ≤ k → f.segs[i]? = some si → (c.data si.from p).permissions = (c.data si.to p).permissions) ∧
      ((∃ d, Shown src ds (lineOf src c.brace) p d ∧ Says d ⟨false, false, false⟩ (c.data s.to p).permissions) ∨
        (c.data s.to p).permissions = ⟨false, false, false⟩)) := by
  obtain ⟨f', locals', ds', e1, e2, e3, hshow⟩ := C97_straight hst c order ho src none visible
  rw [hf] at e1
  cases e1
  rw [hd, Option.some.injEq] at e2
  subst e2
  have hcov : ∀ i si, f.segs[i]? = some si →
      Covers c f locals (.seg i) p (c.data si.from p) (c.data si.to p) (c.endOf si.span) := fun i si h =>
    .seg hp h (hdecl si (List.mem_of_getElem? h))
  have hline : ∀ hi, OnLine src none hi (lineOf src hi) := fun hi => ⟨rfl, by simp⟩
  have hsh : ∀ t x y hi, Covers c f locals t p x y hi → x.permissions ≠ y.permissions →
      ∃ d, Shown src ds (lineOf src hi) p d ∧ Says d x.permissions y.permissions := fun t x y hi hc hne =>
    hshow t _ p x y hi hc (hline hi) hv hne fun t' x' y' hi' hc' hl hne' => hu _ _ _ _ _ _ _ _ hc hc' hne hne' hl.symm
  obtain ⟨c1, c2⟩ := C89_contiguous b.mapper startLoc (dueBody b.mapper.isSwitch b.locationSuccessor value)
  rw [← e3] at c1 c2
  simp only [List.getElem?_map] at c1 c2
  have hbot : bottomData.permissions = ⟨false, false, false⟩ := by decide
  induction k generalizing s with
  | zero =>
    have hfrom : s.from = startLoc := c1 _ (by rw [hs]; rfl)
    by_cases hne : (c.data s.from p).permissions = (c.data s.to p).permissions
    · right
      refine ⟨?_, ?_⟩
      · intro i si hi hsi
        obtain rfl : i = 0 := by omega
        rw [hs, Option.some.injEq] at hsi
        subst hsi
        exact hne
      · by_cases he : bottomData.permissions = (c.data c.start p).permissions
        · right
          rw [← hne, hfrom, ← hstart, ← he, hbot]
        · left
          obtain ⟨d, h1, h2⟩ := hsh _ _ _ _ (.entry hp) he
          rw [hbot, hstart, ← hfrom, hne] at h2
          exact ⟨d, h1, h2⟩
    · left
      obtain ⟨d, h1, h2⟩ := hsh _ _ _ _ (hcov 0 s hs) hne
      exact ⟨0, s, d, Nat.le_refl _, hs, h1, h2, fun i si h h' => absurd h (by omega)⟩
  | succ k ih =>
    have hlt : k < f.segs.length := Nat.lt_of_succ_lt (List.getElem?_eq_some_iff.1 hs).1
    have hk := List.getElem?_eq_getElem hlt
    have hfrom : s.from = f.segs[k].to := c2 k _ _ (by rw [hk]; rfl) (by rw [hs]; rfl)
    by_cases hne : (c.data s.from p).permissions = (c.data s.to p).permissions
    · rw [← hne, hfrom]
      have hlast : ∀ i si, i = k + 1 → f.segs[i]? = some si →
          (c.data si.from p).permissions = (c.data si.to p).permissions := by
        rintro i si rfl hsi
        rw [hs, Option.some.injEq] at hsi
        subst hsi
        exact hne
      rcases ih hk with ⟨j, sj, d, h1, h2, h3, h4, h5⟩ | ⟨h1, h2⟩
      · left
        refine ⟨j, sj, d, by omega, h2, h3, h4, fun i si hji hik hsi => ?_⟩
        rcases Nat.lt_or_ge k i with h | h
        · exact hlast i si (by omega) hsi
        · exact h5 i si hji h hsi
      · right
        refine ⟨fun i si hik hsi => ?_, h2⟩
        rcases Nat.lt_or_ge k i with h | h
        · exact hlast i si (by omega) hsi
        · exact h1 i si h hsi
    · left
      obtain ⟨d, h1, h2⟩ := hsh _ _ _ _ (hcov _ s hs) hne
      exact ⟨k + 1, s, d, Nat.le_refl _, hs, h1, h2, fun i si h h' => absurd h (by omega)⟩

/-! ## From the program's facts to the page -/

/-- The permissions of a path at a point, in terms of execution paths and borrows. -/
structure Holds (i : Facts.Input) (path point : Nat) (q : Perms) : Prop where
  read : q.read = true ↔ (point, i.varOf path) ∈ i.varLive ∧
    (¬ ∃ mv, Facts.Spec.Touches i mv path ∧ Facts.Spec.Reaches i mv point) ∧
    ¬ Facts.Spec.MaybeUninit i path point ∧ ¬ ∃ l, Facts.Spec.LiveOverlap i l path point ∧ i.isMutLoan l = true
  write : q.write = true ↔ q.read = true ∧ i.writeEnabled path = true ∧ ¬ ∃ l, Facts.Spec.LiveOverlap i l path point
  own : q.drop = true ↔ q.read = true ∧ i.dropEnabled path = true ∧ ¬ ∃ l, Facts.Spec.LiveOverlap i l path point

/-- The locations a table compares; the table at the opening brace has only the second one. -/
inductive Compares (c : Ctxt) (f : Frozen) : Tab → Option Loc → Loc → Prop
  | entry : Compares c f .entry none c.start
  | seg {sid s} : f.segs[sid]? = some s → Compares c f (.seg sid) (some s.from) s.to
  | attached {bid b} : f.branches[bid]? = some b → Compares c f (.attached bid) (some b.reachFrom) b.reachTo

/-- **C97 (from the program to the page).** If the state of places is the one computed from the facts of the
program, every row on the page says which permissions execution paths, moves and borrows give the place at the two
locations it compares; the row at the opening brace starts from no permissions. -/
theorem C97_facts {c : Ctxt} {f : Frozen} {locals : List (Nat × List Nat)} {order : Tables → Tables}
    {src : List Char} {err : Option Nat} {visible : Place → Bool} {mode : Mode} {ds : List Display}
    (ho : ∀ m, (order m).Perm m) (h : finalizeBody c f locals order src err visible mode = some ds)
    {fuel : Nat} {i : Facts.Input} {o : Facts.Output} (hi : Facts.derive fuel i = some o) {pathOf : Place → Nat}
    {pointOf : Loc → Nat} (hdata : ∀ l p, c.data l p = Facts.dataAtPoint i o (pathOf p) (pointOf l))
    {line : Nat} {p : Place} {d : DataDiff} (hs : Shown src ds line p d) :
    ∃ t l l' before after, (t = .entry ∨ ∃ l, InTree f 0 l t) ∧ Compares c f t l l' ∧ Says d before after ∧
      Holds i (pathOf p) (pointOf l') after ∧ (∀ x, l = some x → Holds i (pathOf p) (pointOf x) before) ∧
      (l = none → before = ⟨false, false, false⟩) := by
  have key : ∀ l, Holds i (pathOf p) (pointOf l) (c.data l p).permissions := by
    intro l
    rw [hdata]
    obtain ⟨h1, h2, h3⟩ := Facts.C22_at_point fuel i o hi (pathOf p) (pointOf l)
    exact ⟨h1, h2, h3⟩
  obtain ⟨t, a, b, hi', ht, hc, _, _, hsay, _⟩ := C97_true ho h hs
  cases hc with
  | entry hp =>
    exact ⟨_, none, _, _, _, ht, .entry, hsay, key _, by simp, fun _ => by decide⟩
  | seg hp hs' hh =>
    refine ⟨_, some _, _, _, _, ht, .seg hs', hsay, key _, ?_, by simp⟩
    intro x hx
    rw [Option.some.injEq] at hx
    exact hx ▸ key _
  | attached hp hb h1 h2 hh =>
    refine ⟨_, some _, _, _, _, ht, .attached hb, hsay, key _, ?_, by simp⟩
    intro x hx
    rw [Option.some.injEq] at hx
    exact hx ▸ key _

end Verif.Pipeline
