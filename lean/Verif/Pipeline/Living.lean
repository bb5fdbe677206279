import Verif.Pipeline.WalkProps
import Verif.Facts.Live
import Verif.Walk.Merges
/-!
# C105: what the page says of a variable that is never borrowed
-/
namespace Verif.Pipeline

open Verif.Cfg Verif.Segments Verif.Steps Verif.Permissions Verif.HirSteps
open Verif.Facts.Spec (WillUse Analysed Accepted Unborrowed InPlace)

/-- The first of the two points of a location (`location_to_point`, permissions/context.rs:109-111). -/
def point (b : Body) (l : Loc) : Nat := startIndex (b.map (·.stmts)) (l.block, l.idx)

theorem point_even (b : Body) (l : Loc) : ∃ k, point b l = 2 * k := by
  have h : ∀ ns : List Nat, ∃ k, (ns.map (fun n => (n + 1) * 2)).sum = 2 * k := by
    intro ns
    induction ns with
    | nil => exact ⟨0, rfl⟩
    | cons n ns ih =>
      obtain ⟨k, hk⟩ := ih
      exact ⟨n + 1 + k, by rw [List.map_cons, List.sum_cons, hk]; omega⟩
  obtain ⟨k, hk⟩ := h ((b.map (·.stmts)).take l.block)
  refine ⟨k + l.idx, ?_⟩
  unfold point startIndex pointsBefore
  rw [hk]
  dsimp only
  omega

/-- The location is a statement or the terminator of a block. -/
def Inside (b : Body) (l : Loc) : Prop := ∃ d, b[l.block]? = some d ∧ l.idx ≤ d.stmts

/-- `l'` comes right after `l`. -/
def Next (b : Body) (l l' : Loc) : Prop :=
  ∃ d, b[l.block]? = some d ∧ ((l.idx < d.stmts ∧ l' = ⟨l.block, l.idx + 1⟩) ∨
    (l.idx = d.stmts ∧ ∃ t ∈ d.term.targets, l' = ⟨t, 0⟩))

/-- The edges between points that the borrow checker uses are those of the body. -/
def Flow (b : Body) (i : Facts.Input) : Prop :=
  ∀ x y, (x, y) ∈ i.cfgEdge ↔ (∃ l, Inside b l ∧ x = point b l ∧ y = point b l + 1) ∨
    ∃ l l', Inside b l ∧ Next b l l' ∧ x = point b l + 1 ∧ y = point b l'

/-- The permissions of `x` are those computed from the facts of an accepted program that never borrows it. -/
structure Tracked (c : Ctxt) (b : Body) (i : Facts.Input) (used defined : Nat → Nat → Prop) (x : Place) (path : Nat) :
    Prop where
  data : ∃ fuel o, Facts.derive fuel i = some o ∧ ∀ l, c.data l x = Facts.dataAtPoint i o path (point b l)
  analysed : Analysed i used defined
  accepted : Accepted i used defined path
  unborrowed : Unborrowed i path

/-- At the location the value of the variable may still be used. -/
def Alive (b : Body) (i : Facts.Input) (used defined : Nat → Nat → Prop) (path : Nat) (l : Loc) : Prop :=
  WillUse i used defined (i.varOf path) (point b l)

section

variable {c : Ctxt} {b : Body} {i : Facts.Input} {used defined : Nat → Nat → Prop} {x : Place} {path : Nat}

theorem Tracked.perms (h : Tracked c b i used defined x path) {l : Loc} (hs : InPlace i path (point b l)) :
    ((c.data l x).permissions.read = true ↔ Alive b i used defined path l) ∧
    ((c.data l x).permissions.write = true ↔ Alive b i used defined path l ∧ i.writeEnabled path = true) ∧
    ((c.data l x).permissions.drop = true ↔ Alive b i used defined path l ∧ i.dropEnabled path = true) := by
  obtain ⟨fuel, o, ho, hd⟩ := h.data
  obtain ⟨k, hk⟩ := point_even b l
  rw [hk] at hs
  have := Facts.C104_unborrowed h.analysed h.accepted h.unborrowed ho hs
  dsimp only at this
  rw [← hk] at this
  rw [hd]
  exact this

/-- The permissions of the variable change exactly where its value stops or starts being of use. -/
theorem Tracked.same (h : Tracked c b i used defined x path) {l l' : Loc} (hs : InPlace i path (point b l))
    (hs' : InPlace i path (point b l')) :
    (c.data l x).permissions = (c.data l' x).permissions ↔
      (Alive b i used defined path l ↔ Alive b i used defined path l') := by
  obtain ⟨h1, h2, h3⟩ := h.perms hs
  obtain ⟨g1, g2, g3⟩ := h.perms hs'
  constructor
  · intro he
    rw [← h1, ← g1, he]
  · intro he
    have e1 : (c.data l x).permissions.read = (c.data l' x).permissions.read := by
      rw [Bool.eq_iff_iff, h1, g1, he]
    have e2 : (c.data l x).permissions.write = (c.data l' x).permissions.write := by
      rw [Bool.eq_iff_iff, h2, g2, he]
    have e3 : (c.data l x).permissions.drop = (c.data l' x).permissions.drop := by
      rw [Bool.eq_iff_iff, h3, g3, he]
    generalize (c.data l x).permissions = p at *
    generalize (c.data l' x).permissions = q at *
    cases p; cases q
    simp only at e1 e2 e3
    rw [e1, e2, e3]

theorem Tracked.empty (h : Tracked c b i used defined x path) {l : Loc} (hs : InPlace i path (point b l)) :
    (c.data l x).permissions = ⟨false, false, false⟩ ↔ ¬ Alive b i used defined path l := by
  obtain ⟨h1, h2, h3⟩ := h.perms hs
  constructor
  · intro he hn
    have := h1.2 hn
    rw [he] at this
    cases this
  · intro hn
    have e1 : (c.data l x).permissions.read = false := by
      rw [← Bool.not_eq_true, h1]; exact hn
    have e2 : (c.data l x).permissions.write = false := by
      rw [← Bool.not_eq_true, h2]; exact fun h => hn h.1
    have e3 : (c.data l x).permissions.drop = false := by
      rw [← Bool.not_eq_true, h3]; exact fun h => hn h.1
    generalize (c.data l x).permissions = p at *
    cases p
    simp only at e1 e2 e3
    rw [e1, e2, e3]

theorem point_inj {l l' : Loc} (h : Inside b l) (h' : Inside b l') (he : point b l = point b l') : l = l' := by
  obtain ⟨d, h1, h2⟩ := h
  obtain ⟨d', h1', h2'⟩ := h'
  obtain ⟨k1, e1⟩ := List.getElem?_eq_some_iff.1 h1
  obtain ⟨k1', e1'⟩ := List.getElem?_eq_some_iff.1 h1'
  have := ((C58_points (b.map Cfg.Block.stmts) l.block l.idx (by rw [List.length_map]; exact k1)
    (by rw [List.getElem_map, e1]; exact h2)).2.2 l'.block l'.idx (by rw [List.length_map]; exact k1')
    (by rw [List.getElem_map, e1']; exact h2')).2 he
  rw [Prod.mk.injEq] at this
  cases l; cases l'
  obtain ⟨a, b⟩ := this
  dsimp only at a b
  rw [a, b]

/-- **C105 (one location).** For a variable that is never borrowed in an accepted program: before a location it may be
read exactly if the location uses it, or if it does not define it and the variable may be read before one of the
locations that come next. -/
theorem C105_location (h : Tracked c b i used defined x path) (hf : Flow b i) {l : Loc} (hl : Inside b l)
    (hs : InPlace i path (point b l)) (hs' : ∀ l', Next b l l' → InPlace i path (point b l')) :
    (c.data l x).permissions.read = true ↔ used (i.varOf path) (point b l + 1) ∨
      (¬ defined (i.varOf path) (point b l + 1) ∧ ∃ l', Next b l l' ∧ (c.data l' x).permissions.read = true) := by
  obtain ⟨fuel, o, ho, hd⟩ := h.data
  obtain ⟨k, hk⟩ := point_even b l
  have key := Facts.C104_location h.analysed h.accepted h.unborrowed ho (a := k)
    ((hf _ _).2 (.inl ⟨l, hl, hk.symm, by rw [hk]⟩)) (hk ▸ hs) (by
      intro j he
      rcases (hf _ _).1 he with ⟨l2, _, e1, e2⟩ | ⟨l2, l', h2, hn, e1, e2⟩
      · obtain ⟨k2, hk2⟩ := point_even b l2
        omega
      · obtain rfl := point_inj hl h2 (by omega)
        exact e2 ▸ hs' l' hn)
  rw [← hk] at key
  rw [hd, key]
  refine or_congr Iff.rfl (and_congr Iff.rfl ?_)
  constructor
  · rintro ⟨j, he, hr⟩
    rcases (hf _ _).1 he with ⟨l2, _, e1, e2⟩ | ⟨l2, l', h2, hn, e1, e2⟩
    · obtain ⟨k2, hk2⟩ := point_even b l2
      omega
    · obtain rfl := point_inj hl h2 (by omega)
      exact ⟨l', hn, by rw [hd, ← e2]; exact hr⟩
  · rintro ⟨l', hn, hr⟩
    obtain ⟨j, hj⟩ := point_even b l'
    exact ⟨j, (hf _ _).2 (.inr ⟨l, l', hl, hn, rfl, hj.symm⟩), by rw [← hj, ← hd]; exact hr⟩

/-- **C105 (a step that is not about the variable).** A step over one location that leads to one place only does not
change the permissions of a variable that is never borrowed, unless it uses or defines it; if it only uses it, they
can only be lost, and if it only defines it, they can only be gained. -/
theorem C105_step (h : Tracked c b i used defined x path) (hf : Flow b i) {l l' : Loc} (hl : Inside b l)
    (hn : ∀ m, Next b l m ↔ m = l') (hs : InPlace i path (point b l)) (hs' : InPlace i path (point b l')) :
    ((c.data l x).permissions ≠ (c.data l' x).permissions →
      ((c.data l x).permissions.read = true ∧ (c.data l' x).permissions.read = false ∧
          used (i.varOf path) (point b l + 1)) ∨
        ((c.data l x).permissions.read = false ∧ (c.data l' x).permissions.read = true ∧
          defined (i.varOf path) (point b l + 1))) := by
  intro hne
  have key := C105_location h hf hl hs fun m hm => (hn m).1 hm ▸ hs'
  simp only [hn, exists_eq_left] at key
  have hr : (c.data l x).permissions.read ≠ (c.data l' x).permissions.read := by
    intro he
    exact hne ((h.same hs hs').2 (by rw [← (h.perms hs).1, ← (h.perms hs').1, he]))
  cases e : (c.data l x).permissions.read <;> cases e' : (c.data l' x).permissions.read <;>
    simp only [e, e', Bool.false_eq_true, true_iff, false_iff, and_false, or_false, and_true, not_or,
      Classical.not_not, true_and, false_and, ne_eq, not_true_eq_false, reduceCtorEq, false_or] at key hr ⊢
  · exact key.2
  · exact key

/-- **C105 (into an arm).** A step from a location that does not define the variable to one that comes next can only
lose permissions; it does so exactly if the location uses the variable, or its value is of use on another way, and it
is not of use on this one. -/
theorem C105_arm (h : Tracked c b i used defined x path) (hf : Flow b i) {l l' : Loc} (hl : Inside b l)
    (hn : Next b l l') (hd : ¬ defined (i.varOf path) (point b l + 1)) (hs : InPlace i path (point b l))
    (hs' : ∀ m, Next b l m → InPlace i path (point b m)) :
    ((c.data l x).permissions ≠ (c.data l' x).permissions ↔
      (c.data l' x).permissions = ⟨false, false, false⟩ ∧
        (used (i.varOf path) (point b l + 1) ∨ ∃ m, Next b l m ∧ (c.data m x).permissions.read = true)) := by
  have key := C105_location h hf hl hs hs'
  have e1 := (h.perms hs).1
  have e2 := (h.perms (hs' l' hn)).1
  rw [ne_eq, h.same hs (hs' l' hn), h.empty (hs' l' hn)]
  constructor
  · intro hne
    have hn' : ¬ Alive b i used defined path l' := by
      intro ha
      exact hne ⟨fun _ => ha, fun _ => e1.1 (key.2 (.inr ⟨hd, l', hn, e2.2 ha⟩))⟩
    refine ⟨hn', ?_⟩
    have : Alive b i used defined path l := Classical.byContradiction fun hc => hne ⟨fun h => absurd h hc, fun h => absurd h hn'⟩
    rcases key.1 (e1.2 this) with hu | ⟨_, h'⟩
    · exact .inl hu
    · exact .inr h'
  · rintro ⟨hna, hor⟩ hiff
    exact hna (hiff.1 (e1.1 (key.2 (hor.imp_right fun h => ⟨hd, h⟩))))

/-- A step of the program begins or ends at the location, or ways come together there, or the function starts there. -/
def Stop (p : Walk.Prog) (l : Loc) : Prop :=
  l = startLoc ∨ (∃ s ∈ p.expected 0 0, l = s.1 ∨ l = s.2.1) ∨ (∃ m ∈ p.merges 0 0, l = m.1 ∨ l = m.2) ∨
    l = p.finAt 0 0 ∨ l = ⟨(p.finAt 0 0).block, (p.finAt 0 0).idx + 1⟩

/-- No such location is one where a call has only just returned the value of the path. -/
def Rests (p : Walk.Prog) (i : Facts.Input) (path : Nat) : Prop := ∀ l, Stop p l → InPlace i path (point p.body l)

theorem stop_seg {p : Walk.Prog} {sp : Nat} {f : Frozen}
    (hs : f.segs.map (fun g => (g.from, g.to, g.span)) =
        p.expected 0 0 ++ [(p.finAt 0 0, ⟨(p.finAt 0 0).block, (p.finAt 0 0).idx + 1⟩, sp)]) {s : Seg} (hm : s ∈ f.segs) :
    Stop p s.from ∧ Stop p s.to := by
  have hx : (s.from, s.to, s.span) ∈ f.segs.map (fun g => (g.from, g.to, g.span)) := List.mem_map.2 ⟨s, hm, rfl⟩
  rw [hs] at hx
  rcases List.mem_append.1 hx with hx | hx
  · exact ⟨.inr (.inl ⟨_, hx, .inl rfl⟩), .inr (.inl ⟨_, hx, .inr rfl⟩)⟩
  · simp only [List.mem_singleton, Prod.mk.injEq] at hx
    exact ⟨.inr (.inr (.inr (.inl hx.1))), .inr (.inr (.inr (.inr hx.2.1)))⟩

/-- **C105 (where the rows are).** For every program of statements, `let`s, calls, `if`s, `match`es and loops, and a
variable that is never borrowed and whose changes are on different lines: the page has a row for it on a line exactly
if on this line a step begins where the value of the variable is of use and ends where it is not, or the other way
round, or the function begins there and the value it starts with is of use.  The row says so for R; W and O come and
go with R if the declaration and the type allow them. -/
theorem C105_page (p : Walk.Prog) (sp : Nat) {fuel : Nat} (hfu : fuel ≠ 0)
    {ord : List (Loc × Nat) → List (Loc × Nat)} (hord : ∀ l, (ord l).Perm l) (hst : c.start = startLoc)
    {order : Tables → Tables} (ho : ∀ m, (order m).Perm m) {src : List Char} {visible : Place → Bool} {f : Frozen}
    {locals : List (Nat × List Nat)} {ds : List Display}
    (h : compute (.ofBody p.body fuel ord) (p.source sp) = .steps f locals)
    (hd : finalizeBody c f locals order src none visible .changes = some ds) (hx : x ∈ c.places)
    (hv : visible x = true) (ht : Tracked c p.body i used defined x path) (hrest : Rests p i path)
    (hu : ∀ (k : Nat) (s : Seg), f.segs[k]? = some s → Changes c x s → Alone c src f x k (lineOf src (c.endOf s.span)))
    (line : Nat) :
    let alive := Alive p.body i used defined path
    ((∃ d, Shown src ds line x d) ↔
      (∃ s ∈ f.segs, lineOf src (c.endOf s.span) = line ∧ ¬ (alive s.from ↔ alive s.to)) ∨
        (lineOf src c.brace = line ∧ alive startLoc)) ∧
    ∀ d, Shown src ds line x d → ∃ before after : Bool, before ≠ after ∧
      Says d ⟨before, before && i.writeEnabled path, before && i.dropEnabled path⟩
        ⟨after, after && i.writeEnabled path, after && i.dropEnabled path⟩ := by
  intro alive
  obtain ⟨f₀, locals₀, hc0, hseg, _⟩ := Walk.C102_programs p sp hfu hord
  rw [h] at hc0
  cases hc0
  have hfrom : ∀ s ∈ f.segs, InPlace i path (point p.body s.from) := fun s hs => hrest _ (stop_seg hseg hs).1
  have hto : ∀ s ∈ f.segs, InPlace i path (point p.body s.to) := fun s hs => hrest _ (stop_seg hseg hs).2
  have hstart : InPlace i path (point p.body startLoc) := hrest _ (.inl rfl)
  have hline : ∀ hi, OnLine src none hi (lineOf src hi) := fun hi => ⟨rfl, by simp⟩
  have hform : ∀ l, InPlace i path (point p.body l) → (c.data l x).permissions = ⟨(c.data l x).permissions.read,
      (c.data l x).permissions.read && i.writeEnabled path, (c.data l x).permissions.read && i.dropEnabled path⟩ := by
    intro l hl
    obtain ⟨h1, h2, h3⟩ := ht.perms hl
    rw [← h1] at h2 h3
    generalize (c.data l x).permissions = q at *
    obtain ⟨r, w, d⟩ := q
    simp only at h2 h3 ⊢
    congr 1
    · rw [Bool.eq_iff_iff, h2, Bool.and_eq_true]
    · rw [Bool.eq_iff_iff, h3, Bool.and_eq_true]
  have hbot : bottomData.permissions = ⟨false, false, false⟩ := by decide
  have hchg : ∀ s ∈ f.segs, (Changes c x s ↔ ¬ (alive s.from ↔ alive s.to)) :=
    fun s hs => not_congr (ht.same (hfrom s hs) (hto s hs))
  obtain ⟨_, hatt⟩ := C97_not_hidden (c := c) h hx (fun e he _ => Walk.Prog.letless_source _ _ p sp e he)
  have hread : ∀ s ∈ f.segs, (c.data s.from x).permissions ≠ (c.data s.to x).permissions →
      (c.data s.from x).permissions.read ≠ (c.data s.to x).permissions.read := by
    intro s hs hne he
    exact hne (by rw [hform _ (hfrom s hs), hform _ (hto s hs), he])
  refine ⟨⟨?_, ?_⟩, ?_⟩
  · rintro ⟨d, hs⟩
    obtain ⟨t, a, b', hi, _, hc, hol, _, _, hne⟩ := C97_true ho hd hs
    have hne := hne rfl
    cases hc with
    | entry _ =>
      right
      refine ⟨hol.1, Classical.byContradiction fun hn => hne ?_⟩
      rw [hbot, hst, (ht.empty hstart).2 hn]
    | seg _ hs' _ => exact .inl ⟨_, List.mem_of_getElem? hs', hol.1, (hchg _ (List.mem_of_getElem? hs')).1 hne⟩
    | attached a1 a2 a3 a4 a5 => exact (hatt _ _ _ _ (.attached a1 a2 a3 a4 a5)).elim
  · rintro (⟨s, hs, rfl, hne⟩ | ⟨rfl, ha⟩)
    · obtain ⟨f', locals', ds', e1, e2, e3, hshow⟩ := C103_page p sp hfu hord c ho src none visible
      rw [h] at e1
      cases e1
      rw [hd, Option.some.injEq] at e2
      subst e2
      obtain ⟨k, hk⟩ := List.mem_iff_getElem?.1 hs
      obtain ⟨d, hd', _⟩ := hshow x hx hv k s _ hk ((hchg s hs).2 hne) (hline _) (hu k s hk ((hchg s hs).2 hne))
      exact ⟨d, hd'⟩
    · have hb : (c.data c.start x).permissions ≠ ⟨false, false, false⟩ := by
        rw [hst]
        intro he
        exact (ht.empty hstart).1 he ha
      obtain ⟨d, hd', _⟩ := C103_entry p sp hfu hord hst ho h hd hx hv hb (hline _) (by
        intro g hg hl hne
        obtain ⟨k, hk⟩ := List.mem_iff_getElem?.1 hg
        exact hb (((hu k g hk hne).2 hl.symm).symm.trans hbot))
      exact ⟨d, hd'⟩
  · intro d hs
    obtain ⟨t, a, b', hi, _, hc, hol, _, hsay, hne⟩ := C97_true ho hd hs
    have hne := hne rfl
    cases hc with
    | entry _ =>
      rw [hbot, hst, hform _ hstart] at hsay
      refine ⟨false, _, ?_, hsay⟩
      intro he
      apply hne
      rw [hbot, hst, hform _ hstart, ← he]
      rfl
    | @seg _ sid s _ hs' _ =>
      have hm := List.mem_of_getElem? hs'
      rw [hform s.from (hfrom s hm), hform s.to (hto s hm)] at hsay
      exact ⟨_, _, hread s hm hne, hsay⟩
    | attached a1 a2 a3 a4 a5 => exact (hatt _ _ _ _ (.attached a1 a2 a3 a4 a5)).elim

/-- **C105 (silent lines).** A line on which only statements end that do not mention the variable has no row for it. -/
theorem C105_quiet (p : Walk.Prog) (sp : Nat) {fuel : Nat} (hfu : fuel ≠ 0)
    {ord : List (Loc × Nat) → List (Loc × Nat)} (hord : ∀ l, (ord l).Perm l)
    {order : Tables → Tables} (ho : ∀ m, (order m).Perm m) {src : List Char} {err : Option Nat}
    {visible : Place → Bool} {f : Frozen} {locals : List (Nat × List Nat)} {ds : List Display}
    (h : compute (.ofBody p.body fuel ord) (p.source sp) = .steps f locals)
    (hd : finalizeBody c f locals order src err visible .changes = some ds) (hx : x ∈ c.places)
    (ht : Tracked c p.body i used defined x path) (hrest : Rests p i path) (hf : Flow p.body i) {line : Nat}
    (hb : lineOf src c.brace ≠ line)
    (hq : ∀ s ∈ f.segs, lineOf src (c.endOf s.span) = line → s.from = s.to ∨
      (Inside p.body s.from ∧ (∀ m, Next p.body s.from m ↔ m = s.to) ∧
        ¬ used (i.varOf path) (point p.body s.from + 1) ∧ ¬ defined (i.varOf path) (point p.body s.from + 1)))
    (d : DataDiff) : ¬ Shown src ds line x d := by
  intro hs
  obtain ⟨_, hatt⟩ := C97_not_hidden (c := c) h hx (fun e he _ => Walk.Prog.letless_source _ _ p sp e he)
  obtain ⟨t, a, b', hi, _, hc, hol, _, _, hne⟩ := C97_true ho hd hs
  have hne := hne rfl
  cases hc with
  | entry _ => exact hb hol.1
  | seg _ hs' _ =>
    obtain ⟨f₀, locals₀, hc0, hseg, _⟩ := Walk.C102_programs p sp hfu hord
    rw [h] at hc0
    cases hc0
    obtain ⟨s1, s2⟩ := stop_seg hseg (List.mem_of_getElem? hs')
    rcases hq _ (List.mem_of_getElem? hs') hol.1 with he | ⟨h1, h2, h3, h4⟩
    · exact hne (by rw [he])
    · rcases C105_step ht hf h1 h2 (hrest _ s1) (hrest _ s2) hne with ⟨_, _, h5⟩ | ⟨_, _, h5⟩
      · exact h3 h5
      · exact h4 h5
  | attached a1 a2 a3 a4 a5 => exact (hatt _ _ _ _ (.attached a1 a2 a3 a4 a5)).elim

end

/-! ## A program

`{ let x = ..; drop(x); w = 1; }`, one part per line. -/

namespace LivingExample

open Verif.Facts

def prog : Walk.Prog := .bind 1 [0] (.act 2 (.act 3 .fin))

def src : List Char := ['{', '\n', 'l', '\n', 'd', '\n', 'w', '\n', '}']

def outp : Facts.Output := ((Facts.derive 20 LiveExample.facts).get (by decide +kernel))

def ctxt : Ctxt where
  places := [px]
  data := fun l _ => Facts.dataAtPoint LiveExample.facts outp 0 (point prog.body l)
  endOf := fun sp => match sp with | 1 => 3 | 2 => 5 | 3 => 7 | _ => 9
  locSpan := fun _ => (0, 0)
  start := ⟨0, 0⟩
  brace := 1

def frozen : Frozen :=
  ⟨[⟨[.linear 0, .linear 1, .linear 2, .linear 3], none⟩], [],
    [⟨⟨0, 0⟩, ⟨0, 1⟩, 1, 1⟩, ⟨⟨0, 1⟩, ⟨0, 2⟩, 2, 1⟩, ⟨⟨0, 2⟩, ⟨0, 3⟩, 3, 1⟩, ⟨⟨0, 3⟩, ⟨0, 4⟩, 9, 0⟩],
    [(1, 0), (2, 1), (3, 1), (4, 1)]⟩

theorem steps : compute (.ofBody prog.body 3 id) (prog.source 9) = .steps frozen [(2, [0])] := by decide +kernel

theorem point_here (n : Nat) : point prog.body ⟨0, n⟩ = 2 * n := by
  show 0 + n * 2 = 2 * n
  omega

theorem inside {l : Loc} : Inside prog.body l ↔ l.block = 0 ∧ l.idx ≤ 4 := by
  constructor
  · rintro ⟨d, h1, h2⟩
    obtain ⟨bl, n⟩ := l
    cases bl with
    | zero =>
      have : d.stmts = 4 := by
        have h1 : some (⟨4, .ret, false⟩ : Cfg.Block) = some d := h1
        cases h1
        rfl
      exact ⟨rfl, by dsimp only at h2 ⊢; omega⟩
    | succ m => exact absurd h1 (by simp [prog, Walk.Prog.body, Walk.Prog.code])
  · rintro ⟨h1, h2⟩
    exact ⟨⟨4, .ret, false⟩, by rw [h1]; rfl, h2⟩

theorem next {n : Nat} {l : Loc} : Next prog.body ⟨0, n⟩ l ↔ n < 4 ∧ l = ⟨0, n + 1⟩ := by
  constructor
  · rintro ⟨d, h1, h2⟩
    have h1 : some (⟨4, .ret, false⟩ : Cfg.Block) = some d := h1
    cases h1
    rcases h2 with h2 | ⟨_, t, ht, _⟩
    · exact h2
    · cases ht
  · intro h
    exact ⟨⟨4, .ret, false⟩, rfl, .inl h⟩

theorem flow : Flow prog.body LiveExample.facts := by
  intro x y
  constructor
  · intro h
    obtain ⟨rfl, hx⟩ := LiveExample.edge h
    rcases Nat.mod_two_eq_zero_or_one x with hm | hm
    · exact .inl ⟨⟨0, x / 2⟩, inside.2 ⟨rfl, by dsimp only; omega⟩, by rw [point_here]; omega, by rw [point_here]; omega⟩
    · exact .inr ⟨⟨0, x / 2⟩, ⟨0, x / 2 + 1⟩, inside.2 ⟨rfl, by dsimp only; omega⟩, next.2 ⟨by omega, rfl⟩,
        by rw [point_here]; omega, by rw [point_here]; omega⟩
  · rintro (⟨⟨bl, n⟩, h, rfl, rfl⟩ | ⟨⟨bl, n⟩, l', h, hn, rfl, rfl⟩) <;> obtain ⟨h1, h2⟩ := inside.1 h <;>
      dsimp only at h1 h2 <;> subst h1
    · rw [point_here]
      exact LiveExample.edge_of (by omega)
    · obtain ⟨h3, rfl⟩ := next.1 hn
      rw [point_here, point_here]
      exact LiveExample.edge_of (p := 2 * n + 1) (by omega)

theorem tracked : Tracked ctxt prog.body LiveExample.facts LiveExample.used LiveExample.defined px 0 where
  data := ⟨20, outp, by simp [outp], fun _ => rfl⟩
  analysed := LiveExample.analysed
  accepted := LiveExample.accepted
  unborrowed := by intro l hl; cases hl

theorem rests : Rests prog LiveExample.facts 0 := by
  intro l _
  obtain ⟨k, hk⟩ := point_even prog.body l
  rw [hk]
  exact LiveExample.settled k

/-- The rows on the page: the line, and for R, W and O whether the permission is there before and after. -/
def rows : Option (List (Nat × List (Bool × Bool))) :=
  (finalizeBody ctxt frozen [(2, [0])] id src none (fun _ => true) .changes).map
    (·.flatMap fun d => d.state.map fun e => (lineOf src d.pos, (Frontend.cells e.2).map (·.mark.says)))

/-- `x` has a row where it is defined and one where it is used last; the others do not mention it. -/
example : Tracked ctxt prog.body LiveExample.facts LiveExample.used LiveExample.defined px 0 ∧
    Flow prog.body LiveExample.facts ∧ Rests prog LiveExample.facts 0 ∧
    rows = some [(1, [(false, true), (false, false), (false, true)]), (2, [(true, false), (false, false), (true, false)])] :=
  ⟨tracked, flow, rests, by decide +kernel⟩

end LivingExample

end Verif.Pipeline
