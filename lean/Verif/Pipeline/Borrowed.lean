import Verif.Facts.Lent
import Verif.Pipeline.SourceProps
import Verif.Pipeline.Runs
/-!
# C110: the rows of a borrowed variable
-/
namespace Verif.Pipeline

open Verif.Cfg Verif.Segments Verif.Steps Verif.Permissions Verif.HirSteps Verif.Graph
open Verif.Facts.Spec (WillUse Analysed Accepted Loans Follows Lent Away Reached InPlace)

/-! ## Every location is reached -/

theorem run_block {b : Body} (k : Nat) (hk : ∃ w, Run b startLoc w ⟨k, 0⟩) {d : Cfg.Block} (hd : b[k]? = some d) :
    ∀ n, n ≤ d.stmts → ∃ w, Run b startLoc w ⟨k, n⟩
  | 0, _ => hk
  | n + 1, hn => by
    obtain ⟨w, hw⟩ := run_block k hk hd n (by omega)
    exact ⟨_, .next hw ⟨d, hd, .inl ⟨by dsimp only; omega, rfl⟩⟩⟩

theorem run_reach {b : Body} {k : Nat} (h : Reach b.succ 0 k) : ∃ w, Run b startLoc w ⟨k, 0⟩ := by
  induction h with
  | refl => exact ⟨[], .nil⟩
  | @tail j t _ ht ih =>
    have ht := (List.mem_filter.1 ht).1
    unfold Body.rawSucc Body.term at ht
    cases hb : b[j]? with
    | none => rw [hb] at ht; cases ht
    | some d =>
      rw [hb] at ht
      obtain ⟨w, hw⟩ := run_block j ih hb d.stmts (Nat.le_refl _)
      exact ⟨_, .next hw ⟨d, hb, .inr ⟨rfl, t, ht, rfl⟩⟩⟩

/-- A run leads to every location of a program. -/
theorem run_inside (p : Walk.Prog) {l : Loc} (hl : Inside p.body l) : ∃ w, Run p.body startLoc w l := by
  obtain ⟨d, h1, h2⟩ := hl
  have P := Walk.body_place p
  obtain ⟨hk, _⟩ := List.getElem?_eq_some_iff.1 h1
  refine run_block l.block (run_reach (P.region.reach0 ⟨Nat.zero_le _, ?_⟩)) h1 l.idx h2
  rw [Walk.body_length] at hk
  rw [Nat.zero_add]
  exact hk

section

variable {c : Ctxt} {i : Facts.Input} {used defined : Nat → Nat → Prop} {x : Place} {path : Nat} {L : Loans}
  {holders : Nat → List (Nat × Nat)}

theorem run_reached (p : Walk.Prog) (hf : Flow p.body i) {w : List Loc} {l : Loc} (h : Run p.body startLoc w l) :
    Inside p.body l ∧ Reached i (point p.body startLoc) (point p.body l) := by
  induction h with
  | nil => exact ⟨start_inside p, .entry⟩
  | next _ hn ih =>
    obtain ⟨h1, h2⟩ := ih
    refine ⟨next_inside p h1 hn, .edge (.edge h2 ((hf _ _).2 (.inl ⟨_, h1, rfl, rfl⟩)))
      ((hf _ _).2 (.inr ⟨_, _, h1, hn, rfl, rfl⟩))⟩

/-- The control flow leads to every location of a program. -/
theorem reached_inside (p : Walk.Prog) (hf : Flow p.body i) {l : Loc} (hl : Inside p.body l) :
    Reached i (point p.body startLoc) (point p.body l) := by
  obtain ⟨w, hw⟩ := run_inside p hl
  exact (run_reached p hf hw).2

/-! ## Permissions -/

/-- The permissions of `x` are those computed from the facts of an accepted program that lends it to holders. -/
structure Borrowed (c : Ctxt) (b : Body) (i : Facts.Input) (used defined : Nat → Nat → Prop) (x : Place) (path : Nat)
    (L : Loans) (holders : Nat → List (Nat × Nat)) : Prop where
  data : ∃ fuel o, Facts.derive fuel i = some o ∧ ∀ l, c.data l x = Facts.dataAtPoint i o path (point b l)
  analysed : Analysed i used defined
  accepted : Accepted i used defined path
  follows : Follows i L
  lent : Lent i used defined L (point b startLoc) path holders

/-- The loans of the path that are held by some variable that is of use. -/
def loansOut (i : Facts.Input) (path : Nat) (holders : Nat → List (Nat × Nat)) (alive : Nat → Bool) : List Nat :=
  (i.issued.filter fun l => i.conflict (i.borrowed l) path).filter fun l => (holders l).any fun g => alive g.1

/-- The permissions of a path, from which variables are of use: none without use; with a mutable loan out none, either;
with shared loans out only that to read. -/
def lentPerms (i : Facts.Input) (path : Nat) (holders : Nat → List (Nat × Nat)) (alive : Nat → Bool) : Perms :=
  ⟨alive (i.varOf path) && !(loansOut i path holders alive).any i.isMutLoan,
    alive (i.varOf path) && i.writeEnabled path && (loansOut i path holders alive).isEmpty,
    alive (i.varOf path) && i.dropEnabled path && (loansOut i path holders alive).isEmpty⟩

/-- The variables that matter for the path: its own and the holders of its loans. -/
def Matters (i : Facts.Input) (path : Nat) (holders : Nat → List (Nat × Nat)) (v : Nat) : Prop :=
  v = i.varOf path ∨ ∃ l ∈ i.issued, i.conflict (i.borrowed l) path = true ∧ ∃ g ∈ holders l, g.1 = v

/-- The permissions at a location follow from which variables are of use there. -/
theorem Borrowed.perms (p : Walk.Prog) (h : Borrowed c p.body i used defined x path L holders) (hf : Flow p.body i)
    {l : Loc} (hl : Inside p.body l) (hs : InPlace i path (point p.body l)) {alive : Nat → Bool}
    (ha : ∀ v, Matters i path holders v → (WillUse i used defined v (point p.body l) ↔ alive v = true)) :
    (c.data l x).permissions = lentPerms i path holders alive := by
  obtain ⟨fuel, o, ho, hd⟩ := h.data
  obtain ⟨k, hk⟩ := point_even p.body l
  have hre := reached_inside p hf hl
  rw [hk] at hre hs
  obtain ⟨h1, h2, h3⟩ := Facts.C110_permissions h.analysed h.accepted ho h.follows h.lent hre hs
  rw [hd, hk]
  have haway : ∀ a, Away i used defined path holders a (2 * k) ↔ a ∈ loansOut i path holders alive := by
    intro a
    unfold loansOut Away
    simp only [List.mem_filter, List.any_eq_true, and_assoc]
    refine and_congr_right fun h4 => and_congr_right fun h5 => ⟨?_, ?_⟩
    · rintro ⟨g, h6, h7⟩
      exact ⟨g, h6, (ha _ (.inr ⟨a, h4, h5, g, h6, rfl⟩)).1 (hk ▸ h7)⟩
    · rintro ⟨g, h6, h7⟩
      exact ⟨g, h6, hk ▸ (ha _ (.inr ⟨a, h4, h5, g, h6, rfl⟩)).2 h7⟩
  have hown := ha _ (.inl rfl)
  rw [hk] at hown
  simp only [haway, hown] at h1 h2 h3
  have hemp : (¬ ∃ a, a ∈ loansOut i path holders alive) ↔ (loansOut i path holders alive).isEmpty = true := by
    rw [List.isEmpty_iff, List.eq_nil_iff_forall_not_mem]
    exact not_exists
  have hmut : (¬ ∃ a, a ∈ loansOut i path holders alive ∧ i.isMutLoan a = true) ↔
      (!(loansOut i path holders alive).any i.isMutLoan) = true := by
    rw [Bool.not_eq_true', ← Bool.not_eq_true, List.any_eq_true]
  rw [hmut] at h1
  rw [hemp] at h2 h3
  generalize (Facts.dataAtPoint i o path (2 * k)).permissions = q at *
  obtain ⟨r, w, d⟩ := q
  simp only at h1 h2 h3
  unfold lentPerms
  congr 1
  · rw [Bool.eq_iff_iff, h1, Bool.and_eq_true]
  · rw [Bool.eq_iff_iff, h2, Bool.and_eq_true, Bool.and_eq_true, and_assoc]
  · rw [Bool.eq_iff_iff, h3, Bool.and_eq_true, Bool.and_eq_true, and_assoc]

/-! ## Read off the source -/

/-- Which locations use a variable and which set it. -/
abbrev Mention := Nat → (Loc → Bool) × (Loc → Bool)

/-- Is the variable of use where the step begins? -/
def begins (m : Mention) (p : Walk.Prog) (sp k v : Nat) : Bool := ((toldAll (m v).1 (m v).2 p sp)[k]?).any (·.2.1)

/-- Is the variable of use where the step ends? -/
def ends (m : Mention) (p : Walk.Prog) (sp k v : Nat) : Bool := ((toldAll (m v).1 (m v).2 p sp)[k]?).any (·.2.2)

/-- Is the variable of use at the start of the function? -/
def atFirst (m : Mention) (p : Walk.Prog) (v : Nat) : Bool := p.live (m v).1 (m v).2 0 0 false

/-- The source tells for each step whether a variable is of use where it begins and where it ends. -/
theorem alive_told (p : Walk.Prog) (sp : Nat) (ha : Analysed i used defined) (hf : Flow p.body i) {m : Mention} {v : Nat}
    (hm : Mentions p.body used defined v (m v).1 (m v).2) {f : Frozen}
    (hs : f.segs.map (fun g => (g.from, g.to, g.span)) =
        p.expected 0 0 ++ [(p.finAt 0 0, ⟨(p.finAt 0 0).block, (p.finAt 0 0).idx + 1⟩, sp)])
    {k : Nat} {s : Seg} (hk : f.segs[k]? = some s) :
    (WillUse i used defined v (point p.body s.from) ↔ begins m p sp k v = true) ∧
    (WillUse i used defined v (point p.body s.to) ↔ ends m p sp k v = true) ∧
    Inside p.body s.from ∧ Inside p.body s.to := by
  have h1 : ((toldAll (m v).1 (m v).2 p sp).map (·.1))[k]? = some (s.from, s.to, s.span) := by
    rw [toldAll_steps, ← hs, List.getElem?_map, hk]
    rfl
  rw [List.getElem?_map] at h1
  obtain ⟨e, he, h2⟩ := Option.map_eq_some_iff.1 h1
  have hmem := List.mem_of_getElem? he
  obtain ⟨e1, e2⟩ := toldAll_honest p sp e hmem
  have hin : Inside p.body e.1.1 ∧ Inside p.body e.1.2.1 := by
    have hm' : e.1 ∈ (toldAll (m v).1 (m v).2 p sp).map (·.1) := List.mem_map.2 ⟨e, hmem, rfl⟩
    rw [toldAll_steps] at hm'
    rcases List.mem_append.1 hm' with hm' | hm'
    · exact expected_inside p 0 0 .ret (Walk.body_slice p) _ hm'
    · rw [List.mem_singleton.1 hm']
      have hd := Walk.fin_block p 0 0 .ret (Walk.body_slice p)
      exact ⟨⟨_, hd, Nat.le_succ _⟩, ⟨_, hd, Nat.le_refl _⟩⟩
  have a1 := (alive_wanted p ha hf hm hin.1).trans e1.iff
  have a2 := (alive_wanted p ha hf hm hin.2).trans e2.iff
  rw [h2] at a1 a2 hin
  unfold begins ends
  rw [he]
  exact ⟨a1, a2, hin⟩

/-- **C110 (every step).** For a variable of an accepted program of statements, `let`s, calls, `if`s, `match`es and
loops, nested in any way, that is borrowed any number of times, each time by variables that are set to nothing else: its
permissions where a step begins, where it ends and at the start follow from whether it and its holders are of use there,
as read off the source. -/
theorem C110_steps (p : Walk.Prog) (sp : Nat) {fuel : Nat} (hfu : fuel ≠ 0)
    {ord : List (Loc × Nat) → List (Loc × Nat)} (hord : ∀ l, (ord l).Perm l) {f : Frozen}
    {locals : List (Nat × List Nat)} (h : compute (.ofBody p.body fuel ord) (p.source sp) = .steps f locals)
    (ht : Borrowed c p.body i used defined x path L holders) (hrest : Rests p i path)
    (hf : Flow p.body i) {m : Mention}
    (hm : ∀ v, Matters i path holders v → Mentions p.body used defined v (m v).1 (m v).2) :
    (∀ k s, f.segs[k]? = some s →
      (c.data s.from x).permissions = lentPerms i path holders (begins m p sp k) ∧
      (c.data s.to x).permissions = lentPerms i path holders (ends m p sp k)) ∧
    (c.data startLoc x).permissions = lentPerms i path holders (atFirst m p) := by
  obtain ⟨f', locals', h1, h2, _⟩ := Walk.C102_programs p sp hfu hord
  rw [h] at h1
  cases h1
  refine ⟨?_, ?_⟩
  · intro k s hk
    have hv := fun v (hv : Matters i path holders v) => alive_told p sp ht.analysed hf (hm v hv) h2 hk
    obtain ⟨_, _, i1, i2⟩ := hv _ (.inl rfl)
    obtain ⟨s1, s2⟩ := stop_seg h2 (List.mem_of_getElem? hk)
    exact ⟨ht.perms p hf i1 (hrest _ s1) fun v h => (hv v h).1, ht.perms p hf i2 (hrest _ s2) fun v h => (hv v h).2.1⟩
  · exact ht.perms p hf (start_inside p) (hrest _ (.inl rfl)) fun v hv => (alive_wanted p ht.analysed hf (hm v hv) (start_inside p)).trans
      (live_exact p 0 0 .ret false (Walk.body_slice p) (leaves_ret _)).iff

/-! ## The page -/

/-- If the permissions at the ends of steps and at the start are known, the rows are those where they differ. -/
theorem rows_exact (p : Walk.Prog) (sp : Nat) {fuel : Nat} (hfu : fuel ≠ 0)
    {ord : List (Loc × Nat) → List (Loc × Nat)} (hord : ∀ l, (ord l).Perm l) (hst : c.start = startLoc)
    {order : Tables → Tables} (ho : ∀ m, (order m).Perm m) {src : List Char} {visible : Place → Bool} {f : Frozen}
    {locals : List (Nat × List Nat)} {ds : List Display}
    (h : compute (.ofBody p.body fuel ord) (p.source sp) = .steps f locals)
    (hd : finalizeBody c f locals order src none visible .changes = some ds) (hx : x ∈ c.places)
    (hv : visible x = true) {A B : Nat → Perms} {C : Perms}
    (hp : ∀ k s, f.segs[k]? = some s → (c.data s.from x).permissions = A k ∧ (c.data s.to x).permissions = B k)
    (h0 : (c.data startLoc x).permissions = C)
    (hu : ∀ (k : Nat) (s : Seg), f.segs[k]? = some s → Changes c x s → Alone c src f x k (lineOf src (c.endOf s.span))) :
    (∀ k s, f.segs[k]? = some s → A k ≠ B k → ∃ d, Shown src ds (lineOf src (c.endOf s.span)) x d ∧ Says d (A k) (B k)) ∧
    (C ≠ ⟨false, false, false⟩ → ∃ d, Shown src ds (lineOf src c.brace) x d ∧ Says d ⟨false, false, false⟩ C) ∧
    ∀ line d, Shown src ds line x d →
      (∃ (k : Nat) (s : Seg), f.segs[k]? = some s ∧ lineOf src (c.endOf s.span) = line ∧ A k ≠ B k ∧ Says d (A k) (B k)) ∨
      (lineOf src c.brace = line ∧ C ≠ ⟨false, false, false⟩ ∧ Says d ⟨false, false, false⟩ C) := by
  have hline : ∀ hi, OnLine src none hi (lineOf src hi) := fun hi => ⟨rfl, by simp⟩
  have hbot : bottomData.permissions = ⟨false, false, false⟩ := by decide
  refine ⟨?_, ?_, ?_⟩
  · intro k s hk hne
    obtain ⟨f', locals', ds', e1, e2, e3, hshow⟩ := C103_page p sp hfu hord c ho src none visible
    rw [h] at e1
    cases e1
    rw [hd, Option.some.injEq] at e2
    subst e2
    obtain ⟨p1, p2⟩ := hp k s hk
    have hch : Changes c x s := fun heq => hne (p1.symm.trans (heq.trans p2))
    rw [← p1, ← p2]
    exact hshow x hx hv k s _ hk hch (hline _) (hu k s hk hch)
  · intro hC
    have hb : (c.data c.start x).permissions ≠ ⟨false, false, false⟩ := by rw [hst, h0]; exact hC
    have := C103_entry p sp hfu hord hst ho h hd hx hv hb (hline _) (by
      intro g hg hl hne
      obtain ⟨k, hk⟩ := List.mem_iff_getElem?.1 hg
      exact hb (((hu k g hk hne).2 hl.symm).symm.trans hbot))
    rw [hst, h0] at this
    exact this
  · intro line d hsh
    obtain ⟨_, hatt⟩ := C97_not_hidden (c := c) h hx (fun e he _ => Walk.Prog.letless_source _ _ p sp e he)
    obtain ⟨t, a, b', hi, _, hc, hol, _, hsay, hne⟩ := C97_true ho hd hsh
    have hne := hne rfl
    cases hc with
    | entry _ =>
      right
      rw [hst, hbot, h0] at hne hsay
      exact ⟨hol.1, fun he => hne he.symm, hsay⟩
    | @seg _ sid s _ hs' _ =>
      left
      obtain ⟨k, hk⟩ := List.mem_iff_getElem?.1 (List.mem_of_getElem? hs')
      obtain ⟨p1, p2⟩ := hp k s hk
      rw [p1, p2] at hne hsay
      exact ⟨k, s, hk, hol.1, hne, hsay⟩
    | attached a1 a2 a3 a4 a5 => exact (hatt _ _ _ _ (.attached a1 a2 a3 a4 a5)).elim

/-- **C110 (the page).** For every such program and a visible variable that is borrowed in this way and whose changes are
on different lines: every step over which, by the source, its permissions change has its row, saying this change; the
opening brace has one if the function starts with permissions; and there are no other rows. -/
theorem C110_page (p : Walk.Prog) (sp : Nat) {fuel : Nat} (hfu : fuel ≠ 0)
    {ord : List (Loc × Nat) → List (Loc × Nat)} (hord : ∀ l, (ord l).Perm l) (hst : c.start = startLoc)
    {order : Tables → Tables} (ho : ∀ m, (order m).Perm m) {src : List Char} {visible : Place → Bool} {f : Frozen}
    {locals : List (Nat × List Nat)} {ds : List Display}
    (h : compute (.ofBody p.body fuel ord) (p.source sp) = .steps f locals)
    (hd : finalizeBody c f locals order src none visible .changes = some ds) (hx : x ∈ c.places)
    (hv : visible x = true) (ht : Borrowed c p.body i used defined x path L holders) (hrest : Rests p i path)
    (hf : Flow p.body i) {m : Mention}
    (hm : ∀ v, Matters i path holders v → Mentions p.body used defined v (m v).1 (m v).2)
    (hu : ∀ (k : Nat) (s : Seg), f.segs[k]? = some s → Changes c x s → Alone c src f x k (lineOf src (c.endOf s.span))) :
    let A := fun k => lentPerms i path holders (begins m p sp k)
    let B := fun k => lentPerms i path holders (ends m p sp k)
    let C := lentPerms i path holders (atFirst m p)
    (∀ k s, f.segs[k]? = some s → A k ≠ B k → ∃ d, Shown src ds (lineOf src (c.endOf s.span)) x d ∧ Says d (A k) (B k)) ∧
    (C ≠ ⟨false, false, false⟩ → ∃ d, Shown src ds (lineOf src c.brace) x d ∧ Says d ⟨false, false, false⟩ C) ∧
    ∀ line d, Shown src ds line x d →
      (∃ (k : Nat) (s : Seg), f.segs[k]? = some s ∧ lineOf src (c.endOf s.span) = line ∧ A k ≠ B k ∧ Says d (A k) (B k)) ∨
      (lineOf src c.brace = line ∧ C ≠ ⟨false, false, false⟩ ∧ Says d ⟨false, false, false⟩ C) := by
  obtain ⟨h1, h2⟩ := C110_steps p sp hfu hord h ht hrest hf hm
  exact rows_exact p sp hfu hord hst ho h hd hx hv h1 h2 hu

/-! ## Every run -/

/-- **C110 (nothing is lost where ways come together).** -/
theorem C110_merge (p : Walk.Prog) (ht : Borrowed c p.body i used defined x path L holders) (hrest : Rests p i path)
    (hf : Flow p.body i)
    (hq : ∀ v, Matters i path holders v → Silent p used defined v) {m : Loc × Loc} (hm : m ∈ p.merges 0 0) :
    (c.data m.1 x).permissions = (c.data m.2 x).permissions := by
  classical
  have key : (Inside p.body m.1 ∧ Inside p.body m.2) ∧ ∀ v, Matters i path holders v →
      (WillUse i used defined v (point p.body m.1) ↔ WillUse i used defined v (point p.body m.2)) := by
    refine merge_same p (R := fun l l' => (Inside p.body l ∧ Inside p.body l') ∧ ∀ v, Matters i path holders v →
      (WillUse i used defined v (point p.body l) ↔ WillUse i used defined v (point p.body l')))
      (fun h => ⟨⟨h.1.2, h.1.1⟩, fun v hv => (h.2 v hv).symm⟩)
      (fun h h' => ⟨⟨h.1.1, h'.1.2⟩, fun v hv => (h.2 v hv).trans (h'.2 v hv)⟩) ?_ ?_ hm
    · intro l l' d hd hi hk hn
      have hl : Inside p.body l := ⟨_, hd, Nat.le_of_eq hi⟩
      exact ⟨⟨hl, next_inside p hl ((hn l').2 rfl)⟩,
        fun v hv => alive_over ht.analysed hf hl hn ((hq v hv).jump _ _ hd hi hk)⟩
    · intro m' l' hm' hl hn
      exact ⟨⟨hl, next_inside p hl ((hn l').2 rfl)⟩, fun v hv => alive_over ht.analysed hf hl hn ((hq v hv).unit _ hm')⟩
  have e1 := ht.perms p hf key.1.1 (hrest _ (.inr (.inr (.inl ⟨m, hm, .inl rfl⟩)))) (alive := fun v => decide (WillUse i used defined v (point p.body m.1)))
    (fun v _ => decide_eq_true_iff.symm)
  have e2 := ht.perms p hf key.1.2 (hrest _ (.inr (.inr (.inl ⟨m, hm, .inr rfl⟩)))) (alive := fun v => decide (WillUse i used defined v (point p.body m.1)))
    (fun v hv => (key.2 v hv).symm.trans decide_eq_true_iff.symm)
  rw [e1, e2]

/-- **C110 (every run).** However the program runs, when it is where some step begins or ends, the permissions of a
visible variable that is borrowed in this way and whose changes are on different lines are what the last row says among
the rows of steps that the run has gone over; if there is none, what the row at the opening brace says; and none at all
if this row is missing too. -/
theorem C110_runs (p : Walk.Prog) (sp : Nat) {fuel : Nat} (hfu : fuel ≠ 0)
    {ord : List (Loc × Nat) → List (Loc × Nat)} (hord : ∀ l, (ord l).Perm l) (hst : c.start = startLoc)
    {order : Tables → Tables} (ho : ∀ m, (order m).Perm m) {src : List Char} {visible : Place → Bool} {f : Frozen}
    {locals : List (Nat × List Nat)} {ds : List Display}
    (h : compute (.ofBody p.body fuel ord) (p.source sp) = .steps f locals)
    (hd : finalizeBody c f locals order src none visible .changes = some ds) (hx : x ∈ c.places)
    (hv : visible x = true) (ht : Borrowed c p.body i used defined x path L holders) (hrest : Rests p i path)
    (hf : Flow p.body i)
    (hq : ∀ v, Matters i path holders v → Silent p used defined v)
    (hu : ∀ (k : Nat) (s : Seg), f.segs[k]? = some s → Changes c x s → Alone c src f x k (lineOf src (c.endOf s.span)))
    {w : List Loc} {z : Loc} (hr : Run p.body startLoc w z) (hz : ∃ g ∈ f.segs, z = g.from ∨ z = g.to) :
    ∃ ss, Trail f (p.merges 0 0) startLoc ss z ∧ (ss.map (·.to)).Sublist w ∧
      ((∃ pre g post d, ss = pre ++ g :: post ∧ Shown src ds (lineOf src (c.endOf g.span)) x d ∧
          Says d (c.data g.from x).permissions (c.data z x).permissions ∧ ∀ y ∈ post, ¬ Changes c x y) ∨
        ((∀ y ∈ ss, ¬ Changes c x y) ∧ ((∃ d, Shown src ds (lineOf src c.brace) x d ∧
              Says d ⟨false, false, false⟩ (c.data z x).permissions) ∨
            (c.data z x).permissions = ⟨false, false, false⟩))) := by
  obtain ⟨f', locals', ds', e1, e2, e3, hshow⟩ := C103_page p sp hfu hord c ho src none visible
  rw [h] at e1
  cases e1
  obtain ⟨ss, h1, h2⟩ := run_settled p sp e3 hr hz
  exact ⟨ss, h1, h2, (rows_told p sp hfu hord hst ho h hd hx hv (fun _ hm => C110_merge p ht hrest hf hq hm) hu).1 ss z h1⟩

end

end Verif.Pipeline
