import Verif.Pipeline.Kept
import Verif.Pipeline.ProgramProps
import Verif.Walk.Lefts
/-!
# C103: the page of a program with conditionals, `match`es and loops
-/
namespace Verif.Pipeline

open Verif.Cfg Verif.Segments Verif.Steps Verif.Permissions Verif.HirSteps
open Verif.Walk (Fork Branched stepEnds joinEnds)

theorem countP_index {α : Type} {P : α → Bool} : ∀ {l : List α} {i j : Nat} {a b : α}, l.countP P ≤ 1 →
    l[i]? = some a → l[j]? = some b → P a = true → P b = true → i = j
  | [], i, j, a, b, _, hi, _, _, _ => by simp at hi
  | x :: l, 0, 0, a, b, _, _, _, _, _ => rfl
  | x :: l, 0, j + 1, a, b, h, hi, hj, ha, hb => by
    rw [List.getElem?_cons_zero, Option.some.injEq] at hi
    rw [List.getElem?_cons_succ] at hj
    have := List.countP_pos_iff.2 ⟨b, List.mem_of_getElem? hj, hb⟩
    rw [List.countP_cons, hi, ha, if_pos rfl] at h
    omega
  | x :: l, i + 1, 0, a, b, h, hi, hj, ha, hb => by
    rw [List.getElem?_cons_zero, Option.some.injEq] at hj
    rw [List.getElem?_cons_succ] at hi
    have := List.countP_pos_iff.2 ⟨a, List.mem_of_getElem? hi, ha⟩
    rw [List.countP_cons, hj, hb, if_pos rfl] at h
    omega
  | x :: l, i + 1, j + 1, a, b, h, hi, hj, ha, hb => by
    rw [List.getElem?_cons_succ] at hi hj
    rw [List.countP_cons] at h
    rw [countP_index (Nat.le_trans (Nat.le_add_right _ _) h) hi hj ha hb]

/-- What is known of the steps of a program. -/
structure Settled (f : Frozen) : Prop where
  uniq : ∀ (i j : Nat) (s t : Seg), f.segs[i]? = some s → f.segs[j]? = some t → s.from ≠ s.to → t.from ≠ t.to →
    s.to = t.to → i = j
  join : ∀ (k : Nat) (s : Seg), f.segs[k]? = some s → s.from ≠ s.to → ∀ x ∈ f.branches, x.reachTo = s.to → k ∈ x.splits
  start : (∀ s ∈ f.segs, s.from ≠ s.to → s.to ≠ startLoc) ∧ ∀ x ∈ f.branches, x.reachTo ≠ startLoc
  splits : ∀ x ∈ f.branches, x.splits ≠ []

/-- A branch of a program with what was recorded for it. -/
theorem branched_mem {f : Frozen} {bs : List Fork} (h : Branched f bs) {x : Branch} (hx : x ∈ f.branches) :
    ∃ y ∈ bs, y.1 = x.reachFrom ∧ y.2.1 = x.reachTo ∧
      x.splits.map (fun sid => (f.segs[sid]?).map (fun g => (g.from, g.to, g.span))) = y.2.2.map some := by
  have hm := List.mem_map_of_mem (f := fun x : Branch => (x.reachFrom, x.reachTo,
      x.splits.map (fun sid => (f.segs[sid]?).map (fun g => (g.from, g.to, g.span))))) hx
  rw [show f.branches.map _ = _ from h] at hm
  obtain ⟨y, hy, he⟩ := List.mem_map.1 hm
  simp only [Prod.mk.injEq] at he
  exact ⟨y, hy, he.1, he.2.1, he.2.2.symm⟩

theorem stepEnds_last {p : Walk.Prog} {sp : Nat} (l : Loc) :
    stepEnds l (p.expected 0 0 ++ [(p.finAt 0 0, ⟨(p.finAt 0 0).block, (p.finAt 0 0).idx + 1⟩, sp)]) ≤ 1 ∧
    (joinEnds l (p.joins 0 0) ≠ 0 →
      stepEnds l (p.expected 0 0 ++ [(p.finAt 0 0, ⟨(p.finAt 0 0).block, (p.finAt 0 0).idx + 1⟩, sp)]) =
        stepEnds l (p.expected 0 0)) ∧
    (stepEnds l (p.expected 0 0 ++ [(p.finAt 0 0, ⟨(p.finAt 0 0).block, (p.finAt 0 0).idx + 1⟩, sp)]) +
      joinEnds l (p.joins 0 0) ≠ 0 → l ≠ startLoc) := by
  have h := p.ends 0 0 l
  have h3 := p.finAt_block 0 0
  rw [Walk.stepEnds_append]
  rw [show (p.finAt 0 0, (⟨(p.finAt 0 0).block, (p.finAt 0 0).idx + 1⟩ : Loc), sp) =
    ((⟨(p.finAt 0 0).block, (p.finAt 0 0).idx⟩ : Loc), (⟨(p.finAt 0 0).block, (p.finAt 0 0).idx + 1⟩ : Loc), sp) from rfl,
    Walk.stepEnds_cons, Walk.stepEnds_nil]
  simp only [Walk.Prog.Spans] at h
  refine ⟨?_, ?_, ?_⟩
  · split <;> omega
  · intro hj; split <;> omega
  · intro hn he
    have e1 : l.block = 0 := by rw [he]; rfl
    have e2 : l.idx = 0 := by rw [he]; rfl
    revert hn
    split <;> omega

theorem program_settled (p : Walk.Prog) (sp : Nat) {f : Frozen}
    (hs : f.segs.map (fun g => (g.from, g.to, g.span)) =
        p.expected 0 0 ++ [(p.finAt 0 0, ⟨(p.finAt 0 0).block, (p.finAt 0 0).idx + 1⟩, sp)])
    (hj : Branched f (p.joins 0 0)) : Settled f := by
  have hget : ∀ (i : Nat) (s : Seg), f.segs[i]? = some s →
      (f.segs.map (fun g => (g.from, g.to, g.span)))[i]? = some (s.from, s.to, s.span) := by
    intro i s h
    rw [List.getElem?_map, h]
    rfl
  have huniq : ∀ (i j : Nat) (s t : Seg), f.segs[i]? = some s → f.segs[j]? = some t → s.from ≠ s.to → t.from ≠ t.to →
      s.to = t.to → i = j := by
    intro i j s t hi hj hs' ht' he
    have h1 := (stepEnds_last (p := p) (sp := sp) s.to).1
    rw [← hs] at h1
    refine countP_index h1 (hget i s hi) (hget j t hj) ?_ ?_
    · simpa using hs'
    · simpa using ⟨ht', he.symm⟩
  have hpos : ∀ s ∈ f.segs, s.from ≠ s.to →
      stepEnds s.to (p.expected 0 0 ++ [(p.finAt 0 0, ⟨(p.finAt 0 0).block, (p.finAt 0 0).idx + 1⟩, sp)]) ≠ 0 := by
    intro s hm hne
    rw [← hs]
    exact Nat.ne_of_gt (List.countP_pos_iff.2 ⟨_, List.mem_map.2 ⟨s, hm, rfl⟩, by simpa using hne⟩)
  refine ⟨huniq, ?_, ⟨?_, ?_⟩, ?_⟩
  · intro k s hk hne x hx he
    obtain ⟨y, hy, _, e2, e3⟩ := branched_mem hj hx
    have hjp := Walk.joinEnds_pos hy
    have hp := hpos s (List.mem_of_getElem? hk) hne
    rw [← he, ← e2, (stepEnds_last (p := p) (sp := sp) y.2.1).2.1 hjp] at hp
    rcases p.lefts 0 0 y hy with ⟨s0, hs0, hn0, he0⟩ | h0
    · have hm0 : some s0 ∈ y.2.2.map some := List.mem_map.2 ⟨s0, hs0, rfl⟩
      rw [← e3] at hm0
      obtain ⟨sid, hsid, hg⟩ := List.mem_map.1 hm0
      obtain ⟨g, hg1, hg2⟩ := Option.map_eq_some_iff.1 hg
      subst hg2
      have : sid = k := huniq sid k g s hg1 hk hn0 hne (he0.trans (e2.trans he))
      exact this ▸ hsid
    · exact absurd h0 hp
  · intro s hm hne
    have := (stepEnds_last (p := p) (sp := sp) s.to).2.2
    have := hpos s hm hne
    exact (stepEnds_last (p := p) (sp := sp) s.to).2.2 (by omega)
  · intro x hx
    obtain ⟨y, hy, _, e2, _⟩ := branched_mem hj hx
    have := Walk.joinEnds_pos hy
    rw [← e2]
    exact (stepEnds_last (p := p) (sp := sp) y.2.1).2.2 (by omega)
  · intro x hx he
    obtain ⟨y, hy, _, _, e3⟩ := branched_mem hj hx
    rw [he, List.map_nil] at e3
    exact p.joins_split 0 0 y hy (List.map_eq_nil_iff.1 e3.symm)

/-- **C103 (every change is shown).** For every program of statements, `let`s, calls, `if`s, `match`es and `while` and
`for` loops, nested in any way, and whatever is known of its places: the page is made, and every step that changes a
visible place, and is the only one on its line to do so, has a row with exactly the permissions before and after. -/
theorem C103_page (p : Walk.Prog) (sp : Nat) {fuel : Nat} (hfu : fuel ≠ 0)
    {ord : List (Loc × Nat) → List (Loc × Nat)} (hord : ∀ l, (ord l).Perm l) (c : Ctxt) {order : Tables → Tables}
    (ho : ∀ m, (order m).Perm m) (src : List Char) (err : Option Nat) (visible : Place → Bool) :
    ∃ f locals ds, compute (.ofBody p.body fuel ord) (p.source sp) = .steps f locals ∧
      finalizeBody c f locals order src err visible .changes = some ds ∧
      f.segs.map (fun g => (g.from, g.to, g.span)) =
        p.expected 0 0 ++ [(p.finAt 0 0, ⟨(p.finAt 0 0).block, (p.finAt 0 0).idx + 1⟩, sp)] ∧
      ∀ x ∈ c.places, visible x = true → ∀ (k : Nat) (s : Seg) (line : Nat), f.segs[k]? = some s → Changes c x s →
        OnLine src err (c.endOf s.span) line → Alone c src f x k line →
        ∃ d, Shown src ds line x d ∧ Says d (c.data s.from x).permissions (c.data s.to x).permissions := by
  obtain ⟨f, locals, h1, h2, h3⟩ := Walk.C102_programs p sp hfu hord
  have hk := program_settled p sp h2 h3
  obtain ⟨ds, hds⟩ := C97_total h1 hk.splits c order ho src err visible .changes
  refine ⟨f, locals, ds, h1, hds, h2, ?_⟩
  intro x hx hv k s line hs hne hl ha
  have hft : s.from ≠ s.to := fun h => hne (by rw [h])
  refine C103_shown_partial h1 ho hds hx hv ?_ hs hne ?_ (hk.join k s hs hft) hl ha.1 ha.2
  · intro e he _
    exact Walk.Prog.letless_source _ _ p sp e he
  · intro j s' hs' hn he
    exact hk.uniq j k s' s hs' hs hn hft he

/-- **C103 (the start is shown).** The permissions a visible place has from the start are shown at the opening brace,
if no step on that line changes them. -/
theorem C103_entry (p : Walk.Prog) (sp : Nat) {fuel : Nat} (hfu : fuel ≠ 0)
    {ord : List (Loc × Nat) → List (Loc × Nat)} (hord : ∀ l, (ord l).Perm l) {c : Ctxt} (hst : c.start = startLoc)
    {order : Tables → Tables} (ho : ∀ m, (order m).Perm m) {src : List Char} {err : Option Nat}
    {visible : Place → Bool} {f : Frozen} {locals : List (Nat × List Nat)} {ds : List Display}
    (h : compute (.ofBody p.body fuel ord) (p.source sp) = .steps f locals)
    (hd : finalizeBody c f locals order src err visible .changes = some ds) {x : Place} (hx : x ∈ c.places)
    (hv : visible x = true) (hne : (c.data c.start x).permissions ≠ ⟨false, false, false⟩) {line : Nat}
    (hl : OnLine src err c.brace line)
    (hu : ∀ s ∈ f.segs, lineOf src (c.endOf s.span) = line → ¬ Changes c x s) :
    ∃ d, Shown src ds line x d ∧ Says d ⟨false, false, false⟩ (c.data c.start x).permissions := by
  obtain ⟨f', locals', h1, h2, h3⟩ := Walk.C102_programs p sp hfu hord
  rw [h] at h1
  cases h1
  have hk := program_settled p sp h2 h3
  obtain ⟨_, hatt⟩ := C97_not_hidden (c := c) h hx (fun e he _ => Walk.Prog.letless_source _ _ p sp e he)
  have hbot : bottomData.permissions = ⟨false, false, false⟩ := by decide
  have := C97_shown_partial ho hd (t := .entry) (l := startLoc) (line := line) (.inl ⟨rfl, ?_⟩) (.entry hx) hl hv
    (by rw [hbot]; exact fun h => hne h.symm) ?_
  · rw [hbot] at this
    exact this
  · intro t ht
    rw [hst] at ht
    rcases inTree_made ht with ⟨sid, s, e1, e2, e3, _⟩ | ⟨bid, b, e1, e2, _⟩
    · exact hk.start.1 s (List.mem_of_getElem? e1) e2 e3.symm
    · exact hk.start.2 b (List.mem_of_getElem? e1) e2.symm
  · intro t a b hi _ hc hl' hn
    cases hc with
    | entry _ => rfl
    | seg _ hs _ => exact absurd hn (hu _ (List.mem_of_getElem? hs) hl')
    | attached a1 a2 a3 a4 a5 => exact (hatt _ _ _ _ (.attached a1 a2 a3 a4 a5)).elim

/-- Where the story of a step begins: at the start of the function or where the arms of an `if` or `match` come
together, but not behind a loop. -/
def Starting (p : Walk.Prog) (o : Loc) : Prop := o = startLoc ∨ ∃ y ∈ p.joins 0 0, ¬ y.Straight ∧ o = y.2.1

/-- Every step of a program is reached from such a place by steps that follow each other. -/
theorem walk_along (p : Walk.Prog) (sp : Nat) {f : Frozen}
    (hs : f.segs.map (fun g => (g.from, g.to, g.span)) =
        p.expected 0 0 ++ [(p.finAt 0 0, ⟨(p.finAt 0 0).block, (p.finAt 0 0).idx + 1⟩, sp)]) {s : Seg} (hm : s ∈ f.segs) :
    ∃ o ss, Starting p o ∧ Along f o (ss ++ [s]) s.to := by
  have key : ∃ o ss, Starting p o ∧ Along f o ss s.from := by
    have h := Walk.Prog.expected_from (f.segs.map (fun g => (g.from, g.to, g.span))) (p.joins 0 0)
      (fun l => ∃ o ss, Starting p o ∧ Along f o ss l)
      (fun y hy hn => ⟨_, [], .inr ⟨y, hy, hn, rfl⟩, .nil⟩) (by
        rintro x hx ⟨o, ss, h1, h2⟩
        obtain ⟨g, hg, rfl⟩ := List.mem_map.1 hx
        exact ⟨o, ss ++ [g], h1, .snoc h2 hg rfl⟩) p 0 0 (by
        intro x hx
        rw [hs]
        exact List.mem_append_left _ hx) (fun _ h => h) ⟨_, [], .inl rfl, .nil⟩
    have hx : (s.from, s.to, s.span) ∈ f.segs.map (fun g => (g.from, g.to, g.span)) := List.mem_map.2 ⟨s, hm, rfl⟩
    rw [hs] at hx
    rcases List.mem_append.1 hx with hx | hx
    · exact h.1 _ hx
    · rw [List.mem_singleton] at hx
      have := congrArg Prod.fst hx
      dsimp only at this
      rw [this]
      exact h.2
  obtain ⟨o, ss, h1, h2⟩ := key
  exact ⟨o, ss, h1, .snoc h2 hm rfl⟩

/-- **C103 (the story since the last join).** In every such program whose steps that change a visible place end on
different lines, the rows tell the permissions of the place after every step, along the steps that lead to it from the
start or from where the arms of the last `if` or `match` come together: they are what the last row on this way says; if
there is none on this way, they are what they were at its beginning, and at the start of the function that is what the
row at the opening brace says, or none if there is no such row.  Missing for the whole story: the permissions where the
arms of an `if` or `match` come together. -/
theorem C103_story_partial (p : Walk.Prog) (sp : Nat) {fuel : Nat} (hfu : fuel ≠ 0)
    {ord : List (Loc × Nat) → List (Loc × Nat)} (hord : ∀ l, (ord l).Perm l) {c : Ctxt} (hst : c.start = startLoc)
    {order : Tables → Tables} (ho : ∀ m, (order m).Perm m) {src : List Char} {visible : Place → Bool} {f : Frozen}
    {locals : List (Nat × List Nat)} {ds : List Display}
    (h : compute (.ofBody p.body fuel ord) (p.source sp) = .steps f locals)
    (hd : finalizeBody c f locals order src none visible .changes = some ds) {x : Place} (hx : x ∈ c.places)
    (hv : visible x = true)
    (hu : ∀ (k : Nat) (s : Seg), f.segs[k]? = some s → Changes c x s → Alone c src f x k (lineOf src (c.endOf s.span)))
    {s : Seg} (hs : s ∈ f.segs) :
    ∃ o ss, Starting p o ∧ Along f o (ss ++ [s]) s.to ∧
      ((∃ pre g post d, ss ++ [s] = pre ++ g :: post ∧ Shown src ds (lineOf src (c.endOf g.span)) x d ∧
          Says d (c.data g.from x).permissions (c.data s.to x).permissions ∧ ∀ y ∈ post, ¬ Changes c x y) ∨
        ((∀ y ∈ ss ++ [s], ¬ Changes c x y) ∧ (c.data s.to x).permissions = (c.data o x).permissions ∧
          (o = startLoc → (∃ d, Shown src ds (lineOf src c.brace) x d ∧
              Says d ⟨false, false, false⟩ (c.data s.to x).permissions) ∨
            (c.data s.to x).permissions = ⟨false, false, false⟩))) := by
  obtain ⟨f', locals', ds', e1, e2, e3, hshow⟩ := C103_page p sp hfu hord c ho src none visible
  rw [h] at e1
  cases e1
  rw [hd, Option.some.injEq] at e2
  subst e2
  have hline : ∀ hi, OnLine src none hi (lineOf src hi) := fun hi => ⟨rfl, by simp⟩
  obtain ⟨o, ss, h1, h2⟩ := walk_along p sp e3 hs
  refine ⟨o, ss, h1, h2, ?_⟩
  have hsh : ∀ g ∈ f.segs, Changes c x g → ∃ d, Shown src ds (lineOf src (c.endOf g.span)) x d ∧
      Says d (c.data g.from x).permissions (c.data g.to x).permissions := by
    intro g hg hne
    obtain ⟨k, hk⟩ := List.mem_iff_getElem?.1 hg
    exact hshow x hx hv k g _ hk hne (hline _) (hu k g hk hne)
  rcases along_told hsh h2 with h3 | ⟨h3, h4⟩
  · exact .inl h3
  · refine .inr ⟨h3, h4, ?_⟩
    rintro rfl
    by_cases hb : (c.data c.start x).permissions = ⟨false, false, false⟩
    · right
      rw [h4, ← hst, hb]
    · left
      rw [h4, ← hst]
      refine C103_entry p sp hfu hord hst ho h hd hx hv hb (hline _) ?_
      intro g hg hl hne
      obtain ⟨k, hk⟩ := List.mem_iff_getElem?.1 hg
      have := (hu k g hk hne).2 hl.symm
      exact hb (this.symm.trans (by decide))

/-- **C103 (the whole story of programs with loops).** In every program of statements, `let`s, calls and `while` and
`for` loops, nested in any way, whose steps that change a visible place end on different lines, the rows tell the
permissions of the place after every step: on a way of steps from the start of the function to this step they are what
the last row on the way says; if there is none, what the row at the opening brace says; and none at all if this row is
missing too. -/
theorem C103_loops_told (p : Walk.Prog) (hp : p.Looping) (sp : Nat) {fuel : Nat} (hfu : fuel ≠ 0)
    {ord : List (Loc × Nat) → List (Loc × Nat)} (hord : ∀ l, (ord l).Perm l) {c : Ctxt} (hst : c.start = startLoc)
    {order : Tables → Tables} (ho : ∀ m, (order m).Perm m) {src : List Char} {visible : Place → Bool} {f : Frozen}
    {locals : List (Nat × List Nat)} {ds : List Display}
    (h : compute (.ofBody p.body fuel ord) (p.source sp) = .steps f locals)
    (hd : finalizeBody c f locals order src none visible .changes = some ds) {x : Place} (hx : x ∈ c.places)
    (hv : visible x = true)
    (hu : ∀ (k : Nat) (s : Seg), f.segs[k]? = some s → Changes c x s → Alone c src f x k (lineOf src (c.endOf s.span)))
    {s : Seg} (hs : s ∈ f.segs) :
    ∃ ss, Along f startLoc (ss ++ [s]) s.to ∧
      ((∃ pre g post d, ss ++ [s] = pre ++ g :: post ∧ Shown src ds (lineOf src (c.endOf g.span)) x d ∧
          Says d (c.data g.from x).permissions (c.data s.to x).permissions ∧ ∀ y ∈ post, ¬ Changes c x y) ∨
        ((∀ y ∈ ss ++ [s], ¬ Changes c x y) ∧ ((∃ d, Shown src ds (lineOf src c.brace) x d ∧
              Says d ⟨false, false, false⟩ (c.data s.to x).permissions) ∨
            (c.data s.to x).permissions = ⟨false, false, false⟩))) := by
  obtain ⟨o, ss, h1, h2, h3⟩ := C103_story_partial p sp hfu hord hst ho h hd hx hv hu hs
  have ho : o = startLoc := by
    rcases h1 with h1 | ⟨y, hy, hn, _⟩
    · exact h1
    · exact absurd (Walk.Prog.Looping.joins p 0 0 hp y hy) hn
  subst ho
  refine ⟨ss, h2, h3.imp_right ?_⟩
  rintro ⟨a, _, b⟩
  exact ⟨a, b rfl⟩

/-- **C103 (joins are silent).** If no step of such a program changes the place and it has no permissions at the start,
the page has no row for it at all, whatever its permissions are where ways come together. -/
theorem C103_silent (p : Walk.Prog) (sp : Nat) {fuel : Nat}
    {ord : List (Loc × Nat) → List (Loc × Nat)} {c : Ctxt} {order : Tables → Tables} (ho : ∀ m, (order m).Perm m)
    {src : List Char} {err : Option Nat} {visible : Place → Bool} {f : Frozen} {locals : List (Nat × List Nat)}
    {ds : List Display} (h : compute (.ofBody p.body fuel ord) (p.source sp) = .steps f locals)
    (hd : finalizeBody c f locals order src err visible .changes = some ds) {x : Place}
    (hn : ∀ s ∈ f.segs, ¬ Changes c x s) (h0 : (c.data c.start x).permissions = ⟨false, false, false⟩)
    (line : Nat) (d : DataDiff) : ¬ Shown src ds line x d := by
  refine C97_silent ho hd ?_ d
  intro t a b hi hc _
  have hx : x ∈ c.places := by cases hc <;> assumption
  obtain ⟨_, hatt⟩ := C97_not_hidden (c := c) h hx (fun e he _ => Walk.Prog.letless_source _ _ p sp e he)
  cases hc with
  | entry _ => rw [h0]; decide
  | seg _ hs _ => exact Classical.not_not.1 (hn _ (List.mem_of_getElem? hs))
  | attached a1 a2 a3 a4 a5 => exact (hatt _ _ _ _ (.attached a1 a2 a3 a4 a5)).elim

/-! ## A program

`{ while c { drop(&mut s); } w = 2; }`, one part per line. -/

namespace LoopExample

def prog : Walk.Prog := .whl 1 2 3 4 5 0 (.act 6 .fin) (.act 7 .fin)

def src : List Char := ['{', '\n', 'i', '\n', 'd', '\n', '}', '\n', 'w', '\n', '}']

/-- `s` may be read and dropped up to the condition and at the start of the body. -/
def held (l : Loc) : Bool := decide (l.block ≤ 2) || l == ⟨3, 0⟩

def heldData (l : Loc) : Data :=
  { typeDroppable := true, typeWriteable := false, typeCopyable := false, isLive := held l,
    pathUninitialized := false, pathMoved := none, loanReadRefined := none, loanWriteRefined := none,
    loanDropRefined := none }

def ctxt : Ctxt where
  places := [px]
  data := fun l _ => heldData l
  endOf := fun sp => match sp with | 2 => 3 | 3 => 3 | 6 => 5 | 4 => 7 | 1 => 7 | 5 => 7 | 7 => 9 | _ => 11
  locSpan := fun _ => (0, 0)
  start := ⟨0, 0⟩
  brace := 1

def frozen : Frozen :=
  ⟨[⟨[.linear 0, .branch 0, .linear 5, .linear 6, .linear 7], none⟩, ⟨[.linear 4], some ⟨4, 0⟩⟩,
      ⟨[.linear 3], some ⟨4, 0⟩⟩],
    [⟨0, ⟨2, 1⟩, ⟨4, 0⟩, [1, 2], [1, 2]⟩],
    [⟨⟨0, 0⟩, ⟨2, 1⟩, 2, 2⟩, ⟨⟨2, 1⟩, ⟨4, 0⟩, 4, 2⟩, ⟨⟨2, 1⟩, ⟨3, 0⟩, 3, 2⟩, ⟨⟨3, 0⟩, ⟨3, 1⟩, 6, 3⟩,
      ⟨⟨4, 0⟩, ⟨4, 0⟩, 5, 5⟩, ⟨⟨4, 0⟩, ⟨4, 1⟩, 1, 1⟩, ⟨⟨4, 1⟩, ⟨4, 2⟩, 7, 1⟩, ⟨⟨4, 2⟩, ⟨4, 3⟩, 8, 0⟩],
    [(1, 0), (2, 1), (3, 2), (4, 3), (5, 2), (6, 5), (7, 1)]⟩

/-- The program has a loop and no `if`. -/
example : prog.Looping := ⟨trivial, trivial⟩

theorem steps : compute (.ofBody prog.body 3 id) (prog.source 8) = .steps frozen [] := by decide +kernel

/-- The rows on the page: the line, and for R, W and O whether the permission is there before and after. -/
def rows : Option (List (Nat × List (Bool × Bool))) :=
  (finalizeBody ctxt frozen [] id src none (fun _ => true) .changes).map
    (·.flatMap fun d => d.state.map fun e => (lineOf src d.pos, (Frontend.cells e.2).map (·.mark.says)))

/-- The branch of the loop ends where the step behind it ends, and the table of this step is kept: `s` is lost in the
body and, for who leaves the loop, at its closing brace. -/
example : rows = some [(0, [(false, true), (false, false), (false, true)]),
    (3, [(true, false), (false, false), (true, false)]), (2, [(true, false), (false, false), (true, false)])] := by
  decide +kernel

/-- No two steps change `s` on one line. -/
example : ∀ k s, frozen.segs[k]? = some s → Changes ctxt px s → k = 1 ∨ k = 3 := by
  intro k s hk hc
  match k, hk with
  | 0, hk => cases hk; exact absurd (by decide +kernel) hc
  | 1, hk => exact .inl rfl
  | 2, hk => cases hk; exact absurd (by decide +kernel) hc
  | 3, hk => exact .inr rfl
  | 4, hk => cases hk; exact absurd (by decide +kernel) hc
  | 5, hk => cases hk; exact absurd (by decide +kernel) hc
  | 6, hk => cases hk; exact absurd (by decide +kernel) hc
  | 7, hk => cases hk; exact absurd (by decide +kernel) hc
  | k + 8, hk => cases hk

end LoopExample

end Verif.Pipeline
