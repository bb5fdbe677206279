import Verif.Pipeline.Living
import Verif.Walk.Merges
/-!
# C108: the rows tell the permissions of a variable that is never borrowed on every way through a program
-/
namespace Verif.Pipeline

open Verif.Cfg Verif.Segments Verif.Steps Verif.Permissions Verif.HirSteps
open Verif.Facts.Spec (WillUse Analysed Accepted Unborrowed InPlace)

/-- A way through a program as far as the steps show it: steps, each of which begins where the way has led so far, and
from the end of an arm or of the body of a loop to where the program goes on (`M`), which no step shows. -/
inductive Trail (f : Frozen) (M : List (Loc × Loc)) (o : Loc) : List Seg → Loc → Prop
  | nil : Trail f M o [] o
  | step {ss l g} : Trail f M o ss l → g ∈ f.segs → g.from = l → Trail f M o (ss ++ [g]) g.to
  | merge {ss l l'} : Trail f M o ss l → (l, l') ∈ M → Trail f M o ss l'

/-- If every change has its row and nothing changes between the end of an arm and where the program goes on, the rows
along a way tell the permissions at its end. -/
theorem trail_told {c : Ctxt} {f : Frozen} {M : List (Loc × Loc)} {src : List Char} {ds : List Display} {p : Place}
    (hsh : ∀ g ∈ f.segs, Changes c p g → ∃ d, Shown src ds (lineOf src (c.endOf g.span)) p d ∧
      Says d (c.data g.from p).permissions (c.data g.to p).permissions)
    (hM : ∀ m ∈ M, (c.data m.1 p).permissions = (c.data m.2 p).permissions)
    {o : Loc} {ss : List Seg} {l : Loc} (h : Trail f M o ss l) :
    (∃ pre g post d, ss = pre ++ g :: post ∧ Shown src ds (lineOf src (c.endOf g.span)) p d ∧
      Says d (c.data g.from p).permissions (c.data l p).permissions ∧ ∀ x ∈ post, ¬ Changes c p x) ∨
    ((∀ x ∈ ss, ¬ Changes c p x) ∧ (c.data l p).permissions = (c.data o p).permissions) := by
  induction h with
  | nil => exact .inr ⟨by simp, rfl⟩
  | @step ss l g h hg hl ih =>
    by_cases hne : Changes c p g
    · obtain ⟨d, h1, h2⟩ := hsh g hg hne
      exact .inl ⟨ss, g, [], d, rfl, h1, h2, by simp⟩
    · have he : (c.data g.to p).permissions = (c.data l p).permissions := by
        rw [← hl]
        exact (Classical.not_not.1 hne).symm
      have hall : ∀ post : List Seg, (∀ x ∈ post, ¬ Changes c p x) → ∀ x ∈ post ++ [g], ¬ Changes c p x := by
        intro post h3 y hy
        rcases List.mem_append.1 hy with hy | hy
        · exact h3 y hy
        · rw [List.mem_singleton] at hy
          exact hy ▸ hne
      rcases ih with ⟨pre, x, post, d, rfl, h1, h2, h3⟩ | ⟨h1, h2⟩
      · exact .inl ⟨pre, x, post ++ [g], d, by simp, h1, by rw [he]; exact h2, hall post h3⟩
      · exact .inr ⟨hall ss h1, by rw [he]; exact h2⟩
  | merge h hm ih =>
    have := hM _ hm
    dsimp only at this
    rw [← this]
    exact ih

/-- The step is on a way through the program. -/
theorem trail_step (p : Walk.Prog) (sp : Nat) {f : Frozen}
    (hs : f.segs.map (fun g => (g.from, g.to, g.span)) =
        p.expected 0 0 ++ [(p.finAt 0 0, ⟨(p.finAt 0 0).block, (p.finAt 0 0).idx + 1⟩, sp)]) {s : Seg} (hm : s ∈ f.segs) :
    ∃ ss, Trail f (p.merges 0 0) startLoc (ss ++ [s]) s.to := by
  have key : ∃ ss, Trail f (p.merges 0 0) startLoc ss s.from := by
    have h := Walk.Prog.expected_reached (f.segs.map (fun g => (g.from, g.to, g.span))) (p.merges 0 0)
      (fun l => ∃ ss, Trail f (p.merges 0 0) startLoc ss l)
      (fun y hy ⟨ss, h⟩ => ⟨ss, .merge h hy⟩) (by
        rintro x hx ⟨ss, h2⟩
        obtain ⟨g, hg, rfl⟩ := List.mem_map.1 hx
        exact ⟨ss ++ [g], .step h2 hg rfl⟩) p 0 0 (by
        intro x hx
        rw [hs]
        exact List.mem_append_left _ hx) (fun _ h => h) ⟨[], .nil⟩
    have hx : (s.from, s.to, s.span) ∈ f.segs.map (fun g => (g.from, g.to, g.span)) := List.mem_map.2 ⟨s, hm, rfl⟩
    rw [hs] at hx
    rcases List.mem_append.1 hx with hx | hx
    · exact h.1 _ hx
    · rw [List.mem_singleton] at hx
      have := congrArg Prod.fst hx
      dsimp only at this
      rw [this]
      exact h.2
  obtain ⟨ss, h2⟩ := key
  exact ⟨ss, .step h2 hm rfl⟩

section

variable {c : Ctxt} {b : Body} {i : Facts.Input} {used defined : Nat → Nat → Prop} {x : Place} {path : Nat}

/-- What the compiler adds does not mention the variable: the jumps, and the assignments of the unit value at the ends
of arms and of the bodies of loops. -/
structure Silent (p : Walk.Prog) (used defined : Nat → Nat → Prop) (v : Nat) : Prop where
  jump : ∀ (l : Loc) (d : Cfg.Block), p.body[l.block]? = some d → l.idx = d.stmts →
    ((∃ t, d.term = .goto t) ∨ ∃ t, d.term = .falseUnwind t) →
    ¬ used v (point p.body l + 1) ∧ ¬ defined v (point p.body l + 1)
  unit : ∀ m ∈ p.merges 0 0, ¬ used v (point p.body m.1 + 1) ∧ ¬ defined v (point p.body m.1 + 1)

/-- Over a location that leads to one place only and does not mention the variable, it stays of use or of no use. -/
theorem alive_over {b : Body} (ha : Analysed i used defined) (hf : Flow b i) {v : Nat} {l l' : Loc} (hl : Inside b l)
    (hn : ∀ m, Next b l m ↔ m = l') (hq : ¬ used v (point b l + 1) ∧ ¬ defined v (point b l + 1)) :
    WillUse i used defined v (point b l) ↔ WillUse i used defined v (point b l') := by
  obtain ⟨k, hk⟩ := point_even b l
  constructor
  · intro h
    cases h with
    | use hu =>
      obtain ⟨k', hk', _⟩ := ha.use _ _ hu
      omega
    | later he hd h =>
      rcases (hf _ _).1 he with ⟨l2, h2, e1, e2⟩ | ⟨l2, l3, h2, _, e1, _⟩
      · obtain rfl := point_inj hl h2 e1
        subst e2
        cases h with
        | use hu => exact absurd hu hq.1
        | later he hd h =>
          rcases (hf _ _).1 he with ⟨l2, h2, e1, e2⟩ | ⟨l2, l3, h2, h3, e1, e2⟩
          · obtain ⟨k', hk'⟩ := point_even b l2
            omega
          · obtain rfl := point_inj hl h2 (by omega)
            rw [hn] at h3
            subst h3 e2
            exact h
      · obtain ⟨k', hk'⟩ := point_even b l2
        omega
  · intro h
    refine .later ((hf _ _).2 (.inl ⟨l, hl, rfl, rfl⟩)) (fun hd => ?_)
      (.later ((hf _ _).2 (.inr ⟨l, l', hl, (hn l').2 rfl, rfl, rfl⟩)) hq.2 h)
    obtain ⟨k', hk'⟩ := ha.define _ _ hd
    omega

/-- What is the same before and after the jumps and the assignments of the unit value is the same at the end of an arm and
where the arms come together. -/
theorem merge_same (p : Walk.Prog) {R : Loc → Loc → Prop} (hs : ∀ {a b}, R a b → R b a)
    (htr : ∀ {a b c}, R a b → R b c → R a c)
    (hover : ∀ {l l' : Loc} {d : Cfg.Block}, p.body[l.block]? = some d → l.idx = d.stmts →
      ((∃ t, d.term = .goto t) ∨ ∃ t, d.term = .falseUnwind t) → (∀ m, Next p.body l m ↔ m = l') → R l l')
    (hunit : ∀ {m : Loc × Loc} {l' : Loc}, m ∈ p.merges 0 0 → Inside p.body m.1 → (∀ q, Next p.body m.1 q ↔ q = l') →
      R m.1 l') {m : Loc × Loc} (hm : m ∈ p.merges 0 0) : R m.1 m.2 := by
  obtain ⟨j, h1, h2⟩ := Walk.Prog.merges_meet p 0 0 .ret (Walk.body_slice p) m hm
  have goto : ∀ (l : Loc), p.body[l.block]? = some ⟨l.idx, .goto j, false⟩ → R l ⟨j, 0⟩ := by
    intro l hl
    refine hover hl rfl (.inl ⟨j, rfl⟩) (fun q => ⟨?_, ?_⟩)
    · rintro ⟨d, e1, e2⟩
      rw [hl] at e1
      cases e1
      rcases e2 with ⟨e2, _⟩ | ⟨_, t, e3, rfl⟩
      · exact absurd e2 (Nat.lt_irrefl _)
      · simp only [Term.targets, List.mem_singleton] at e3
        rw [e3]
    · rintro rfl
      exact ⟨_, hl, .inr ⟨rfl, j, by simp [Term.targets], rfl⟩⟩
  have e1 : R m.1 ⟨m.1.block, m.1.idx + 1⟩ := by
    refine hunit hm ⟨_, h1, Nat.le_succ _⟩ (fun q => ⟨?_, ?_⟩)
    · rintro ⟨d, e1, e2⟩
      rw [h1] at e1
      cases e1
      rcases e2 with ⟨_, rfl⟩ | ⟨e2, _⟩
      · rfl
      · dsimp only at e2
        omega
    · rintro rfl
      exact ⟨_, h1, .inl ⟨Nat.lt_succ_self _, rfl⟩⟩
  refine htr e1 (htr (goto ⟨m.1.block, m.1.idx + 1⟩ h1) ?_)
  rcases h2 with h2 | h2 | ⟨h2, h3⟩
  · rw [h2]
    exact htr (hs (goto ⟨m.1.block, m.1.idx + 1⟩ h1)) (goto ⟨m.1.block, m.1.idx + 1⟩ h1)
  · exact hs (goto m.2 h2)
  · obtain ⟨u, ⟨bl, n⟩⟩ := m
    dsimp only at h2 h3 ⊢
    subst h3
    refine hover (l := ⟨j, 0⟩) h2 rfl (.inr ⟨bl, rfl⟩) (fun q => ⟨?_, ?_⟩)
    · rintro ⟨d, e1, e2⟩
      rw [h2] at e1
      cases e1
      rcases e2 with ⟨e2, _⟩ | ⟨_, t, e3, rfl⟩
      · exact absurd e2 (Nat.lt_irrefl _)
      · simp only [Term.targets, List.mem_singleton] at e3
        rw [e3]
    · rintro rfl
      exact ⟨_, h2, .inr ⟨rfl, bl, by simp [Term.targets], rfl⟩⟩

/-- **C108 (nothing is lost where ways come together).** The permissions of a variable that is never borrowed in an
accepted program are the same at the end of an arm as where the arms come together, and the same at the end of the body
of a loop as where the loop goes on. -/
theorem C108_merge (p : Walk.Prog) (ht : Tracked c p.body i used defined x path) (hrest : Rests p i path)
    (hf : Flow p.body i) (hq : Silent p used defined (i.varOf path)) {m : Loc × Loc} (hm : m ∈ p.merges 0 0) :
    (c.data m.1 x).permissions = (c.data m.2 x).permissions :=
  (ht.same (hrest _ (.inr (.inr (.inl ⟨m, hm, .inl rfl⟩)))) (hrest _ (.inr (.inr (.inl ⟨m, hm, .inr rfl⟩))))).2
    (merge_same p (R := fun l l' => Alive p.body i used defined path l ↔ Alive p.body i used defined path l')
      (fun h => h.symm) (fun h h' => h.trans h')
      (fun hd hi hk hn => alive_over ht.analysed hf ⟨_, hd, Nat.le_of_eq hi⟩ hn (hq.jump _ _ hd hi hk))
      (fun hm hi hn => alive_over ht.analysed hf hi hn (hq.unit _ hm)) hm)

/-- If nothing changes where ways come together, the rows tell the permissions on every way. -/
theorem rows_told (p : Walk.Prog) (sp : Nat) {fuel : Nat} (hfu : fuel ≠ 0)
    {ord : List (Loc × Nat) → List (Loc × Nat)} (hord : ∀ l, (ord l).Perm l) (hst : c.start = startLoc)
    {order : Tables → Tables} (ho : ∀ m, (order m).Perm m) {src : List Char} {visible : Place → Bool} {f : Frozen}
    {locals : List (Nat × List Nat)} {ds : List Display}
    (h : compute (.ofBody p.body fuel ord) (p.source sp) = .steps f locals)
    (hd : finalizeBody c f locals order src none visible .changes = some ds) (hx : x ∈ c.places)
    (hv : visible x = true) (hM : ∀ m ∈ p.merges 0 0, (c.data m.1 x).permissions = (c.data m.2 x).permissions)
    (hu : ∀ (k : Nat) (s : Seg), f.segs[k]? = some s → Changes c x s → Alone c src f x k (lineOf src (c.endOf s.span))) :
    (∀ ss l, Trail f (p.merges 0 0) startLoc ss l →
      (∃ pre g post d, ss = pre ++ g :: post ∧ Shown src ds (lineOf src (c.endOf g.span)) x d ∧
          Says d (c.data g.from x).permissions (c.data l x).permissions ∧ ∀ y ∈ post, ¬ Changes c x y) ∨
        ((∀ y ∈ ss, ¬ Changes c x y) ∧ ((∃ d, Shown src ds (lineOf src c.brace) x d ∧
              Says d ⟨false, false, false⟩ (c.data l x).permissions) ∨
            (c.data l x).permissions = ⟨false, false, false⟩))) ∧
    ∀ s ∈ f.segs, ∃ ss, Trail f (p.merges 0 0) startLoc (ss ++ [s]) s.to := by
  obtain ⟨f', locals', ds', e1, e2, e3, hshow⟩ := C103_page p sp hfu hord c ho src none visible
  rw [h] at e1
  cases e1
  rw [hd, Option.some.injEq] at e2
  subst e2
  have hline : ∀ hi, OnLine src none hi (lineOf src hi) := fun hi => ⟨rfl, by simp⟩
  refine ⟨?_, fun s hs => trail_step p sp e3 hs⟩
  intro ss l htr
  have hsh : ∀ g ∈ f.segs, Changes c x g → ∃ d, Shown src ds (lineOf src (c.endOf g.span)) x d ∧
      Says d (c.data g.from x).permissions (c.data g.to x).permissions := by
    intro g hg hne
    obtain ⟨k, hk⟩ := List.mem_iff_getElem?.1 hg
    exact hshow x hx hv k g _ hk hne (hline _) (hu k g hk hne)
  rcases trail_told hsh hM htr with h3 | ⟨h3, h4⟩
  · exact .inl h3
  · refine .inr ⟨h3, ?_⟩
    by_cases hb : (c.data c.start x).permissions = ⟨false, false, false⟩
    · right
      rw [h4, ← hst, hb]
    · left
      rw [h4, ← hst]
      refine C103_entry p sp hfu hord hst ho h hd hx hv hb (hline _) ?_
      intro g hg hl hne
      obtain ⟨k, hk⟩ := List.mem_iff_getElem?.1 hg
      have := (hu k g hk hne).2 hl.symm
      exact hb (this.symm.trans (by decide))

/-- **C108 (the whole story).** In every program of statements, `let`s, calls, `if`s, `match`es and loops, nested in any
way, the rows tell the permissions of a visible variable that is never borrowed and whose changes are on different
lines, on every way through the program, with every choice of arms and any number of rounds of the loops: after each
step they are what the last row on the way says; if there is none, what the row at the opening brace says; and none at
all if this row is missing too.  Every step is on such a way. -/
theorem C108_told (p : Walk.Prog) (sp : Nat) {fuel : Nat} (hfu : fuel ≠ 0)
    {ord : List (Loc × Nat) → List (Loc × Nat)} (hord : ∀ l, (ord l).Perm l) (hst : c.start = startLoc)
    {order : Tables → Tables} (ho : ∀ m, (order m).Perm m) {src : List Char} {visible : Place → Bool} {f : Frozen}
    {locals : List (Nat × List Nat)} {ds : List Display}
    (h : compute (.ofBody p.body fuel ord) (p.source sp) = .steps f locals)
    (hd : finalizeBody c f locals order src none visible .changes = some ds) (hx : x ∈ c.places)
    (hv : visible x = true) (ht : Tracked c p.body i used defined x path) (hrest : Rests p i path) (hf : Flow p.body i)
    (hq : Silent p used defined (i.varOf path))
    (hu : ∀ (k : Nat) (s : Seg), f.segs[k]? = some s → Changes c x s → Alone c src f x k (lineOf src (c.endOf s.span))) :
    (∀ ss l, Trail f (p.merges 0 0) startLoc ss l →
      (∃ pre g post d, ss = pre ++ g :: post ∧ Shown src ds (lineOf src (c.endOf g.span)) x d ∧
          Says d (c.data g.from x).permissions (c.data l x).permissions ∧ ∀ y ∈ post, ¬ Changes c x y) ∨
        ((∀ y ∈ ss, ¬ Changes c x y) ∧ ((∃ d, Shown src ds (lineOf src c.brace) x d ∧
              Says d ⟨false, false, false⟩ (c.data l x).permissions) ∨
            (c.data l x).permissions = ⟨false, false, false⟩))) ∧
    ∀ s ∈ f.segs, ∃ ss, Trail f (p.merges 0 0) startLoc (ss ++ [s]) s.to :=
  rows_told p sp hfu hord hst ho h hd hx hv (fun _ hm => C108_merge p ht hrest hf hq hm) hu

end

end Verif.Pipeline
