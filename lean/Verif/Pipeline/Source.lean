import Verif.Pipeline.Value
/-!
# C109: the rows of a variable that is never borrowed, read off the source
-/
namespace Verif.Pipeline

open Verif.Cfg Verif.Segments Verif.Steps Verif.Permissions Verif.HirSteps
open Verif.Facts.Spec (WillUse Analysed Accepted Unborrowed)
open Verif.Walk (before)

/-- Which locations use the variable and which give it a new value. -/
def Mentions (b : Body) (used defined : Nat → Nat → Prop) (v : Nat) (uses sets : Loc → Bool) : Prop :=
  ∀ l, Inside b l → (used v (point b l + 1) ↔ uses l = true) ∧ (defined v (point b l + 1) ↔ sets l = true)

/-- No way leads out of the body. -/
theorem next_inside (p : Walk.Prog) {l l' : Loc} (hl : Inside p.body l) (hn : Next p.body l l') : Inside p.body l' := by
  obtain ⟨d, h1, h2⟩ := hn
  rcases h2 with ⟨h2, rfl⟩ | ⟨_, t, ht, rfl⟩
  · exact ⟨d, h1, h2⟩
  · have := (Walk.body_valid p).targets l.block t ⟨d, h1, ht⟩
    exact ⟨_, List.getElem?_eq_getElem this, Nat.zero_le _⟩

section

variable {c : Ctxt} {i : Facts.Input} {used defined : Nat → Nat → Prop} {x : Place} {path : Nat} {uses sets : Loc → Bool}

/-- The value may still be used, as rustc computes it, exactly if the control flow leads to a use before a new value. -/
theorem alive_wanted (p : Walk.Prog) (ha : Analysed i used defined) (hf : Flow p.body i) {v : Nat}
    (hm : Mentions p.body used defined v uses sets) {l : Loc} (hl : Inside p.body l) :
    WillUse i used defined v (point p.body l) ↔ ∃ m, Wanted p.body uses sets m l := by
  constructor
  · intro h
    have key : ∀ q, WillUse i used defined v q →
        (∀ l, Inside p.body l → q = point p.body l → ∃ m, Wanted p.body uses sets m l) ∧
        (∀ l, Inside p.body l → q = point p.body l + 1 → ∃ m, Wanted p.body uses sets m l) := by
      intro q h
      induction h with
      | @use q hu =>
        obtain ⟨k, rfl, _⟩ := ha.use _ _ hu
        refine ⟨?_, ?_⟩
        · intro l hl he
          obtain ⟨k', hk'⟩ := point_even p.body l
          omega
        · intro l hl he
          rw [he] at hu
          exact ⟨0, .use hl ((hm l hl).1.1 hu)⟩
      | @later q r he hd _ ih =>
        refine ⟨?_, ?_⟩
        · intro l hl hq
          rcases (hf _ _).1 he with ⟨l2, h2, e1, e2⟩ | ⟨l2, l', h2, hn, e1, e2⟩
          · obtain rfl := point_inj hl h2 (by omega)
            exact ih.2 l hl e2
          · obtain ⟨k, hk⟩ := point_even p.body l
            obtain ⟨k2, hk2⟩ := point_even p.body l2
            omega
        · intro l hl hq
          rcases (hf _ _).1 he with ⟨l2, h2, e1, e2⟩ | ⟨l2, l', h2, hn, e1, e2⟩
          · obtain ⟨k, hk⟩ := point_even p.body l
            obtain ⟨k2, hk2⟩ := point_even p.body l2
            omega
          · obtain rfl := point_inj hl h2 (by omega)
            obtain ⟨m, hw⟩ := ih.1 l' (next_inside p hl hn) e2
            refine ⟨m + 1, .later hl ?_ hn hw⟩
            rw [← Bool.not_eq_true, ← (hm l hl).2, ← hq]
            exact hd
    exact (key _ h).1 l hl rfl
  · rintro ⟨m, hw⟩
    have first : ∀ l, Inside p.body l → WillUse i used defined v (point p.body l + 1) →
        WillUse i used defined v (point p.body l) := by
      intro l hl h
      refine .later ((hf _ _).2 (.inl ⟨l, hl, rfl, rfl⟩)) ?_ h
      intro hd
      obtain ⟨k, hk⟩ := ha.define _ _ hd
      obtain ⟨k', hk'⟩ := point_even p.body l
      omega
    induction hw with
    | use hi hu => exact first _ hi (.use ((hm _ hi).1.2 hu))
    | @later m l l' hi hs hn _ ih =>
      refine first _ hi (.later ((hf _ _).2 (.inr ⟨l, l', hi, hn, rfl, rfl⟩)) ?_ (ih (next_inside p hi hn)))
      rw [(hm l hi).2, hs]
      exact Bool.false_ne_true

/-- All steps of a function, with whether the value is of use where they begin and where they end. -/
def toldAll (uses sets : Loc → Bool) (p : Walk.Prog) (sp : Nat) : List Walk.Told :=
  let l := p.finAt 0 0
  let a := before uses sets ⟨l.block, l.idx + 1⟩ false
  p.told uses sets 0 0 false ++ [((l, ⟨l.block, l.idx + 1⟩, sp), before uses sets l a, a)]

theorem toldAll_steps (p : Walk.Prog) (sp : Nat) : (toldAll uses sets p sp).map (·.1) =
    p.expected 0 0 ++ [(p.finAt 0 0, ⟨(p.finAt 0 0).block, (p.finAt 0 0).idx + 1⟩, sp)] := by
  rw [toldAll, List.map_append, Walk.Prog.told_expected]
  rfl

theorem leaves_ret (b : Body) : Leaves b uses sets .ret false :=
  ⟨(by rintro ⟨u, hu, _⟩; cases hu), (by intro h; cases h)⟩

theorem toldAll_honest (p : Walk.Prog) (sp : Nat) : ∀ e ∈ toldAll uses sets p sp, Honest p.body uses sets e := by
  intro e he
  rcases List.mem_append.1 he with he | he
  · exact told_honest p 0 0 .ret false (Walk.body_slice p) (leaves_ret _) e he
  · rw [List.mem_singleton.1 he]
    have hd := Walk.fin_block p 0 0 .ret (Walk.body_slice p)
    have ht := term_exact (uses := uses) (sets := sets) hd (leaves_ret p.body)
    exact ⟨stmt_exact hd (Nat.lt_succ_self _) ht, ht⟩

/-- Where a use is wanted is inside the body; so is the start. -/
theorem start_inside (p : Walk.Prog) : Inside p.body startLoc := by
  obtain ⟨d, h1, _⟩ := first_block p 0 0 .ret (Walk.body_slice p)
  exact ⟨d, h1, Nat.zero_le _⟩

mutual
/-- Steps begin and end inside the body. -/
theorem expected_inside {b : Body} : ∀ (p : Walk.Prog) (k n : Nat) (last : Term),
    Prog.Slice b k (p.code k n last) → ∀ s ∈ p.expected k n, Inside b s.1 ∧ Inside b s.2.1
  | .fin, _, _, _, _, s, hs => by simp [Walk.Prog.expected] at hs
  | .act sp r, k, n, last, h, s, hs => by
    obtain ⟨d, h1, h2⟩ := first_block r k (n + 1) last h
    rcases List.mem_cons.1 hs with rfl | hs
    · exact ⟨⟨d, h1, by dsimp only; omega⟩, ⟨d, h1, h2⟩⟩
    · exact expected_inside r k (n + 1) last h s hs
  | .bind sp vs r, k, n, last, h, s, hs => by
    obtain ⟨d, h1, h2⟩ := first_block r k (n + 1) last h
    rcases List.mem_cons.1 hs with rfl | hs
    · exact ⟨⟨d, h1, by dsimp only; omega⟩, ⟨d, h1, h2⟩⟩
    · exact expected_inside r k (n + 1) last h s hs
  | .call sp r, k, n, last, h, s, hs => by
    obtain ⟨h0, h'⟩ := Prog.Slice.tail h
    obtain ⟨d, h1, h2⟩ := first_block r (k + 1) 0 last h'
    rcases List.mem_cons.1 hs with rfl | hs
    · exact ⟨⟨_, h0, Nat.le_refl _⟩, ⟨d, h1, h2⟩⟩
    · exact expected_inside r (k + 1) 0 last h' s hs
  | .ite sp lt le hi t e r, k, n, last, h, s, hs => by
    obtain ⟨h1, h2, h3, h4⟩ := Walk.slice_ite h
    obtain ⟨de, e1, e2⟩ := first_block e _ _ _ h2
    obtain ⟨dt, t1, t2⟩ := first_block t _ _ _ h3
    have hn : Inside b ⟨k, n + 1⟩ := ⟨_, h1, Nat.le_refl _⟩
    simp only [Walk.Prog.expected, List.mem_cons, List.mem_append] at hs
    rcases hs with rfl | rfl | rfl | hs | hs | hs
    · exact ⟨⟨_, h1, Nat.le_succ _⟩, hn⟩
    · exact ⟨hn, ⟨_, e1, e2⟩⟩
    · exact ⟨hn, ⟨_, t1, t2⟩⟩
    · exact expected_inside t _ _ _ h3 s hs
    · exact expected_inside e _ _ _ h2 s hs
    · exact expected_inside r _ _ _ h4 s hs
  | .only sp lt hi t r, k, n, last, h, s, hs => by
    obtain ⟨h1, h2, h3, h4⟩ := Walk.slice_only h
    obtain ⟨dt, t1, t2⟩ := first_block t _ _ _ h3
    have hn : Inside b ⟨k, n + 1⟩ := ⟨_, h1, Nat.le_refl _⟩
    simp only [Walk.Prog.expected, List.mem_cons, List.mem_append] at hs
    rcases hs with rfl | rfl | rfl | hs | hs
    · exact ⟨⟨_, h1, Nat.le_succ _⟩, hn⟩
    · exact ⟨hn, ⟨_, h2, Nat.zero_le _⟩⟩
    · exact ⟨hn, ⟨_, t1, t2⟩⟩
    · exact expected_inside t _ _ _ h3 s hs
    · exact expected_inside r _ _ _ h4 s hs
  | .mtch sp ds i f as r, k, n, last, h, s, hs => by
    obtain ⟨h1, h2, h3, h4, h5⟩ := Walk.slice_mtch h
    obtain ⟨df, f1, f2⟩ := first_block f _ _ _ h3
    have hn : Inside b ⟨k, n + 1⟩ := ⟨_, h1, by dsimp only; omega⟩
    have hf : Inside b ⟨k + 1 + 1, i.nb⟩ := ⟨_, f1, f2⟩
    simp only [Walk.Prog.expected, List.mem_cons, List.mem_append, List.map_cons] at hs
    rcases hs with rfl | (rfl | hs) | (rfl | hs) | hs | hs
    · exact ⟨⟨_, h1, by dsimp only; omega⟩, hn⟩
    · exact ⟨hn, hf⟩
    · obtain ⟨y, hy, rfl⟩ := List.mem_map.1 hs
      exact ⟨hn, entries_inside as _ _ h4 y hy⟩
    · exact ⟨hf, hf⟩
    · exact expected_inside f _ _ _ h3 s hs
    · exact arms_inside as _ _ h4 s hs
    · exact expected_inside r _ _ _ h5 s hs
  | .whl sp sc lt hi sb c t r, k, n, last, h, s, hs => by
    obtain ⟨h1, h2, h3, h4, h5, h6⟩ := Walk.slice_whl h
    obtain ⟨dt, t1, t2⟩ := first_block t _ _ _ h5
    obtain ⟨dr, r1, r2⟩ := first_block r _ _ _ h6
    have hc : Inside b ⟨k + 2 + c, 1⟩ := ⟨_, h4, Nat.le_refl _⟩
    have ho : Inside b ⟨k + 3 + c + t.size, 0⟩ := ⟨_, r1, Nat.zero_le _⟩
    simp only [Walk.Prog.expected, List.mem_cons, List.mem_append] at hs
    rcases hs with rfl | rfl | rfl | hs | rfl | rfl | hs
    · exact ⟨⟨_, h1, Nat.le_refl _⟩, hc⟩
    · exact ⟨hc, ho⟩
    · exact ⟨hc, ⟨_, t1, t2⟩⟩
    · exact expected_inside t _ _ _ h5 s hs
    · exact ⟨ho, ho⟩
    · exact ⟨ho, ⟨_, r1, r2⟩⟩
    · exact expected_inside r _ _ _ h6 s hs
  | .frl sp sa sc hi sn lb li nb t r, k, n, last, h, s, hs => by
    obtain ⟨h1, h2, h3, h4, h5, h6, h7, h8⟩ := Walk.slice_frl h
    obtain ⟨dt, t1, t2⟩ := first_block t _ _ _ h7
    obtain ⟨dr, r1, r2⟩ := first_block r _ _ _ h8
    have hq : Inside b ⟨k + 3, 0⟩ := ⟨_, h4, Nat.zero_le _⟩
    have hc : Inside b ⟨k + 4, 0⟩ := ⟨_, h5, Nat.zero_le _⟩
    have ht : Inside b ⟨k + 6, nb⟩ := ⟨_, t1, t2⟩
    have ho : Inside b ⟨k + 6 + t.size, 0⟩ := ⟨_, r1, Nat.zero_le _⟩
    simp only [Walk.Prog.expected, List.mem_cons, List.mem_append] at hs
    rcases hs with rfl | rfl | rfl | rfl | rfl | rfl | hs | rfl | hs
    · exact ⟨⟨_, h1, Nat.le_refl _⟩, hq⟩
    · exact ⟨hq, hc⟩
    · exact ⟨hc, ho⟩
    · exact ⟨hc, ht⟩
    · exact ⟨ho, ho⟩
    · exact ⟨ht, ht⟩
    · exact expected_inside t _ _ _ h7 s hs
    · exact ⟨ho, ⟨_, r1, r2⟩⟩
    · exact expected_inside r _ _ _ h8 s hs
theorem entries_inside {b : Body} : ∀ (as : Walk.Arms) (k j : Nat), Prog.Slice b k (as.code k j) →
    ∀ y ∈ as.entries k, Inside b y.1
  | .last i f, k, j, h, y, hy => by
    obtain ⟨d, h1, h2⟩ := first_block f _ _ _ (Walk.slice_last h)
    rw [Walk.Arms.entries, List.mem_singleton] at hy
    rw [hy]
    exact ⟨d, h1, h2⟩
  | .cons i f as, k, j, h, y, hy => by
    obtain ⟨_, h2, h3⟩ := Walk.slice_cons h
    obtain ⟨d, e1, e2⟩ := first_block f _ _ _ h2
    rw [Walk.Arms.entries] at hy
    rcases List.mem_cons.1 hy with rfl | hy
    · exact ⟨d, e1, e2⟩
    · exact entries_inside as _ _ h3 y hy
theorem arms_inside {b : Body} : ∀ (as : Walk.Arms) (k j : Nat), Prog.Slice b k (as.code k j) →
    ∀ s ∈ (as.expected k).flatten, Inside b s.1 ∧ Inside b s.2.1
  | .last i f, k, j, h, s, hs => by
    have h := Walk.slice_last h
    obtain ⟨d, h1, h2⟩ := first_block f _ _ _ h
    simp only [Walk.Arms.expected, List.flatten_cons, List.flatten_nil, List.append_nil, List.mem_cons] at hs
    rcases hs with rfl | hs
    · exact ⟨⟨d, h1, h2⟩, ⟨d, h1, h2⟩⟩
    · exact expected_inside f _ _ _ h s hs
  | .cons i f as, k, j, h, s, hs => by
    obtain ⟨_, h2, h3⟩ := Walk.slice_cons h
    obtain ⟨d, e1, e2⟩ := first_block f _ _ _ h2
    simp only [Walk.Arms.expected, List.flatten_cons, List.cons_append, List.mem_cons, List.mem_append] at hs
    rcases hs with rfl | hs | hs
    · exact ⟨⟨d, e1, e2⟩, ⟨d, e1, e2⟩⟩
    · exact expected_inside f _ _ _ h2 s hs
    · exact arms_inside as _ _ h3 s hs
end

/-- The permissions of a variable whose value is of use or not. -/
def given (i : Facts.Input) (path : Nat) (a : Bool) : Perms := ⟨a, a && i.writeEnabled path, a && i.dropEnabled path⟩

theorem Tracked.given {b : Body} (h : Tracked c b i used defined x path) {l : Loc} {a : Bool}
    (hs : Facts.Spec.InPlace i path (point b l)) (ha : Alive b i used defined path l ↔ a = true) :
    (c.data l x).permissions = given i path a := by
  obtain ⟨h1, h2, h3⟩ := h.perms hs
  rw [ha] at h1 h2 h3
  generalize (c.data l x).permissions = q at *
  obtain ⟨r, w, d⟩ := q
  simp only at h1 h2 h3
  unfold Pipeline.given
  congr 1
  · rw [Bool.eq_iff_iff, h1]
  · rw [Bool.eq_iff_iff, h2, Bool.and_eq_true]
  · rw [Bool.eq_iff_iff, h3, Bool.and_eq_true]

/-- **C109 (every step).** For a variable that is never borrowed in an accepted program of statements, `let`s, calls,
`if`s, `match`es and loops, nested in any way: its permissions where a step begins and where it ends are those that
follow from whether its value is of use there, as read off the source; and so are those at the start. -/
theorem C109_steps (p : Walk.Prog) (sp : Nat) {fuel : Nat} (hfu : fuel ≠ 0)
    {ord : List (Loc × Nat) → List (Loc × Nat)} (hord : ∀ l, (ord l).Perm l) {f : Frozen}
    {locals : List (Nat × List Nat)} (h : compute (.ofBody p.body fuel ord) (p.source sp) = .steps f locals)
    (ht : Tracked c p.body i used defined x path) (hrest : Rests p i path) (hf : Flow p.body i)
    (hm : Mentions p.body used defined (i.varOf path) uses sets) :
    f.segs.map (fun s => (s.from, s.to, s.span)) = (toldAll uses sets p sp).map (·.1) ∧
    (∀ e ∈ toldAll uses sets p sp, (c.data e.1.1 x).permissions = given i path e.2.1 ∧
      (c.data e.1.2.1 x).permissions = given i path e.2.2) ∧
    (c.data startLoc x).permissions = given i path (p.live uses sets 0 0 false) := by
  obtain ⟨f', locals', h1, h2, _⟩ := Walk.C102_programs p sp hfu hord
  rw [h] at h1
  cases h1
  refine ⟨by rw [toldAll_steps]; exact h2, ?_, ?_⟩
  · intro e he
    obtain ⟨e1, e2⟩ := toldAll_honest p sp e he
    have hin : Inside p.body e.1.1 ∧ Inside p.body e.1.2.1 := by
      have hm' : e.1 ∈ (toldAll uses sets p sp).map (·.1) := List.mem_map.2 ⟨e, he, rfl⟩
      rw [toldAll_steps] at hm'
      rcases List.mem_append.1 hm' with hm' | hm'
      · exact expected_inside p 0 0 .ret (Walk.body_slice p) _ hm'
      · rw [List.mem_singleton.1 hm']
        have hd := Walk.fin_block p 0 0 .ret (Walk.body_slice p)
        exact ⟨⟨_, hd, Nat.le_succ _⟩, ⟨_, hd, Nat.le_refl _⟩⟩
    have hstop : Stop p e.1.1 ∧ Stop p e.1.2.1 := by
      have hm' : e.1 ∈ (toldAll uses sets p sp).map (·.1) := List.mem_map.2 ⟨e, he, rfl⟩
      rw [toldAll_steps, ← h2] at hm'
      obtain ⟨s, hs, e1⟩ := List.mem_map.1 hm'
      rw [← e1]
      exact stop_seg h2 hs
    exact ⟨ht.given (hrest _ hstop.1) ((alive_wanted p ht.analysed hf hm hin.1).trans e1.iff),
      ht.given (hrest _ hstop.2) ((alive_wanted p ht.analysed hf hm hin.2).trans e2.iff)⟩
  · exact ht.given (hrest _ (.inl rfl)) ((alive_wanted p ht.analysed hf hm (start_inside p)).trans
      (live_exact p 0 0 .ret false (Walk.body_slice p) (leaves_ret _)).iff)

/-- **C109 (the page).** For every such program and a visible variable that is never borrowed and whose changes are on
different lines: every step where, by the source, the value of the variable starts or stops being of use has its row,
the opening brace has one if the value the function starts with is of use, and there are no other rows. -/
theorem C109_page (p : Walk.Prog) (sp : Nat) {fuel : Nat} (hfu : fuel ≠ 0)
    {ord : List (Loc × Nat) → List (Loc × Nat)} (hord : ∀ l, (ord l).Perm l) (hst : c.start = startLoc)
    {order : Tables → Tables} (ho : ∀ m, (order m).Perm m) {src : List Char} {visible : Place → Bool} {f : Frozen}
    {locals : List (Nat × List Nat)} {ds : List Display}
    (h : compute (.ofBody p.body fuel ord) (p.source sp) = .steps f locals)
    (hd : finalizeBody c f locals order src none visible .changes = some ds) (hx : x ∈ c.places)
    (hv : visible x = true) (ht : Tracked c p.body i used defined x path) (hrest : Rests p i path) (hf : Flow p.body i)
    (hm : Mentions p.body used defined (i.varOf path) uses sets)
    (hu : ∀ (k : Nat) (s : Seg), f.segs[k]? = some s → Changes c x s → Alone c src f x k (lineOf src (c.endOf s.span))) :
    (∀ e ∈ toldAll uses sets p sp, e.2.1 ≠ e.2.2 → ∃ d, Shown src ds (lineOf src (c.endOf e.1.2.2)) x d ∧
      Says d (given i path e.2.1) (given i path e.2.2)) ∧
    (p.live uses sets 0 0 false = true → ∃ d, Shown src ds (lineOf src c.brace) x d ∧
      Says d ⟨false, false, false⟩ (given i path true)) ∧
    ∀ line d, Shown src ds line x d →
      (∃ e ∈ toldAll uses sets p sp, lineOf src (c.endOf e.1.2.2) = line ∧ e.2.1 ≠ e.2.2 ∧
        Says d (given i path e.2.1) (given i path e.2.2)) ∨
      (lineOf src c.brace = line ∧ p.live uses sets 0 0 false = true ∧ Says d ⟨false, false, false⟩ (given i path true)) := by
  obtain ⟨hs, hp, h0⟩ := C109_steps p sp hfu hord h ht hrest hf hm
  have hline : ∀ hi, OnLine src none hi (lineOf src hi) := fun hi => ⟨rfl, by simp⟩
  have hbot : bottomData.permissions = ⟨false, false, false⟩ := by decide
  have hread : ∀ a a' : Bool, given i path a = given i path a' → a = a' := fun a a' he => congrArg Perms.read he
  refine ⟨?_, ?_, ?_⟩
  · intro e he hne
    obtain ⟨f', locals', ds', e1, e2, e3, hshow⟩ := C103_page p sp hfu hord c ho src none visible
    rw [h] at e1
    cases e1
    rw [hd, Option.some.injEq] at e2
    subst e2
    obtain ⟨p1, p2⟩ := hp e he
    have hmem : e.1 ∈ f.segs.map (fun s => (s.from, s.to, s.span)) := by
      rw [hs]
      exact List.mem_map.2 ⟨e, he, rfl⟩
    obtain ⟨s, hsm, hse⟩ := List.mem_map.1 hmem
    rw [← hse] at p1 p2 ⊢
    obtain ⟨k, hk⟩ := List.mem_iff_getElem?.1 hsm
    have hch : Changes c x s := by
      intro heq
      exact hne (hread _ _ (p1.symm.trans (heq.trans p2)))
    rw [← p1, ← p2]
    exact hshow x hx hv k s _ hk hch (hline _) (hu k s hk hch)
  · intro hl
    rw [hl] at h0
    have hb : (c.data c.start x).permissions ≠ ⟨false, false, false⟩ := by
      rw [hst, h0]
      intro he
      cases congrArg Perms.read he
    have := C103_entry p sp hfu hord hst ho h hd hx hv hb (hline _) (by
      intro g hg hl hne
      obtain ⟨k, hk⟩ := List.mem_iff_getElem?.1 hg
      exact hb (((hu k g hk hne).2 hl.symm).symm.trans hbot))
    rw [hst, h0] at this
    exact this
  · intro line d hsh
    obtain ⟨_, hatt⟩ := C97_not_hidden (c := c) h hx (fun e he _ => Walk.Prog.letless_source _ _ p sp e he)
    obtain ⟨t, a, b', hi, _, hc, hol, _, hsay, hne⟩ := C97_true ho hd hsh
    have hne := hne rfl
    cases hc with
    | entry _ =>
      right
      rw [hst, hbot, h0] at hne hsay
      cases hl : p.live uses sets 0 0 false with
      | true =>
        rw [hl] at hsay
        exact ⟨hol.1, rfl, hsay⟩
      | false =>
        rw [hl] at hne
        exact absurd rfl hne
    | @seg _ sid s _ hs' _ =>
      left
      have hmem : (s.from, s.to, s.span) ∈ f.segs.map (fun s => (s.from, s.to, s.span)) :=
        List.mem_map.2 ⟨s, List.mem_of_getElem? hs', rfl⟩
      rw [hs] at hmem
      obtain ⟨e, he, hes⟩ := List.mem_map.1 hmem
      obtain ⟨p1, p2⟩ := hp e he
      rw [hes] at p1 p2
      dsimp only at p1 p2
      rw [p1, p2] at hne hsay
      refine ⟨e, he, ?_, fun heq => hne (by rw [heq]), hsay⟩
      rw [hes]
      exact hol.1
    | attached a1 a2 a3 a4 a5 => exact (hatt _ _ _ _ (.attached a1 a2 a3 a4 a5)).elim

end

end Verif.Pipeline
