import Verif.Segments.Check
import Verif.HirSteps.Results
/-!
# C132: what the check of the repository's tests accepts
-/
namespace Verif.Segments

open Verif.Graph Verif.Cfg

/-! ## Specification -/

/-- `l` is a location of the block. -/
def Within (b : Body) (l : Loc) : Prop := l.idx ≤ b.mapper.stmts l.block

/-- A location of the function: not on a clean-up way, and not a point that cannot be reached. -/
def Location (b : Body) (l : Loc) : Prop :=
  Reach b.rawSucc 0 l.block ∧ b.keep l.block = true ∧ Within b l

/-- What the check takes for the locations of a step: whatever can be met behind its start without entering the block
of its end, and the part of that block up to the end. -/
def Passed (b : Body) (g : Seg) (l : Loc) : Prop :=
  (l.block = g.from.block → g.from.idx ≤ l.idx) ∧
  ((l.block = g.to.block ∧ l.idx ≤ g.to.idx) ∨
    (Within b l ∧ g.from.block ≠ g.to.block ∧ ∃ w, Path b.succ g.from.block l.block w ∧ g.to.block ∉ w))

/-- The location lies on a way from the start to the end of the step. -/
def OnStep (b : Body) (g : Seg) (l : Loc) : Prop := Passed b g l ∧ Reach b.succ l.block g.to.block

/-! ## Proofs -/

theorem mem_explodeBlock (b : Body) (bb : Nat) (s e : Option Nat) (l : Loc) : l ∈ explodeBlock b bb s e ↔
    l.block = bb ∧ s.getD 0 ≤ l.idx ∧ l.idx ≤ e.getD (b.mapper.stmts bb) := by
  unfold explodeBlock
  simp only [List.mem_map, List.mem_range'_1]
  constructor
  · rintro ⟨i, hi, rfl⟩
    exact ⟨rfl, by dsimp only; omega, by dsimp only; omega⟩
  · rintro ⟨rfl, h1, h2⟩
    exact ⟨l.idx, by omega, rfl⟩

theorem mem_explode {b : Body} (hv : Valid b) {g : Seg} (h : Before b g.from g.to) (l : Loc) :
    l ∈ g.explode b ↔ Passed b g l := by
  have hmem : ∀ bb, bb ∈ blocksFromTo b g.from.block g.to.block ↔
      g.from.block ≠ g.to.block ∧ ∃ w, Path b.succ g.from.block bb w ∧ g.to.block ∉ w := by
    intro bb
    unfold blocksFromTo
    split
    · rename_i he; simp [he]
    · rename_i hne
      have hlt : g.from.block < b.length := by
        rcases h with ⟨he, _⟩ | ⟨_, hd⟩
        · exact absurd he hne
        · exact (dom_lt hv hd).2
      rw [mem_dfs (avoid_lt (succ_lt hv) _) hlt]
      constructor
      · intro hr
        obtain ⟨w, hw⟩ := hr.path
        obtain ⟨h1, h2⟩ := path_avoid hw hne
        exact ⟨hne, w, h1, h2⟩
      · rintro ⟨_, w, h1, h2⟩
        exact (avoid_path h1 h2).reach
  unfold Seg.explode Passed
  simp only [List.mem_flatMap, List.mem_append, List.mem_singleton, mem_explodeBlock]
  constructor
  · rintro ⟨bb, hbb, rfl, h1, h2⟩
    refine ⟨fun he => by simpa [he] using h1, ?_⟩
    by_cases hto : l.block = g.to.block
    · refine .inl ⟨hto, ?_⟩
      simpa [hto] using h2
    · rcases hbb with hbb | hbb
      · obtain ⟨h3, h4⟩ := (hmem _).1 hbb
        refine .inr ⟨?_, h3, h4⟩
        unfold Within
        simpa [hto] using h2
      · exact absurd hbb hto
  · rintro ⟨h1, h2⟩
    have hs : (if l.block = g.from.block then some g.from.idx else none).getD 0 ≤ l.idx := by
      split
      · rename_i he; exact h1 he
      · simp
    rcases h2 with ⟨h2, h3⟩ | ⟨h2, h3, w, h4, h5⟩
    · refine ⟨l.block, .inr h2, rfl, hs, ?_⟩
      simpa [h2] using h3
    · refine ⟨l.block, .inl ((hmem _).2 ⟨h3, w, h4, h5⟩), rfl, hs, ?_⟩
      have : l.block ≠ g.to.block := fun he => h5 (he ▸ h4.last_mem)
      unfold Within at h2
      simpa [this] using h2

theorem mem_allLocations {b : Body} (hv : Valid b) (l : Loc) :
    l ∈ allLocations b ↔ Location b l := by
  have hraw : ∀ a, a < b.length → ∀ t ∈ b.rawSucc a, t < b.length := by
    intro a ha t ht
    refine hv.targets a t ⟨b[a], List.getElem?_eq_getElem ha, ?_⟩
    simpa [Body.rawSucc, Body.term, List.getElem?_eq_getElem ha] using ht
  unfold allLocations Location Within
  simp only [List.mem_flatMap, List.mem_filter, mem_explodeBlock, Option.getD_none, Nat.zero_le, true_and]
  constructor
  · rintro ⟨bb, ⟨h1, h2⟩, rfl, h3⟩
    exact ⟨(mem_dfs hraw hv.nonempty).1 h1, h2, h3⟩
  · rintro ⟨h1, h2, h3⟩
    exact ⟨_, ⟨(mem_dfs hraw hv.nonempty).2 h1, h2⟩, rfl, h3⟩

/-- A part of the check that succeeds exactly if `P` holds and then adds exactly the locations in `C`. -/
structure Checks (g : List Loc → Except Bad (List Loc)) (P : Prop) (C : Loc → Prop) : Prop where
  ok : ∀ seen, (∃ seen', g seen = .ok seen') ↔ P
  adds : ∀ seen seen', g seen = .ok seen' → ∀ l, l ∈ seen' ↔ l ∈ seen ∨ C l

theorem Checks.congr {g : List Loc → Except Bad (List Loc)} {P Q : Prop} {C D : Loc → Prop} (h : Checks g P C)
    (hp : P ↔ Q) (hc : ∀ l, C l ↔ D l) : Checks g Q D :=
  ⟨fun s => (h.ok s).trans hp, fun s s' hs l => by rw [h.adds s s' hs l, hc l]⟩

theorem Checks.fold {α : Type} {g : List Loc → α → Except Bad (List Loc)} {P : α → Prop} {C : α → Loc → Prop}
    (xs : List α) (h : ∀ x ∈ xs, Checks (fun s => g s x) (P x) (C x)) :
    Checks (fun s => xs.foldlM g s) (∀ x ∈ xs, P x) (fun l => ∃ x ∈ xs, C x l) := by
  induction xs with
  | nil =>
    refine ⟨fun s => ⟨fun _ => by simp, fun _ => ⟨s, rfl⟩⟩, fun s s' hs l => ?_⟩
    simp only [List.foldlM_nil, pure, Except.pure, Except.ok.injEq] at hs
    subst hs
    simp
  | cons x r ih =>
    have hx := h x (by simp)
    have ih := ih (fun y hy => h y (by simp [hy]))
    constructor
    · intro s
      simp only [List.foldlM_cons, List.forall_mem_cons]
      constructor
      · rintro ⟨s', hs'⟩
        cases hg : g s x with
        | error e => rw [hg] at hs'; exact absurd hs' (by simp [bind, Except.bind])
        | ok s1 =>
          rw [hg] at hs'
          exact ⟨(hx.ok s).1 ⟨s1, hg⟩, (ih.ok s1).1 ⟨s', hs'⟩⟩
      · rintro ⟨h1, h2⟩
        obtain ⟨s1, hs1⟩ := (hx.ok s).2 h1
        obtain ⟨s2, hs2⟩ := (ih.ok s1).2 h2
        exact ⟨s2, by rw [hs1]; exact hs2⟩
    · intro s s' hs l
      rw [List.foldlM_cons] at hs
      cases hg : g s x with
      | error e => rw [hg] at hs; exact absurd hs (by simp [bind, Except.bind])
      | ok s1 =>
        rw [hg] at hs
        rw [ih.adds s1 s' hs l, hx.adds s s1 hg l]
        simp only [List.mem_cons, exists_eq_or_imp, or_assoc]

/-- A step belongs to the tree of a collection, as a split or on a stretch. -/
inductive Part (f : Frozen) : Nat → Bool → Nat → Prop
  | linear {cid : Nat} {c : Coll} {sid : Nat} : f.colls[cid]? = some c → CF.linear sid ∈ c.data → Part f cid false sid
  | split {cid : Nat} {c : Coll} {bid : Nat} {br : Branch} {sid : Nat} : f.colls[cid]? = some c →
      CF.branch bid ∈ c.data → f.branches[bid]? = some br → sid ∈ br.splits → Part f cid true sid
  | nested {cid : Nat} {c : Coll} {bid : Nat} {br : Branch} {cid' : Nat} {k : Bool} {sid : Nat} :
      f.colls[cid]? = some c → CF.branch bid ∈ c.data → f.branches[bid]? = some br → cid' ∈ br.nested →
      Part f cid' k sid → Part f cid k sid

/-- What is required of a step. -/
def Good (b : Body) (f : Frozen) (split : Bool) (sid : Nat) : Prop := ∀ g, f.segs[sid]? = some g →
  if split then Before b g.from g.to else Piece b g.from g.to

def Reaches (b : Body) (f : Frozen) (sid : Nat) (l : Loc) : Prop := ∃ g, f.segs[sid]? = some g ∧ Passed b g l

theorem piece_iff {b : Body} (hv : Valid b) {g : Seg} (h : Before b g.from g.to) :
    b.mapper.lpdom g.to g.from = true ↔ Certain b g.from g.to := by
  refine ⟨certain_of hv h, ?_⟩
  intro hc
  rcases h with ⟨h1, h2⟩ | ⟨h1, h2⟩
  · change lpostDominates b g.to g.from = true
    unfold lpostDominates
    rw [if_pos h1.symm]
    simpa using h2
  · obtain ⟨h3, h4⟩ := dom_lt hv h2
    rcases hc with hc | hc
    · exact absurd hc.1 h1
    · exact (C68_after hv _ _ h3 h4).2 (.inr ⟨fun e => h1 e.symm, hc.2⟩)

theorem checks_split {b : Body} (hv : Valid b) {f : Frozen} {sid : Nat} (h : sid < f.segs.length) :
    Checks (fun s => checkSplit b f s sid) (Good b f true sid) (Reaches b f sid) := by
  have hg : f.segs[sid]? = some f.segs[sid] := List.getElem?_eq_getElem h
  generalize f.segs[sid] = g at hg
  have hP : Good b f true sid ↔ Before b g.from g.to := by
    unfold Good
    rw [hg]
    simp
  constructor
  · intro s
    rw [hP, ← before_ldom hv]
    unfold checkSplit
    rw [hg]
    dsimp only
    cases b.mapper.ldom g.from g.to <;> simp
  · intro s s' hs l
    unfold checkSplit at hs
    rw [hg] at hs
    dsimp only at hs
    cases hd : b.mapper.ldom g.from g.to with
    | false => rw [hd] at hs; simp at hs
    | true =>
      rw [hd] at hs
      simp only [Bool.not_true, Bool.false_eq_true, if_false, Except.ok.injEq] at hs
      subst hs
      rw [List.mem_append, mem_explode hv ((before_ldom hv).1 hd)]
      unfold Reaches
      rw [hg]
      simp

theorem checks_linear {b : Body} (hv : Valid b) {f : Frozen} {sid : Nat} (h : sid < f.segs.length) :
    Checks (fun s => checkLinear b f s sid) (Good b f false sid) (Reaches b f sid) := by
  have hg : f.segs[sid]? = some f.segs[sid] := List.getElem?_eq_getElem h
  generalize f.segs[sid] = g at hg
  have hP : Good b f false sid ↔ Piece b g.from g.to := by
    unfold Good
    rw [hg]
    simp
  constructor
  · intro s
    rw [hP]
    unfold checkLinear Piece
    rw [hg]
    dsimp only
    rw [← before_ldom hv]
    cases hd : b.mapper.ldom g.from g.to with
    | false => simp
    | true =>
      rw [← piece_iff hv ((before_ldom hv).1 hd)]
      cases b.mapper.lpdom g.to g.from <;> simp
  · intro s s' hs l
    unfold checkLinear at hs
    rw [hg] at hs
    dsimp only at hs
    cases hd : b.mapper.ldom g.from g.to with
    | false => rw [hd] at hs; simp at hs
    | true =>
      rw [hd] at hs
      cases hp : b.mapper.lpdom g.to g.from with
      | false => rw [hp] at hs; simp at hs
      | true =>
        rw [hp] at hs
        simp only [Bool.not_true, Bool.false_eq_true, if_false, Except.ok.injEq] at hs
        subst hs
        rw [List.mem_append, mem_explode hv ((before_ldom hv).1 hd)]
        unfold Reaches
        rw [hg]
        simp

theorem Checks.bind {g g' : List Loc → Except Bad (List Loc)} {P P' : Prop} {C C' : Loc → Prop} (h : Checks g P C)
    (h' : Checks g' P' C') : Checks (fun s => match g s with | .error e => .error e | .ok s => g' s) (P ∧ P')
      (fun l => C l ∨ C' l) := by
  constructor
  · intro s
    rw [← h.ok s]
    cases hg : g s with
    | error e => simp
    | ok s1 => simp [h'.ok s1]
  · intro s s' hs l
    try dsimp only at hs
    cases hg : g s with
    | error e => rw [hg] at hs; simp at hs
    | ok s1 =>
      rw [hg] at hs
      rw [h'.adds s1 s' hs l, h.adds s s1 hg l, or_assoc]

theorem checks_collection {b : Body} (hv : Valid b) {f : Frozen} (hc : Complete f)
    (hn : ∀ (cid : Nat) (c : Coll), f.colls[cid]? = some c → ∀ bid, .branch bid ∈ c.data →
      ∃ b : Branch, f.branches[bid]? = some b ∧ ∀ x ∈ b.nested, cid < x)
    (fuel : Nat) {cid : Nat} (hcid : cid < f.colls.length) (hfuel : f.colls.length ≤ fuel + cid) :
    Checks (fun s => checkCollection b f fuel s cid) (∀ k sid, Part f cid k sid → Good b f k sid)
      (fun l => ∃ k sid, Part f cid k sid ∧ Reaches b f sid l) := by
  induction fuel generalizing cid with
  | zero => omega
  | succ fuel ih =>
    have hcg : f.colls[cid]? = some f.colls[cid] := List.getElem?_eq_getElem hcid
    have hcm := hc.2.1 _ (List.getElem_mem hcid)
    generalize f.colls[cid] = c at hcg hcm
    have hbr : ∀ bid, CF.branch bid ∈ c.data → ∃ br, f.branches[bid]? = some br ∧
        Checks (fun s => match br.splits.foldlM (checkSplit b f) s with
          | .error e => .error e
          | .ok s => br.nested.foldlM (checkCollection b f fuel) s)
          ((∀ sid ∈ br.splits, Good b f true sid) ∧ ∀ x ∈ br.nested, ∀ k sid, Part f x k sid → Good b f k sid)
          (fun l => (∃ sid ∈ br.splits, Reaches b f sid l) ∨
            ∃ x ∈ br.nested, ∃ k sid, Part f x k sid ∧ Reaches b f sid l) := by
      intro bid hb
      obtain ⟨br, h1, h2⟩ := hn cid c hcg bid hb
      obtain ⟨h3, h4⟩ := hc.2.2 br (List.mem_of_getElem? h1)
      refine ⟨br, h1, Checks.bind ?_ ?_⟩
      · exact Checks.fold _ (fun sid hs => checks_split hv (h3 sid hs))
      · exact Checks.fold _ (fun x hx => ih (h4 x hx) (by have := h2 x hx; omega))
    have hfold : Checks (fun s => checkCollection b f (fuel + 1) s cid)
        (∀ part ∈ c.data, match part with
          | .linear sid => Good b f false sid
          | .branch bid => ∀ br, f.branches[bid]? = some br → (∀ sid ∈ br.splits, Good b f true sid) ∧
              ∀ x ∈ br.nested, ∀ k sid, Part f x k sid → Good b f k sid)
        (fun l => ∃ part ∈ c.data, match part with
          | .linear sid => Reaches b f sid l
          | .branch bid => ∃ br, f.branches[bid]? = some br ∧ ((∃ sid ∈ br.splits, Reaches b f sid l) ∨
            ∃ x ∈ br.nested, ∃ k sid, Part f x k sid ∧ Reaches b f sid l)) := by
      simp only [checkCollection, hcg]
      refine Checks.fold _ (fun part hp => ?_)
      cases part with
      | linear sid => exact checks_linear hv (hcm _ hp)
      | branch bid =>
        obtain ⟨br, h1, h2⟩ := hbr bid hp
        dsimp only
        rw [h1]
        refine h2.congr ?_ (fun l => ?_)
        · simp
        · simp
    refine hfold.congr ?_ (fun l => ?_)
    · constructor
      · intro h k sid hp
        cases hp with
        | linear h1 h2 =>
          rw [hcg, Option.some.injEq] at h1; subst h1
          exact h _ h2
        | split h1 h2 h3 h4 =>
          rw [hcg, Option.some.injEq] at h1; subst h1
          exact (h _ h2 _ h3).1 _ h4
        | nested h1 h2 h3 h4 h5 =>
          rw [hcg, Option.some.injEq] at h1; subst h1
          exact (h _ h2 _ h3).2 _ h4 _ _ h5
      · intro h part hp
        cases part with
        | linear sid => exact h _ _ (.linear hcg hp)
        | branch bid =>
          intro br hb
          exact ⟨fun sid hs => h _ _ (.split hcg hp hb hs), fun x hx k sid hq => h _ _ (.nested hcg hp hb hx hq)⟩
    · constructor
      · rintro ⟨part, hp, h⟩
        cases part with
        | linear sid => exact ⟨_, _, .linear hcg hp, h⟩
        | branch bid =>
          obtain ⟨br, hb, ⟨sid, hs, hr⟩ | ⟨x, hx, k, sid, hq, hr⟩⟩ := h
          · exact ⟨_, _, .split hcg hp hb hs, hr⟩
          · exact ⟨_, _, .nested hcg hp hb hx hq, hr⟩
      · rintro ⟨k, sid, hp, hr⟩
        cases hp with
        | linear h1 h2 =>
          rw [hcg, Option.some.injEq] at h1; subst h1
          exact ⟨_, h2, hr⟩
        | split h1 h2 h3 h4 =>
          rw [hcg, Option.some.injEq] at h1; subst h1
          exact ⟨_, h2, _, h3, .inl ⟨_, h4, hr⟩⟩
        | nested h1 h2 h3 h4 h5 =>
          rw [hcg, Option.some.injEq] at h1; subst h1
          exact ⟨_, h2, _, h3, .inr ⟨_, h4, _, _, h5, hr⟩⟩

theorem part_up {m : Mapper} {s : St} (hi : Inv s) (h : Placed m s) (cid : Nat) (hc : cid < s.colls.length) {k : Bool}
    {sid : Nat} (ht : Part s.view cid k sid) : Part s.view 0 k sid := by
  induction cid using Nat.strongRecOn with
  | ind cid ih =>
    rcases Nat.eq_zero_or_pos cid with rfl | h0
    · exact ht
    · obtain ⟨b, hb, hm⟩ := hi.owned cid h0 hc
      obtain ⟨bid, hbid⟩ := List.mem_iff_getElem?.1 hb
      obtain ⟨cid', c, h1, h2⟩ := h.branch bid (List.getElem?_eq_some_iff.1 hbid).1
      obtain ⟨b', h3, h4⟩ := hi.data cid' c h1 _ h2
      rw [hbid, Option.some.injEq] at h3
      subst h3
      exact ih cid' (h4 cid hm) (List.getElem?_eq_some_iff.1 h1).1 (.nested h1 h2 hbid hm ht)

/-- **C132 (exact).** Whatever was inserted, the check accepts a delivered body exactly if every split step starts before
its end, every step on a stretch is a straight piece, and every location of the function is passed by some step. -/
theorem C132_exact {b : Body} (hv : Valid b) {tie : Bool}
    {s : St} {g : List (Nat × Nat)} (h : Run tie b.mapper s g) {f : Frozen} (hf : s.freeze = .ok f) :
    validate b f = .ok () ↔
      (∀ br ∈ f.branches, ∀ sid ∈ br.splits, ∀ sg : Seg, f.segs[sid]? = some sg → Before b sg.from sg.to) ∧
      (∀ c ∈ f.colls, ∀ sid, CF.linear sid ∈ c.data → ∀ sg : Seg, f.segs[sid]? = some sg → Piece b sg.from sg.to) ∧
      ∀ l, Location b l → ∃ sg ∈ f.segs, Passed b sg l := by
  have hm := mapper_proper b
  have hi := inv_run hm h
  have hp := placed_run hm h
  obtain ⟨hc, _, hn⟩ := C47_complete hm h hf
  obtain rfl := frozen_view hf
  have hk := checks_collection hv hc hn s.view.colls.length hc.1 (by omega)
  have hlin : ∀ sid, Part s.view 0 false sid ↔ ∃ c ∈ s.view.colls, CF.linear sid ∈ c.data := by
    intro sid
    constructor
    · intro hq
      generalize hkk : false = k at hq
      generalize h00 : (0 : Nat) = z at hq
      clear h00
      induction hq with
      | linear h1 h2 => exact ⟨_, List.mem_of_getElem? h1, h2⟩
      | split => exact absurd hkk (by simp)
      | nested _ _ _ _ _ ih => exact ih hkk
    · rintro ⟨c, h1, h2⟩
      obtain ⟨cid, h3⟩ := List.mem_iff_getElem?.1 h1
      exact part_up hi hp cid (List.getElem?_eq_some_iff.1 h3).1 (.linear h3 h2)
  have hspl : ∀ sid, Part s.view 0 true sid ↔ ∃ br ∈ s.view.branches, sid ∈ br.splits := by
    intro sid
    constructor
    · intro hq
      generalize hkk : true = k at hq
      generalize h00 : (0 : Nat) = z at hq
      clear h00
      induction hq with
      | linear => exact absurd hkk (by simp)
      | split h1 h2 h3 h4 => exact ⟨_, List.mem_of_getElem? h3, h4⟩
      | nested _ _ _ _ _ ih => exact ih hkk
    · rintro ⟨br, h1, h2⟩
      obtain ⟨bid, h3⟩ := List.mem_iff_getElem?.1 h1
      obtain ⟨cid, c, h5, h6⟩ := hp.branch bid (List.getElem?_eq_some_iff.1 h3).1
      exact part_up hi hp cid (List.getElem?_eq_some_iff.1 h5).1 (.split h5 h6 h3 h2)
  have hgood : (∀ k sid, Part s.view 0 k sid → Good b s.view k sid) ↔
      (∀ br ∈ s.view.branches, ∀ sid ∈ br.splits, ∀ sg : Seg, s.view.segs[sid]? = some sg → Before b sg.from sg.to) ∧
      (∀ c ∈ s.view.colls, ∀ sid, CF.linear sid ∈ c.data → ∀ sg : Seg, s.view.segs[sid]? = some sg →
        Piece b sg.from sg.to) := by
    constructor
    · intro hg
      refine ⟨fun br hbr sid hs sg hsg => ?_, fun c hc sid hs sg hsg => ?_⟩
      · simpa using hg true sid ((hspl sid).2 ⟨br, hbr, hs⟩) sg hsg
      · simpa using hg false sid ((hlin sid).2 ⟨c, hc, hs⟩) sg hsg
    · rintro ⟨h1, h2⟩ k sid hq sg hsg
      cases k with
      | true =>
        obtain ⟨br, h3, h4⟩ := (hspl sid).1 hq
        simpa using h1 br h3 sid h4 sg hsg
      | false =>
        obtain ⟨c, h3, h4⟩ := (hlin sid).1 hq
        simpa using h2 c h3 sid h4 sg hsg
  have hreach : ∀ l, (∃ k sid, Part s.view 0 k sid ∧ Reaches b s.view sid l) ↔ ∃ sg ∈ s.view.segs, Passed b sg l := by
    intro l
    constructor
    · rintro ⟨_, _, _, sg, h1, h2⟩
      exact ⟨sg, List.mem_of_getElem? h1, h2⟩
    · rintro ⟨sg, h1, h2⟩
      obtain ⟨sid, h3⟩ := List.mem_iff_getElem?.1 h1
      rcases hp.seg sid (List.getElem?_eq_some_iff.1 h3).1 with ⟨cid, c, h4, h5⟩ | ⟨bid, br, h4, h5⟩
      · exact ⟨false, sid, (hlin sid).2 ⟨c, List.mem_of_getElem? h4, h5⟩, sg, h3, h2⟩
      · exact ⟨true, sid, (hspl sid).2 ⟨br, List.mem_of_getElem? h4, h5⟩, sg, h3, h2⟩
  rw [← and_assoc, ← hgood]
  unfold validate
  constructor
  · intro hval
    cases hx : checkCollection b s.view s.view.colls.length [] 0 with
    | error e => rw [hx] at hval; simp at hval
    | ok seen =>
      rw [hx] at hval
      refine ⟨(hk.ok []).1 ⟨seen, hx⟩, fun l hl => ?_⟩
      dsimp only at hval
      split at hval
      · rename_i he
        rw [List.isEmpty_iff, List.filter_eq_nil_iff] at he
        have := he l ((mem_allLocations hv l).2 hl)
        simp only [Bool.not_eq_true', decide_eq_false_iff_not, Decidable.not_not] at this
        rcases (hk.adds [] seen hx l).1 this with h0 | h0
        · simp at h0
        · exact (hreach l).1 h0
      · simp at hval
  · rintro ⟨h1, h2⟩
    obtain ⟨seen, hx⟩ := (hk.ok []).2 h1
    try dsimp only at hx
    rw [hx]
    dsimp only
    rw [if_pos]
    rw [List.isEmpty_iff, List.filter_eq_nil_iff]
    intro l hl
    simp only [Bool.not_eq_true', decide_eq_false_iff_not, Decidable.not_not]
    exact (hk.adds [] seen hx l).2 (.inr ((hreach l).2 (h2 l ((mem_allLocations hv l).1 hl))))

/-- **C132 (one test too many).** That a step on a stretch is straight need not be checked: the check accepts exactly if
every step starts before its end and every location is passed. -/
theorem C132_before {b : Body} (hv : Valid b) {tie : Bool} {s : St} {g : List (Nat × Nat)} (h : Run tie b.mapper s g)
    {f : Frozen} (hf : s.freeze = .ok f) : validate b f = .ok () ↔
      (∀ sg ∈ f.segs, Before b sg.from sg.to) ∧ ∀ l, Location b l → ∃ sg ∈ f.segs, Passed b sg l := by
  rw [C132_exact hv h hf, ← and_assoc]
  have hp := placed_run (mapper_proper b) h
  obtain rfl := frozen_view hf
  refine and_congr ⟨?_, ?_⟩ Iff.rfl
  · rintro ⟨h1, h2⟩ sg hsg
    obtain ⟨sid, h3⟩ := List.mem_iff_getElem?.1 hsg
    rcases hp.seg sid (List.getElem?_eq_some_iff.1 h3).1 with ⟨cid, c, h4, h5⟩ | ⟨bid, br, h4, h5⟩
    · exact (h2 c (List.mem_of_getElem? h4) sid h5 sg h3).1
    · exact h1 br (List.mem_of_getElem? h4) sid h5 sg h3
  · intro h1
    refine ⟨fun br _ sid _ sg hsg => h1 sg (List.mem_of_getElem? hsg), fun c hc sid hs sg hsg => ?_⟩
    obtain ⟨cid, h3⟩ := List.mem_iff_getElem?.1 hc
    exact (C66_straight_iff hv h h3 hs hsg).1.2 (h1 sg (List.mem_of_getElem? hsg))

/-- **C132 (stretches).** What the check takes for the locations of a straight step really lies on it, if the function can
return from there. -/
theorem C132_stretch {b : Body} {sg : Seg} (h : Piece b sg.from sg.to) {l : Loc} (hp : Passed b sg l)
    (hret : ∃ r ∈ b.returns, Reach b.succ l.block r) : OnStep b sg l := by
  refine ⟨hp, ?_⟩
  obtain ⟨_, ⟨hto, _⟩ | ⟨_, hne, w, hw, hnw⟩⟩ := hp
  · rw [hto]; exact .refl
  · obtain ⟨r, hr, hlr⟩ := hret
    obtain ⟨w', hw'⟩ := hlr.path
    obtain ⟨_, ⟨he, _⟩ | ⟨_, hpd⟩⟩ := h
    · exact absurd he hne
    · have hin := (hpd r hr).2 _ (hw.append hw')
      rcases List.mem_append.1 hin with hin | hin
      · exact absurd hin hnw
      · obtain ⟨l1, _, h1, _⟩ := hw'.split (List.mem_of_mem_tail hin)
        exact h1.reach

/-- **C132 (blind behind a test).** Two split steps from one place to different blocks pass everything behind the place,
whatever the other steps are. -/
theorem C132_blind {b : Body} {g1 g2 : Seg} (hf : g1.from = g2.from) (hne : g1.to.block ≠ g2.to.block)
    (h1 : g1.from.block ≠ g1.to.block) (h2 : g1.from.block ≠ g2.to.block)
    (hr1 : ∃ w, Path b.succ g1.from.block g1.to.block w ∧ g2.to.block ∉ w)
    (hr2 : ∃ w, Path b.succ g1.from.block g2.to.block w ∧ g1.to.block ∉ w) {l : Loc}
    (hl : Reach b.succ g1.from.block l.block) (hw : Within b l) (hs : l.block = g1.from.block → g1.from.idx ≤ l.idx) :
    Passed b g1 l ∨ Passed b g2 l := by
  have key : (∃ w, Path b.succ g1.from.block l.block w ∧ g1.to.block ∉ w) ∨
      ∃ w, Path b.succ g1.from.block l.block w ∧ g2.to.block ∉ w := by
    clear hw hs
    generalize l.block = x at hl
    induction hl with
    | refl => exact .inl ⟨_, .single _, by simpa using fun e => h1 e.symm⟩
    | @tail y z _ hz ih =>
      by_cases hz1 : z = g1.to.block
      · subst hz1; exact .inr hr1
      · by_cases hz2 : z = g2.to.block
        · subst hz2; exact .inl hr2
        · rcases ih with ⟨w, hw, hn⟩ | ⟨w, hw, hn⟩
          · refine .inl ⟨_, hw.append (.cons hz (.single _)), ?_⟩
            simp only [List.tail_cons, List.mem_append, List.mem_singleton, not_or]
            exact ⟨hn, fun e => hz1 e.symm⟩
          · refine .inr ⟨_, hw.append (.cons hz (.single _)), ?_⟩
            simp only [List.tail_cons, List.mem_append, List.mem_singleton, not_or]
            exact ⟨hn, fun e => hz2 e.symm⟩
  rcases key with ⟨w, h3, h4⟩ | ⟨w, h3, h4⟩
  · exact .inl ⟨hs, .inr ⟨hw, h1, w, h3, h4⟩⟩
  · exact .inr ⟨by rw [← hf]; exact hs, .inr ⟨hw, by rw [← hf]; exact h2, w, by rw [← hf]; exact h3, h4⟩⟩

end Verif.Segments

namespace Verif.HirSteps

open Verif.Graph Verif.Cfg Verif.Segments

def accepted (b : Body) : Outcome → Bool
  | .steps f _ => match validate b f with | .ok _ => true | .error _ => false
  | _ => false

theorem early_accepted : accepted earlyBody (compute (plainEnv earlyBody) earlyFn) = true := by
  unfold earlyFn earlyIf
  unfold_visit
  decide +kernel

theorem plain_accepted : accepted plainBody (compute (plainEnv plainBody) plainFn) = true := by
  unfold plainFn plainIf
  unfold_visit
  decide +kernel

/-- **C132 (not enough).** The steps of `if c { return; } s` pass the check, although the location ⟨2, 1⟩ of `s` is on none
of them. -/
theorem C132_lost : ∃ f locals, compute (plainEnv earlyBody) earlyFn = .steps f locals ∧
    validate earlyBody f = .ok () ∧ Location earlyBody ⟨2, 1⟩ ∧ ∀ g ∈ f.segs, ¬ OnStep earlyBody g ⟨2, 1⟩ := by
  obtain ⟨f, locals, h, hs⟩ := steps_of_segs early_segs
  have ha := early_accepted
  rw [h] at ha
  refine ⟨f, locals, h, ?_, ?_, ?_⟩
  · unfold accepted at ha
    dsimp only at ha
    cases hx : validate earlyBody f with
    | error e => rw [hx] at ha; exact absurd ha (by simp)
    | ok u => rfl
  · exact (mem_allLocations valid_early _).1 (by decide +kernel)
  · intro g hg
    have hm : (g.from, g.to, g.span) ∈ f.segs.map (fun g => (g.from, g.to, g.span)) := List.mem_map_of_mem hg
    rw [hs] at hm
    have hn : ¬ Reach earlyBody.succ 2 1 := by
      rw [← mem_dfs (succ_lt valid_early) (by decide : 2 < earlyBody.length)]
      decide +kernel
    rintro ⟨⟨hp1, hp2⟩, hr⟩
    simp only [List.mem_cons, Prod.mk.injEq, List.not_mem_nil, or_false] at hm
    rcases hm with ⟨e1, e2, _⟩ | ⟨e1, e2, _⟩ | ⟨e1, e2, _⟩ | ⟨e1, e2, _⟩ | ⟨e1, e2, _⟩ <;>
      rw [e2] at hr hp2 <;> rw [e1] at hp2
    · rcases hp2 with hp2 | ⟨_, hp2, _⟩
      · exact absurd hp2.1 (by decide)
      · exact hp2 rfl
    · rcases hp2 with hp2 | ⟨_, _, w, h1, h2⟩
      · exact absurd hp2.2 (by decide)
      · exact h2 h1.last_mem
    · exact hn hr
    · rcases hp2 with hp2 | ⟨_, hp2, _⟩
      · exact absurd hp2.1 (by decide)
      · exact hp2 rfl
    · rcases hp2 with hp2 | ⟨_, hp2, _⟩
      · exact absurd hp2.1 (by decide)
      · exact hp2 rfl

/-- The steps of an `if` between two statements are accepted as well. -/
example : ∃ f locals, compute (plainEnv plainBody) plainFn = .steps f locals ∧ validate plainBody f = .ok () := by
  obtain ⟨f, locals, h, _⟩ := steps_of_segs plain_segs
  have ha := plain_accepted
  rw [h] at ha
  refine ⟨f, locals, h, ?_⟩
  unfold accepted at ha
  dsimp only at ha
  cases hx : validate plainBody f with
  | error e => rw [hx] at ha; exact absurd ha (by simp)
  | ok u => rfl

end Verif.HirSteps

namespace Verif.Segments

open Verif.Graph Verif.Cfg Verif.HirSteps

def retBody : Body := [⟨1, .ret, false⟩]

/-- A body without any step: whatever is asked of steps holds, and the locations are missing. -/
example : ∃ s f, Run true retBody.mapper s [] ∧ s.freeze = .ok f ∧
    validate retBody f = .error (.missing [⟨0, 0⟩, ⟨0, 1⟩]) := by
  exact ⟨St.make, St.make.view, .make, rfl, rfl⟩

/-- The two split steps of `if c { return; } s` pass the rest of the function. -/
example : Passed earlyBody ⟨⟨0, 1⟩, ⟨2, 0⟩, 32, 0⟩ ⟨2, 1⟩ ∨ Passed earlyBody ⟨⟨0, 1⟩, ⟨1, 0⟩, 51, 0⟩ ⟨2, 1⟩ :=
  C132_blind (b := earlyBody) (g1 := ⟨⟨0, 1⟩, ⟨2, 0⟩, 32, 0⟩) (g2 := ⟨⟨0, 1⟩, ⟨1, 0⟩, 51, 0⟩) (l := ⟨2, 1⟩) rfl
    (by decide) (by decide) (by decide)
    ⟨[0, 2], .cons (by decide +kernel) (.single _), by decide⟩
    ⟨[0, 1], .cons (by decide +kernel) (.single _), by decide⟩
    (.tail .refl (by decide +kernel)) (by unfold Within; decide +kernel) (by decide)

/-- A straight step over three blocks, and a location in the middle. -/
example : OnStep [⟨0, .goto 1, false⟩, ⟨2, .goto 2, false⟩, ⟨0, .ret, false⟩] ⟨⟨0, 0⟩, ⟨2, 0⟩, 0, 0⟩ ⟨1, 1⟩ := by
  have hv : Valid [⟨0, .goto 1, false⟩, ⟨2, .goto 2, false⟩, ⟨0, .ret, false⟩] := valid_of (by decide) (by decide)
  have hb := (before_ldom (x := ⟨0, 0⟩) (y := ⟨2, 0⟩) hv).1 (by decide +kernel)
  refine C132_stretch ⟨hb, certain_of hv hb (by decide +kernel)⟩ ⟨by decide, .inr ⟨by unfold Within; decide +kernel,
    by decide, [0, 1], .cons (by decide +kernel) (.single _), by decide⟩⟩ ⟨2, by decide +kernel, ?_⟩
  exact .tail .refl (by decide +kernel)

end Verif.Segments
