import Verif.Walk.Model
/-!
# The builder along a walk

That the builder makes exactly the steps and branches of a walk (`Verif.Walk.Goes`).  The steps of this proof are those
of `Verif.HirSteps.Nested`; what has been added to the state between two points is described by `Went`, which here also
says which steps belong to a branch.
-/
namespace Verif.Walk

open Verif.Cfg Verif.Segments Verif.Graph Verif.HirSteps

/-! ## Facts about the graph the builder asks for -/

theorem earlier_ldom {b : Body} (hv : Valid b) {c l : Loc} : b.mapper.ldom c l = true ↔ Earlier b c l :=
  C68_before hv c l

theorem not_ldom {b : Body} (hv : Valid b) {c l : Loc} (h : ¬ Earlier b c l) : b.mapper.ldom c l = false := by
  cases hd : b.mapper.ldom c l with
  | false => rfl
  | true => exact absurd ((earlier_ldom hv).1 hd) h

theorem later_lpdom {b : Body} (hv : Valid b) {c l : Loc} (h : Earlier b c l) (h' : Later b c l) :
    b.mapper.lpdom l c = true := by
  rcases h' with ⟨h1, h2⟩ | ⟨h1, h2⟩
  · change lpostDominates b l c = true
    unfold lpostDominates
    rw [if_pos h1.symm]
    simpa using h2
  · rcases h with h | h
    · exact absurd h.1 h1
    · obtain ⟨h3, h4⟩ := dom_lt hv h.2
      exact (C68_after hv l c h3 h4).2 (.inr ⟨fun e => h1 e.symm, h2⟩)

theorem Earlier.refl (b : Body) (l : Loc) : Earlier b l l := .inl ⟨rfl, Nat.le_refl _⟩

theorem isSwitch_iff {b : Body} {a : Nat} : b.mapper.isSwitch a = true ↔ Switches b a := by
  unfold Switches
  change (match b.term a with
    | .switchInt _ => true
    | _ => false) = true ↔ _
  split <;> simp_all

theorem Ahead.chained {b : Body} {u a : Nat} (h : Ahead b u a) : ∃ i, chain b.mapper u i = some a ∧
    b.mapper.isSwitch a = true ∧ ∀ j < i, ∀ x, chain b.mapper u j = some x → b.mapper.isSwitch x = false := by
  induction h with
  | here h => exact ⟨0, rfl, isSwitch_iff.2 h, fun j hj => absurd hj (by omega)⟩
  | @next u v a h1 h2 _ ih =>
    obtain ⟨i, h3, h4, h5⟩ := ih
    have hn : ∀ i, chain b.mapper u (i + 1) = chain b.mapper v i := by
      intro i
      rw [chain_succ, show b.mapper.succ u = [v] from h2]
    refine ⟨i + 1, by rw [hn]; exact h3, h4, ?_⟩
    intro j hj x hx
    cases j with
    | zero =>
      cases hx
      cases hs : b.mapper.isSwitch u with
      | false => rfl
      | true => exact absurd (isSwitch_iff.1 hs) h1
    | succ j =>
      rw [hn] at hx
      exact h5 j (by omega) x hx

theorem Ahead.lt {b : Body} {u a : Nat} (h : Ahead b u a) : u < b.length := by
  cases h with
  | here h =>
    obtain ⟨ts, h⟩ := h
    apply Classical.byContradiction
    intro hn
    rw [Body.term, List.getElem?_eq_none (by omega)] at h
    cases h
  | next _ h =>
    apply Classical.byContradiction
    intro hn
    rw [Body.succ, Body.rawSucc, Body.term, List.getElem?_eq_none (by omega)] at h
    cases h

theorem Ahead.found {b : Body} (hv : Valid b) {l : Loc} {a : Nat} (h : Ahead b l.block a) :
    findNextSwitch b.mapper l = .found a :=
  (C49_found (succ_lt hv) h.lt a).2 h.chained

/-! ## Walks -/

/-- A walk stays in its region. -/
theorem Goes.mem {b : Body} {R : Nat → Prop} {phi : Option Loc} {c c' : Loc} {ds : List Deed} {w : List Step}
    {bs : List Fork} (h : Goes b R phi c ds w bs c') (hc : R c.block) : R c'.block := by
  induction h with
  | done => exact hc
  | step hl _ _ _ _ ih => exact ih hl
  | clip _ _ _ _ hp _ ih => exact ih hp
  | lost _ _ _ ih => exact ih hc
  | fork _ _ hj _ _ _ _ _ _ _ _ _ _ ih => exact ih hj
  | apart _ _ _ _ _ _ _ _ _ _ _ _ _ ih => exact ih hc

theorem Goes.split {b : Body} {R : Nat → Prop} {phi : Option Loc} {ds' : List Deed} : ∀ {ds : List Deed} {c c' : Loc}
    {w : List Step} {bs : List Fork}, Goes b R phi c (ds ++ ds') w bs c' →
    ∃ w1 b1 c1 w2 b2, Goes b R phi c ds w1 b1 c1 ∧ Goes b R phi c1 ds' w2 b2 c' ∧ w = w1 ++ w2 ∧ bs = b1 ++ b2
  | [], c, c', w, bs, h => ⟨[], [], c, w, bs, .done, h, rfl, rfl⟩
  | d :: ds, c, c', w, bs, h => by
    cases h with
    | step h1 h2 h3 h4 hr =>
      obtain ⟨w1, b1, c1, w2, b2, g1, g2, rfl, rfl⟩ := Goes.split hr
      exact ⟨_, _, c1, w2, b2, .step h1 h2 h3 h4 g1, g2, rfl, rfl⟩
    | clip h1 h2 h3 h4 h5 hr =>
      obtain ⟨w1, b1, c1, w2, b2, g1, g2, rfl, rfl⟩ := Goes.split hr
      exact ⟨_, _, c1, w2, b2, .clip h1 h2 h3 h4 h5 g1, g2, rfl, rfl⟩
    | lost h1 h2 hr =>
      obtain ⟨w1, b1, c1, w2, b2, g1, g2, rfl, rfl⟩ := Goes.split hr
      exact ⟨_, _, c1, w2, b2, .lost h1 h2 g1, g2, rfl, rfl⟩
    | fork h1 h2 h3 h4 h5 h6 h7 h8 h9 h10 h11 hr =>
      obtain ⟨w1, b1, c1, w2, b2, g1, g2, rfl, rfl⟩ := Goes.split hr
      exact ⟨_, _, c1, w2, b2, .fork h1 h2 h3 h4 h5 h6 h7 h8 h9 h10 h11 g1, g2, by simp, by simp⟩
    | apart h1 h2 h3 h4 h5 h6 h7 h8 h9 h10 h11 hr =>
      obtain ⟨w1, b1, c1, w2, b2, g1, g2, rfl, rfl⟩ := Goes.split hr
      exact ⟨_, _, c1, w2, b2, .apart h1 h2 h3 h4 h5 h6 h7 h8 h9 h10 h11 g1, g2, by simp, by simp⟩

theorem Goes.append {b : Body} {R : Nat → Prop} {phi : Option Loc} {ds ds' : List Deed} {c c1 c' : Loc}
    {w w' : List Step} {bs bs' : List Fork} (h : Goes b R phi c ds w bs c1) (h' : Goes b R phi c1 ds' w' bs' c') :
    Goes b R phi c (ds ++ ds') (w ++ w') (bs ++ bs') c' := by
  induction h with
  | done => exact h'
  | step h1 h2 h3 h4 _ ih => exact .step h1 h2 h3 h4 (ih h')
  | clip h1 h2 h3 h4 h5 _ ih => exact .clip h1 h2 h3 h4 h5 (ih h')
  | lost h1 h2 _ ih => exact .lost h1 h2 (ih h')
  | fork h1 h2 h3 h4 h5 h6 h7 h8 h9 h10 h11 _ _ ih =>
    simp only [List.cons_append, List.append_assoc]
    exact .fork h1 h2 h3 h4 h5 h6 h7 h8 h9 h10 h11 (ih h')
  | apart h1 h2 h3 h4 h5 h6 h7 h8 h9 h10 h11 _ _ ih =>
    simp only [List.cons_append, List.append_assoc]
    exact .apart h1 h2 h3 h4 h5 h6 h7 h8 h9 h10 h11 (ih h')

/-! ## The builder along a walk -/

/-- The surroundings of a visit. -/
structure World (E : Env) (b : Body) : Prop where
  m : E.m = b.mapper
  fuel : E.fuel ≠ 0
  valid : Valid b
  returns : b.returns ≠ []

/-- The collection of an arm that ends at `phi` may have no end, if nothing in the region comes after `phi`. -/
def Bound (m : Mapper) (R : Nat → Prop) (phi psi : Option Loc) : Prop :=
  psi = phi ∨ (psi = none ∧ ∃ e, phi = some e ∧ ∀ l : Loc, R l.block → m.ldom e l = false)

/-- The builder works in the region `R`, on an arm that ends at `phi`, with the collection `k`, and has got to `c`. -/
structure Now (m : Mapper) (R : Nat → Prop) (phi : Option Loc) (v : V) (P : List Builder) (k : Nat) (c : Loc)
    (Q : List Builder) : Prop where
  processing : v.st.processing = P ++ ⟨k, c⟩ :: Q
  apart : ∀ x ∈ Q, ∀ l : Loc, R l.block → m.ldom x.cur l = false
  coll : ∃ d psi, v.st.colls[k]? = some ⟨d, psi⟩ ∧ Bound m R phi psi
  known : ∀ x ∈ v.st.processing, x.coll < v.st.colls.length
  keys : v.st.uf.root = List.range v.st.branches.length
  tables : v.st.branches.map (·.tableId) = List.range v.st.branches.length
  scopes : ∃ os s, v.st.openScopes = os ++ [s]
  next : 0 < v.st.nextScope
  /-- outside of all arms there is no other builder -/
  top : phi = none → P = [] ∧ Q = []

/-- The state that only differs in what does not matter for `Now`. -/
theorem Now.same {m : Mapper} {R : Nat → Prop} {phi : Option Loc} {v v' : V} {P : List Builder} {k : Nat} {c : Loc} {Q : List Builder}
    (h : Now m R phi v P k c Q) (h1 : v'.st.processing = v.st.processing) (h2 : v'.st.colls = v.st.colls)
    (h3 : v'.st.uf = v.st.uf) (h4 : v'.st.branches = v.st.branches)
    (h5 : ∃ os s, v'.st.openScopes = os ++ [s]) (h6 : 0 < v'.st.nextScope) : Now m R phi v' P k c Q :=
  ⟨h1.trans h.processing, h.apart, by rw [h2]; exact h.coll, by rw [h1, h2]; exact h.known,
    by rw [h3, h4]; exact h.keys, by rw [h4]; exact h.tables, h5, h6, h.top⟩

/-- A step, without its scope. -/
def triples (segs : List Seg) : List Step := segs.map (fun g => (g.from, g.to, g.span))

/-- A branch, with the steps into its arms. -/
def forkOf (w : List Step) (x : Branch) : Loc × Loc × List (Option Step) :=
  (x.reachFrom, x.reachTo, x.splits.map (fun sid => w[sid]?))

/-- A fork, with steps that exist. -/
def Fork.real (x : Fork) : Loc × Loc × List (Option Step) := (x.1, x.2.1, x.2.2.map some)

theorem forkOf_append {w w' : List Step} {x : Branch} {y : Fork} (h : forkOf w x = Fork.real y) :
    forkOf (w ++ w') x = Fork.real y := by
  unfold forkOf Fork.real at *
  simp only [Prod.mk.injEq] at *
  refine ⟨h.1, h.2.1, ?_⟩
  rw [← h.2.2]
  apply List.map_congr_left
  intro sid hs
  have hm : w[sid]? ∈ y.2.2.map some := by
    rw [← h.2.2]
    exact List.mem_map.2 ⟨sid, hs, rfl⟩
  obtain ⟨g, _, hg⟩ := List.mem_map.1 hm
  rw [← hg, List.getElem?_append_left (List.getElem?_eq_some_iff.1 hg.symm).1]
  exact hg.symm

theorem forks_append {w w' : List Step} {xs : List Branch} {ys : List Fork} (h : xs.map (forkOf w) = ys.map Fork.real) :
    xs.map (forkOf (w ++ w')) = ys.map Fork.real := by
  rw [← h]
  apply List.map_congr_left
  intro x hx
  have hm : forkOf w x ∈ ys.map Fork.real := by
    rw [← h]
    exact List.mem_map.2 ⟨x, hx, rfl⟩
  obtain ⟨y, _, hy⟩ := List.mem_map.1 hm
  rw [forkOf_append hy.symm, hy]

theorem range'_get {α : Type} (w x : List α) :
    (List.range' w.length x.length).map (fun sid => (w ++ x)[sid]?) = x.map some := by
  apply List.ext_getElem?
  intro i
  rw [List.getElem?_map, List.getElem?_map]
  by_cases h : i < x.length
  · rw [List.getElem?_range' h, Option.map_some, Nat.one_mul, List.getElem?_append_right (Nat.le_add_right _ _),
      Nat.add_sub_cancel_left, List.getElem?_eq_getElem h]
    rfl
  · rw [List.getElem?_eq_none (l := x) (by omega), List.getElem?_eq_none (by simpa using h)]
    rfl

/-- What has been added between two states. -/
structure Went (v v' : V) (w : List Step) (bs : List Fork) : Prop where
  segs : triples v'.st.segs = triples v.st.segs ++ w
  branches : ∃ ex, v'.st.branches = v.st.branches ++ ex ∧ ex.map (forkOf (triples v'.st.segs)) = bs.map Fork.real
  colls : ∀ (i : Nat) (d : List CF) (phi : Option Loc), v.st.colls[i]? = some ⟨d, phi⟩ →
    ∃ d', v'.st.colls[i]? = some ⟨d', phi⟩
  grows : v.st.colls.length ≤ v'.st.colls.length
  scopes : v'.st.openScopes = v.st.openScopes
  hints : v'.hints = v.hints
  fatal : v'.fatal = v.fatal
  unsupported : v'.unsupported = v.unsupported

theorem Went.refl (v : V) : Went v v [] [] :=
  ⟨by simp, ⟨[], by simp, rfl⟩, fun _ d _ h => ⟨d, h⟩, Nat.le_refl _, rfl, rfl, rfl, rfl⟩

theorem Went.trans {v v1 v2 : V} {w1 w2 : List Step} {b1 b2 : List Fork} (h1 : Went v v1 w1 b1)
    (h2 : Went v1 v2 w2 b2) : Went v v2 (w1 ++ w2) (b1 ++ b2) where
  segs := by rw [h2.segs, h1.segs, List.append_assoc]
  branches := by
    obtain ⟨e1, h3, h4⟩ := h1.branches
    obtain ⟨e2, h5, h6⟩ := h2.branches
    refine ⟨e1 ++ e2, by rw [h5, h3, List.append_assoc], ?_⟩
    rw [List.map_append, List.map_append, h6, h2.segs, forks_append h4]
  colls := fun i d phi h => by
    obtain ⟨d1, h3⟩ := h1.colls i d phi h
    exact h2.colls i d1 phi h3
  grows := Nat.le_trans h1.grows h2.grows
  scopes := h2.scopes.trans h1.scopes
  hints := h2.hints.trans h1.hints
  fatal := h2.fatal.trans h1.fatal
  unsupported := h2.unsupported.trans h1.unsupported

/-- The same changes, between states that differ in what is not compared. -/
theorem Went.same {v v' u u' : V} {w : List Step} {bs : List Fork} (h : Went v v' w bs)
    (h1 : u.st.segs = v.st.segs) (h2 : u.st.branches = v.st.branches) (h3 : u.st.colls = v.st.colls)
    (h1' : u'.st.segs = v'.st.segs) (h2' : u'.st.branches = v'.st.branches) (h3' : u'.st.colls = v'.st.colls)
    (h4 : u'.st.openScopes = u.st.openScopes) (h5 : u'.hints = u.hints) (h6 : u'.fatal = u.fatal)
    (h7 : u'.unsupported = u.unsupported) : Went u u' w bs :=
  ⟨by rw [h1, h1']; exact h.segs, by rw [h2, h2', h1']; exact h.branches, by rw [h3, h3']; exact h.colls,
    by rw [h3, h3']; exact h.grows, h4, h5, h6, h7⟩

/-- The visit does what there is to do, wherever the walk goes. -/
def Obeys (E : Env) (b : Body) (a : Visit) (ds : List Deed) : Prop :=
  ∀ {R : Nat → Prop} {phi : Option Loc} {c c' : Loc} {w : List Step} {bs : List Fork},
    Goes b R phi c ds w bs c' → R c.block → ∀ {v : V} {P : List Builder} {k : Nat} {Q : List Builder},
    Now E.m R phi v P k c Q → ∃ v', a v = .ok v' ∧ Now E.m R phi v' P k c' Q ∧ Went v v' w bs

theorem found {m : Mapper} {R : Nat → Prop} {phi : Option Loc} {v : V} {P Q : List Builder} {k : Nat} {c l : Loc} (h : Now m R phi v P k c Q)
    (hl : R l.block) (hd : m.ldom c l = true) : v.st.findBuilder m l = some (⟨k, c⟩, P.length) := by
  unfold St.findBuilder
  rw [h.processing]
  exact find_stack (p := fun y => m.ldom y.cur l) (fun y hy => h.apart y hy l hl) hd

section
variable {E : Env} {b : Body}

/-- Inserting a step that ends later in the region: it ends there or where the arm ends. -/
theorem obeys_insert (W : World E b) {R : Nat → Prop} {phi : Option Loc} {c l l' : Loc} (hl : R l.block)
    (h1 : Earlier b c l) (h2 : Later b c l)
    (h3 : (l' = l ∧ ∀ p, phi = some p → ¬ Earlier b p l) ∨ (phi = some l' ∧ Earlier b l' l)) (sp : Nat)
    {v : V} {P : List Builder} {k : Nat} {Q : List Builder} (h : Now E.m R phi v P k c Q) :
    ∃ v', v.insert E l sp = .ok (v', true) ∧ Now E.m R phi v' P k l' Q ∧ Went v v' [(c, l', sp)] [] := by
  obtain ⟨n, hn⟩ := Nat.exists_eq_succ_of_ne_zero W.fuel
  have hd : E.m.ldom c l = true := by rw [W.m]; exact (earlier_ldom W.valid).2 h1
  have hp : E.m.lpdom l c = true := by rw [W.m]; exact later_lpdom W.valid h1 h2
  obtain ⟨os, s0, hos⟩ := h.scopes
  have hcs : v.st.currentScope = .ok s0 := by
    unfold St.currentScope
    rw [hos, List.getLast?_append]
    rfl
  have hfs : v.st.findSuitable E.m l = .linear ⟨k, c⟩ P.length := by
    unfold St.findSuitable
    rw [found h hl hd]
    dsimp only
    rw [hp]
    rfl
  obtain ⟨d, psi, hc, hbd⟩ := h.coll
  have hend : v.st.insertEnd E.m ⟨k, c⟩ l = l' := by
    unfold St.insertEnd
    rw [hc]
    rcases hbd with rfl | ⟨rfl, e, he, hbd⟩
    · rcases h3 with ⟨rfl, h3⟩ | ⟨rfl, h3⟩
      · cases psi with
        | none => rfl
        | some p =>
          have := not_ldom W.valid (h3 p rfl)
          rw [← W.m] at this
          simp [this]
      · have := (earlier_ldom W.valid).2 h3
        rw [← W.m] at this
        simp [this]
    · rcases h3 with ⟨rfl, _⟩ | ⟨h3, h4⟩
      · rfl
      · rw [h3] at he
        cases he
        have := (earlier_ldom W.valid).2 h4
        rw [← W.m, hbd l hl] at this
        exact absurd this (by simp)
  have hset : v.st.processing.set P.length ⟨k, l'⟩ = P ++ ⟨k, l'⟩ :: Q := by
    rw [h.processing, set_stack]
  refine ⟨{ v.called (.insert l sp) with st := v.st.insertTo ⟨k, c⟩ P.length l' sp s0 }, ?_, ?_, ?_⟩
  · unfold V.insert
    change (match v.st.insert E.secondWins E.m E.fuel l sp with
      | .ok s => _
      | .error .fail => _
      | .error e => _) = _
    rw [hn, St.insert, hfs]
    dsimp only
    rw [hcs]
    dsimp only
    rw [hend]
  · refine ⟨hset, h.apart, (pushCF_get (k := k) (x := .linear v.st.segs.length) hc).imp fun _ h' => ⟨psi, h', hbd⟩,
      ?_, h.keys, h.tables, h.scopes,
      h.next, h.top⟩
    intro x hx
    change x ∈ v.st.processing.set P.length ⟨k, l'⟩ at hx
    change x.coll < (pushCF v.st.colls k (.linear v.st.segs.length)).length
    rw [pushCF_length]
    rw [hset] at hx
    have hk := h.known
    rw [h.processing] at hk
    rcases List.mem_append.1 hx with hx | hx
    · exact hk x (List.mem_append_left _ hx)
    · rcases List.mem_cons.1 hx with rfl | hx
      · exact hk ⟨k, c⟩ (List.mem_append_right _ List.mem_cons_self)
      · exact hk x (List.mem_append_right _ (List.mem_cons_of_mem _ hx))
  · refine ⟨?_, ⟨[], by simp [St.insertTo], rfl⟩, ?_, ?_, rfl, rfl, rfl, rfl⟩
    · change (v.st.segs ++ [_]).map _ = _
      rw [List.map_append]
      rfl
    · intro i d phi hi
      exact pushCF_get (cs := v.st.colls) hi
    · change v.st.colls.length ≤ (pushCF v.st.colls k (.linear v.st.segs.length)).length
      rw [pushCF_length]
      exact Nat.le_refl _

/-- Outside of all arms, inserting a step that does not come after the current location does nothing. -/
theorem obeys_lost (W : World E b) {R : Nat → Prop} {c l : Loc} (h1 : ¬ Earlier b c l) (sp : Nat)
    {v : V} {P : List Builder} {k : Nat} {Q : List Builder} (h : Now E.m R none v P k c Q) :
    ∃ v', v.insert E l sp = .ok (v', true) ∧ Now E.m R none v' P k c Q ∧ Went v v' [] [] := by
  obtain ⟨n, hn⟩ := Nat.exists_eq_succ_of_ne_zero W.fuel
  obtain ⟨rfl, rfl⟩ := h.top rfl
  have hd : E.m.ldom c l = false := by rw [W.m]; exact not_ldom W.valid h1
  have hfs : v.st.findSuitable E.m l = .none := by
    unfold St.findSuitable St.findBuilder
    rw [h.processing]
    simp [hd]
  refine ⟨v.called (.insert l sp), ?_, h.same rfl rfl rfl rfl h.scopes h.next,
    (Went.refl v).same rfl rfl rfl rfl rfl rfl rfl rfl rfl rfl⟩
  unfold V.insert
  change (match v.st.insert E.secondWins E.m E.fuel l sp with
    | .ok s => _
    | .error .fail => _
    | .error e => _) = _
  rw [hn, St.insert, hfs]
  rfl

/-- The first step of a walk is inserted, or lost. -/
theorem obeys_first (W : World E b) {R : Nat → Prop} {phi : Option Loc} {c c' l : Loc} {sp : Nat} {ds : List Deed}
    {w : List Step} {bs : List Fork} (hw : Goes b R phi c (.step l sp :: ds) w bs c') (hc : R c.block) {v : V}
    {P : List Builder} {k : Nat} {Q : List Builder} (h : Now E.m R phi v P k c Q) :
    ∃ v' l' w0 w', w = w0 ++ w' ∧ Goes b R phi l' ds w' bs c' ∧ R l'.block ∧ v.insert E l sp = .ok (v', true) ∧
      Now E.m R phi v' P k l' Q ∧ Went v v' w0 [] := by
  cases hw with
  | step h1 h2 h3 h4 hr =>
    obtain ⟨v', e, n, g⟩ := obeys_insert W h1 h2 h3 (.inl ⟨rfl, h4⟩) sp h
    exact ⟨v', l, _, _, rfl, hr, h1, e, n, g⟩
  | @clip _ _ _ _ _ _ _ _ p h1 h2 h3 h4 h5 hr =>
    obtain ⟨v', e, n, g⟩ := obeys_insert W h1 h2 h3 (.inr ⟨rfl, h4⟩) sp h
    exact ⟨v', p, _, _, rfl, hr, h5, e, n, g⟩
  | lost h1 h2 hr =>
    obtain ⟨v', e, n, g⟩ := obeys_lost W h2 sp h
    exact ⟨v', c, [], _, rfl, hr, hc, e, n, g⟩

theorem obeys_ok : Obeys E b .ok [] := by
  intro R phi c c' w bs hw _ v P k Q h
  cases hw
  exact ⟨v, rfl, h, .refl v⟩

theorem obeys_seq {x y : Visit} {d1 d2 : List Deed} (hx : Obeys E b x d1) (hy : Obeys E b y d2) :
    Obeys E b (seq x y) (d1 ++ d2) := by
  intro R phi c c' w bs hw hc v P k Q h
  obtain ⟨w1, b1, c1, w2, b2, h1, h2, rfl, rfl⟩ := hw.split
  obtain ⟨v1, e1, n1, g1⟩ := hx h1 hc h
  obtain ⟨v2, e2, n2, g2⟩ := hy h2 (h1.mem hc) n1
  exact ⟨v2, by rw [seq_eq e1, e2], n2, g1.trans g2⟩

theorem obeys_step (W : World E b) (n : Node) : Obeys E b (fun v => v.stepAfter E n) (deedAfter E n) := by
  intro R phi c c' w bs hw hc v P k Q h
  unfold deedAfter at hw
  change ∃ v', v.stepAfter E n = .ok v' ∧ _
  unfold V.stepAfter Env.exitOf
  change ∃ v', (match after E.next n with
    | none => _
    | some exit => _) = Except.ok v' ∧ _
  cases he : after E.next n with
  | none =>
    rw [he] at hw
    cases hw
    exact ⟨v, rfl, h, .refl v⟩
  | some l =>
    rw [he] at hw
    obtain ⟨v', l', w0, w', rfl, hr, _, e, n', g⟩ := obeys_first W hw hc h
    cases hr
    rw [List.append_nil]
    exact ⟨v', by dsimp only; rw [e], n', g⟩

theorem obeys_under (n : Node) {x : Visit} {d : List Deed} (hx : Obeys E b x d) :
    Obeys E b (visitUnder n x) (deedIf n d) := by
  intro R phi c c' w bs hw hc v P k Q h
  unfold deedIf at hw
  unfold visitUnder
  cases he : n.entry with
  | none =>
    rw [he, if_pos rfl] at hw
    cases hw
    exact ⟨v, rfl, h, .refl v⟩
  | some l =>
    rw [he, if_neg (by simp)] at hw
    obtain ⟨v', e, n', g⟩ := hx hw hc (h.same (v' := v.push l) rfl rfl rfl rfl h.scopes h.next)
    dsimp only
    rw [e]
    have hp : v'.pop l = { v' with hints := v.hints } := by
      unfold V.pop
      rw [show v'.hints = l :: v.hints from g.hints]
      dsimp only
      rw [if_pos rfl]
    refine ⟨v'.pop l, rfl, ?_, ?_⟩
    · rw [hp]
      exact n'.same rfl rfl rfl rfl n'.scopes n'.next
    · rw [hp]
      exact g.same rfl rfl rfl rfl rfl rfl g.scopes rfl g.fatal g.unsupported

theorem openScope_now {R : Nat → Prop} {phi : Option Loc} {v : V} {P Q : List Builder} {k : Nat} {c : Loc} {m : Mapper}
    (h : Now m R phi v P k c Q) : ∃ s, v.openScope = .ok ({ v.called .openScope with st := s }, some v.st.nextScope) ∧
    s.openScopes = v.st.openScopes ++ [v.st.nextScope] ∧ s.segs = v.st.segs ∧ s.branches = v.st.branches ∧
    s.colls = v.st.colls ∧ Now m R phi { v.called .openScope with st := s } P k c Q := by
  obtain ⟨os, s0, hos⟩ := h.scopes
  have hg : v.st.openScopes.getLast? = some s0 := by rw [hos, List.getLast?_append]; rfl
  have h1 : v.st.openScope = .ok (v.st.nextScope, { v.st with
      scopeGraph := v.st.scopeGraph ++ [(v.st.nextScope, s0)], nextScope := v.st.nextScope + 1,
      openScopes := v.st.openScopes ++ [v.st.nextScope] }) := by
    unfold St.openScope St.currentScope
    rw [hg]
  refine ⟨{ v.st with
      scopeGraph := v.st.scopeGraph ++ [(v.st.nextScope, s0)], nextScope := v.st.nextScope + 1,
      openScopes := v.st.openScopes ++ [v.st.nextScope] }, ?_, rfl, rfl, rfl, rfl,
    h.same rfl rfl rfl rfl ⟨v.st.openScopes, v.st.nextScope, rfl⟩ (Nat.succ_pos _)⟩
  unfold V.openScope
  change (match v.st.openScope with
    | .ok (id, s) => _
    | .error .fail => _
    | .error e => _) = _
  rw [h1]

theorem closeScope_now {m : Mapper} {R : Nat → Prop} {phi : Option Loc} {v : V} {P Q : List Builder} {k : Nat} {c : Loc}
    (h : Now m R phi v P k c Q) {os : List Nat} {id : Nat} (hos : v.st.openScopes = os ++ [id])
    (hne : ∃ a b, os = a ++ [b]) (hid : 0 < id) :
    ∃ v', v.closeScope id = .ok (v', true) ∧ Now m R phi v' P k c Q ∧ v'.st.segs = v.st.segs ∧
      v'.st.branches = v.st.branches ∧ v'.st.colls = v.st.colls ∧ v'.st.openScopes = os ∧
      v'.hints = v.hints ∧ v'.fatal = v.fatal ∧ v'.unsupported = v.unsupported := by
  have hg : v.st.openScopes.getLast? = some id := by rw [hos, List.getLast?_append]; rfl
  have h1 : v.st.closeScope id = .ok { v.st with openScopes := os } := by
    unfold St.closeScope
    rw [if_neg (by omega), hg]
    dsimp only
    rw [if_pos rfl, hos, List.dropLast_concat]
  refine ⟨{ v.called (.closeScope id) with st := { v.st with openScopes := os } }, ?_,
    h.same rfl rfl rfl rfl hne h.next, rfl, rfl, rfl, rfl, rfl, rfl, rfl⟩
  unfold V.closeScope
  change (match v.st.closeScope id with
    | .ok s => _
    | .error .fail => _
    | .error e => _) = _
  rw [h1]

theorem obeys_scope {x : Visit} {d : List Deed} (hx : Obeys E b x d) : Obeys E b (inScope x) d := by
  intro R phi c c' w bs hw hc v P k Q h
  obtain ⟨s, e1, o1, g1, r1, l1, n1⟩ := openScope_now h
  obtain ⟨v2, e2, n2, w2⟩ := hx hw hc n1
  obtain ⟨v3, e3, n3, g3, r3, l3, o3, i3, f3, u3⟩ := closeScope_now n2 (w2.scopes.trans o1) h.scopes h.next
  refine ⟨v3, ?_, n3, w2.same g1.symm r1.symm l1.symm g3 r3 l3 o3 (i3.trans w2.hints) (f3.trans w2.fatal)
    (u3.trans w2.unsupported)⟩
  unfold inScope
  rw [e1]
  dsimp only
  rw [e2]
  dsimp only
  rw [e3]

theorem obeys_stmt (W : World E b) (n : Node) (locals : List Nat) {x : Visit} {d : List Deed}
    (hx : Obeys E b x d) : Obeys E b (inStmt E n locals x) (d ++ deedAfter E n) := by
  intro R phi c c' w bs hw hc v P k Q h
  obtain ⟨w1, b1, c1, w2, b2, hw1, hw2, rfl, rfl⟩ := hw.split
  obtain ⟨s, e1, o1, g1, r1, l1, n1⟩ := openScope_now h
  have hst := inside_st v s locals
  have n2 : Now E.m R phi (v.inside s locals) P k c Q :=
    n1.same (by rw [hst]) (by rw [hst]) (by rw [hst]) (by rw [hst]) (by rw [hst]; exact n1.scopes)
      (by rw [hst]; exact n1.next)
  obtain ⟨v2, e2, n2', a2⟩ := hx hw1 hc n2
  have o2 : v2.st.openScopes = v.st.openScopes ++ [v.st.nextScope] := by rw [a2.scopes, hst, o1]
  obtain ⟨v3, e3, n3, g3, r3, l3, o3, i3, f3, u3⟩ := closeScope_now n2' o2 h.scopes h.next
  have hh : (v.inside s locals).hints = v.hints := by unfold V.inside; split <;> rfl
  have a3 : Went v v3 w1 b1 := a2.same (by rw [hst, g1]) (by rw [hst, r1]) (by rw [hst, l1]) g3 r3 l3 o3
    (by rw [i3, a2.hints, hh]) (by rw [f3, a2.fatal, inside_fatal]) (by rw [u3, a2.unsupported, inside_unsupported])
  obtain ⟨v4, e4, n4, a4⟩ := obeys_step W n hw2 (hw1.mem hc) n3
  refine ⟨v4, ?_, n4, a3.trans a4⟩
  unfold inStmt
  rw [e1]
  dsimp only
  have hin : (if locals.isEmpty = true then ({ v.called .openScope with st := s } : V)
      else { ({ v.called .openScope with st := s } : V) with
        locals := ({ v.called .openScope with st := s } : V).locals ++ [(v.st.nextScope, locals)] }) =
      v.inside s locals := by
    unfold V.inside
    split <;> rfl
  rw [hin, e2]
  dsimp only
  rw [e3]
  exact e4

/-! ### A branching construct -/

/-- Closing a branch removes the builders of its arms and nothing else. -/
theorem close_now {v : V} {bid n len : Nat} {br : Branch} {R A : List Builder}
    (hk : v.st.uf.root = List.range v.st.branches.length)
    (ht : v.st.branches.map (·.tableId) = List.range v.st.branches.length)
    (hb : v.st.branches[bid]? = some br) (hn : br.nested = List.range' n len)
    (hp : v.st.processing = R ++ A) (hR : ∀ z ∈ R, z.coll < n) (hA : ∀ z ∈ A, n ≤ z.coll ∧ z.coll < n + len) :
    v.closeBranch bid = .ok { v.called (.closeBranch bid) with st := { v.st with processing := R } } := by
  have hbid : br.tableId = bid := by
    have : (v.st.branches.map (·.tableId))[bid]? = some br.tableId := by rw [List.getElem?_map, hb]; rfl
    rw [ht] at this
    obtain ⟨h1, h2⟩ := List.getElem?_eq_some_iff.1 this
    simpa using h2.symm
  have hc : v.st.toClose br.tableId = [br] := by
    unfold St.toClose
    rw [hbid]
    have : ∀ y ∈ v.st.branches, decide (bid = v.st.uf.find y.tableId) = decide (0 + bid = y.tableId) := by
      intro y hy
      have hy' : y.tableId ∈ v.st.branches.map (·.tableId) := List.mem_map_of_mem hy
      rw [ht, List.mem_range] at hy'
      have : v.st.uf.find y.tableId = y.tableId := by
        unfold Uf.find
        rw [hk]
        simp [List.getD_eq_getElem?_getD, hy']
      rw [this, Nat.zero_add]
    rw [List.filter_congr this]
    exact only_one (by rw [ht, List.range_eq_range']) hb
  unfold V.closeBranch
  change (match v.st.closeBranch bid with
    | .ok s => _
    | .error .fail => _
    | .error e => _) = _
  have : v.st.closeBranch bid = .ok { v.st with processing := R } := by
    unfold St.closeBranch
    rw [hb]
    dsimp only
    rw [hc, List.foldl_cons, List.foldl_nil, hp, List.filter_append]
    have h1 : R.filter (fun ob => !decide (ob.coll ∈ br.nested)) = R := by
      rw [List.filter_eq_self]
      intro z hz
      have := hR z hz
      rw [hn]
      simp only [List.mem_range'_1, Bool.not_eq_true', decide_eq_false_iff_not]
      omega
    have h2 : A.filter (fun ob => !decide (ob.coll ∈ br.nested)) = [] := by
      rw [List.filter_eq_nil_iff]
      intro z hz
      have := hA z hz
      rw [hn]
      simp only [List.mem_range'_1, Bool.not_eq_true', decide_eq_false_iff_not, Classical.not_not]
      exact this
    rw [h1, h2, List.append_nil]
  rw [this]

/-- The builders of the arms, each at its current location. -/
def arms (m n : Nat) (cur : Nat → Loc) : List Builder := (List.range n).map (fun i => ⟨m + i, cur i⟩)

theorem mem_arms {m n : Nat} {cur : Nat → Loc} {x : Builder} : x ∈ arms m n cur ↔ ∃ i < n, x = ⟨m + i, cur i⟩ := by
  simp only [arms, List.mem_map, List.mem_range]
  constructor
  · rintro ⟨i, h, rfl⟩; exact ⟨i, h, rfl⟩
  · rintro ⟨i, h, rfl⟩; exact ⟨i, h, rfl⟩

/-- The builder of one arm between those of the others. -/
theorem arms_split {m n q : Nat} (cur : Nat → Loc) (hq : q < n) :
    arms m n cur = arms m q cur ++ ⟨m + q, cur q⟩ ::
      (List.range' (q + 1) (n - (q + 1))).map (fun i => ⟨m + i, cur i⟩) := by
  unfold arms
  have : List.range n = List.range q ++ q :: List.range' (q + 1) (n - (q + 1)) := by
    rw [List.range_eq_range', List.range_eq_range', show n = q + (1 + (n - (q + 1))) by omega,
      ← List.range'_append_1, Nat.zero_add, Nat.add_comm 1, List.range'_succ]
    congr 3
    omega
  rw [this, List.map_append, List.map_cons]

theorem arms_congr {m n : Nat} {cur cur' : Nat → Loc} (h : ∀ i < n, cur i = cur' i) : arms m n cur = arms m n cur' := by
  unfold arms
  apply List.map_congr_left
  intro i hi
  rw [h i (List.mem_range.1 hi)]

/-- Opening a branch adds one builder per arm. -/
theorem open_now (W : World E b) {R : Nat → Prop} {phi : Option Loc} {l : Loc} {a : Nat} {psi : Option Loc} {f : Spanner}
    {start : Nat → Loc} {span : Nat → Nat} (hl : R l.block) (ha : Ahead b l.block a) (hj : (b.mapper.lpd a).map (fun j => (⟨j, 0⟩ : Loc)) = psi)
    (hf : ∀ i p : Nat, (b.succ a)[i]? = some p → f ⟨p, 0⟩ = (start i, span i))
    {v : V} {P : List Builder} {k : Nat} {Q : List Builder} (h : Now E.m R phi v P k l Q) :
    ∃ v', v.openBranch E l f = .ok (v', some v.st.branches.length) ∧
      v'.st.processing = P ++ ⟨k, psi.getD l⟩ :: Q ++ arms v.st.colls.length (b.succ a).length start ∧
      v'.st.colls.length = v.st.colls.length + (b.succ a).length ∧
      (∀ i < (b.succ a).length, v'.st.colls[v.st.colls.length + i]? = some ⟨[], psi⟩) ∧
      v'.st.uf.root = List.range v'.st.branches.length ∧
      v'.st.branches.map (·.tableId) = List.range v'.st.branches.length ∧
      v'.st.nextScope = v.st.nextScope ∧
      (∃ br, v'.st.branches = v.st.branches ++ [br] ∧
        br.nested = List.range' v.st.colls.length (b.succ a).length) ∧
      Went v v' ((List.range (b.succ a).length).map (fun i => (l, start i, span i)))
        [(⟨a, b.mapper.stmts a⟩, psi.getD ⟨a, b.mapper.stmts a⟩, (List.range (b.succ a).length).map (fun i => (l, start i, span i)))] := by
  obtain ⟨os, s0, hos⟩ := h.scopes
  have hcs : v.st.currentScope = .ok s0 := by
    unfold St.currentScope
    rw [hos, List.getLast?_append]
    rfl
  have hsucc : (E.m.succ a).map (fun k => f ⟨k, 0⟩) = (List.range (b.succ a).length).map (fun i => (start i, span i)) := by
    rw [W.m]
    change (b.succ a).map _ = _
    apply List.ext_getElem?
    intro i
    rw [List.getElem?_map, List.getElem?_map]
    cases hi : (b.succ a)[i]? with
    | none =>
      have := List.getElem?_eq_none_iff.1 hi
      rw [List.getElem?_eq_none (by simpa using this)]
      rfl
    | some p =>
      have := (List.getElem?_eq_some_iff.1 hi).1
      rw [List.getElem?_range this]
      simp [hf i p hi]
  have hlpd : (E.m.lpd a).map (fun bb => (⟨bb, 0⟩ : Loc)) = psi := by
    rw [W.m]
    exact hj
  have hsw : findNextSwitch E.m l = .found a := by
    rw [W.m]
    exact ha.found W.valid
  have hd : E.m.ldom l l = true := by
    rw [W.m]
    exact (earlier_ldom W.valid).2 (.refl b l)
  have hfb := found h hl hd
  have hset : v.st.processing.set P.length ⟨k, psi.getD l⟩ = P ++ ⟨k, psi.getD l⟩ :: Q := by
    rw [h.processing, set_stack]
  have hob : v.st.openBranch E.m l f = .ok (v.st.branches.length,
      { v.st.addBranch E.m l ⟨a, E.m.stmts a⟩ psi P.length ⟨k, l⟩ f s0 with
        spanners := v.st.spanners ++ [(v.st.branches.length, f)] }) := by
    unfold St.openBranch St.mkBranch
    rw [hcs]
    dsimp only
    rw [hsw]
    dsimp only
    unfold St.mkBranchAt
    dsimp only
    rw [hfb, hlpd]
    dsimp only
    rw [if_neg (by simp)]
  refine ⟨{ v.called (.openBranch l) with st := { v.st.addBranch E.m l ⟨a, E.m.stmts a⟩ psi P.length ⟨k, l⟩ f s0 with
        spanners := v.st.spanners ++ [(v.st.branches.length, f)] } }, ?_, ?_, ?_, ?_, ?_, ?_, rfl, ?_, ?_⟩
  · unfold V.openBranch
    change (match v.st.openBranch E.m l f with
      | .ok (bid, s) => _
      | .error .fail => _
      | .error e => _) = _
    rw [hob]
  · change v.st.processing.set P.length ⟨k, psi.getD l⟩ ++ (((E.m.succ a).map _).zipIdx v.st.colls.length).map _ = _
    rw [hset, hsucc]
    congr 1
    apply List.ext_getElem?
    intro i
    unfold arms
    rw [List.getElem?_map, List.getElem?_zipIdx, List.getElem?_map, List.getElem?_map]
    by_cases hi : i < (b.succ a).length
    · rw [List.getElem?_range hi]
      rfl
    · rw [List.getElem?_eq_none (by simpa using hi)]
      rfl
  · change (pushCF _ _ _ ++ List.replicate ((E.m.succ a).map _).length _).length = _
    rw [hsucc, List.length_append, pushCF_length]
    simp
  · intro i hi
    change (pushCF _ _ _ ++ List.replicate ((E.m.succ a).map _).length _)[_]? = _
    rw [hsucc, List.getElem?_append_right (by rw [pushCF_length]; omega), pushCF_length, Nat.add_sub_cancel_left,
      List.getElem?_replicate, if_pos (by simpa using hi)]
  · change v.st.uf.root ++ [v.st.uf.root.length] = List.range (v.st.branches ++ [_]).length
    rw [h.keys, List.length_append, List.length_singleton, List.range_succ, List.length_range]
  · change (v.st.branches ++ [_]).map _ = List.range (v.st.branches ++ [_]).length
    rw [List.map_append, h.tables, List.length_append, List.length_singleton, List.range_succ]
    congr 1
    change [v.st.uf.root.length] = _
    rw [h.keys, List.length_range]
  · refine ⟨_, rfl, ?_⟩
    change List.range' v.st.colls.length ((E.m.succ a).map _).length = _
    rw [hsucc]
    simp
  · refine ⟨?_, ⟨_, rfl, ?_⟩, ?_, ?_, rfl, rfl, rfl, rfl⟩
    · change (v.st.segs ++ ((E.m.succ a).map _).map _).map _ = _
      rw [hsucc, List.map_append, List.map_map, List.map_map]
      rfl
    · have hsg : triples (v.st.segs ++ ((E.m.succ a).map (fun k => f ⟨k, 0⟩)).map (fun e => (⟨l, e.1, e.2, s0⟩ : Seg))) =
          triples v.st.segs ++ (List.range (b.succ a).length).map (fun i => (l, start i, span i)) := by
        unfold triples
        rw [hsucc, List.map_append, List.map_map, List.map_map]
        rfl
      change [forkOf (triples (v.st.segs ++ ((E.m.succ a).map (fun k => f ⟨k, 0⟩)).map (fun e => (⟨l, e.1, e.2, s0⟩ : Seg)))) _] = _
      rw [hsg]
      have := range'_get (triples v.st.segs) ((List.range (b.succ a).length).map (fun i => (l, start i, span i)))
      rw [show (triples v.st.segs).length = v.st.segs.length from List.length_map _] at this
      refine congrArg (fun x => [x]) ?_
      unfold forkOf Fork.real
      dsimp only
      rw [← this, hsucc, List.length_map, List.length_map, W.m]
    · intro i d phi hi
      obtain ⟨d', hd'⟩ := pushCF_get (k := k) (x := .branch v.st.branches.length) hi
      refine ⟨d', ?_⟩
      change (pushCF v.st.colls k (.branch v.st.branches.length) ++ _)[i]? = _
      rw [List.getElem?_append_left (List.getElem?_eq_some_iff.1 hd').1]
      exact hd'
    · change v.st.colls.length ≤ (pushCF v.st.colls k _ ++ _).length
      rw [List.length_append, pushCF_length]
      omega

/-- Visits one after the other. -/
def seqs : List Visit → Visit
  | [] => .ok
  | x :: r => seq x (seqs r)

/-- The arms are walked along one after the other, each with its own builder. -/
theorem obeys_arms (W : World E b) {e : Loc} {psi : Option Loc} {n m : Nat} {start : Nat → Loc} {S : Nat → Nat → Prop} (hS : Separate b n S)
    (hB : ∀ i < n, Bound E.m (S i) (some e) psi)
    {R : List Builder} : ∀ {xs : List Visit} {ds : List (List Deed)} {pick : List Nat} {ws : List (List Step)}
    {bss : List (List Fork)} {ends : Nat → Loc} {cur : Nat → Loc} {v : V},
    xs.length = ds.length → (∀ (i : Nat) (x : Visit) (d : List Deed), xs[i]? = some x → ds[i]? = some d → Obeys E b x d) →
    pick.Nodup → (∀ q ∈ pick, q < n) → pick.length = ds.length → ws.length = ds.length → bss.length = ds.length →
    (∀ (i : Nat) (d : List Deed) (q : Nat) (w : List Step) (bs : List Fork), ds[i]? = some d → pick[i]? = some q → ws[i]? = some w → bss[i]? = some bs →
        Goes b (S q) (some e) (start q) d w bs (ends i)) →
    (∀ i < n, S i (cur i).block) → (∀ q ∈ pick, cur q = start q) →
    v.st.processing = R ++ arms m n cur →
    (∀ i < n, ∃ d, v.st.colls[m + i]? = some ⟨d, psi⟩) →
    (∀ x ∈ v.st.processing, x.coll < v.st.colls.length) →
    v.st.uf.root = List.range v.st.branches.length →
    v.st.branches.map (·.tableId) = List.range v.st.branches.length →
    (∃ os s, v.st.openScopes = os ++ [s]) → 0 < v.st.nextScope →
    ∃ v' cur', seqs xs v = .ok v' ∧ v'.st.processing = R ++ arms m n cur' ∧ Went v v' ws.flatten bss.flatten ∧
      v'.st.uf.root = List.range v'.st.branches.length ∧
      v'.st.branches.map (·.tableId) = List.range v'.st.branches.length ∧ 0 < v'.st.nextScope
  | [], ds, pick, ws, bss, ends, cur, v, h1, _, _, _, _, h4, h5, _, _, _, hp, _, _, hk, ht, _, hn => by
    cases ds with
    | cons d ds => simp at h1
    | nil =>
      have : ws = [] := List.length_eq_zero_iff.1 h4
      have : bss = [] := List.length_eq_zero_iff.1 h5
      subst ws bss
      exact ⟨v, cur, rfl, hp, .refl v, hk, ht, hn⟩
  | x :: xs, ds, pick, ws, bss, ends, cur, v, h1, hx, hnd, hlt, h3, h4, h5, hg, hc, hs, hp, hcs, hkn, hk, ht, hsc, hn => by
    cases ds with
    | nil => simp at h1
    | cons d ds =>
    cases pick with
    | nil => simp at h3
    | cons q pick =>
    cases ws with
    | nil => simp at h4
    | cons w ws =>
    cases bss with
    | nil => simp at h5
    | cons bs bss =>
    have hq : q < n := hlt q List.mem_cons_self
    have hg0 := hg 0 d q w bs rfl rfl rfl rfl
    have hcq : cur q = start q := hs q List.mem_cons_self
    have hSq : S q (start q).block := by rw [← hcq]; exact hc q hq
    have nq : Now E.m (S q) (some e) v (R ++ arms m q cur) (m + q) (start q)
        ((List.range' (q + 1) (n - (q + 1))).map (fun i => ⟨m + i, cur i⟩)) := by
      refine ⟨by rw [hp, arms_split cur hq, hcq, List.append_assoc], ?_,
        (hcs q hq).imp fun _ h' => ⟨psi, h', hB q hq⟩, hkn, hk, ht, hsc, hn, fun h => by cases h⟩
      intro y hy l hl
      obtain ⟨i, hi, rfl⟩ := List.mem_map.1 hy
      rw [List.mem_range'_1] at hi
      have hin : i < n := by omega
      obtain ⟨hne, hnd⟩ := hS i q _ _ hin hq (by omega) (hc i hin) hl
      rw [W.m]
      apply not_ldom W.valid
      rintro (h | h)
      · exact hne h.1
      · exact hnd h.2
    obtain ⟨v1, e1, n1, g1⟩ := hx 0 x d rfl rfl hg0 hSq nq
    have hne : ∀ i, i ∈ pick → i ≠ q := by
      rintro i hi rfl
      exact (List.nodup_cons.1 hnd).1 hi
    have hp1 : v1.st.processing = R ++ arms m n (fun i => if i = q then ends 0 else cur i) := by
      rw [n1.processing, arms_split (fun i => if i = q then ends 0 else cur i) hq, List.append_assoc]
      congr 1
      congr 1
      · apply arms_congr
        intro i hi
        rw [if_neg (by omega)]
      · rw [if_pos rfl]
        congr 1
        apply List.map_congr_left
        intro i hi
        rw [List.mem_range'_1] at hi
        rw [if_neg (by omega)]
    have hse : S q (ends 0).block := hg0.mem hSq
    obtain ⟨v', cur', e2, p2, g2, k2, t2, s2⟩ := obeys_arms W hS hB (R := R) (xs := xs) (ds := ds) (pick := pick) (ws := ws)
      (bss := bss) (ends := fun i => ends (i + 1)) (cur := fun i => if i = q then ends 0 else cur i) (v := v1)
      (m := m) (start := start)
      (by simpa using h1) (fun i x d hx' hd' => hx (i + 1) x d (by simpa using hx') (by simpa using hd'))
      (List.nodup_cons.1 hnd).2 (fun q hq => hlt q (List.mem_cons_of_mem _ hq)) (by simpa using h3) (by simpa using h4)
      (by simpa using h5)
      (fun i d q w bs a1 a2 a3 a4 => hg (i + 1) d q w bs (by simpa using a1) (by simpa using a2) (by simpa using a3)
        (by simpa using a4))
      (fun i hi => by
        split
        · rename_i he; rw [he]; exact hse
        · exact hc i hi)
      (fun i hi => by
        rw [if_neg (hne i hi)]
        exact hs i (List.mem_cons_of_mem _ hi)) hp1
      (fun i hi => by
        obtain ⟨d, hd⟩ := hcs i hi
        exact g1.colls _ _ _ hd) n1.known n1.keys n1.tables n1.scopes n1.next
    refine ⟨v', cur', by rw [seqs, seq_eq e1, e2], p2, ?_, k2, t2, s2⟩
    rw [List.flatten_cons, List.flatten_cons]
    exact g1.trans g2

/-- Opening a branch, visiting its arms and closing it. -/
theorem obeys_inside (W : World E b) {R : Nat → Prop} {phi psi : Option Loc} {l e : Loc} {a : Nat} {f : Spanner}
    {start : Nat → Loc} {span : Nat → Nat} {S : Nat → Nat → Prop} {pick : List Nat} {ws : List (List Step)}
    {bss : List (List Fork)} {ends : Nat → Loc} {xs : List Visit} {ds : List (List Deed)} (hl' : R l.block)
    (ha : Ahead b l.block a) (hj : (b.mapper.lpd a).map (fun j => (⟨j, 0⟩ : Loc)) = psi)
    (hf : ∀ i p : Nat, (b.succ a)[i]? = some p → f ⟨p, 0⟩ = (start i, span i) ∧ S i (start i).block)
    (hS : Separate b (b.succ a).length S) (hB : ∀ i < (b.succ a).length, Bound E.m (S i) (some e) psi)
    (hnd : pick.Nodup) (hlt : ∀ q ∈ pick, q < (b.succ a).length) (h3 : pick.length = ds.length)
    (h4 : ws.length = ds.length) (h5 : bss.length = ds.length)
    (hg : ∀ (i : Nat) (d : List Deed) (q : Nat) (w : List Step) (bs : List Fork), ds[i]? = some d → pick[i]? = some q → ws[i]? = some w → bss[i]? = some bs →
        Goes b (S q) (some e) (start q) d w bs (ends i))
    (hlen : xs.length = ds.length)
    (hx : ∀ (i : Nat) (x : Visit) (d : List Deed), xs[i]? = some x → ds[i]? = some d → Obeys E b x d)
    {v1 : V} {P : List Builder} {k : Nat} {Q : List Builder} (n1 : Now E.m R phi v1 P k l Q) :
    ∃ v2 v4 v5, v1.openBranch E l f = .ok (v2, some v1.st.branches.length) ∧ seqs xs v2 = .ok v4 ∧
      v4.closeBranch v1.st.branches.length = .ok v5 ∧ Now E.m R phi v5 P k (psi.getD l) Q ∧
      Went v1 v5 ((List.range (b.succ a).length).map (fun i => (l, start i, span i)) ++ ws.flatten)
        ((⟨a, b.mapper.stmts a⟩, psi.getD ⟨a, b.mapper.stmts a⟩,
          (List.range (b.succ a).length).map (fun i => (l, start i, span i))) :: bss.flatten) := by
  obtain ⟨v2, e2, p2, z2, y2, k2, t2, s2, ⟨br, br2, hbr⟩, g2⟩ :=
    open_now W (f := f) hl' ha hj (fun i p hi => (hf i p hi).1) n1
  have hR : ∀ z ∈ P ++ ⟨k, psi.getD l⟩ :: Q, z.coll < v1.st.colls.length := by
    intro z hz
    have hk := n1.known
    rw [n1.processing] at hk
    rcases List.mem_append.1 hz with hz | hz
    · exact hk z (List.mem_append_left _ hz)
    · rcases List.mem_cons.1 hz with rfl | hz
      · exact hk ⟨k, l⟩ (List.mem_append_right _ List.mem_cons_self)
      · exact hk z (List.mem_append_right _ (List.mem_cons_of_mem _ hz))
  have known2 : ∀ x ∈ v2.st.processing, x.coll < v2.st.colls.length := by
    intro x hx
    rw [p2] at hx
    rw [z2]
    rcases List.mem_append.1 hx with hx | hx
    · have := hR x hx
      omega
    · obtain ⟨i, hi, rfl⟩ := mem_arms.1 hx
      exact Nat.add_lt_add_left hi _
  have hst : ∀ i < (b.succ a).length, S i (start i).block := by
    intro i hi
    exact (hf i _ (List.getElem?_eq_some_iff.2 ⟨hi, rfl⟩)).2
  obtain ⟨v4, cur, e4, p4, g4, k4, t4, s4⟩ := obeys_arms W hS hB (m := v1.st.colls.length) (start := start)
    (R := P ++ ⟨k, psi.getD l⟩ :: Q) (cur := start) (v := v2) hlen hx hnd hlt h3 h4 h5 hg hst (fun _ _ => rfl) p2
    (fun i hi => ⟨_, y2 i hi⟩) known2 k2 t2 (by rw [g2.scopes]; exact n1.scopes) (by rw [s2]; exact n1.next)
  have hbid : v4.st.branches[v1.st.branches.length]? = some br := by
    obtain ⟨ex, hex, _⟩ := g4.branches
    rw [hex, br2, List.append_assoc, List.getElem?_append_right (Nat.le_refl _), Nat.sub_self]
    rfl
  have hA : ∀ z ∈ arms v1.st.colls.length (b.succ a).length cur,
      v1.st.colls.length ≤ z.coll ∧ z.coll < v1.st.colls.length + (b.succ a).length := by
    intro z hz
    obtain ⟨i, hi, rfl⟩ := mem_arms.1 hz
    exact ⟨Nat.le_add_right _ _, Nat.add_lt_add_left hi _⟩
  have g24 := g2.trans g4
  refine ⟨v2, v4, _, e2, e4, close_now k4 t4 hbid hbr p4 hR hA, ?_, ?_⟩
  · refine ⟨rfl, n1.apart, ?_, ?_, k4, t4, ?_, s4, n1.top⟩
    · obtain ⟨d, ps, hd, hb⟩ := n1.coll
      obtain ⟨d', hd'⟩ := g24.colls _ _ _ hd
      exact ⟨d', ps, hd', hb⟩
    · intro z hz
      exact Nat.lt_of_lt_of_le (hR z hz) g24.grows
    · change ∃ os s, v4.st.openScopes = os ++ [s]
      rw [g24.scopes]
      exact n1.scopes
  · exact g24.same rfl rfl rfl rfl rfl rfl g24.scopes g24.hints g24.fatal g24.unsupported

theorem obeys_branch (W : World E b) (n cn : Node) {xc : Visit} {xs : List Visit} {dc : List Deed}
    {ds : List (List Deed)} (entries : List (Loc × Nat)) (default : Nat) (hc : Obeys E b xc dc)
    (hlen : xs.length = ds.length)
    (hx : ∀ (i : Nat) (x : Visit) (d : List Deed), xs[i]? = some x → ds[i]? = some d → Obeys E b x d) :
    Obeys E b (handleBranch E n cn xc (seqs xs) entries default)
      (dc ++ deedFork E n cn (E.spanner entries default) ds) := by
  intro R phi c c' w bs hw hcm v P k Q h
  obtain ⟨w0, b0, c0, w', b', hw0, hw', rfl, rfl⟩ := hw.split
  obtain ⟨v0, e0, n0, g0⟩ := hc hw0 hcm h
  have hc0 := hw0.mem hcm
  unfold deedFork at hw'
  unfold handleBranch prelude
  rw [e0]
  dsimp only
  rw [show E.exitOf cn = after E.next cn from rfl]
  cases he : (after E.next cn).or n.entry with
  | none =>
    rw [he] at hw'
    cases hw'
    exact ⟨v0, rfl, n0, g0.trans (.refl v0)⟩
  | some l =>
    rw [he] at hw'
    dsimp only at hw'
    obtain ⟨v1, l', w0', w1', hw1', hr, hl', e1, n1, g1⟩ := obeys_first W hw' hc0 n0
    subst hw1'
    dsimp only
    rw [e1]
    dsimp only
    rw [if_pos rfl]
    generalize hfd : E.spanner entries default = f at hr
    cases hr with
    | @fork _ _ _ _ _ _ w bs _ a j start span S pick ws bss ends ha hj hRj hf hS hnd hlt h3 h4 h5 hg hr =>
      cases hr
      obtain ⟨v2, v4, v5, e2, e4, e5, n5, g5⟩ := obeys_inside W hl' ha
        (show (b.mapper.lpd a).map (fun j => (⟨j, 0⟩ : Loc)) = some ⟨j, 0⟩ by
          rw [show b.mapper.lpd a = some j from (C68_join W.valid W.returns a j).2 hj]; rfl) hf hS (fun _ _ => .inl rfl) hnd hlt h3 h4 h5 hg hlen hx n1
      dsimp only
      rw [e2]
      dsimp only
      rw [e4]
      dsimp only
      rw [e5]
      refine ⟨_, rfl, n5, ?_⟩
      simpa using (g0.trans g1).trans g5
    | @apart _ _ _ _ _ _ w bs _ a start span S pick ws bss ends e ha hj hf hS hB hnd hlt h3 h4 h5 hg hr =>
      cases hr
      obtain ⟨v2, v4, v5, e2, e4, e5, n5, g5⟩ := obeys_inside W hl' ha
        (show (b.mapper.lpd a).map (fun j => (⟨j, 0⟩ : Loc)) = none by
          cases hlp : b.mapper.lpd a with
          | none => rfl
          | some j => exact absurd ((C68_join W.valid W.returns a j).1 hlp) (hj j)) hf hS
        (fun i hi => .inr ⟨rfl, e, rfl, fun x hx => by
          rw [W.m]
          exact not_ldom W.valid (hB i hi x hx)⟩) hnd hlt h3 h4 h5 hg hlen hx n1
      dsimp only
      rw [e2]
      dsimp only
      rw [e4]
      dsimp only
      rw [e5]
      refine ⟨_, rfl, n5, ?_⟩
      simpa using (g0.trans g1).trans g5

theorem obeys_guarded {x : Visit} : Obeys E b x [.guarded] := by
  intro R phi c c' w bs hw
  cases hw

theorem obeys_arm (W : World E b) (n bn : Node) (guard : Option Visit) {x : Visit} {d : List Deed}
    (hx : Obeys E b x d) : Obeys E b (handleArm E n bn guard x) (deedArmOf n bn guard.isSome d) := by
  cases guard with
  | some g => exact obeys_guarded
  | none =>
    intro R phi c c' w bs hw hc v P k Q h
    unfold deedArmOf at hw
    rw [if_neg (by simp)] at hw
    unfold handleArm
    rw [if_neg (by simp)]
    cases he : n.entry with
    | none =>
      rw [he] at hw
      cases hw
      exact ⟨v, rfl, h, .refl v⟩
    | some l =>
      rw [he] at hw
      dsimp only at hw
      dsimp only
      have popped : ∀ {v' : V} {w bs}, Went (v.push l) v' w bs → Now E.m R phi v' P k c' Q →
          Now E.m R phi (v'.pop l) P k c' Q ∧ Went v (v'.pop l) w bs := by
        intro v' w bs g n'
        have hp : v'.pop l = { v' with hints := v.hints } := by
          unfold V.pop
          rw [show v'.hints = l :: v.hints from g.hints]
          dsimp only
          rw [if_pos rfl]
        rw [hp]
        exact ⟨n'.same rfl rfl rfl rfl n'.scopes n'.next, g.same rfl rfl rfl rfl rfl rfl g.scopes rfl g.fatal g.unsupported⟩
      have h0 : Now E.m R phi (v.push l) P k c Q := h.same rfl rfl rfl rfl h.scopes h.next
      cases hb : bn.entry with
      | none =>
        rw [hb] at hw
        dsimp only at hw
        dsimp only
        obtain ⟨v', e, n', g⟩ := hx hw hc h0
        rw [show seq ((none : Option Visit).getD .ok) x (v.push l) = .ok v' from e]
        obtain ⟨a1, a2⟩ := popped g n'
        exact ⟨_, rfl, a1, a2⟩
      | some entry =>
        rw [hb] at hw
        dsimp only at hw
        obtain ⟨v1, l', w0, w', rfl, hr, hl', e1, n1, g1⟩ := obeys_first W hw hc h0
        dsimp only
        rw [e1]
        dsimp only
        obtain ⟨v', e, n', g⟩ := hx hr hl' n1
        rw [e]
        obtain ⟨a1, a2⟩ := popped (g1.trans g) n'
        exact ⟨_, rfl, a1, a2⟩

theorem obeys_seqs : ∀ {xs : List Visit} {ds : List (List Deed)}, xs.length = ds.length →
    (∀ (i : Nat) (x : Visit) (d : List Deed), xs[i]? = some x → ds[i]? = some d → Obeys E b x d) →
    Obeys E b (seqs xs) ds.flatten
  | [], [], _, _ => obeys_ok
  | x :: xs, d :: ds, h, hx => by
    rw [seqs, List.flatten_cons]
    exact obeys_seq (hx 0 x d rfl rfl) (obeys_seqs (by simpa using h) (fun i x d h1 h2 => hx (i + 1) x d (by simpa using h1) (by simpa using h2)))
  | [], _ :: _, h, _ => by simp at h
  | _ :: _, [], h, _ => by simp at h

theorem seq_ok (x : Visit) : seq x .ok = x := by
  funext v
  unfold seq
  cases x v <;> rfl

theorem visitArms_seqs (E : Env) : ∀ as : List Arm, visitArms E as = seqs (as.map (visitArm E))
  | [] => by rw [visitArms]; rfl
  | a :: r => by rw [visitArms, visitArms_seqs E r]; rfl

theorem deedArms_map (E : Env) : ∀ as : List Arm, deedArms E as = as.map (deedArm E)
  | [] => by rw [deedArms]; rfl
  | a :: r => by rw [deedArms, deedArms_map E r]; rfl

/-- Two visits with what there is to do in them. -/
theorem obeys_two {x y : Visit} {d e : List Deed} (hx : Obeys E b x d) (hy : Obeys E b y e) :
    ∀ (i : Nat) (z : Visit) (f : List Deed), [x, y][i]? = some z → [d, e][i]? = some f → Obeys E b z f
  | 0, _, _, h1, h2 => by cases h1; cases h2; exact hx
  | 1, _, _, h1, h2 => by cases h1; cases h2; exact hy
  | i + 2, _, _, h1, _ => by simp at h1

/-! ### Whole bodies -/

mutual
theorem obeys_expr (W : World E b) : ∀ e, Obeys E b (visitExpr E e) (deedExpr E e)
  | .ite n cnd thn none => by
    rw [visitExpr.eq_def, deedExpr, deedElse]
    dsimp only
    rw [visitElse]
    exact obeys_branch W n cnd.node (xs := [visitUnder thn.node (visitExpr E thn)]) _ _ (obeys_expr W cnd) rfl
      (fun i z f h1 h2 => by
        cases i with
        | zero => cases h1; cases h2; exact obeys_under _ (obeys_expr W thn)
        | succ i => simp at h1)
  | .ite n cnd thn (some els) => by
    rw [visitExpr.eq_def, deedExpr, deedElse]
    dsimp only
    rw [visitElse]
    rw [← seq_ok (visitUnder els.node (visitExpr E els))]
    exact obeys_branch W n cnd.node (xs := [visitUnder thn.node (visitExpr E thn), visitUnder els.node (visitExpr E els)])
      _ _ (obeys_expr W cnd) rfl
      (obeys_two (obeys_under _ (obeys_expr W thn)) (obeys_under _ (obeys_expr W els)))
  | .whileLoop n cnd thn els => by
    rw [visitExpr.eq_def, deedExpr]
    dsimp only
    rw [← seq_ok (visitUnder els.node (visitExpr E els))]
    exact obeys_branch W n cnd.node (xs := [visitUnder thn.node (visitExpr E thn), visitUnder els.node (visitExpr E els)])
      _ _ (obeys_expr W cnd) rfl
      (obeys_two (obeys_under _ (obeys_expr W thn)) (obeys_under _ (obeys_expr W els)))
  | .forLoop n cnd nothing item => by
    rw [visitExpr.eq_def, deedExpr]
    dsimp only
    rw [← seq_ok (visitArm E item)]
    exact obeys_branch W n cnd.node (xs := [visitArm E nothing, visitArm E item])
      _ _ (obeys_expr W cnd) rfl (obeys_two (obeys_arme W nothing) (obeys_arme W item))
  | .mtch n fromFor cnd arms => by
    rw [visitExpr.eq_def, deedExpr]
    dsimp only
    rw [visitArms_seqs]
    have hl : (arms.map (visitArm E)).length = (deedArms E arms).length := by rw [deedArms_map]; simp
    split
    · exact obeys_seq (obeys_expr W cnd) (obeys_seqs hl (obeys_armes W arms))
    · exact obeys_branch W n cnd.node _ _ (obeys_expr W cnd) hl (obeys_armes W arms)
  | .other n parts => by rw [visitExpr, deedExpr]; exact obeys_parts W parts
theorem obeys_armes (W : World E b) : ∀ (as : List Arm) (i : Nat) (x : Visit) (d : List Deed),
    (as.map (visitArm E))[i]? = some x → (deedArms E as)[i]? = some d → Obeys E b x d
  | [], i, x, d, h1, _ => by simp at h1
  | a :: r, 0, x, d, h1, h2 => by
    rw [deedArms] at h2
    cases h1
    cases h2
    exact obeys_arme W a
  | a :: r, i + 1, x, d, h1, h2 => by
    rw [deedArms] at h2
    exact obeys_armes W r i x d (by simpa using h1) (by simpa using h2)
theorem obeys_arme (W : World E b) : ∀ a, Obeys E b (visitArm E a) (deedArm E a)
  | .mk n pat none body => by
    rw [visitArm, deedArm]
    exact obeys_arm W n body.node none (obeys_expr W body)
  | .mk n pat (some g) body => by
    rw [deedArm]
    exact obeys_guarded
theorem obeys_opt (W : World E b) : ∀ e, Obeys E b (visitOpt E e) (deedOpt E e)
  | none => by rw [visitOpt, deedOpt]; exact obeys_ok
  | some e => by rw [visitOpt, deedOpt]; exact obeys_expr W e
theorem obeys_parts (W : World E b) : ∀ e, Obeys E b (visitParts E e) (deedParts E e)
  | [] => by rw [visitParts, deedParts]; exact obeys_ok
  | p :: r => by rw [visitParts, deedParts]; exact obeys_seq (obeys_part W p) (obeys_parts W r)
theorem obeys_part (W : World E b) : ∀ e, Obeys E b (visitPart E e) (deedPart E e)
  | .expr e => by rw [visitPart, deedPart]; exact obeys_expr W e
  | .block b => by rw [visitPart, deedPart]; exact obeys_block W b
  | .body e => by rw [visitPart, deedPart]; exact obeys_seq (obeys_expr W e) (obeys_step W _)
theorem obeys_stmts (W : World E b) : ∀ e, Obeys E b (visitStmts E e) (deedStmts E e)
  | [] => by rw [visitStmts, deedStmts]; exact obeys_ok
  | p :: r => by rw [visitStmts, deedStmts]; exact obeys_seq (obeys_stm W p) (obeys_stmts W r)
theorem obeys_stm (W : World E b) : ∀ e, Obeys E b (visitStmt E e) (deedStmt E e)
  | .lt n locals init els => by
    rw [visitStmt, deedStmt]
    exact obeys_stmt W _ _ (obeys_seq (obeys_opt W init) (obeys_optBlock W els))
  | .expr n e => by rw [visitStmt, deedStmt]; exact obeys_stmt W _ _ (obeys_expr W e)
  | .item n bodies => by rw [visitStmt, deedStmt]; exact obeys_stmt W _ _ (obeys_parts W bodies)
theorem obeys_optBlock (W : World E b) : ∀ e, Obeys E b (visitOptBlock E e) (deedOptBlock E e)
  | none => by rw [visitOptBlock, deedOptBlock]; exact obeys_ok
  | some b => by rw [visitOptBlock, deedOptBlock]; exact obeys_block W b
theorem obeys_block (W : World E b) : ∀ e, Obeys E b (visitBlock E e) (deedBlock E e)
  | .mk n stmts none => by rw [visitBlock, deedBlock]; exact obeys_scope (obeys_stmts W stmts)
  | .mk n stmts (some e) => by
    rw [visitBlock, deedBlock]
    exact obeys_scope (obeys_seq (obeys_stmts W stmts) (obeys_seq (obeys_expr W e) (obeys_step W _)))
end

end

/-- The builder makes exactly the steps and branches of a walk. -/
theorem steps {b : Body} (hv : Valid b) (hret : b.returns ≠ []) {fuel : Nat} (hfu : fuel ≠ 0)
    (order : List (Loc × Nat) → List (Loc × Nat)) (value : Expr) {R : Nat → Prop} (hR : R 0) {w : List Step}
    {bs : List Fork} {c : Loc}
    (hw : Goes b R none startLoc (deedBody (.ofBody b fuel order) value) w bs c) :
    ∃ f locals, compute (.ofBody b fuel order) value = .steps f locals ∧
      f.segs.map (fun g => (g.from, g.to, g.span)) = w ∧
      f.branches.map (forkOf w) = bs.map Fork.real := by
  have W : World (.ofBody b fuel order) b := ⟨rfl, hfu, hv, hret⟩
  have n0 : Now (Env.ofBody b fuel order).m R none V.make [] 0 startLoc [] :=
    ⟨rfl, by simp, ⟨[], none, rfl, .inl rfl⟩, by simp [V.make, St.make], rfl, rfl, ⟨[], 0, rfl⟩, Nat.one_pos, fun _ => ⟨rfl, rfl⟩⟩
  obtain ⟨v, e, n, g⟩ := obeys_seq (obeys_expr W value) (obeys_step W value.node) hw hR n0
  have hu : v.unsupported = 0 := g.unsupported
  have hf : v.fatal = [] := g.fatal
  have hz : v.st.freeze = .ok ⟨v.st.colls, v.st.branches, v.st.segs, v.st.scopeGraph⟩ := by
    unfold St.freeze
    rw [n.processing]
    rfl
  refine ⟨⟨v.st.colls, v.st.branches, v.st.segs, v.st.scopeGraph⟩, v.locals, ?_, g.segs, ?_⟩
  · have e' : visitBody (.ofBody b fuel order) value V.make = .ok v := e
    unfold compute
    rw [e']
    dsimp only
    rw [if_neg (by simp [hu]), if_neg (by simp [hf]), hz]
  · obtain ⟨ex, h1, h2⟩ := g.branches
    change v.st.branches.map _ = _
    have hw : triples v.st.segs = w := g.segs
    rw [hw] at h2
    rw [h1]
    exact h2

end Verif.Walk
