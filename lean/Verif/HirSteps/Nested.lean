import Verif.Segments.Nested
import Verif.HirSteps.Straight
/-!
# C100: functions whose conditionals are properly nested

What the visitor does, in order and by nesting (`Deed`), how it lies on a control flow described by a `Flow` (`Goes`),
and that the builder then makes exactly the steps and branches of that walk.
-/
namespace Verif.HirSteps

open Verif.Cfg Verif.Segments Verif.Graph

/-! ## What there is to do -/

/-- What the visitor wants from the builder. -/
inductive Deed
  /-- a step that ends at the location and is shown at the span -/
  | step (l : Loc) (span : Nat)
  /-- an `if` whose condition has been evaluated at the location, with what is to be done in its two arms -/
  | fork (l : Loc) (f : Spanner) (thn els : List Deed)
  /-- anything but an `if` that may open a branch -/
  | other

def deedAfter (E : Env) (n : Node) : List Deed :=
  match after E.next n with
  | none => []
  | some l => [.step l n.span]

def deedIf (n : Node) (w : List Deed) : List Deed := if n.entry = none then [] else w

def deedFork (E : Env) (n cn : Node) (f : Spanner) (thn els : List Deed) : List Deed :=
  match (after E.next cn).or n.entry with
  | none => []
  | some l => [.step l cn.span, .fork l f thn els]

/-- The entries of the arms of an `if` and where they are shown. -/
def ifEntries (thn : Node) (els : Option Node) : List (Loc × Nat) :=
  match els with
  | none => setEntry [] thn.entry thn.lo
  | some els => setEntry (setEntry [] thn.entry thn.lo) els.entry els.lo

mutual
def deedExpr (E : Env) : Expr → List Deed
  | .ite n cnd thn els => deedExpr E cnd ++
      deedFork E n cnd.node (E.spanner (ifEntries thn.node (els.map Expr.node)) n.hi) (deedIf thn.node (deedExpr E thn))
        (deedElse E els)
  | .whileLoop _ _ _ _ => [.other]
  | .forLoop _ _ _ _ => [.other]
  | .mtch _ _ _ _ => [.other]
  | .other _ parts => deedParts E parts
def deedElse (E : Env) : Option Expr → List Deed
  | none => []
  | some e => deedIf e.node (deedExpr E e)
def deedOpt (E : Env) : Option Expr → List Deed
  | none => []
  | some e => deedExpr E e
def deedParts (E : Env) : List Part → List Deed
  | [] => []
  | p :: r => deedPart E p ++ deedParts E r
def deedPart (E : Env) : Part → List Deed
  | .expr e => deedExpr E e
  | .block b => deedBlock E b
  | .body e => deedExpr E e ++ deedAfter E e.node
def deedStmts (E : Env) : List Stmt → List Deed
  | [] => []
  | s :: r => deedStmt E s ++ deedStmts E r
def deedStmt (E : Env) : Stmt → List Deed
  | .lt n _ init els => deedOpt E init ++ deedOptBlock E els ++ deedAfter E n
  | .expr n e => deedExpr E e ++ deedAfter E n
  | .item n bodies => deedParts E bodies ++ deedAfter E n
def deedOptBlock (E : Env) : Option HirSteps.Block → List Deed
  | none => []
  | some b => deedBlock E b
def deedBlock (E : Env) : HirSteps.Block → List Deed
  | .mk _ stmts none => deedStmts E stmts
  | .mk _ stmts (some e) => deedStmts E stmts ++ (deedExpr E e ++ deedAfter E e.node)
end

/-- What there is to do in a body. -/
def deedBody (E : Env) (value : Expr) : List Deed := deedExpr E value ++ deedAfter E value.node

/-! ## How it lies on the control flow -/

/-- A step as it is shown: from, to, span. -/
abbrev Step := Loc × Loc × Nat

/-- Walking along the stretch `L` from a location to another one while doing what there is to do.  Every step ends
later on the stretch than the one before it.  A conditional is met right before it is evaluated; its arms are walked
along each on its own, from the places the spanner chooses; and the walk goes on where they come together.
Recorded are the steps made and, for each conditional, its switch and its join. -/
inductive Goes (m : Mapper) : Flow → Loc → List Deed → List Step → List (Loc × Loc) → Loc → Prop
  | done {L c} : Goes m L c [] [] [] c
  | step {L c l sp ds w bs c'} : Before L.spine c l → Goes m L l ds w bs c' →
      Goes m L c (.step l sp :: ds) ((c, l, sp) :: w) bs c'
  | fork {L l f thn els ds w bs c'} {a t e r p q j} {lt le : Loc} {st se : Nat} {w1 b1 c1 w2 b2 c2} (flip : Bool) :
      Leads L l.block (.fork a t e r) →
      t.first none = some p → e.first none = some q → r.first none = some j →
      f ⟨p, 0⟩ = (lt, st) → f ⟨q, 0⟩ = (le, se) → lt.block ∈ t.spine → le.block ∈ e.spine →
      Goes m (if flip then e else t) (if flip then le else lt) thn w1 b1 c1 →
      Goes m (if flip then t else e) (if flip then lt else le) els w2 b2 c2 →
      Goes m L ⟨j, 0⟩ ds w bs c' →
      Goes m L l (.fork l f thn els :: ds) ((l, lt, st) :: (l, le, se) :: (w1 ++ w2 ++ w))
        ((⟨a, m.stmts a⟩, ⟨j, 0⟩) :: (b1 ++ b2 ++ bs)) c'

theorem leads_spine : ∀ {L : Flow} {u : Nat} {a : Nat} {t e r : Flow}, Leads L u (.fork a t e r) →
    u ∈ L.spine ∧ ∀ x ∈ r.spine, x ∈ L.spine := by
  have comes : ∀ {L : Flow} {a : Nat} {t e r : Flow}, Comes L (.fork a t e r) → ∀ x ∈ r.spine, x ∈ L.spine := by
    intro L
    induction L with
    | nil => exact fun h => h.elim
    | blk b L ih => exact fun h x hx => List.mem_cons_of_mem _ (ih h x hx)
    | fork b t e r _ _ _ =>
      intro _ _ _ _ h x hx
      cases h
      exact List.mem_cons_of_mem _ hx
  intro L
  induction L with
  | nil => exact fun h => h.elim
  | blk b L ih =>
    intro u a t e r h
    rcases h with ⟨rfl, h⟩ | h
    · exact ⟨List.mem_cons_self, fun x hx => List.mem_cons_of_mem _ (comes h x hx)⟩
    · exact ⟨List.mem_cons_of_mem _ (ih h).1, fun x hx => List.mem_cons_of_mem _ ((ih h).2 x hx)⟩
  | fork b t' e' r' _ _ ih =>
    intro u a t e r h
    rcases h with ⟨rfl, h⟩ | h
    · cases h
      exact ⟨List.mem_cons_self, fun x hx => List.mem_cons_of_mem _ hx⟩
    · exact ⟨List.mem_cons_of_mem _ (ih h).1, fun x hx => List.mem_cons_of_mem _ ((ih h).2 x hx)⟩

theorem first_in {r : Flow} {j : Nat} (h : r.first none = some j) : j ∈ r.spine := by
  have hr : r ≠ .nil := by rintro rfl; simp [Flow.first] at h
  obtain ⟨x, hx, hm⟩ := Flow.first_spine hr
  rw [hx] at h
  cases h
  exact hm

/-- A walk stays on its stretch. -/
theorem Goes.mem {m : Mapper} {L : Flow} {c c' : Loc} {ds : List Deed} {w : List Step} {bs : List (Loc × Loc)}
    (h : Goes m L c ds w bs c') (hc : c.block ∈ L.spine) : c'.block ∈ L.spine := by
  induction h with
  | done => exact hc
  | step hb _ ih => exact ih hb.mem.2
  | fork flip hl _ _ hj _ _ _ _ _ _ _ _ _ ih => exact ih ((leads_spine hl).2 _ (first_in hj))

theorem Goes.split {m : Mapper} {L : Flow} {ds' : List Deed} : ∀ {ds : List Deed} {c c' : Loc} {w : List Step}
    {bs : List (Loc × Loc)}, Goes m L c (ds ++ ds') w bs c' →
    ∃ w1 b1 c1 w2 b2, Goes m L c ds w1 b1 c1 ∧ Goes m L c1 ds' w2 b2 c' ∧ w = w1 ++ w2 ∧ bs = b1 ++ b2
  | [], c, c', w, bs, h => ⟨[], [], c, w, bs, .done, h, rfl, rfl⟩
  | d :: ds, c, c', w, bs, h => by
    cases h with
    | step hb hr =>
      obtain ⟨w1, b1, c1, w2, b2, h1, h2, rfl, rfl⟩ := Goes.split hr
      exact ⟨_, _, c1, w2, b2, .step hb h1, h2, rfl, rfl⟩
    | fork flip hl hp hq hj hf hg ht he ha hb hr =>
      obtain ⟨w1, b1, c1, w2, b2, h1, h2, rfl, rfl⟩ := Goes.split hr
      exact ⟨_, _, c1, w2, b2, .fork flip hl hp hq hj hf hg ht he ha hb h1, h2, by simp, by simp⟩

/-! ## The builder along a walk -/

/-- The surroundings of a visit of a body described by a stretch. -/
structure World (E : Env) (b : Body) (F : Flow) : Prop where
  m : E.m = b.mapper
  fuel : E.fuel ≠ 0
  valid : Valid b
  shape : Structured b F

/-- The builder works on the stretch `L`, with the collection `k`, and has got to `c`. -/
structure Now (m : Mapper) (L : Flow) (v : V) (P : List Builder) (k : Nat) (c : Loc) (Q : List Builder) : Prop where
  processing : v.st.processing = P ++ ⟨k, c⟩ :: Q
  apart : ∀ x ∈ Q, ∀ l : Loc, l.block ∈ L.blocks → m.ldom x.cur l = false
  coll : ∃ d phi, v.st.colls[k]? = some ⟨d, phi⟩ ∧
    ∀ p, phi = some p → ∀ l : Loc, l.block ∈ L.blocks → m.ldom p l = false
  known : ∀ x ∈ v.st.processing, x.coll < v.st.colls.length
  keys : v.st.uf.root = List.range v.st.branches.length
  tables : v.st.branches.map (·.tableId) = List.range v.st.branches.length
  scopes : ∃ os s, v.st.openScopes = os ++ [s]
  next : 0 < v.st.nextScope

/-- The state that only differs in what does not matter for `Now`. -/
theorem Now.same {m : Mapper} {L : Flow} {v v' : V} {P : List Builder} {k : Nat} {c : Loc} {Q : List Builder}
    (h : Now m L v P k c Q) (h1 : v'.st.processing = v.st.processing) (h2 : v'.st.colls = v.st.colls)
    (h3 : v'.st.uf = v.st.uf) (h4 : v'.st.branches = v.st.branches)
    (h5 : ∃ os s, v'.st.openScopes = os ++ [s]) (h6 : 0 < v'.st.nextScope) : Now m L v' P k c Q :=
  ⟨h1.trans h.processing, h.apart, by rw [h2]; exact h.coll, by rw [h1, h2]; exact h.known,
    by rw [h3, h4]; exact h.keys, by rw [h4]; exact h.tables, h5, h6⟩

/-- What has been added between two states. -/
structure Went (v v' : V) (w : List Step) (bs : List (Loc × Loc)) : Prop where
  segs : v'.st.segs.map (fun g => (g.from, g.to, g.span)) = v.st.segs.map (fun g => (g.from, g.to, g.span)) ++ w
  branches : ∃ ex, v'.st.branches = v.st.branches ++ ex ∧ ex.map (fun x => (x.reachFrom, x.reachTo)) = bs
  colls : ∀ (i : Nat) (d : List CF) (phi : Option Loc), v.st.colls[i]? = some ⟨d, phi⟩ →
    ∃ d', v'.st.colls[i]? = some ⟨d', phi⟩
  grows : v.st.colls.length ≤ v'.st.colls.length
  scopes : v'.st.openScopes = v.st.openScopes
  hints : v'.hints = v.hints
  fatal : v'.fatal = v.fatal
  unsupported : v'.unsupported = v.unsupported

theorem Went.refl (v : V) : Went v v [] [] :=
  ⟨by simp, ⟨[], by simp, rfl⟩, fun _ d _ h => ⟨d, h⟩, Nat.le_refl _, rfl, rfl, rfl, rfl⟩

theorem Went.trans {v v1 v2 : V} {w1 w2 : List Step} {b1 b2 : List (Loc × Loc)} (h1 : Went v v1 w1 b1)
    (h2 : Went v1 v2 w2 b2) : Went v v2 (w1 ++ w2) (b1 ++ b2) where
  segs := by rw [h2.segs, h1.segs, List.append_assoc]
  branches := by
    obtain ⟨e1, h3, h4⟩ := h1.branches
    obtain ⟨e2, h5, h6⟩ := h2.branches
    exact ⟨e1 ++ e2, by rw [h5, h3, List.append_assoc], by rw [List.map_append, h4, h6]⟩
  colls := fun i d phi h => by
    obtain ⟨d1, h3⟩ := h1.colls i d phi h
    exact h2.colls i d1 phi h3
  grows := Nat.le_trans h1.grows h2.grows
  scopes := h2.scopes.trans h1.scopes
  hints := h2.hints.trans h1.hints
  fatal := h2.fatal.trans h1.fatal
  unsupported := h2.unsupported.trans h1.unsupported

/-- The same changes, between states that differ in what is not compared. -/
theorem Went.same {v v' u u' : V} {w : List Step} {bs : List (Loc × Loc)} (h : Went v v' w bs)
    (h1 : u.st.segs = v.st.segs) (h2 : u.st.branches = v.st.branches) (h3 : u.st.colls = v.st.colls)
    (h1' : u'.st.segs = v'.st.segs) (h2' : u'.st.branches = v'.st.branches) (h3' : u'.st.colls = v'.st.colls)
    (h4 : u'.st.openScopes = u.st.openScopes) (h5 : u'.hints = u.hints) (h6 : u'.fatal = u.fatal)
    (h7 : u'.unsupported = u.unsupported) : Went u u' w bs :=
  ⟨by rw [h1, h1']; exact h.segs, by rw [h2, h2']; exact h.branches, by rw [h3, h3']; exact h.colls,
    by rw [h3, h3']; exact h.grows, h4, h5, h6, h7⟩

/-- The visit does what there is to do, wherever the walk goes. -/
def Obeys (E : Env) (F : Flow) (a : Visit) (ds : List Deed) : Prop :=
  ∀ {L : Flow}, Sub L F → ∀ {c c' : Loc} {w : List Step} {bs : List (Loc × Loc)}, Goes E.m L c ds w bs c' →
    c.block ∈ L.spine → ∀ {v : V} {P : List Builder} {k : Nat} {Q : List Builder}, Now E.m L v P k c Q →
    ∃ v', a v = .ok v' ∧ Now E.m L v' P k c' Q ∧ Went v v' w bs

theorem find_stack {P Q : List Builder} {x : Builder} {p : Builder → Bool} (hQ : ∀ y ∈ Q, p y = false)
    (hx : p x = true) : (P ++ x :: Q).zipIdx.reverse.find? (fun z => p z.1) = some (x, P.length) := by
  rw [List.zipIdx_append, List.reverse_append, List.find?_append, List.zipIdx_cons, List.reverse_cons,
    List.find?_append]
  have h1 : (Q.zipIdx (0 + P.length + 1)).reverse.find? (fun z => p z.1) = none := by
    rw [List.find?_eq_none]
    intro z hz
    rw [List.mem_reverse] at hz
    have := hQ z.1 (List.fst_mem_of_mem_zipIdx hz)
    simp [this]
  rw [h1]
  simp [hx]

theorem found {m : Mapper} {L : Flow} {v : V} {P Q : List Builder} {k : Nat} {c l : Loc} (h : Now m L v P k c Q)
    (hl : l.block ∈ L.blocks) (hd : m.ldom c l = true) : v.st.findBuilder m l = some (⟨k, c⟩, P.length) := by
  unfold St.findBuilder
  rw [h.processing]
  exact find_stack (p := fun y => m.ldom y.cur l) (fun y hy => h.apart y hy l hl) hd

theorem set_stack (P Q : List Builder) (x y : Builder) : (P ++ x :: Q).set P.length y = P ++ y :: Q := by
  simp

theorem pushCF_length (cs : List Coll) (k : Nat) (x : CF) : (pushCF cs k x).length = cs.length := by
  simp [pushCF]

theorem pushCF_get {cs : List Coll} {k i : Nat} {x : CF} {d : List CF} {phi : Option Loc}
    (h : cs[i]? = some ⟨d, phi⟩) : ∃ d', (pushCF cs k x)[i]? = some ⟨d', phi⟩ := by
  unfold pushCF
  rw [List.getElem?_modify, h]
  by_cases hk : k = i
  · exact ⟨d ++ [x], by simp [hk]⟩
  · exact ⟨d, by simp [hk]⟩

section
variable {E : Env} {b : Body} {F : Flow}

/-- Inserting a step that ends later on the stretch. -/
theorem obeys_insert (W : World E b F) {L : Flow} (hs : Sub L F) {c l : Loc} (hb : Before L.spine c l) (sp : Nat)
    {v : V} {P : List Builder} {k : Nat} {Q : List Builder} (h : Now E.m L v P k c Q) :
    ∃ v', v.insert E l sp = .ok (v', true) ∧ Now E.m L v' P k l Q ∧ Went v v' [(c, l, sp)] [] := by
  obtain ⟨n, hn⟩ := Nat.exists_eq_succ_of_ne_zero W.fuel
  obtain ⟨hd, hp⟩ := W.shape.ldom_before W.valid hs hb
  rw [← W.m] at hd hp
  have hl : l.block ∈ L.blocks := Flow.spine_blocks hb.mem.2
  obtain ⟨os, s0, hos⟩ := h.scopes
  have hcs : v.st.currentScope = .ok s0 := by
    unfold St.currentScope
    rw [hos, List.getLast?_append]
    rfl
  have hfs : v.st.findSuitable E.m l = .linear ⟨k, c⟩ P.length := by
    unfold St.findSuitable
    rw [found h hl hd]
    dsimp only
    rw [hp]
    rfl
  obtain ⟨d, phi, hc, hphi⟩ := h.coll
  have hend : v.st.insertEnd E.m ⟨k, c⟩ l = l := by
    unfold St.insertEnd
    rw [hc]
    cases phi with
    | none => rfl
    | some p => simp [hphi p rfl l hl]
  have hset : v.st.processing.set P.length ⟨k, l⟩ = P ++ ⟨k, l⟩ :: Q := by
    rw [h.processing, set_stack]
  refine ⟨{ v.called (.insert l sp) with st := v.st.insertTo ⟨k, c⟩ P.length l sp s0 }, ?_, ?_, ?_⟩
  · unfold V.insert
    change (match v.st.insert E.secondWins E.m E.fuel l sp with
      | .ok s => _
      | .error .fail => _
      | .error e => _) = _
    rw [hn, St.insert, hfs]
    dsimp only
    rw [hcs]
    dsimp only
    rw [hend]
  · refine ⟨hset, h.apart, ?_, ?_, h.keys, h.tables, h.scopes, h.next⟩
    · obtain ⟨d', hd'⟩ := pushCF_get (k := k) (x := .linear v.st.segs.length) hc
      exact ⟨d', phi, hd', hphi⟩
    · intro x hx
      change x ∈ v.st.processing.set P.length ⟨k, l⟩ at hx
      change x.coll < (pushCF v.st.colls k (.linear v.st.segs.length)).length
      rw [pushCF_length]
      rw [hset] at hx
      have hk := h.known
      rw [h.processing] at hk
      rcases List.mem_append.1 hx with hx | hx
      · exact hk x (List.mem_append_left _ hx)
      · rcases List.mem_cons.1 hx with rfl | hx
        · exact hk ⟨k, c⟩ (List.mem_append_right _ List.mem_cons_self)
        · exact hk x (List.mem_append_right _ (List.mem_cons_of_mem _ hx))
  · refine ⟨?_, ⟨[], by simp [V.called, St.insertTo], rfl⟩, ?_, ?_, rfl, rfl, rfl, rfl⟩
    · change (v.st.segs ++ [_]).map _ = _
      rw [List.map_append]
      rfl
    · intro i d phi hi
      exact pushCF_get (cs := v.st.colls) hi
    · change v.st.colls.length ≤ (pushCF v.st.colls k (.linear v.st.segs.length)).length
      rw [pushCF_length]
      exact Nat.le_refl _

theorem obeys_ok : Obeys E F .ok [] := by
  intro L _ c c' w bs hw _ v P k Q h
  cases hw
  exact ⟨v, rfl, h, .refl v⟩

theorem obeys_seq {x y : Visit} {d1 d2 : List Deed} (hx : Obeys E F x d1) (hy : Obeys E F y d2) :
    Obeys E F (seq x y) (d1 ++ d2) := by
  intro L hs c c' w bs hw hc v P k Q h
  obtain ⟨w1, b1, c1, w2, b2, h1, h2, rfl, rfl⟩ := hw.split
  obtain ⟨v1, e1, n1, g1⟩ := hx hs h1 hc h
  obtain ⟨v2, e2, n2, g2⟩ := hy hs h2 (h1.mem hc) n1
  exact ⟨v2, by rw [seq_eq e1, e2], n2, g1.trans g2⟩

theorem obeys_step (W : World E b F) (n : Node) : Obeys E F (fun v => v.stepAfter E n) (deedAfter E n) := by
  intro L hs c c' w bs hw _ v P k Q h
  unfold deedAfter at hw
  change ∃ v', v.stepAfter E n = .ok v' ∧ _
  unfold V.stepAfter Env.exitOf
  change ∃ v', (match after E.next n with
    | none => _
    | some exit => _) = Except.ok v' ∧ _
  cases he : after E.next n with
  | none =>
    rw [he] at hw
    cases hw
    exact ⟨v, rfl, h, .refl v⟩
  | some l =>
    rw [he] at hw
    cases hw with
    | step hb hr =>
      cases hr
      obtain ⟨v', e, n', g⟩ := obeys_insert W hs hb n.span h
      exact ⟨v', by dsimp only; rw [e], n', g⟩

theorem obeys_under (n : Node) {x : Visit} {d : List Deed} (hx : Obeys E F x d) :
    Obeys E F (visitUnder n x) (deedIf n d) := by
  intro L hs c c' w bs hw hc v P k Q h
  unfold deedIf at hw
  unfold visitUnder
  cases he : n.entry with
  | none =>
    rw [he, if_pos rfl] at hw
    cases hw
    exact ⟨v, rfl, h, .refl v⟩
  | some l =>
    rw [he, if_neg (by simp)] at hw
    obtain ⟨v', e, n', g⟩ := hx hs hw hc (h.same (v' := v.push l) rfl rfl rfl rfl h.scopes h.next)
    dsimp only
    rw [e]
    have hp : v'.pop l = { v' with hints := v.hints } := by
      unfold V.pop
      rw [show v'.hints = l :: v.hints from g.hints]
      dsimp only
      rw [if_pos rfl]
    refine ⟨v'.pop l, rfl, ?_, ?_⟩
    · rw [hp]
      exact n'.same rfl rfl rfl rfl n'.scopes n'.next
    · rw [hp]
      exact g.same rfl rfl rfl rfl rfl rfl g.scopes rfl g.fatal g.unsupported

theorem openScope_now {L : Flow} {v : V} {P Q : List Builder} {k : Nat} {c : Loc} {m : Mapper}
    (h : Now m L v P k c Q) : ∃ s, v.openScope = .ok ({ v.called .openScope with st := s }, some v.st.nextScope) ∧
    s.openScopes = v.st.openScopes ++ [v.st.nextScope] ∧ s.segs = v.st.segs ∧ s.branches = v.st.branches ∧
    s.colls = v.st.colls ∧ Now m L { v.called .openScope with st := s } P k c Q := by
  obtain ⟨os, s0, hos⟩ := h.scopes
  have hg : v.st.openScopes.getLast? = some s0 := by rw [hos, List.getLast?_append]; rfl
  have h1 : v.st.openScope = .ok (v.st.nextScope, { v.st with
      scopeGraph := v.st.scopeGraph ++ [(v.st.nextScope, s0)], nextScope := v.st.nextScope + 1,
      openScopes := v.st.openScopes ++ [v.st.nextScope] }) := by
    unfold St.openScope St.currentScope
    rw [hg]
  refine ⟨{ v.st with
      scopeGraph := v.st.scopeGraph ++ [(v.st.nextScope, s0)], nextScope := v.st.nextScope + 1,
      openScopes := v.st.openScopes ++ [v.st.nextScope] }, ?_, rfl, rfl, rfl, rfl,
    h.same rfl rfl rfl rfl ⟨v.st.openScopes, v.st.nextScope, rfl⟩ (Nat.succ_pos _)⟩
  unfold V.openScope
  change (match v.st.openScope with
    | .ok (id, s) => _
    | .error .fail => _
    | .error e => _) = _
  rw [h1]

theorem closeScope_now {m : Mapper} {L : Flow} {v : V} {P Q : List Builder} {k : Nat} {c : Loc}
    (h : Now m L v P k c Q) {os : List Nat} {id : Nat} (hos : v.st.openScopes = os ++ [id])
    (hne : ∃ a b, os = a ++ [b]) (hid : 0 < id) :
    ∃ v', v.closeScope id = .ok (v', true) ∧ Now m L v' P k c Q ∧ v'.st.segs = v.st.segs ∧
      v'.st.branches = v.st.branches ∧ v'.st.colls = v.st.colls ∧ v'.st.openScopes = os ∧
      v'.hints = v.hints ∧ v'.fatal = v.fatal ∧ v'.unsupported = v.unsupported := by
  have hg : v.st.openScopes.getLast? = some id := by rw [hos, List.getLast?_append]; rfl
  have h1 : v.st.closeScope id = .ok { v.st with openScopes := os } := by
    unfold St.closeScope
    rw [if_neg (by omega), hg]
    dsimp only
    rw [if_pos rfl, hos, List.dropLast_concat]
  refine ⟨{ v.called (.closeScope id) with st := { v.st with openScopes := os } }, ?_,
    h.same rfl rfl rfl rfl hne h.next, rfl, rfl, rfl, rfl, rfl, rfl, rfl⟩
  unfold V.closeScope
  change (match v.st.closeScope id with
    | .ok s => _
    | .error .fail => _
    | .error e => _) = _
  rw [h1]

theorem obeys_scope {x : Visit} {d : List Deed} (hx : Obeys E F x d) : Obeys E F (inScope x) d := by
  intro L hs c c' w bs hw hc v P k Q h
  obtain ⟨s, e1, o1, g1, r1, l1, n1⟩ := openScope_now h
  obtain ⟨v2, e2, n2, w2⟩ := hx hs hw hc n1
  obtain ⟨v3, e3, n3, g3, r3, l3, o3, i3, f3, u3⟩ := closeScope_now n2 (w2.scopes.trans o1) h.scopes h.next
  refine ⟨v3, ?_, n3, w2.same g1.symm r1.symm l1.symm g3 r3 l3 o3 (i3.trans w2.hints) (f3.trans w2.fatal)
    (u3.trans w2.unsupported)⟩
  unfold inScope
  rw [e1]
  dsimp only
  rw [e2]
  dsimp only
  rw [e3]

theorem obeys_stmt (W : World E b F) (n : Node) (locals : List Nat) {x : Visit} {d : List Deed}
    (hx : Obeys E F x d) : Obeys E F (inStmt E n locals x) (d ++ deedAfter E n) := by
  intro L hs c c' w bs hw hc v P k Q h
  obtain ⟨w1, b1, c1, w2, b2, hw1, hw2, rfl, rfl⟩ := hw.split
  obtain ⟨s, e1, o1, g1, r1, l1, n1⟩ := openScope_now h
  have hst := inside_st v s locals
  have n2 : Now E.m L (v.inside s locals) P k c Q :=
    n1.same (by rw [hst]) (by rw [hst]) (by rw [hst]) (by rw [hst]) (by rw [hst]; exact n1.scopes)
      (by rw [hst]; exact n1.next)
  obtain ⟨v2, e2, n2', a2⟩ := hx hs hw1 hc n2
  have o2 : v2.st.openScopes = v.st.openScopes ++ [v.st.nextScope] := by rw [a2.scopes, hst, o1]
  obtain ⟨v3, e3, n3, g3, r3, l3, o3, i3, f3, u3⟩ := closeScope_now n2' o2 h.scopes h.next
  have hh : (v.inside s locals).hints = v.hints := by unfold V.inside; split <;> rfl
  have a3 : Went v v3 w1 b1 := a2.same (by rw [hst, g1]) (by rw [hst, r1]) (by rw [hst, l1]) g3 r3 l3 o3
    (by rw [i3, a2.hints, hh]) (by rw [f3, a2.fatal, inside_fatal]) (by rw [u3, a2.unsupported, inside_unsupported])
  obtain ⟨v4, e4, n4, a4⟩ := obeys_step W n hs hw2 (hw1.mem hc) n3
  refine ⟨v4, ?_, n4, a3.trans a4⟩
  unfold inStmt
  rw [e1]
  dsimp only
  have hin : (if locals.isEmpty = true then ({ v.called .openScope with st := s } : V)
      else { ({ v.called .openScope with st := s } : V) with
        locals := ({ v.called .openScope with st := s } : V).locals ++ [(v.st.nextScope, locals)] }) =
      v.inside s locals := by
    unfold V.inside
    split <;> rfl
  rw [hin, e2]
  dsimp only
  rw [e3]
  exact e4

/-! ### A conditional -/

theorem only_one : ∀ {bs : List Branch} {s i : Nat} {x : Branch}, bs.map (·.tableId) = List.range' s bs.length →
    bs[i]? = some x → bs.filter (fun y => decide (s + i = y.tableId)) = [x]
  | [], _, _, _, _, h => by simp at h
  | y :: bs, s, i, x, hm, h => by
    rw [List.map_cons, List.length_cons, List.range'_succ, List.cons.injEq] at hm
    cases i with
    | zero =>
      have hyx : y = x := by simpa using h
      rw [List.filter_cons_of_pos (by simp [hm.1]), hyx, List.cons.injEq]
      refine ⟨rfl, ?_⟩
      rw [List.filter_eq_nil_iff]
      intro z hz
      have hz' : z.tableId ∈ bs.map (·.tableId) := List.mem_map_of_mem hz
      rw [hm.2, List.mem_range'_1] at hz'
      simp only [Nat.add_zero, decide_eq_true_eq]
      omega
    | succ i =>
      rw [List.filter_cons_of_neg (by simp only [hm.1, decide_eq_true_eq]; omega)]
      have := only_one (s := s + 1) (i := i) (x := x) hm.2 (by simpa using h)
      rw [show s + (i + 1) = s + 1 + i by omega]
      exact this

/-- Closing a branch removes the builders of its arms and nothing else. -/
theorem close_now {v : V} {bid n : Nat} {br : Branch} {R : List Builder} {x y : Loc}
    (hk : v.st.uf.root = List.range v.st.branches.length)
    (ht : v.st.branches.map (·.tableId) = List.range v.st.branches.length)
    (hb : v.st.branches[bid]? = some br) (hn : br.nested = [n, n + 1])
    (hp : v.st.processing = R ++ [⟨n, x⟩, ⟨n + 1, y⟩]) (hR : ∀ z ∈ R, z.coll < n) :
    v.closeBranch bid = .ok { v.called (.closeBranch bid) with st := { v.st with processing := R } } := by
  have hbid : br.tableId = bid := by
    have : (v.st.branches.map (·.tableId))[bid]? = some br.tableId := by rw [List.getElem?_map, hb]; rfl
    rw [ht] at this
    obtain ⟨h1, h2⟩ := List.getElem?_eq_some_iff.1 this
    simpa using h2.symm
  have hc : v.st.toClose br.tableId = [br] := by
    unfold St.toClose
    rw [hbid]
    have : ∀ y ∈ v.st.branches, decide (bid = v.st.uf.find y.tableId) = decide (0 + bid = y.tableId) := by
      intro y hy
      have hy' : y.tableId ∈ v.st.branches.map (·.tableId) := List.mem_map_of_mem hy
      rw [ht, List.mem_range] at hy'
      have : v.st.uf.find y.tableId = y.tableId := by
        unfold Uf.find
        rw [hk]
        simp [List.getD_eq_getElem?_getD, hy']
      rw [this, Nat.zero_add]
    rw [List.filter_congr this]
    exact only_one (by rw [ht, List.range_eq_range']) hb
  unfold V.closeBranch
  change (match v.st.closeBranch bid with
    | .ok s => _
    | .error .fail => _
    | .error e => _) = _
  have : v.st.closeBranch bid = .ok { v.st with processing := R } := by
    unfold St.closeBranch
    rw [hb]
    dsimp only
    rw [hc, List.foldl_cons, List.foldl_nil, hp, List.filter_append]
    have h1 : R.filter (fun ob => !decide (ob.coll ∈ br.nested)) = R := by
      rw [List.filter_eq_self]
      intro z hz
      have := hR z hz
      rw [hn]
      simp
      omega
    rw [h1, hn]
    simp
  rw [this]

/-- Opening a branch adds one builder per arm. -/
theorem open_now (W : World E b F) {L : Flow} (hs : Sub L F) {l : Loc} {a : Nat} {t e r : Flow} {p q j : Nat}
    {f : Spanner} (hl : Leads L l.block (.fork a t e r)) (hp : t.first none = some p) (hq : e.first none = some q)
    (hj : r.first none = some j) {v : V} {P : List Builder} {k : Nat} {Q : List Builder}
    (h : Now E.m L v P k l Q) :
    ∃ v', v.openBranch E l f = .ok (v', some v.st.branches.length) ∧
      v'.st.processing = P ++ ⟨k, ⟨j, 0⟩⟩ :: Q ++ [⟨v.st.colls.length, (f ⟨p, 0⟩).1⟩,
        ⟨v.st.colls.length + 1, (f ⟨q, 0⟩).1⟩] ∧
      v'.st.colls.length = v.st.colls.length + 2 ∧
      v'.st.colls[v.st.colls.length]? = some ⟨[], some ⟨j, 0⟩⟩ ∧
      v'.st.colls[v.st.colls.length + 1]? = some ⟨[], some ⟨j, 0⟩⟩ ∧
      v'.st.uf.root = List.range v'.st.branches.length ∧
      v'.st.branches.map (·.tableId) = List.range v'.st.branches.length ∧
      v'.st.nextScope = v.st.nextScope ∧
      (∃ br, v'.st.branches = v.st.branches ++ [br] ∧ br.nested = [v.st.colls.length, v.st.colls.length + 1]) ∧
      Went v v' [(l, (f ⟨p, 0⟩).1, (f ⟨p, 0⟩).2), (l, (f ⟨q, 0⟩).1, (f ⟨q, 0⟩).2)]
        [(⟨a, E.m.stmts a⟩, ⟨j, 0⟩)] := by
  obtain ⟨os, s0, hos⟩ := h.scopes
  have hcs : v.st.currentScope = .ok s0 := by
    unfold St.currentScope
    rw [hos, List.getLast?_append]
    rfl
  have hG : Sub (.fork a t e r) F := hl.sub.trans hs
  obtain ⟨x, h1, h2, h3, h4, h5, h6, h7⟩ := hG.lay W.shape.lay
  have hsucc : E.m.succ a = [p, q] := by
    rw [W.m]
    change b.succ a = _
    rw [h4, hp, hq]
    rfl
  have hlpd : E.m.lpd a = some j := by
    rw [W.m, W.shape.join W.valid hG, hj]
  have hsw : findNextSwitch E.m l = .found a := by
    rw [W.m]
    exact W.shape.search W.valid hs hl
  have hlm : l.block ∈ L.spine := (leads_spine hl).1
  have hd : E.m.ldom l l = true := by
    rw [W.m]
    exact (W.shape.ldom_before W.valid hs (Before.refl hlm)).1
  have hfb := found h (Flow.spine_blocks hlm) hd
  have hset : v.st.processing.set P.length ⟨k, ⟨j, 0⟩⟩ = P ++ ⟨k, ⟨j, 0⟩⟩ :: Q := by
    rw [h.processing, set_stack]
  have hob : v.st.openBranch E.m l f = .ok (v.st.branches.length,
      { v.st.addBranch E.m l ⟨a, E.m.stmts a⟩ (some ⟨j, 0⟩) P.length ⟨k, l⟩ f s0 with
        spanners := v.st.spanners ++ [(v.st.branches.length, f)] }) := by
    unfold St.openBranch St.mkBranch
    rw [hcs]
    dsimp only
    rw [hsw]
    dsimp only
    unfold St.mkBranchAt
    dsimp only
    rw [hfb, hlpd]
    dsimp only
    rw [if_neg (by simp)]
    rfl
  refine ⟨{ v.called (.openBranch l) with st := { v.st.addBranch E.m l ⟨a, E.m.stmts a⟩ (some ⟨j, 0⟩) P.length ⟨k, l⟩ f s0 with
        spanners := v.st.spanners ++ [(v.st.branches.length, f)] } }, ?_, ?_, ?_, ?_, ?_, ?_, ?_, rfl, ?_, ?_⟩
  · unfold V.openBranch
    change (match v.st.openBranch E.m l f with
      | .ok (bid, s) => _
      | .error .fail => _
      | .error e => _) = _
    rw [hob]
  · change v.st.processing.set P.length ⟨k, ⟨j, 0⟩⟩ ++ (((E.m.succ a).map _).zipIdx v.st.colls.length).map _ = _
    rw [hset, hsucc]
    rfl
  · change (pushCF _ _ _ ++ List.replicate ((E.m.succ a).map _).length _).length = _
    rw [hsucc, List.length_append, pushCF_length]
    rfl
  · change (pushCF _ _ _ ++ List.replicate ((E.m.succ a).map _).length _)[_]? = _
    rw [hsucc, List.getElem?_append_right (by rw [pushCF_length]; exact Nat.le_refl _), pushCF_length, Nat.sub_self]
    rfl
  · change (pushCF _ _ _ ++ List.replicate ((E.m.succ a).map _).length _)[_]? = _
    rw [hsucc, List.getElem?_append_right (by rw [pushCF_length]; exact Nat.le_succ _), pushCF_length,
      Nat.add_sub_cancel_left]
    rfl
  · change v.st.uf.root ++ [v.st.uf.root.length] = List.range (v.st.branches ++ [_]).length
    rw [h.keys, List.length_append, List.length_singleton, List.range_succ, List.length_range]
  · change (v.st.branches ++ [_]).map _ = List.range (v.st.branches ++ [_]).length
    rw [List.map_append, h.tables, List.length_append, List.length_singleton, List.range_succ]
    congr 1
    change [v.st.uf.root.length] = _
    rw [h.keys, List.length_range]
  · refine ⟨_, rfl, ?_⟩
    change List.range' v.st.colls.length ((E.m.succ a).map _).length = _
    rw [hsucc]
    rfl
  · refine ⟨?_, ⟨_, rfl, rfl⟩, ?_, ?_, rfl, rfl, rfl, rfl⟩
    · change (v.st.segs ++ ((E.m.succ a).map _).map _).map _ = _
      rw [hsucc, List.map_append]
      rfl
    · intro i d phi hi
      obtain ⟨d', hd'⟩ := pushCF_get (k := k) (x := .branch v.st.branches.length) hi
      refine ⟨d', ?_⟩
      change (pushCF v.st.colls k (.branch v.st.branches.length) ++ _)[i]? = _
      rw [List.getElem?_append_left (List.getElem?_eq_some_iff.1 hd').1]
      exact hd'
    · change v.st.colls.length ≤ (pushCF v.st.colls k _ ++ _).length
      rw [List.length_append, pushCF_length]
      omega

theorem obeys_branch (W : World E b F) (n cn : Node) {xc x1 x2 : Visit} {dc d1 d2 : List Deed}
    (entries : List (Loc × Nat)) (default : Nat) (hc : Obeys E F xc dc) (h1 : Obeys E F x1 d1) (h2 : Obeys E F x2 d2) :
    Obeys E F (handleBranch E n cn xc (seq x1 x2) entries default)
      (dc ++ deedFork E n cn (E.spanner entries default) d1 d2) := by
  intro L hs c c' w bs hw hcm v P k Q h
  obtain ⟨w0, b0, c0, w', b', hw0, hw', rfl, rfl⟩ := hw.split
  obtain ⟨v0, e0, n0, g0⟩ := hc hs hw0 hcm h
  have hc0 := hw0.mem hcm
  unfold deedFork at hw'
  unfold handleBranch prelude
  rw [e0]
  dsimp only
  rw [show E.exitOf cn = after E.next cn from rfl]
  cases he : (after E.next cn).or n.entry with
  | none =>
    rw [he] at hw'
    cases hw'
    exact ⟨v0, rfl, n0, g0.trans (.refl v0)⟩
  | some l =>
    rw [he] at hw'
    cases hw' with
    | step hb hr =>
      obtain ⟨v1, e1, n1, g1⟩ := obeys_insert W hs hb cn.span n0
      dsimp only
      rw [e1]
      dsimp only
      rw [if_pos rfl]
      cases hr with
      | @fork _ _ _ _ _ _ w bs _ a t e r p q j lt le st se w1 b1 c1 w2 b2 c2 flip hl hp hq hj hf hg ht hee ha hb' hr =>
        cases hr
        generalize hfd : E.spanner entries default = f at hf hg
        obtain ⟨v2, e2, p2, z2, y2, y2', k2, t2, s2, ⟨br, br2, hbr⟩, g2⟩ :=
          open_now W hs (f := f) hl hp hq hj n1
        rw [hf, hg] at p2 g2
        dsimp only
        rw [e2]
        dsimp only
        have hG : Sub (.fork a t e r) F := hl.sub.trans hs
        have hGt : Sub t F := (Sub.t (.refl (G := t))).trans hG
        have hGe : Sub e F := (Sub.e (.refl (G := e))).trans hG
        have hjr := Flow.spine_blocks (first_in hj)
        generalize hn : v1.st.colls.length = m at *
        have hR : ∀ z ∈ P ++ ⟨k, ⟨j, 0⟩⟩ :: Q, z.coll < m := by
          intro z hz
          have hk := n1.known
          rw [n1.processing, hn] at hk
          rcases List.mem_append.1 hz with hz | hz
          · exact hk z (List.mem_append_left _ hz)
          · rcases List.mem_cons.1 hz with rfl | hz
            · exact hk ⟨k, l⟩ (List.mem_append_right _ List.mem_cons_self)
            · exact hk z (List.mem_append_right _ (List.mem_cons_of_mem _ hz))
        have apartT : ∀ p : Loc, some (⟨j, 0⟩ : Loc) = some p → ∀ l : Loc, l.block ∈ t.blocks → E.m.ldom p l = false := by
          rintro p hp l hl'
          cases hp
          rw [W.m]
          exact W.shape.ldom_apart W.valid hG (.inr (.inr ⟨hjr, .inl hl'⟩))
        have apartE : ∀ p : Loc, some (⟨j, 0⟩ : Loc) = some p → ∀ l : Loc, l.block ∈ e.blocks → E.m.ldom p l = false := by
          rintro p hp l hl'
          cases hp
          rw [W.m]
          exact W.shape.ldom_apart W.valid hG (.inr (.inr ⟨hjr, .inr hl'⟩))
        have siblE : ∀ c : Loc, c.block ∈ e.spine → ∀ l : Loc, l.block ∈ t.blocks → E.m.ldom c l = false := by
          intro c hc l hl'
          rw [W.m]
          exact W.shape.ldom_apart W.valid hG (.inr (.inl ⟨Flow.spine_blocks hc, hl'⟩))
        have known2 : ∀ x ∈ v2.st.processing, x.coll < v2.st.colls.length := by
          intro x hx
          rw [p2] at hx
          rw [z2]
          rcases List.mem_append.1 hx with hx | hx
          · have := hR x hx
            omega
          · simp only [List.mem_cons, List.not_mem_nil, or_false] at hx
            rcases hx with rfl | rfl
            · exact Nat.lt_add_of_pos_right (by omega)
            · exact Nat.lt_succ_self _
        have sc2 : ∃ os s, v2.st.openScopes = os ++ [s] := by rw [g2.scopes]; exact n1.scopes
        have ns2 : 0 < v2.st.nextScope := by rw [s2]; exact n1.next
        -- the two arms
        have inner : ∃ v4 x y, seq x1 x2 v2 = .ok v4 ∧
            v4.st.processing = (P ++ ⟨k, ⟨j, 0⟩⟩ :: Q) ++ [⟨m, x⟩, ⟨m + 1, y⟩] ∧ Went v2 v4 (w1 ++ w2) (b1 ++ b2) ∧
            v4.st.uf.root = List.range v4.st.branches.length ∧
            v4.st.branches.map (·.tableId) = List.range v4.st.branches.length ∧ 0 < v4.st.nextScope := by
          cases flip with
          | false =>
            rw [if_neg (by simp), if_neg (by simp)] at ha hb'
            have nt : Now E.m t v2 (P ++ ⟨k, ⟨j, 0⟩⟩ :: Q) m lt [⟨m + 1, le⟩] :=
              ⟨p2, fun x hx => by
                  rw [List.mem_singleton] at hx
                  subst hx
                  exact siblE le hee, ⟨_, _, y2, apartT⟩, known2, k2, t2, sc2, ns2⟩
            obtain ⟨v3, e3, n3, g3⟩ := h1 hGt ha ht nt
            have ne : Now E.m e v3 ((P ++ ⟨k, ⟨j, 0⟩⟩ :: Q) ++ [⟨m, c1⟩]) (m + 1) le [] := by
              obtain ⟨d', hd'⟩ := g3.colls _ _ _ y2'
              exact ⟨by rw [n3.processing]; simp, by simp, ⟨_, _, hd', apartE⟩, n3.known, n3.keys, n3.tables, n3.scopes,
                n3.next⟩
            obtain ⟨v4, e4, n4, g4⟩ := h2 hGe hb' hee ne
            exact ⟨v4, c1, c2, by rw [seq_eq e3, e4], by rw [n4.processing]; simp, g3.trans g4, n4.keys, n4.tables,
              n4.next⟩
          | true =>
            rw [if_pos rfl, if_pos rfl] at ha hb'
            have ne : Now E.m e v2 ((P ++ ⟨k, ⟨j, 0⟩⟩ :: Q) ++ [⟨m, lt⟩]) (m + 1) le [] :=
              ⟨by rw [p2]; simp, by simp, ⟨_, _, y2', apartE⟩, known2, k2, t2, sc2, ns2⟩
            obtain ⟨v3, e3, n3, g3⟩ := h1 hGe ha hee ne
            have nt : Now E.m t v3 (P ++ ⟨k, ⟨j, 0⟩⟩ :: Q) m lt [⟨m + 1, c1⟩] := by
              obtain ⟨d', hd'⟩ := g3.colls _ _ _ y2
              exact ⟨by rw [n3.processing]; simp, fun x hx => by
                  rw [List.mem_singleton] at hx
                  subst hx
                  exact siblE c1 (ha.mem hee), ⟨_, _, hd', apartT⟩, n3.known, n3.keys, n3.tables, n3.scopes, n3.next⟩
            obtain ⟨v4, e4, n4, g4⟩ := h2 hGt hb' ht nt
            exact ⟨v4, c2, c1, by rw [seq_eq e3, e4], by rw [n4.processing], g3.trans g4, n4.keys, n4.tables, n4.next⟩
        obtain ⟨v4, x, y, e4, p4, g4, k4, t4, s4⟩ := inner
        rw [e4]
        dsimp only
        have hbid : v4.st.branches[v1.st.branches.length]? = some br := by
          obtain ⟨ex, hex, _⟩ := g4.branches
          rw [hex, br2, List.append_assoc, List.getElem?_append_right (Nat.le_refl _), Nat.sub_self]
          rfl
        rw [close_now k4 t4 hbid hbr p4 hR]
        have g24 := g2.trans g4
        have gall := (g0.trans g1).trans g24
        refine ⟨_, rfl, ?_, ?_⟩
        · refine ⟨rfl, n1.apart, ?_, ?_, k4, t4, ?_, s4⟩
          · obtain ⟨d, phi, hd, hphi⟩ := n1.coll
            obtain ⟨d', hd'⟩ := g24.colls _ _ _ hd
            exact ⟨d', phi, hd', hphi⟩
          · intro z hz
            have h3 := hR z hz
            have h4 := g24.grows
            rw [hn] at h4
            exact Nat.lt_of_lt_of_le h3 h4
          · change ∃ os s, v4.st.openScopes = os ++ [s]
            rw [g24.scopes]
            exact n1.scopes
        · refine (show Went v v4 _ _ from ?_).same rfl rfl rfl rfl rfl rfl gall.scopes gall.hints gall.fatal
            gall.unsupported
          have e1 : w0 ++ (c0, l, cn.span) :: (l, lt, st) :: (l, le, se) :: (w1 ++ w2 ++ []) =
              (w0 ++ [(c0, l, cn.span)]) ++ ([(l, lt, st), (l, le, se)] ++ (w1 ++ w2)) := by simp
          have e2 : b0 ++ (((⟨a, E.m.stmts a⟩ : Loc), (⟨j, 0⟩ : Loc)) :: (b1 ++ b2 ++ [])) =
              (b0 ++ []) ++ ([(⟨a, E.m.stmts a⟩, ⟨j, 0⟩)] ++ (b1 ++ b2)) := by simp
          rw [e1, e2]
          exact gall

theorem obeys_other {x : Visit} : Obeys E F x [.other] := by
  intro L _ c c' w bs hw
  cases hw

/-! ### Whole bodies -/

mutual
theorem obeys_expr (W : World E b F) : ∀ e, Obeys E F (visitExpr E e) (deedExpr E e)
  | .ite n cnd thn els => by
    rw [visitExpr.eq_def, deedExpr]
    dsimp only
    cases els with
    | none => exact obeys_branch W _ _ _ _ (obeys_expr W cnd) (obeys_under _ (obeys_expr W thn)) (obeys_else W none)
    | some els =>
      exact obeys_branch W _ _ _ _ (obeys_expr W cnd) (obeys_under _ (obeys_expr W thn)) (obeys_else W (some els))
  | .whileLoop _ _ _ _ => by rw [deedExpr]; exact obeys_other
  | .forLoop _ _ _ _ => by rw [deedExpr]; exact obeys_other
  | .mtch _ _ _ _ => by rw [deedExpr]; exact obeys_other
  | .other n parts => by rw [visitExpr, deedExpr]; exact obeys_parts W parts
theorem obeys_else (W : World E b F) : ∀ e, Obeys E F (visitElse E e) (deedElse E e)
  | none => by rw [visitElse, deedElse]; exact obeys_ok
  | some e => by rw [visitElse, deedElse]; exact obeys_under _ (obeys_expr W e)
theorem obeys_opt (W : World E b F) : ∀ e, Obeys E F (visitOpt E e) (deedOpt E e)
  | none => by rw [visitOpt, deedOpt]; exact obeys_ok
  | some e => by rw [visitOpt, deedOpt]; exact obeys_expr W e
theorem obeys_parts (W : World E b F) : ∀ e, Obeys E F (visitParts E e) (deedParts E e)
  | [] => by rw [visitParts, deedParts]; exact obeys_ok
  | p :: r => by rw [visitParts, deedParts]; exact obeys_seq (obeys_part W p) (obeys_parts W r)
theorem obeys_part (W : World E b F) : ∀ e, Obeys E F (visitPart E e) (deedPart E e)
  | .expr e => by rw [visitPart, deedPart]; exact obeys_expr W e
  | .block b => by rw [visitPart, deedPart]; exact obeys_block W b
  | .body e => by rw [visitPart, deedPart]; exact obeys_seq (obeys_expr W e) (obeys_step W _)
theorem obeys_stmts (W : World E b F) : ∀ e, Obeys E F (visitStmts E e) (deedStmts E e)
  | [] => by rw [visitStmts, deedStmts]; exact obeys_ok
  | p :: r => by rw [visitStmts, deedStmts]; exact obeys_seq (obeys_stm W p) (obeys_stmts W r)
theorem obeys_stm (W : World E b F) : ∀ e, Obeys E F (visitStmt E e) (deedStmt E e)
  | .lt n locals init els => by
    rw [visitStmt, deedStmt]
    exact obeys_stmt W _ _ (obeys_seq (obeys_opt W init) (obeys_optBlock W els))
  | .expr n e => by rw [visitStmt, deedStmt]; exact obeys_stmt W _ _ (obeys_expr W e)
  | .item n bodies => by rw [visitStmt, deedStmt]; exact obeys_stmt W _ _ (obeys_parts W bodies)
theorem obeys_optBlock (W : World E b F) : ∀ e, Obeys E F (visitOptBlock E e) (deedOptBlock E e)
  | none => by rw [visitOptBlock, deedOptBlock]; exact obeys_ok
  | some b => by rw [visitOptBlock, deedOptBlock]; exact obeys_block W b
theorem obeys_block (W : World E b F) : ∀ e, Obeys E F (visitBlock E e) (deedBlock E e)
  | .mk n stmts none => by rw [visitBlock, deedBlock]; exact obeys_scope (obeys_stmts W stmts)
  | .mk n stmts (some e) => by
    rw [visitBlock, deedBlock]
    exact obeys_scope (obeys_seq (obeys_stmts W stmts) (obeys_seq (obeys_expr W e) (obeys_step W _)))
end

end

/-- A function whose conditionals are properly nested `if`s, each of whose steps ends later on the same stretch than
the one before, is given steps: exactly those of the walk, with one branch for each `if` it meets, from its switch to
the block in which its arms come together. -/
theorem C100_steps {b : Body} {F : Flow} (hv : Valid b) (hF : Structured b F) {fuel : Nat} (hfu : fuel ≠ 0)
    (order : List (Loc × Nat) → List (Loc × Nat)) (value : Expr) {w : List Step} {bs : List (Loc × Loc)} {c : Loc}
    (hw : Goes b.mapper F startLoc (deedBody (.ofBody b fuel order) value) w bs c) :
    ∃ f locals, compute (.ofBody b fuel order) value = .steps f locals ∧
      f.segs.map (fun g => (g.from, g.to, g.span)) = w ∧
      f.branches.map (fun x => (x.reachFrom, x.reachTo)) = bs := by
  have W : World (.ofBody b fuel order) b F := ⟨rfl, hfu, hv, hF⟩
  have h0 : (0 : Nat) ∈ F.spine := first_in hF.start
  have n0 : Now (Env.ofBody b fuel order).m F V.make [] 0 startLoc [] :=
    ⟨rfl, by simp, ⟨[], none, rfl, by simp⟩, by simp [V.make, St.make], rfl, rfl, ⟨[], 0, rfl⟩, Nat.one_pos⟩
  obtain ⟨v, e, n, g⟩ := obeys_seq (obeys_expr W value) (obeys_step W value.node) (.refl (G := F)) hw h0 n0
  have hu : v.unsupported = 0 := g.unsupported
  have hf : v.fatal = [] := g.fatal
  have hz : v.st.freeze = .ok ⟨v.st.colls, v.st.branches, v.st.segs, v.st.scopeGraph⟩ := by
    unfold St.freeze
    rw [n.processing]
    rfl
  refine ⟨⟨v.st.colls, v.st.branches, v.st.segs, v.st.scopeGraph⟩, v.locals, ?_, g.segs, ?_⟩
  · have e' : visitBody (.ofBody b fuel order) value V.make = .ok v := e
    unfold compute
    rw [e']
    dsimp only
    rw [if_neg (by simp [hu]), if_neg (by simp [hf]), hz]
  · obtain ⟨ex, h1, h2⟩ := g.branches
    change v.st.branches.map _ = _
    rw [h1]
    exact h2

end Verif.HirSteps
