import Verif.HirSteps.Results
/-!
# C87: the order in which a hash map is iterated
-/
namespace Verif.HirSteps

open Verif.Cfg Verif.Segments Verif.Graph

/-! ## The conditionals of a body -/

/-- A conditional: where its branch is opened, and where its branches start. -/
def condAt (next : Loc → Option Loc) (n cnd : Node) (starts : List (Option Loc)) : List (Loc × List Loc) :=
  match (after next cnd).or n.entry with
  | none => []
  | some l => [(l, starts.filterMap id)]

mutual
/-- The conditionals of an expression. -/
def condsExpr (next : Loc → Option Loc) : Expr → List (Loc × List Loc)
  | .ite n cnd thn els =>
    condAt next n cnd.node (thn.node.entry :: (els.map (·.node.entry)).toList) ++ condsExpr next cnd ++
      condsExpr next thn ++ condsOpt next els
  | .whileLoop n cnd thn els =>
    condAt next n cnd.node [thn.node.entry, els.node.entry] ++ condsExpr next cnd ++ condsExpr next thn ++
      condsExpr next els
  | .forLoop n cnd nothing item =>
    condAt next n cnd.node [nothing.body.node.entry, item.body.node.entry] ++ condsExpr next cnd ++
      condsArm next nothing ++ condsArm next item
  | .mtch n _ cnd arms =>
    condAt next n cnd.node (arms.map (·.body.node.entry)) ++ condsExpr next cnd ++ condsArms next arms
  | .other _ parts => condsParts next parts
def condsOpt (next : Loc → Option Loc) : Option Expr → List (Loc × List Loc)
  | none => []
  | some e => condsExpr next e
def condsParts (next : Loc → Option Loc) : List Part → List (Loc × List Loc)
  | [] => []
  | p :: r => condsPart next p ++ condsParts next r
def condsPart (next : Loc → Option Loc) : Part → List (Loc × List Loc)
  | .expr e => condsExpr next e
  | .block b => condsBlock next b
  | .body e => condsExpr next e
def condsArms (next : Loc → Option Loc) : List Arm → List (Loc × List Loc)
  | [] => []
  | a :: r => condsArm next a ++ condsArms next r
def condsArm (next : Loc → Option Loc) : Arm → List (Loc × List Loc)
  | .mk _ _ guard body => condsOpt next guard ++ condsExpr next body
def condsStmts (next : Loc → Option Loc) : List Stmt → List (Loc × List Loc)
  | [] => []
  | s :: r => condsStmt next s ++ condsStmts next r
def condsStmt (next : Loc → Option Loc) : Stmt → List (Loc × List Loc)
  | .lt _ _ init els => condsOpt next init ++ condsOptBlock next els
  | .expr _ e => condsExpr next e
  | .item _ bodies => condsParts next bodies
def condsOptBlock (next : Loc → Option Loc) : Option Block → List (Loc × List Loc)
  | none => []
  | some b => condsBlock next b
def condsBlock (next : Loc → Option Loc) : Block → List (Loc × List Loc)
  | .mk _ stmts e => condsStmts next stmts ++ condsOpt next e
end

/-- No two branches of a conditional start behind the same target of its switch. -/
def Apart (m : Mapper) (c : Loc × List Loc) : Prop :=
  ∀ t ∈ m.succ (switchOf m c.1), ∀ x ∈ c.2, ∀ y ∈ c.2, m.ldom ⟨t, 0⟩ x = true → m.ldom ⟨t, 0⟩ y = true → x = y

/-! ## Tables of branch starts -/

theorem mem_setSpan {m : List (Loc × Nat)} {k : Loc} {s : Nat} {e : Loc × Nat} (h : e ∈ setSpan m k s) :
    e.1 = k ∨ e ∈ m := by
  induction m with
  | nil => simp [setSpan] at h; exact .inl (by rw [h])
  | cons x r ih =>
    obtain ⟨k', s'⟩ := x
    unfold setSpan at h
    split at h
    · rcases List.mem_cons.1 h with h | h
      · exact .inl (by rw [h])
      · exact .inr (List.mem_cons_of_mem _ h)
    · rcases List.mem_cons.1 h with h | h
      · exact .inr (by rw [h]; exact List.mem_cons_self)
      · exact (ih h).imp id (List.mem_cons_of_mem _)

theorem nodup_setSpan {m : List (Loc × Nat)} (k : Loc) (s : Nat) (h : (m.map (·.1)).Nodup) :
    ((setSpan m k s).map (·.1)).Nodup := by
  induction m with
  | nil => simp [setSpan]
  | cons x r ih =>
    obtain ⟨k', s'⟩ := x
    rw [List.map_cons, List.nodup_cons] at h
    unfold setSpan
    split
    · rename_i hk
      rw [List.map_cons, List.nodup_cons]
      exact ⟨hk ▸ h.1, h.2⟩
    · rename_i hk
      rw [List.map_cons, List.nodup_cons]
      refine ⟨fun hm => ?_, ih h.2⟩
      obtain ⟨e, he, hek⟩ := List.mem_map.1 hm
      rcases mem_setSpan he with h' | h'
      · exact hk (hek.symm.trans h')
      · exact h.1 (List.mem_map.2 ⟨e, h', hek⟩)

/-- The table has no key twice, and only the given keys. -/
structure Table (m : List (Loc × Nat)) (keys : List Loc) : Prop where
  nodup : (m.map (·.1)).Nodup
  mem : ∀ e ∈ m, e.1 ∈ keys

theorem Table.nil : Table [] [] := ⟨by simp, by simp⟩

theorem Table.set {m : List (Loc × Nat)} {keys : List Loc} (h : Table m keys) (k : Option Loc) (s : Nat) :
    Table (setEntry m k s) (keys ++ [k].filterMap id) := by
  cases k with
  | none => simpa [setEntry] using h
  | some k =>
    refine ⟨nodup_setSpan k s h.nodup, fun e he => ?_⟩
    rcases mem_setSpan he with h' | h'
    · simp [h']
    · exact List.mem_append_left _ (h.mem e h')

theorem table_arms (arms : List Arm) : Table (armEntries arms) ((arms.map (·.body.node.entry)).filterMap id) := by
  have key : ∀ (arms : List Arm) (m : List (Loc × Nat)) (keys : List Loc), Table m keys →
      Table (arms.foldl (fun m a => setEntry m a.body.node.entry a.pat.hi) m)
        (keys ++ (arms.map (·.body.node.entry)).filterMap id) := by
    intro arms
    induction arms with
    | nil => intro m keys h; simpa using h
    | cons a r ih =>
      intro m keys h
      have := ih _ _ (h.set a.body.node.entry a.pat.hi)
      rw [List.foldl_cons, List.map_cons, ← List.singleton_append, List.filterMap_append, ← List.append_assoc]
      exact this
  have := key arms [] [] .nil
  rw [List.nil_append] at this
  exact this

theorem unique_key {m : List (Loc × Nat)} (h : (m.map (·.1)).Nodup) {x y : Loc × Nat} (hx : x ∈ m) (hy : y ∈ m)
    (hk : x.1 = y.1) : x = y := by
  induction m with
  | nil => exact absurd hx (by simp)
  | cons a r ih =>
    rw [List.map_cons, List.nodup_cons] at h
    rcases List.mem_cons.1 hx with rfl | hx' <;> rcases List.mem_cons.1 hy with rfl | hy'
    · rfl
    · exact absurd (List.mem_map.2 ⟨y, hy', hk.symm⟩ : x.1 ∈ r.map (fun x => x.1)) h.1
    · exact absurd (List.mem_map.2 ⟨x, hx', hk⟩ : y.1 ∈ r.map (fun x => x.1)) h.1
    · exact ih h.2 hx' hy'

theorem find_perm {α : Type} {p : α → Bool} {l l' : List α} (h : l'.Perm l)
    (hu : ∀ x ∈ l, ∀ y ∈ l, p x = true → p y = true → x = y) : l'.find? p = l.find? p := by
  cases hl : l.find? p with
  | none =>
    rw [List.find?_eq_none] at hl ⊢
    exact fun x hx => hl x (h.subset hx)
  | some x =>
    cases hl' : l'.find? p with
    | none =>
      rw [List.find?_eq_none] at hl'
      exact absurd (List.find?_some hl) (hl' x (h.symm.subset (List.mem_of_find?_eq_some hl)))
    | some y =>
      rw [hu y (h.subset (List.mem_of_find?_eq_some hl')) x (List.mem_of_find?_eq_some hl)
        (List.find?_some hl') (List.find?_some hl)]

/-- The same surroundings with another order. -/
def Env.re (E : Env) (o : List (Loc × Nat) → List (Loc × Nat)) : Env := { E with order := o }

/-- Both orders give the same start and the same span for every target of the switch. -/
theorem spanner_re {E : Env} {o : List (Loc × Nat) → List (Loc × Nat)} (h1 : ∀ l, (E.order l).Perm l)
    (h2 : ∀ l, (o l).Perm l) {en : List (Loc × Nat)} {keys : List Loc} (ht : Table en keys) {l : Loc}
    (ha : Apart E.m (l, keys)) (d : Nat) : ∀ t ∈ E.m.succ (switchOf E.m l),
      (E.re o).spanner en d ⟨t, 0⟩ = E.spanner en d ⟨t, 0⟩ := by
  intro t ht'
  have hu : ∀ x ∈ en, ∀ y ∈ en, E.m.ldom ⟨t, 0⟩ x.1 = true → E.m.ldom ⟨t, 0⟩ y.1 = true → x = y := by
    intro x hx y hy hdx hdy
    have hk := ha t ht' x.1 (ht.mem x hx) y.1 (ht.mem y hy) hdx hdy
    exact unique_key ht.nodup hx hy hk
  unfold Env.spanner
  change (match (o en).find? (fun e => E.m.ldom ⟨t, 0⟩ e.1) with
    | some (l, span) => _
    | none => _) = _
  rw [find_perm (h2 en) hu, ← find_perm (h1 en) hu]
  rfl

/-! ## Two walks -/

/-- The same state with other tables of spans. -/
def V.re (v : V) (x : List (Nat × Spanner)) : V := { v with st := { v.st with spanners := x } }

theorem re_push (v : V) (x : List (Nat × Spanner)) (l : Loc) : (v.re x).push l = (v.push l).re x := rfl
theorem re_pop (v : V) (x : List (Nat × Spanner)) (l : Loc) : (v.re x).pop l = (v.pop l).re x := by
  unfold V.pop
  change (match v.hints with
    | [] => _
    | popped :: r => _) = _
  cases v.hints with
  | nil => rfl
  | cons a r => dsimp only; split <;> rfl
theorem re_guarded (v : V) (x : List (Nat × Spanner)) (g : Option Visit) :
    (v.re x).guarded g = (v.guarded g).re x := by
  unfold V.guarded
  split <;> rfl

/-- What both walks need: dominance is a preorder, and so on. -/
structure Good (E : Env) : Prop where
  proper : E.m.Proper
  ordered : Ordered E.m
  refl : ∀ l, E.m.lpdom l l = true

/-- The second visit does what the first one does. -/
structure Sims (E : Env) (a a' : Visit) : Prop where
  walk : Walk E a
  sim : ∀ {v v' : V} (x), a v = .ok v' → Run E.secondWins E.m v.st [] → v'.fatal = [] → Flat v v' →
    ∃ y, a' (v.re x) = .ok (v'.re y)

theorem Walk.paired {E : Env} (hg : Good E) {a : Visit} (h : Walk E a) {v v' : V} (hv : a v = .ok v') :
    Paired E v v' := h _ (paired_closed hg.proper hg.ordered hg.refl) v v' hv

theorem re_insert {E : Env} {o : List (Loc × Nat) → List (Loc × Nat)} {v v' : V} {l : Loc} {sp : Nat}
    (x : List (Nat × Spanner)) (h : v.insert E l sp = .ok (v', true)) (hf : Flat v v') :
    (v.re x).insert (E.re o) l sp = .ok (v'.re x, true) := by
  rcases insert_ok h with ⟨_, s, hs, rfl⟩ | ⟨h, _⟩
  rotate_left
  · exact absurd h (by simp)
  have hb : s.branches.length = v.st.branches.length := by
    have hc : ({ v.called (.insert l sp) with st := s } : V).closed = v.closed := closed_concat _ _ rfl
    unfold Flat at hf
    rw [hc] at hf
    change s.branches.length + _ = _ at hf
    omega
  have hfuel : ∃ k, E.fuel = k + 1 := by
    cases hk : E.fuel with
    | zero => rw [hk] at hs; simp [St.insert] at hs
    | succ k => exact ⟨k, rfl⟩
  obtain ⟨k, hk⟩ := hfuel
  have hi : St.insert E.secondWins E.m (k + 1) { v.st with spanners := x } l sp = .ok { s with spanners := x } := by
    rw [St.insert]
    change (match v.st.findSuitable E.m l with
      | .none => _
      | .nonLinear _ _ => _
      | .linear _ _ => _) = _
    rcases insert_flat hs hb with ⟨hfs, rfl⟩ | ⟨b, i, scope, hfs, hsc, rfl⟩
    · rw [hfs]
    · rw [hfs]
      dsimp only
      change (match v.st.currentScope with
        | .error e => _
        | .ok scope => _) = _
      rw [hsc]
      rfl
  unfold V.insert
  change (match St.insert E.secondWins E.m E.fuel { v.st with spanners := x } l sp with
    | .ok s => _
    | .error .fail => _
    | .error e => _) = _
  rw [hk, hi]
  rfl

theorem re_openScope {v : V} {s : St} (x : List (Nat × Spanner)) (h : v.st.openScope = .ok (v.st.nextScope, s)) :
    (v.re x).openScope = .ok (({ v.called .openScope with st := s } : V).re x, some v.st.nextScope) := by
  obtain ⟨cur, hc, _, rfl⟩ := openScope_eq h
  have h1 : St.openScope { v.st with spanners := x } = .ok (v.st.nextScope, { v.st with
      spanners := x, scopeGraph := v.st.scopeGraph ++ [(v.st.nextScope, cur)], nextScope := v.st.nextScope + 1,
      openScopes := v.st.openScopes ++ [v.st.nextScope] }) := by
    unfold St.openScope St.currentScope
    dsimp only
    rw [hc]
  unfold V.openScope
  change (match St.openScope { v.st with spanners := x } with
    | .ok (id, s) => _
    | .error .fail => _
    | .error e => _) = _
  rw [h1]
  rfl

theorem re_closeScope {v v' : V} {id : Nat} (x : List (Nat × Spanner)) (h : v.closeScope id = .ok (v', true)) :
    (v.re x).closeScope id = .ok (v'.re x, true) := by
  rcases vcloseScope_ok h with ⟨_, s, hs, rfl⟩ | ⟨h, _⟩
  rotate_left
  · exact absurd h (by simp)
  obtain ⟨h0, hl, rfl⟩ := closeScope_eq hs
  have h1 : St.closeScope { v.st with spanners := x } id =
      .ok { v.st with spanners := x, openScopes := v.st.openScopes.dropLast } := by
    unfold St.closeScope
    rw [if_neg h0]
    dsimp only
    rw [hl]
    dsimp only
    rw [if_pos rfl]
  unfold V.closeScope
  change (match St.closeScope { v.st with spanners := x } id with
    | .ok s => _
    | .error .fail => _
    | .error e => _) = _
  rw [h1]
  rfl

theorem re_closeBranch {v v' : V} {bid : Nat} (x : List (Nat × Spanner)) (h : v.closeBranch bid = .ok v') :
    (v.re x).closeBranch bid = .ok (v'.re x) := by
  obtain ⟨s, hs, rfl⟩ := vcloseBranch_ok h
  unfold St.closeBranch at hs
  unfold V.closeBranch
  change (match St.closeBranch { v.st with spanners := x } bid with
    | .ok s => _
    | .error .fail => _
    | .error e => _) = _
  unfold St.closeBranch
  dsimp only
  cases hb : v.st.branches[bid]? with
  | none => rw [hb] at hs; exact absurd hs (by simp)
  | some b =>
    rw [hb] at hs
    simp only [Except.ok.injEq] at hs
    subst hs
    rfl

theorem re_openBranch {E : Env} {o : List (Loc × Nat) → List (Loc × Nat)} {v v' : V} {l : Loc} {f f' : Spanner}
    {bid : Nat} (x : List (Nat × Spanner)) (h : v.openBranch E l f = .ok (v', some bid))
    (hf : ∀ t ∈ E.m.succ (switchOf E.m l), f' ⟨t, 0⟩ = f ⟨t, 0⟩) :
    ∃ y, (v.re x).openBranch (E.re o) l f' = .ok (v'.re y, some bid) := by
  rcases openBranch_ok h with ⟨bid', s, hbid, hs, rfl⟩ | ⟨h, _⟩
  rotate_left
  · exact absurd h (by simp)
  simp only [Option.some.injEq] at hbid
  subst hbid
  obtain ⟨scope, sw, b, i, f0, sp, hsc, hsw, hfb, hcur, hbid, _, hins, hs'⟩ := mkBranch_ok hs
  obtain ⟨rfl, rfl⟩ := hins f rfl
  have hswb : sw.block = switchOf E.m l := by
    unfold switchOf
    rcases hsw with ⟨h, h'⟩ | ⟨blk, h, h'⟩ <;> rw [h, h']
  refine ⟨x ++ [(bid, f')], ?_⟩
  have hadd : ∀ phi, St.addBranch E.m { v.st with spanners := x } l sw phi i b f' scope =
      { v.st.addBranch E.m l sw phi i b f0 scope with spanners := x } := by
    intro phi
    have : (E.m.succ sw.block).map (fun k => f' ⟨k, 0⟩) = (E.m.succ sw.block).map (fun k => f0 ⟨k, 0⟩) := by
      rw [hswb]
      exact List.map_congr_left hf
    unfold St.addBranch
    rw [this]
  have hat : St.mkBranchAt E.m { v.st with spanners := x } l sw (.insertNew f') scope =
      .ok (bid, { s with spanners := x ++ [(bid, f')] }) := by
    unfold St.mkBranchAt
    change (match v.st.findBuilder E.m l with
      | none => _
      | some (b, i) => _) = _
    rw [hfb]
    dsimp only
    rw [if_neg (by simp [hcur]), hadd, hs', hbid]
  have hmk : St.mkBranch E.m { v.st with spanners := x } l (.insertNew f') =
      .ok (bid, { s with spanners := x ++ [(bid, f')] }) := by
    unfold St.mkBranch
    change (match v.st.currentScope with
      | .error e => _
      | .ok scope => _) = _
    rw [hsc]
    dsimp only
    rcases hsw with ⟨h, h'⟩ | ⟨blk, h, h'⟩
    · rw [h]; dsimp only; rw [← h']; exact h' ▸ hat
    · rw [h]; dsimp only; rw [← h']; exact hat
  unfold V.openBranch
  change (match St.mkBranch E.m { v.st with spanners := x } l (.insertNew f') with
    | .ok (bid, s) => _
    | .error .fail => _
    | .error e => _) = _
  rw [hmk]
  rfl

theorem Sims.ok {E : Env} : Sims E .ok .ok := by
  refine ⟨fun P hP => hP.ok, ?_⟩
  intro v v' x h _ _ _
  simp only [Except.ok.injEq] at h
  exact ⟨x, by rw [h]⟩

theorem Sims.seq {E : Env} (hg : Good E) {a a' b b' : Visit} (h1 : Sims E a a') (h2 : Sims E b b') :
    Sims E (Verif.HirSteps.seq a b) (Verif.HirSteps.seq a' b') := by
  refine ⟨fun P hP => hP.seq (h1.walk P hP) (h2.walk P hP), ?_⟩
  intro v v' x h hr hf hfl
  obtain ⟨v1, e1, e2⟩ := seq_ok h
  have p1 := h1.walk.paired hg e1
  have p2 := h2.walk.paired hg e2
  obtain ⟨f1, f2, r1, _⟩ := flat_split p1.track p2.track hr hfl
  obtain ⟨y, hy⟩ := h1.sim x e1 hr (p2.fatal hf) f1
  obtain ⟨z, hz⟩ := h2.sim y e2 r1 hf f2
  exact ⟨z, by rw [seq_eq hy, hz]⟩

theorem insert_true {E : Env} {v v' : V} {l : Loc} {sp : Nat} {ok : Bool} (h : v.insert E l sp = .ok (v', ok))
    (hf : v'.fatal = []) : ok = true := by
  rcases insert_ok h with ⟨h, _⟩ | ⟨_, _, rfl⟩
  · exact h
  · exact absurd hf (by simp [V.failed])

theorem closeScope_true {v v' : V} {id : Nat} {ok : Bool} (h : v.closeScope id = .ok (v', ok))
    (hf : v'.fatal = []) : ok = true := by
  rcases vcloseScope_ok h with ⟨h, _⟩ | ⟨_, _, rfl⟩
  · exact h
  · exact absurd hf (by simp [V.failed])

theorem Sims.step {E : Env} (o : List (Loc × Nat) → List (Loc × Nat)) (n : Node) :
    Sims E (fun v => v.stepAfter E n) (fun v => v.stepAfter (E.re o) n) := by
  refine ⟨fun P hP => hP.step n, ?_⟩
  intro v v' x h _ hf hfl
  refine ⟨x, ?_⟩
  unfold V.stepAfter
  change (match E.exitOf n with
    | none => _
    | some exit => _) = _
  rcases stepAfter_ok h with ⟨he, rfl⟩ | ⟨l, ok, he, hi⟩
  · rw [he]
  · have := insert_true hi hf
    subst this
    rw [he]
    dsimp only
    rw [re_insert x hi hfl]

theorem Sims.under {E : Env} (hg : Good E) {a a' : Visit} (h : Sims E a a') (n : Node) :
    Sims E (visitUnder n a) (visitUnder n a') := by
  refine ⟨fun P hP => hP.under n (h.walk P hP), ?_⟩
  intro v v' x hv hr hf hfl
  unfold visitUnder
  rcases under_ok hv with ⟨he, rfl⟩ | ⟨l, v1, he, h1, rfl⟩
  · rw [he]; exact ⟨x, rfl⟩
  · rw [he]
    dsimp only
    have pa := paired_push E v l
    have pb := h.walk.paired hg h1
    have pc := paired_pop E v1 l
    obtain ⟨_, f2, r2, _⟩ := flat_split pa.track (pb.track.trans pc.track) hr hfl
    obtain ⟨f3, _, _, _⟩ := flat_split pb.track pc.track r2 f2
    obtain ⟨y, hy⟩ := h.sim x h1 r2 (pc.fatal hf) f3
    rw [re_push, hy]
    exact ⟨y, by dsimp only; rw [re_pop]⟩

theorem Sims.scope {E : Env} (hg : Good E) {a a' : Visit} (h : Sims E a a') : Sims E (inScope a) (inScope a') := by
  refine ⟨fun P hP => hP.scope (h.walk P hP), ?_⟩
  intro v v' x hv hr hf hfl
  obtain ⟨s, v2, cl, h1, h2, h3⟩ := inScope_ok hv
  have := closeScope_true h3 hf
  subst this
  have pa : Paired E v { v.called .openScope with st := s } := paired_openScope h1 rfl rfl rfl
  have pb := h.walk.paired hg h2
  have pc := paired_closeScope (E := E) h3
  obtain ⟨_, f2, r2, _⟩ := flat_split pa.track (pb.track.trans pc.track) hr hfl
  obtain ⟨f3, _, _, _⟩ := flat_split pb.track pc.track r2 f2
  obtain ⟨y, hy⟩ := h.sim x h2 r2 (pc.fatal hf) f3
  refine ⟨y, ?_⟩
  unfold inScope
  rw [re_openScope x h1]
  dsimp only
  rw [hy]
  dsimp only
  rw [re_closeScope y h3]

theorem Sims.stmt {E : Env} (hg : Good E) {a a' : Visit} (h : Sims E a a')
    (o : List (Loc × Nat) → List (Loc × Nat)) (n : Node) (locals : List Nat) :
    Sims E (inStmt E n locals a) (inStmt (E.re o) n locals a') := by
  refine ⟨fun P hP => hP.stmt n locals (h.walk P hP), ?_⟩
  intro v v' x hv hr hf hfl
  obtain ⟨s, v2, v3, cl, h1, h2, h3, h4⟩ := inStmt_ok hv
  have hstep : v3.stepAfter E n = .ok v' ∧ cl = true ∧ Paired E v3 v' := by
    rcases h4 with ⟨rfl, rfl⟩ | ⟨rfl, h4⟩
    · exact absurd (closeScope_true h3 hf) (by simp)
    · have hw : Walk E (fun v => v.stepAfter E n) := fun P hP => hP.step n
      exact ⟨h4, rfl, hw.paired hg h4⟩
  obtain ⟨h5, rfl, pd⟩ := hstep
  have pa : Paired E v (v.inside s locals) :=
    paired_openScope h1 (inside_st _ _ _) (inside_calls _ _ _) (inside_fatal _ _ _)
  have pb := h.walk.paired hg h2
  have pc := paired_closeScope (E := E) h3
  obtain ⟨_, f2, r2, _⟩ := flat_split pa.track (pb.track.trans (pc.track.trans pd.track)) hr hfl
  obtain ⟨f3, f4, r4, _⟩ := flat_split pb.track (pc.track.trans pd.track) r2 f2
  obtain ⟨_, f6, r6, _⟩ := flat_split pc.track pd.track r4 f4
  obtain ⟨y, hy⟩ := h.sim x h2 r2 (pc.fatal (pd.fatal hf)) f3
  obtain ⟨z, hz⟩ := (Sims.step (E := E) o n).sim y h5 r6 hf f6
  refine ⟨z, ?_⟩
  unfold inStmt
  rw [re_openScope x h1]
  dsimp only
  have hin : (if locals.isEmpty = true then ({ v.called .openScope with st := s } : V).re x
      else { ({ v.called .openScope with st := s } : V).re x with
        locals := (({ v.called .openScope with st := s } : V).re x).locals ++ [(v.st.nextScope, locals)] }) =
      (v.inside s locals).re x := by
    unfold V.inside
    split <;> rfl
  rw [hin, hy]
  dsimp only
  rw [re_closeScope y h3]
  exact hz

theorem Sims.arm {E : Env} (hg : Good E) (o : List (Loc × Nat) → List (Loc × Nat)) (n bn : Node)
    {g g' : Option Visit} {a a' : Visit}
    (h0 : g = none ∧ g' = none ∨ ∃ x x', g = some x ∧ g' = some x' ∧ Sims E x x') (h : Sims E a a') :
    Sims E (handleArm E n bn g a) (handleArm (E.re o) n bn g' a') := by
  refine ⟨fun P hP => hP.arm n bn ?_ (h.walk P hP), ?_⟩
  · intro x hx
    rcases h0 with ⟨h, _⟩ | ⟨y, y', h, _, hs⟩
    · rw [h] at hx; exact absurd hx (by simp)
    · rw [h] at hx
      simp only [Option.some.injEq] at hx
      exact hx ▸ hs.walk P hP
  intro v v' x hv hr hf hfl
  have hgd : (v.re x).guarded g' = (v.guarded g).re x := by
    have : g'.isSome = g.isSome := by rcases h0 with ⟨h, h'⟩ | ⟨y, y', h, h', _⟩ <;> rw [h, h'] <;> rfl
    rw [← re_guarded]
    unfold V.guarded
    rw [this]
  have hunf : ∀ w : V, handleArm (E.re o) n bn g' a' w = (match n.entry with
      | none => .ok (w.guarded g')
      | some armEntry => match bn.entry with
        | some entry => match ((w.guarded g').push armEntry).insert (E.re o) entry n.lo with
          | .error e => .error e
          | .ok (v, false) => .ok v
          | .ok (v, true) => match a' v with
            | .error e => .error e
            | .ok v => .ok (v.pop armEntry)
        | none => match Verif.HirSteps.seq (g'.getD .ok) a' ((w.guarded g').push armEntry) with
          | .error e => .error e
          | .ok v => .ok (v.pop armEntry)) := fun w => rfl
  rw [hunf, hgd]
  cases arm_ok hv with
  | skipped he h => rw [he, h]; exact ⟨x, rfl⟩
  | noStep a l _ _ h => exact absurd (insert_true h hf) (by simp)
  | visited b l v1 v2 he hb h1 h2 h3 =>
    subst h3
    rw [he, hb]
    dsimp only
    rw [re_push]
    have p0 := (paired_guarded E v g).trans (paired_push E _ b)
    have p1 := paired_insert h1
    have p2 := h.walk.paired hg h2
    have p3 := paired_pop E v2 b
    obtain ⟨_, f1, r1, _⟩ := flat_split p0.track (p1.track.trans (p2.track.trans p3.track)) hr hfl
    obtain ⟨f2, f3, r2, _⟩ := flat_split p1.track (p2.track.trans p3.track) r1 f1
    obtain ⟨f4, _, _, _⟩ := flat_split p2.track p3.track r2 f3
    rw [re_insert x h1 f2]
    obtain ⟨y, hy⟩ := h.sim x h2 r2 (p3.fatal hf) f4
    dsimp only
    rw [hy]
    exact ⟨y, by dsimp only; rw [re_pop]⟩
  | walked b v1 v2 he hb h1 h2 h3 =>
    subst h3
    rw [he, hb]
    dsimp only
    rw [re_push]
    have hsg : Sims E (g.getD .ok) (g'.getD .ok) := by
      rcases h0 with ⟨h, h'⟩ | ⟨y, y', h, h', hs⟩
      · rw [h, h']; exact .ok
      · rw [h, h']; exact hs
    have hq := Sims.seq hg hsg h
    have h12 : Verif.HirSteps.seq (g.getD .ok) a ((v.guarded g).push b) = .ok v2 := by rw [seq_eq h1, h2]
    have p0 := (paired_guarded E v g).trans (paired_push E _ b)
    have p2 := hq.walk.paired hg h12
    have p3 := paired_pop E v2 b
    obtain ⟨_, f1, r1, _⟩ := flat_split p0.track (p2.track.trans p3.track) hr hfl
    obtain ⟨f4, _, _, _⟩ := flat_split p2.track p3.track r1 f1
    obtain ⟨y, hy⟩ := hq.sim x h12 r1 (p3.fatal hf) f4
    rw [hy]
    exact ⟨y, by dsimp only; rw [re_pop]⟩

theorem Sims.branch {E : Env} (hg : Good E) (o : List (Loc × Nat) → List (Loc × Nat)) (n cn : Node)
    {c c' i i' : Visit} {en : List (Loc × Nat)} (d : Nat) (h1 : ∀ l, (E.order l).Perm l) (h2 : ∀ l, (o l).Perm l)
    {keys : List Loc} (ht : Table en keys) (ha : ∀ l, (E.exitOf cn).or n.entry = some l → Apart E.m (l, keys))
    (hc : Sims E c c') (hi : Sims E i i') :
    Sims E (handleBranch E n cn c i en d) (handleBranch (E.re o) n cn c' i' en d) := by
  refine ⟨fun P hP => hP.branch n cn en d (hc.walk P hP) (hi.walk P hP), ?_⟩
  intro v v' x hv hr hf hfl
  have hunf : ∀ w : V, handleBranch (E.re o) n cn c' i' en d w = (match (match c' w with
      | .error e => .error e
      | .ok v => match (E.exitOf cn).or n.entry with
        | none => .ok (v, none)
        | some exit => match v.insert (E.re o) exit cn.span with
          | .error e => .error e
          | .ok (v, ok) => .ok (v, if ok then some exit else none) : Except Err (V × Option Loc)) with
      | .error e => .error e
      | .ok (v, none) => .ok v
      | .ok (v, some exit) => match v.openBranch (E.re o) exit ((E.re o).spanner en d) with
        | .error e => .error e
        | .ok (v, none) => .ok v
        | .ok (v, some bid) => match i' v with
          | .error e => .error e
          | .ok v => v.closeBranch bid) := fun w => rfl
  rw [hunf]
  cases branch_ok hv with
  | skipped v1 hv1 he hn h =>
    subst h
    obtain ⟨y, hy⟩ := hc.sim x hv1 hr hf hfl
    rw [hy, he, hn]
    exact ⟨y, rfl⟩
  | noStep v1 l _ _ h => exact absurd (insert_true h hf) (by simp)
  | noBranch v1 v2 l _ _ _ h =>
    rcases openBranch_ok h with ⟨_, _, h, _⟩ | ⟨_, _, rfl⟩
    · exact absurd h (by simp)
    · exact absurd hf (by simp [V.failed])
  | visited v1 v2 v3 v4 l bid hv1 hl hv2 hv3 hv4 hv5 =>
    have p1 := hc.walk.paired hg hv1
    have p2 := paired_insert hv2
    have p4 := hi.walk.paired hg hv4
    have tb : Tracked E v2 v' := tracked_branch hg.proper hv3 p4.track hv5
    have f34 : v4.fatal = [] := by
      obtain ⟨s, _, rfl⟩ := vcloseBranch_ok hv5
      exact hf
    have f23 : v2.fatal = [] := by
      have := p4.fatal f34
      rcases openBranch_ok hv3 with ⟨_, _, _, _, rfl⟩ | ⟨h, _⟩
      · exact this
      · exact absurd h (by simp)
    obtain ⟨e1, e2, r1, _⟩ := flat_split p1.track (p2.track.trans tb) hr hfl
    obtain ⟨e3, e4, r2, _⟩ := flat_split p2.track tb r1 e2
    obtain ⟨y, hy⟩ := hc.sim x hv1 hr (p2.fatal f23) e1
    rw [hy]
    dsimp only
    rw [hl]
    dsimp only
    rw [re_insert y hv2 e3]
    dsimp only
    rw [if_pos rfl]
    dsimp only
    obtain ⟨z, hz⟩ := re_openBranch (o := o) y hv3 (spanner_re h1 h2 ht (ha l hl) d)
    rw [hz]
    dsimp only
    have r3 : Run E.secondWins E.m v3.st [] := by
      rcases openBranch_ok hv3 with ⟨_, _, _, hs, rfl⟩ | ⟨h, _⟩
      · exact .openBranch r2 hs
      · exact absurd h (by simp)
    have f4 : Flat v3 v4 := by
      rcases openBranch_ok hv3 with ⟨bid', s3, hbid, hs3, rfl⟩ | ⟨h, _⟩
      rotate_left
      · exact absurd h (by simp)
      obtain ⟨s5, hs5, rfl⟩ := vcloseBranch_ok hv5
      have hc3 : ({ v2.called (.openBranch l) with st := s3 } : V).closed = v2.closed := closed_concat _ _ rfl
      have hc5 : ({ v4.called (.closeBranch bid) with st := s5 } : V).closed = v4.closed + 1 := by
        change (v4.calls ++ [Call.closeBranch bid]).countP Call.isClose = _
        rw [List.countP_append]
        rfl
      have b5 : s5.branches = v4.st.branches := by obtain ⟨_, _, rfl⟩ := closeBranch_eq hs5; rfl
      have b3 : s3.branches.length = v2.st.branches.length + 1 := by
        obtain ⟨_, _, _, _, _, _, _, _, _, _, _, _, _, rfl⟩ := mkBranch_ok hs3
        exact List.length_append
      unfold Flat at e4 ⊢
      rw [hc5] at e4
      rw [hc3]
      change s5.branches.length + _ = _ at e4
      change _ = s3.branches.length + _
      rw [b5] at e4
      omega
    obtain ⟨w, hw⟩ := hi.sim z hv4 r3 f34 f4
    rw [hw]
    dsimp only
    exact ⟨w, re_closeBranch w hv5⟩

/-! ## The walk through a body -/

theorem apart_at {E : Env} {n cn : Node} {starts : List (Option Loc)} {l : Loc} (hl : (E.exitOf cn).or n.entry = some l)
    (h : ∀ c ∈ condAt E.next n cn starts, Apart E.m c) : Apart E.m (l, starts.filterMap id) := by
  apply h
  have : (after E.next cn).or n.entry = some l := hl
  unfold condAt
  rw [this]
  exact List.mem_singleton.2 rfl

mutual
theorem sims_expr {E : Env} (hg : Good E) {o : List (Loc × Nat) → List (Loc × Nat)} (h1 : ∀ l, (E.order l).Perm l)
    (h2 : ∀ l, (o l).Perm l) : ∀ e, (∀ c ∈ condsExpr E.next e, Apart E.m c) → Sims E (visitExpr E e) (visitExpr (E.re o) e)
  | .ite n cnd thn none, h => by
    rw [condsExpr, condsOpt] at h
    simp only [List.mem_append] at h
    rw [visitExpr.eq_def, visitExpr.eq_def]
    dsimp only
    refine .branch hg o n cnd.node _ h1 h2 (.set .nil _ _) (fun l hl => ?_) ?_ ?_
    · exact apart_at hl fun c hc => h c (.inl (.inl (.inl hc)))
    · exact sims_expr hg h1 h2 cnd fun c hc => h c (.inl (.inl (.inr hc)))
    · refine .seq hg (.under hg (sims_expr hg h1 h2 thn fun c hc => h c (.inl (.inr hc))) _) ?_
      rw [visitElse, visitElse]
      exact .ok
  | .ite n cnd thn (some els), h => by
    rw [condsExpr, condsOpt] at h
    simp only [List.mem_append] at h
    rw [visitExpr.eq_def, visitExpr.eq_def]
    dsimp only
    refine .branch hg o n cnd.node _ h1 h2 (.set (.set .nil _ _) _ _) (fun l hl => ?_) ?_ ?_
    · rw [List.nil_append, ← List.filterMap_append]
      exact apart_at hl fun c hc => h c (.inl (.inl (.inl hc)))
    · exact sims_expr hg h1 h2 cnd fun c hc => h c (.inl (.inl (.inr hc)))
    · refine .seq hg (.under hg (sims_expr hg h1 h2 thn fun c hc => h c (.inl (.inr hc))) _) ?_
      rw [visitElse, visitElse]
      exact .under hg (sims_expr hg h1 h2 els fun c hc => h c (.inr hc)) _
  | .whileLoop n cnd thn els, h => by
    rw [condsExpr] at h
    simp only [List.mem_append] at h
    rw [visitExpr, visitExpr]
    refine .branch hg o n cnd.node _ h1 h2 (.set (.set .nil _ _) _ _) (fun l hl => ?_) ?_ ?_
    · rw [List.nil_append, ← List.filterMap_append]
      exact apart_at hl fun c hc => h c (.inl (.inl (.inl hc)))
    · exact sims_expr hg h1 h2 cnd fun c hc => h c (.inl (.inl (.inr hc)))
    · exact .seq hg (.under hg (sims_expr hg h1 h2 thn fun c hc => h c (.inl (.inr hc))) _)
        (.under hg (sims_expr hg h1 h2 els fun c hc => h c (.inr hc)) _)
  | .forLoop n cnd nothing item, h => by
    rw [condsExpr] at h
    simp only [List.mem_append] at h
    rw [visitExpr, visitExpr]
    refine .branch hg o n cnd.node _ h1 h2 (.set (.set .nil _ _) _ _) (fun l hl => ?_) ?_ ?_
    · rw [List.nil_append, ← List.filterMap_append]
      exact apart_at hl fun c hc => h c (.inl (.inl (.inl hc)))
    · exact sims_expr hg h1 h2 cnd fun c hc => h c (.inl (.inl (.inr hc)))
    · exact .seq hg (sims_arm hg h1 h2 nothing fun c hc => h c (.inl (.inr hc))) (sims_arm hg h1 h2 item fun c hc => h c (.inr hc))
  | .mtch n fromFor cnd arms, h => by
    rw [condsExpr] at h
    simp only [List.mem_append] at h
    rw [visitExpr, visitExpr]
    have hp : (E.re o).producedSwitch cnd.node = E.producedSwitch cnd.node := rfl
    rw [hp]
    split
    · exact .seq hg (sims_expr hg h1 h2 cnd fun c hc => h c (.inl (.inr hc))) (sims_arms hg h1 h2 arms fun c hc => h c (.inr hc))
    · refine .branch hg o n cnd.node _ h1 h2 (table_arms arms) (fun l hl => ?_) ?_ ?_
      · exact apart_at hl fun c hc => h c (.inl (.inl hc))
      · exact sims_expr hg h1 h2 cnd fun c hc => h c (.inl (.inr hc))
      · exact sims_arms hg h1 h2 arms fun c hc => h c (.inr hc)
  | .other n parts, h => by
    rw [condsExpr] at h
    rw [visitExpr, visitExpr]
    exact sims_parts hg h1 h2 parts h
theorem sims_opt {E : Env} (hg : Good E) {o : List (Loc × Nat) → List (Loc × Nat)} (h1 : ∀ l, (E.order l).Perm l)
    (h2 : ∀ l, (o l).Perm l) : ∀ e, (∀ c ∈ condsOpt E.next e, Apart E.m c) → Sims E (visitOpt E e) (visitOpt (E.re o) e)
  | none, _ => by rw [visitOpt, visitOpt]; exact .ok
  | some e, h => by rw [condsOpt] at h; rw [visitOpt, visitOpt]; exact sims_expr hg h1 h2 e h
theorem sims_parts {E : Env} (hg : Good E) {o : List (Loc × Nat) → List (Loc × Nat)} (h1 : ∀ l, (E.order l).Perm l)
    (h2 : ∀ l, (o l).Perm l) : ∀ e, (∀ c ∈ condsParts E.next e, Apart E.m c) → Sims E (visitParts E e) (visitParts (E.re o) e)
  | [], _ => by rw [visitParts, visitParts]; exact .ok
  | p :: r, h => by
    rw [condsParts] at h
    simp only [List.mem_append] at h
    rw [visitParts, visitParts]
    exact .seq hg (sims_part hg h1 h2 p fun c hc => h c (.inl hc)) (sims_parts hg h1 h2 r fun c hc => h c (.inr hc))
theorem sims_part {E : Env} (hg : Good E) {o : List (Loc × Nat) → List (Loc × Nat)} (h1 : ∀ l, (E.order l).Perm l)
    (h2 : ∀ l, (o l).Perm l) : ∀ e, (∀ c ∈ condsPart E.next e, Apart E.m c) → Sims E (visitPart E e) (visitPart (E.re o) e)
  | .expr e, h => by rw [condsPart] at h; rw [visitPart, visitPart]; exact sims_expr hg h1 h2 e h
  | .block b, h => by rw [condsPart] at h; rw [visitPart, visitPart]; exact sims_block hg h1 h2 b h
  | .body e, h => by
    rw [condsPart] at h
    rw [visitPart, visitPart]
    exact .seq hg (sims_expr hg h1 h2 e h) (.step o _)
theorem sims_arms {E : Env} (hg : Good E) {o : List (Loc × Nat) → List (Loc × Nat)} (h1 : ∀ l, (E.order l).Perm l)
    (h2 : ∀ l, (o l).Perm l) : ∀ e, (∀ c ∈ condsArms E.next e, Apart E.m c) → Sims E (visitArms E e) (visitArms (E.re o) e)
  | [], _ => by rw [visitArms, visitArms]; exact .ok
  | a :: r, h => by
    rw [condsArms] at h
    simp only [List.mem_append] at h
    rw [visitArms, visitArms]
    exact .seq hg (sims_arm hg h1 h2 a fun c hc => h c (.inl hc)) (sims_arms hg h1 h2 r fun c hc => h c (.inr hc))
theorem sims_arm {E : Env} (hg : Good E) {o : List (Loc × Nat) → List (Loc × Nat)} (h1 : ∀ l, (E.order l).Perm l)
    (h2 : ∀ l, (o l).Perm l) : ∀ e, (∀ c ∈ condsArm E.next e, Apart E.m c) → Sims E (visitArm E e) (visitArm (E.re o) e)
  | .mk n pat none body, h => by
    rw [condsArm] at h
    simp only [List.mem_append] at h
    rw [visitArm, visitArm]
    exact .arm hg o _ _ (.inl ⟨rfl, rfl⟩) (sims_expr hg h1 h2 body fun c hc => h c (.inr hc))
  | .mk n pat (some g) body, h => by
    rw [condsArm, condsOpt] at h
    simp only [List.mem_append] at h
    rw [visitArm, visitArm]
    exact .arm hg o _ _ (.inr ⟨_, _, rfl, rfl, sims_expr hg h1 h2 g fun c hc => h c (.inl hc)⟩)
      (sims_expr hg h1 h2 body fun c hc => h c (.inr hc))
theorem sims_stmts {E : Env} (hg : Good E) {o : List (Loc × Nat) → List (Loc × Nat)} (h1 : ∀ l, (E.order l).Perm l)
    (h2 : ∀ l, (o l).Perm l) : ∀ e, (∀ c ∈ condsStmts E.next e, Apart E.m c) → Sims E (visitStmts E e) (visitStmts (E.re o) e)
  | [], _ => by rw [visitStmts, visitStmts]; exact .ok
  | p :: r, h => by
    rw [condsStmts] at h
    simp only [List.mem_append] at h
    rw [visitStmts, visitStmts]
    exact .seq hg (sims_stmt hg h1 h2 p fun c hc => h c (.inl hc)) (sims_stmts hg h1 h2 r fun c hc => h c (.inr hc))
theorem sims_stmt {E : Env} (hg : Good E) {o : List (Loc × Nat) → List (Loc × Nat)} (h1 : ∀ l, (E.order l).Perm l)
    (h2 : ∀ l, (o l).Perm l) : ∀ e, (∀ c ∈ condsStmt E.next e, Apart E.m c) → Sims E (visitStmt E e) (visitStmt (E.re o) e)
  | .lt n locals init els, h => by
    rw [condsStmt] at h
    simp only [List.mem_append] at h
    rw [visitStmt, visitStmt]
    exact .stmt hg (.seq hg (sims_opt hg h1 h2 init fun c hc => h c (.inl hc)) (sims_optBlock hg h1 h2 els fun c hc => h c (.inr hc))) o _ _
  | .expr n e, h => by
    rw [condsStmt] at h
    rw [visitStmt, visitStmt]
    exact .stmt hg (sims_expr hg h1 h2 e h) o _ _
  | .item n bodies, h => by
    rw [condsStmt] at h
    rw [visitStmt, visitStmt]
    exact .stmt hg (sims_parts hg h1 h2 bodies h) o _ _
theorem sims_optBlock {E : Env} (hg : Good E) {o : List (Loc × Nat) → List (Loc × Nat)} (h1 : ∀ l, (E.order l).Perm l)
    (h2 : ∀ l, (o l).Perm l) : ∀ e, (∀ c ∈ condsOptBlock E.next e, Apart E.m c) →
    Sims E (visitOptBlock E e) (visitOptBlock (E.re o) e)
  | none, _ => by rw [visitOptBlock, visitOptBlock]; exact .ok
  | some b, h => by rw [condsOptBlock] at h; rw [visitOptBlock, visitOptBlock]; exact sims_block hg h1 h2 b h
theorem sims_block {E : Env} (hg : Good E) {o : List (Loc × Nat) → List (Loc × Nat)} (h1 : ∀ l, (E.order l).Perm l)
    (h2 : ∀ l, (o l).Perm l) : ∀ e, (∀ c ∈ condsBlock E.next e, Apart E.m c) → Sims E (visitBlock E e) (visitBlock (E.re o) e)
  | .mk n stmts none, h => by
    rw [condsBlock] at h
    simp only [List.mem_append] at h
    rw [visitBlock, visitBlock]
    exact .scope hg (sims_stmts hg h1 h2 stmts fun c hc => h c (.inl hc))
  | .mk n stmts (some e), h => by
    rw [condsBlock, condsOpt] at h
    simp only [List.mem_append] at h
    rw [visitBlock, visitBlock]
    exact .scope hg (.seq hg (sims_stmts hg h1 h2 stmts fun c hc => h c (.inl hc))
      (.seq hg (sims_expr hg h1 h2 e fun c hc => h c (.inr hc)) (.step o _)))
end

theorem good_body {b : Body} (hv : Valid b) (fuel : Nat) (o : List (Loc × Nat) → List (Loc × Nat)) :
    Good (.ofBody b fuel o) where
  proper := mapper_proper b
  ordered := ordered_body hv
  refl := by
    intro l
    change lpostDominates b l l = true
    simp [lpostDominates]

/-- If no two branches of a conditional start behind the same target of its switch, then the steps of the body do
not depend on the order in which hash maps are iterated. -/
theorem C87_order_partial {b : Body} (hv : Valid b) {fuel : Nat} {o o' : List (Loc × Nat) → List (Loc × Nat)}
    (h1 : ∀ l, (o l).Perm l) (h2 : ∀ l, (o' l).Perm l) {value : Expr}
    (ha : ∀ c ∈ condsExpr b.locationSuccessor value, Apart b.mapper c) (f : Frozen) (locals : List (Nat × List Nat)) :
    compute (.ofBody b fuel o) value = .steps f locals ↔ compute (.ofBody b fuel o') value = .steps f locals := by
  have key : ∀ o o' : List (Loc × Nat) → List (Loc × Nat), (∀ l, (o l).Perm l) → (∀ l, (o' l).Perm l) →
      compute (.ofBody b fuel o) value = .steps f locals → compute (.ofBody b fuel o') value = .steps f locals := by
    intro o o' h1 h2 h
    have hg := good_body hv fuel o
    obtain ⟨v, hvb, hu, hfat, hfz, hloc⟩ := compute_steps h
    have hflat := flat_of_steps rfl hg.proper hvb hfz
    have hs : Sims (.ofBody b fuel o) (visitBody (.ofBody b fuel o) value)
        (visitBody ((Env.ofBody b fuel o).re o') value) := .seq hg (sims_expr hg h1 h2 value ha) (.step o' _)
    obtain ⟨y, hy⟩ := hs.sim [] hvb .make hfat hflat
    have hy' : visitBody (.ofBody b fuel o') value V.make = .ok (v.re y) := hy
    unfold compute
    rw [hy']
    dsimp only
    change (if v.unsupported ≠ 0 then _ else if v.fatal ≠ [] then _ else _) = _
    rw [if_neg (by simp [hu]), if_neg (by simp [hfat])]
    have : (v.re y).st.freeze = v.st.freeze := rfl
    rw [this, hfz, hloc]
    rfl
  exact ⟨key o o' h1 h2, key o' o h2 h1⟩

/-- The example with an `if` meets the hypothesis. -/
example : ∀ c ∈ condsExpr plainBody.locationSuccessor plainFn, Apart plainBody.mapper c := by
  unfold Apart
  decide +kernel

/-- In `match x { Some(0) => a, Some(_) => b, None => c }` the first two arms start behind the same target.  The
order of the hash map decides which of the two is shown; the other has no step. -/
theorem C87_shared : ∃ f f' locals locals',
    compute (.ofBody sharedBody 5 id) sharedFn = .steps f locals ∧
    compute (.ofBody sharedBody 5 List.reverse) sharedFn = .steps f' locals' ∧
    (∀ g ∈ f.segs, g.from.block ≠ 4 ∧ g.to.block ≠ 4) ∧ (∀ g ∈ f'.segs, g.from.block ≠ 3 ∧ g.to.block ≠ 3) ∧
    (∃ g ∈ f.segs, g.to.block = 3) ∧ ∃ g ∈ f'.segs, g.to.block = 4 := by
  obtain ⟨f, locals, h, hs⟩ := steps_of_segs shared_first
  obtain ⟨f', locals', h', hs'⟩ := steps_of_segs shared_last
  refine ⟨f, f', locals, locals', h, h', ?_, ?_, ?_, ?_⟩
  · intro g hg
    have : (g.from, g.to, g.span) ∈ f.segs.map (fun g => (g.from, g.to, g.span)) := List.mem_map_of_mem hg
    rw [hs] at this
    revert this
    generalize g.from = x, g.to = y, g.span = z
    intro h
    simp only [List.mem_cons, Prod.mk.injEq, List.not_mem_nil, or_false] at h
    rcases h with h | h | h | h | h | h | h <;> (obtain ⟨rfl, rfl, _⟩ := h; decide)
  · intro g hg
    have : (g.from, g.to, g.span) ∈ f'.segs.map (fun g => (g.from, g.to, g.span)) := List.mem_map_of_mem hg
    rw [hs'] at this
    revert this
    generalize g.from = x, g.to = y, g.span = z
    intro h
    simp only [List.mem_cons, Prod.mk.injEq, List.not_mem_nil, or_false] at h
    rcases h with h | h | h | h | h | h | h <;> (obtain ⟨rfl, rfl, _⟩ := h; decide)
  · have : ((⟨0, 1⟩, ⟨3, 0⟩, 212) : Loc × Loc × Nat) ∈ f.segs.map (fun g => (g.from, g.to, g.span)) := by
      rw [hs]; simp
    obtain ⟨g, hg, he⟩ := List.mem_map.1 this
    simp only [Prod.mk.injEq] at he
    exact ⟨g, hg, by rw [he.2.1]⟩
  · have : ((⟨0, 1⟩, ⟨4, 0⟩, 312) : Loc × Loc × Nat) ∈ f'.segs.map (fun g => (g.from, g.to, g.span)) := by
      rw [hs']; simp
    obtain ⟨g, hg, he⟩ := List.mem_map.1 this
    simp only [Prod.mk.injEq] at he
    exact ⟨g, hg, by rw [he.2.1]⟩

end Verif.HirSteps
