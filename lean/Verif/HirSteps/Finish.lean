import Verif.HirSteps.Props
/-!
# C85: when the steps of a body can be put together
-/
namespace Verif.HirSteps

open Verif.Cfg Verif.Segments Verif.Graph

def Call.isClose : Call → Bool
  | .closeBranch _ => true
  | _ => false

/-- How many conditionals the visitor has opened and closed. -/
def V.closed (v : V) : Nat := v.calls.countP Call.isClose

/-- How the builder moves on: `g'` are the branches that were opened implicitly. -/
structure Moves (E : Env) (g g' : List (Nat × Nat)) (v v' : V) : Prop where
  run : Run E.secondWins E.m v'.st (g ++ g')
  later : ∀ e ∈ g', v.st.branches.length ≤ e.1
  grows : v.st.branches.length ≤ v'.st.branches.length
  keeps : ∀ k < v.st.branches.length, v'.st.branches[k]? = v.st.branches[k]?
  count : v'.st.branches.length + v.closed = v.st.branches.length + g'.length + v'.closed
  same : g' = [] → v'.st.processing.map (·.coll) = v.st.processing.map (·.coll)

def Tracked (E : Env) (v v' : V) : Prop :=
  ∀ g, Run E.secondWins E.m v.st g → ∃ g', Moves E g g' v v'

theorem Moves.refl {E : Env} {g : List (Nat × Nat)} {v : V} (h : Run E.secondWins E.m v.st g) :
    Moves E g [] v v :=
  ⟨by rw [List.append_nil]; exact h, by simp, Nat.le_refl _, fun _ _ => rfl, by simp, fun _ => rfl⟩

theorem Moves.trans {E : Env} {g g1 g2 : List (Nat × Nat)} {v v1 v2 : V} (h1 : Moves E g g1 v v1)
    (h2 : Moves E (g ++ g1) g2 v1 v2) : Moves E g (g1 ++ g2) v v2 := by
  refine ⟨by rw [← List.append_assoc]; exact h2.run, ?_, Nat.le_trans h1.grows h2.grows,
    fun k hk => (h2.keeps k (Nat.lt_of_lt_of_le hk h1.grows)).trans (h1.keeps k hk), ?_, ?_⟩
  · intro e he
    rcases List.mem_append.1 he with he | he
    · exact h1.later e he
    · exact Nat.le_trans h1.grows (h2.later e he)
  · have := h1.count
    have := h2.count
    rw [List.length_append]
    omega
  · intro h
    rw [List.append_eq_nil_iff] at h
    exact (h2.same h.2).trans (h1.same h.1)

theorem Tracked.refl (E : Env) (v : V) : Tracked E v v := fun _ h => ⟨[], .refl h⟩

theorem Tracked.trans {E : Env} {v v1 v2 : V} (h1 : Tracked E v v1) (h2 : Tracked E v1 v2) : Tracked E v v2 := by
  intro g hg
  obtain ⟨g1, m1⟩ := h1 g hg
  obtain ⟨g2, m2⟩ := h2 _ m1.run
  exact ⟨_, m1.trans m2⟩

theorem Tracked.of_eq {E : Env} {v v' : V} (h1 : v'.st = v.st) (h2 : v'.closed = v.closed) : Tracked E v v' := by
  intro g hg
  refine ⟨[], ?_, by simp, by rw [h1]; exact Nat.le_refl _, fun _ _ => by rw [h1],
    by rw [h1, h2]; simp, fun _ => by rw [h1]⟩
  rw [h1, List.append_nil]
  exact hg

theorem closed_concat (l : List Call) (c : Call) (h : c.isClose = false) :
    (l ++ [c]).countP Call.isClose = l.countP Call.isClose := by
  rw [List.countP_append, List.countP_singleton, h]
  simp

theorem openChild_branches {tie : Bool} {m : Mapper} {s s' : St} {p : Nat} {loc : Loc}
    (h : s.openChild tie m p loc = .ok s') : s'.branches.length = s.branches.length + 1 ∧
      ∀ k < s.branches.length, s'.branches[k]? = s.branches[k]? := by
  obtain ⟨child, s2, bp, bc, h1, _, _, rfl⟩ := openChild_ok h
  obtain ⟨_, _, _, _, _, _, _, _, _, _, _, _, _, rfl⟩ := mkBranch_ok h1
  exact ⟨List.length_append, fun k hk => List.getElem?_append_left hk⟩

theorem insert_moves {E : Env} (fuel : Nat) {s s' : St} {g : List (Nat × Nat)} (h : Run E.secondWins E.m s g)
    {l : Loc} {sp : Nat} (hi : s.insert E.secondWins E.m fuel l sp = .ok s') :
    ∃ g', Run E.secondWins E.m s' (g ++ g') ∧ (∀ e ∈ g', s.branches.length ≤ e.1) ∧
      s'.branches.length = s.branches.length + g'.length ∧
      (∀ k < s.branches.length, s'.branches[k]? = s.branches[k]?) ∧
      (g' = [] → s'.processing.map (·.coll) = s.processing.map (·.coll)) := by
  induction fuel generalizing s g with
  | zero => exact absurd hi (by simp [St.insert])
  | succ fuel ih =>
    rw [St.insert] at hi
    cases hf : s.findSuitable E.m l with
    | none =>
      rw [hf] at hi
      simp only [Except.ok.injEq] at hi
      subst hi
      exact ⟨[], by rw [List.append_nil]; exact h, by simp, by simp, fun _ _ => rfl, fun _ => rfl⟩
    | nonLinear p loc =>
      rw [hf] at hi
      dsimp only at hi
      cases hc : s.openChild E.secondWins E.m p loc with
      | error e => rw [hc] at hi; exact absurd hi (by simp)
      | ok s1 =>
        rw [hc] at hi
        obtain ⟨g', h1, h2, h3, h4, _⟩ := ih (.child h hf hc) hi
        obtain ⟨hb, hk⟩ := openChild_branches hc
        refine ⟨(s.branches.length, p) :: g', by simpa using h1, ?_, ?_,
          fun k hlt => (h4 k (by omega)).trans (hk k hlt), fun h => absurd h (by simp)⟩
        · intro e he
          rcases List.mem_cons.1 he with rfl | he
          · exact Nat.le_refl _
          · have := h2 e he; omega
        · rw [List.length_cons]; omega
    | linear b i =>
      rw [hf] at hi
      dsimp only at hi
      cases hs : s.currentScope with
      | error e => rw [hs] at hi; exact absurd hi (by simp)
      | ok scope =>
        rw [hs] at hi
        simp only [Except.ok.injEq] at hi
        subst hi
        refine ⟨[], by rw [List.append_nil]; exact .linear sp h hf hs, by simp, rfl, fun _ _ => rfl, fun _ => ?_⟩
        exact map_set_coll (findBuilder_spec (findSuitable_linear hf).1).1 _

theorem insertLeft_moves {E : Env} (fuel : Nat) {s : St} {g : List (Nat × Nat)} (h : Run E.secondWins E.m s g)
    (l : Loc) :
    ∃ g', Run E.secondWins E.m (insertLeft E fuel s l) (g ++ g') ∧ (∀ e ∈ g', s.branches.length ≤ e.1) ∧
      (insertLeft E fuel s l).branches.length = s.branches.length + g'.length ∧
      (∀ k < s.branches.length, (insertLeft E fuel s l).branches[k]? = s.branches[k]?) ∧
      (g' = [] → (insertLeft E fuel s l).processing.map (·.coll) = s.processing.map (·.coll)) := by
  induction fuel generalizing s g with
  | zero => exact ⟨[], by rw [List.append_nil]; exact h, by simp, by simp [insertLeft], fun _ _ => rfl, fun _ => rfl⟩
  | succ fuel ih =>
    rw [insertLeft]
    have stay : ∃ g', Run E.secondWins E.m s (g ++ g') ∧ (∀ e ∈ g', s.branches.length ≤ e.1) ∧
      s.branches.length = s.branches.length + g'.length ∧
      (∀ k < s.branches.length, s.branches[k]? = s.branches[k]?) ∧
      (g' = [] → s.processing.map (·.coll) = s.processing.map (·.coll)) :=
      ⟨[], by rw [List.append_nil]; exact h, by simp, by simp, fun _ _ => rfl, fun _ => rfl⟩
    cases hf : s.findSuitable E.m l with
    | none => exact stay
    | linear b i => exact stay
    | nonLinear p loc =>
      dsimp only
      cases hc : s.openChild E.secondWins E.m p loc with
      | error e => exact stay
      | ok s1 =>
        dsimp only
        obtain ⟨g', h1, h2, h3, h4, _⟩ := ih (.child h hf hc)
        obtain ⟨hb, hk⟩ := openChild_branches hc
        refine ⟨(s.branches.length, p) :: g', by simpa using h1, ?_, ?_,
          fun k hlt => (h4 k (by omega)).trans (hk k hlt), fun h => absurd h (by simp)⟩
        · intro e he
          rcases List.mem_cons.1 he with rfl | he
          · exact Nat.le_refl _
          · have := h2 e he; omega
        · rw [List.length_cons]; omega

theorem tracked_insert {E : Env} {v v' : V} {l : Loc} {sp : Nat} {ok : Bool} (h : v.insert E l sp = .ok (v', ok)) :
    Tracked E v v' := by
  intro g hg
  have hcl : (v.calls ++ [Call.insert l sp]).countP Call.isClose = v.calls.countP Call.isClose :=
    closed_concat _ _ rfl
  rcases insert_ok h with ⟨_, s, hs, rfl⟩ | ⟨_, _, rfl⟩
  · obtain ⟨g', h1, h2, h3, h5, h4⟩ := insert_moves _ hg hs
    refine ⟨g', h1, h2, by change _ ≤ s.branches.length; omega, h5, ?_, h4⟩
    change s.branches.length + v.closed = _ + _ + (v.calls ++ [Call.insert l sp]).countP Call.isClose
    rw [hcl, h3]
    rfl
  · obtain ⟨g', h1, h2, h3, h5, h4⟩ := insertLeft_moves E.fuel hg l
    refine ⟨g', h1, h2, by change _ ≤ (insertLeft E E.fuel v.st l).branches.length; omega, h5, ?_, h4⟩
    change (insertLeft E E.fuel v.st l).branches.length + v.closed =
      _ + _ + (v.calls ++ [Call.insert l sp]).countP Call.isClose
    rw [hcl, h3]
    rfl

theorem tracked_closeScope {E : Env} {v v' : V} {id : Nat} {ok : Bool} (h : v.closeScope id = .ok (v', ok)) :
    Tracked E v v' := by
  have hcl : (v.calls ++ [Call.closeScope id]).countP Call.isClose = v.calls.countP Call.isClose :=
    closed_concat _ _ rfl
  rcases vcloseScope_ok h with ⟨_, s, hs, rfl⟩ | ⟨_, _, rfl⟩
  · intro g hg
    have hr := Run.closeScope hg hs
    obtain ⟨_, _, rfl⟩ := closeScope_eq hs
    refine ⟨[], by rw [List.append_nil]; exact hr, by simp, Nat.le_refl _, fun _ _ => rfl, ?_, fun _ => rfl⟩
    change v.st.branches.length + v.closed = _ + _ + (v.calls ++ [Call.closeScope id]).countP Call.isClose
    rw [hcl]
    rfl
  · exact .of_eq rfl hcl

theorem tracked_openScope {E : Env} {v v' : V} {s : St} (h : v.st.openScope = .ok (v.st.nextScope, s))
    (h1 : v'.st = s) (h2 : v'.calls = v.calls ++ [.openScope]) : Tracked E v v' := by
  have hcl : (v.calls ++ [Call.openScope]).countP Call.isClose = v.calls.countP Call.isClose :=
    closed_concat _ _ rfl
  intro g hg
  have hr := Run.openScope hg h
  obtain ⟨cur, _, _, rfl⟩ := openScope_eq h
  refine ⟨[], by rw [h1, List.append_nil]; exact hr, by simp, by rw [h1]; exact Nat.le_refl _,
    fun _ _ => by rw [h1], ?_, fun _ => by rw [h1]⟩
  rw [h1]
  unfold V.closed
  rw [h2, hcl]
  rfl

/-- Closing a conditional that got no implicit branches puts the open stretches back. -/
theorem closeBranch_colls {tie : Bool} {m : Mapper} (hm : m.Proper) {s0 s1 s2 s3 : St} {g : List (Nat × Nat)}
    {l : Loc} {f : Spanner} {bid : Nat} (h0 : Run tie m s0 g) (h1 : s0.openBranch m l f = .ok (bid, s1))
    (h2 : Run tie m s2 g) (h3 : s2.processing.map (·.coll) = s1.processing.map (·.coll))
    (hb : s2.branches[bid]? = s1.branches[bid]?) (h4 : s2.closeBranch bid = .ok s3) :
    s3.processing.map (·.coll) = s0.processing.map (·.coll) := by
  have hi := inv_run hm h0
  have hf := famInv_run hm h0
  obtain ⟨scope, sw, b, i, f', sp, _, _, hfb, _, hbid, _, _, hs1⟩ := mkBranch_ok h1
  have hnew : s1.processing.map (·.coll) = s0.processing.map (·.coll) ++
      List.range' s0.colls.length (m.succ sw.block).length := by
    rw [hs1]
    change (_ ++ _ : List Builder).map (·.coll) = _
    rw [List.map_append, map_set_coll (findBuilder_spec hfb).1, List.map_map]
    congr 1
    have : ((fun x : Builder => x.coll) ∘ fun t : (Loc × Nat) × Nat => (⟨t.2, t.1.1⟩ : Builder)) = Prod.snd := rfl
    rw [this, List.zipIdx_map_snd, List.length_map]
  have hbr : s1.branches[bid]? = some ⟨s0.uf.root.length, sw,
      ((m.lpd sw.block).map (fun bb => (⟨bb, 0⟩ : Loc))).getD sw, List.range' s0.segs.length (m.succ sw.block).length,
      List.range' s0.colls.length (m.succ sw.block).length⟩ := by
    rw [hs1, hbid]
    change (s0.branches ++ [_])[s0.branches.length]? = _
    rw [List.getElem?_append_right (Nat.le_refl _)]
    simp
  have hu : ∀ p, (bid, p) ∉ g := fun p hp => by
    have := (hf.pair bid p hp).1
    omega
  have hc : ∀ c, (c, bid) ∉ g := fun c hp => by
    have := (hf.pair c bid hp).2.1
    omega
  have hmem := C48_childless_partial hm h2 (hb.trans hbr) hu hc h4
  obtain ⟨b', _, rfl⟩ := closeBranch_eq h4
  dsimp only at hmem ⊢
  have hfil : ∀ ob ∈ s2.processing, (s2.toClose b'.tableId).all (fun br => !decide (ob.coll ∈ br.nested)) =
      !decide (ob.coll ∈ List.range' s0.colls.length (m.succ sw.block).length) := by
    intro ob hob
    have := hmem ob
    rw [List.mem_filter] at this
    rw [Bool.eq_iff_iff]
    simp only [Bool.not_eq_true', decide_eq_false_iff_not]
    constructor
    · intro h; exact (this.1 ⟨hob, h⟩).2
    · intro h; exact (this.2 ⟨hob, h⟩).2
  rw [List.filter_congr hfil]
  have : (s2.processing.filter (fun ob =>
      !decide (ob.coll ∈ List.range' s0.colls.length (m.succ sw.block).length))).map (·.coll) =
      (s2.processing.map (·.coll)).filter (fun c =>
        !decide (c ∈ List.range' s0.colls.length (m.succ sw.block).length)) := by
    rw [List.filter_map]
    rfl
  rw [this, h3, hnew, List.filter_append]
  have ha : (s0.processing.map (·.coll)).filter (fun c =>
      !decide (c ∈ List.range' s0.colls.length (m.succ sw.block).length)) = s0.processing.map (·.coll) := by
    rw [List.filter_eq_self]
    intro c hc
    obtain ⟨ob, hob, rfl⟩ := List.mem_map.1 hc
    have := hi.bound ob hob
    simp only [Bool.not_eq_true', decide_eq_false_iff_not, List.mem_range'_1]
    omega
  have hz : (List.range' s0.colls.length (m.succ sw.block).length).filter (fun c =>
      !decide (c ∈ List.range' s0.colls.length (m.succ sw.block).length)) = [] := by
    rw [List.filter_eq_nil_iff]
    intro c hc
    simp [hc]
  rw [ha, hz, List.append_nil]

theorem tracked_branch {E : Env} (hm : E.m.Proper) {v2 v3 v4 v' : V} {l : Loc} {f : Spanner} {bid : Nat}
    (h3 : v2.openBranch E l f = .ok (v3, some bid)) (h4 : Tracked E v3 v4) (h5 : v4.closeBranch bid = .ok v') :
    Tracked E v2 v' := by
  rcases openBranch_ok h3 with ⟨bid', s, hbid, ho, rfl⟩ | ⟨h, _⟩
  · simp only [Option.some.injEq] at hbid
    subst hbid
    obtain ⟨s', hs', rfl⟩ := vcloseBranch_ok h5
    intro g hg
    have hr := Run.openBranch hg ho
    have hf := famInv_run hm hg
    obtain ⟨g', m4⟩ := h4 g hr
    have hlen : s.branches.length = v2.st.branches.length + 1 ∧ bid = v2.st.branches.length ∧
        ∀ k < v2.st.branches.length, s.branches[k]? = v2.st.branches[k]? := by
      obtain ⟨_, _, _, _, _, _, _, _, _, _, hb, _, _, rfl⟩ := mkBranch_ok ho
      exact ⟨List.length_append, hb, fun k hk => List.getElem?_append_left hk⟩
    have hu : ∀ p, (bid, p) ∉ g ++ g' := by
      intro p hp
      rcases List.mem_append.1 hp with hp | hp
      · have := (hf.pair _ _ hp).1; omega
      · have := m4.later _ hp
        change s.branches.length ≤ bid at this
        omega
    have hrc := Run.closeBranch m4.run hu hs'
    have hbr : s'.branches = v4.st.branches := by obtain ⟨_, _, rfl⟩ := closeBranch_eq hs'; rfl
    have hgr := m4.grows
    have hkp := m4.keeps
    have hct := m4.count
    change s.branches.length ≤ _ at hgr
    change ∀ k < s.branches.length, v4.st.branches[k]? = s.branches[k]? at hkp
    have hcl3 : ({ v2.called (.openBranch l) with st := s } : V).closed = v2.closed := closed_concat _ _ rfl
    rw [hcl3] at hct
    change _ = s.branches.length + _ + _ at hct
    have hcl : ({ v4.called (.closeBranch bid) with st := s' } : V).closed = v4.closed + 1 := by
      change (v4.calls ++ [Call.closeBranch bid]).countP Call.isClose = _
      rw [List.countP_append]
      rfl
    refine ⟨g', hrc, ?_, ?_, ?_, ?_, ?_⟩
    · intro e he
      have := m4.later e he
      change s.branches.length ≤ _ at this
      omega
    · change _ ≤ s'.branches.length
      rw [hbr]; omega
    · intro k hk
      change s'.branches[k]? = _
      rw [hbr, hkp k (by omega), hlen.2.2 k hk]
    · change s'.branches.length + _ = _
      rw [hbr, hcl]
      omega
    · intro hg'
      have hr4 := m4.run
      rw [hg', List.append_nil] at hr4
      exact closeBranch_colls hm hg ho hr4 (m4.same hg') (hkp bid (by omega)) hs'
  · exact absurd h (by simp)

theorem tracked_pop (E : Env) (v : V) (l : Loc) : Tracked E v (v.pop l) := by
  unfold V.pop
  split
  · exact .refl _ _
  · split <;> exact .of_eq rfl rfl

theorem tracked_push (E : Env) (v : V) (l : Loc) : Tracked E v (v.push l) := .of_eq rfl rfl

theorem tracked_guarded (E : Env) (v : V) (g : Option Visit) : Tracked E v (v.guarded g) := by
  unfold V.guarded
  split <;> exact .of_eq rfl rfl

theorem tracked_closed {E : Env} (hm : E.m.Proper) : Closed E (fun a => ∀ v v', a v = .ok v' → Tracked E v v') where
  ok := by
    intro v v' h
    simp only [Except.ok.injEq] at h
    subst h
    exact .refl _ _
  seq := by
    intro a b ha hb v v' h
    obtain ⟨v1, h1, h2⟩ := seq_ok h
    exact (ha v v1 h1).trans (hb v1 v' h2)
  step := by
    intro n v v' h
    rcases stepAfter_ok h with ⟨_, rfl⟩ | ⟨l, ok, _, hi⟩
    · exact .refl _ _
    · exact tracked_insert hi
  under := by
    intro n a ha v v' h
    rcases under_ok h with ⟨_, rfl⟩ | ⟨l, v1, _, h1, rfl⟩
    · exact .refl _ _
    · exact (tracked_push _ _ _).trans ((ha _ _ h1).trans (tracked_pop _ _ _))
  branch := by
    intro n cn c i en d hc hi v v' h
    cases branch_ok h with
    | skipped v1 h1 _ _ h2 => subst h2; exact hc v v' h1
    | noStep v1 l h1 _ h2 => exact (hc v v1 h1).trans (tracked_insert h2)
    | noBranch v1 v2 l h1 _ h2 h3 =>
      refine (hc v v1 h1).trans ((tracked_insert h2).trans ?_)
      rcases openBranch_ok h3 with ⟨_, _, h, _⟩ | ⟨_, _, rfl⟩
      · exact absurd h (by simp)
      · exact .of_eq rfl (closed_concat _ _ rfl)
    | visited v1 v2 v3 v4 l bid h1 _ h2 h3 h4 h5 =>
      exact (hc v v1 h1).trans ((tracked_insert h2).trans (tracked_branch hm h3 (hi _ _ h4) h5))
  arm := by
    intro n bn g b hg hb v v' h
    have hgd := tracked_guarded E v g
    cases arm_ok h with
    | skipped _ h => subst h; exact hgd
    | noStep a l _ _ h => exact hgd.trans ((tracked_push _ _ _).trans (tracked_insert h))
    | visited a l v1 v2 _ _ h1 h2 h3 =>
      subst h3
      exact hgd.trans ((tracked_push _ _ _).trans ((tracked_insert h1).trans ((hb _ _ h2).trans (tracked_pop _ _ _))))
    | walked a v1 v2 _ _ h1 h2 h3 =>
      subst h3
      have h1' : Tracked E ((v.guarded g).push a) v1 := by
        cases g with
        | none =>
          simp only [Option.getD_none, Except.ok.injEq] at h1
          subst h1
          exact .refl _ _
        | some x => exact hg x rfl _ _ h1
      exact hgd.trans ((tracked_push _ _ _).trans (h1'.trans ((hb _ _ h2).trans (tracked_pop _ _ _))))
  scope := by
    intro a ha v v' h
    obtain ⟨s, v2, cl, h1, h2, h3⟩ := inScope_ok h
    exact (tracked_openScope h1 rfl rfl).trans ((ha _ _ h2).trans (tracked_closeScope h3))
  stmt := by
    intro n locals a ha v v' h
    obtain ⟨s, v2, v3, cl, h1, h2, h3, h4⟩ := inStmt_ok h
    refine (tracked_openScope h1 (inside_st _ _ _) (inside_calls _ _ _)).trans
      ((ha _ _ h2).trans ((tracked_closeScope h3).trans ?_))
    rcases h4 with ⟨_, rfl⟩ | ⟨_, h4⟩
    · exact .refl _ _
    · rcases stepAfter_ok h4 with ⟨_, rfl⟩ | ⟨l, ok, _, hi⟩
      · exact .refl _ _
      · exact tracked_insert hi

/-- The steps of a visited body can be put together exactly if no branch was opened implicitly, that is, if there
are as many branches as the visitor has closed. -/
theorem C85_finished {E : Env} (hE : E.secondWins = true) (hm : E.m.Proper) (value : Expr) {v : V}
    (h : visitBody E value V.make = .ok v) :
    (∃ f, v.st.freeze = .ok f) ↔ v.st.branches.length = v.calls.countP Call.isClose := by
  obtain ⟨g, hmv⟩ := all_body (tracked_closed hm) value V.make v h [] .make
  have hrun := hmv.run
  have hcount := hmv.count
  change _ + 0 = 0 + _ + v.calls.countP Call.isClose at hcount
  rw [hE, List.nil_append] at hrun
  by_cases hg : g = []
  · have hs := hmv.same hg
    subst hg
    have hl : v.st.processing.length = 1 := by
      rw [← List.length_map (f := fun x : Builder => x.coll), hs]
      rfl
    refine ⟨fun _ => ?_, fun _ => ?_⟩
    · simp only [List.length_nil] at hcount
      omega
    · unfold St.freeze
      rw [if_pos hl]
      exact ⟨_, rfl⟩
  · have hf := C48_never_finished hm hrun hg
    rw [hf]
    constructor
    · rintro ⟨f, h⟩; exact absurd h (by simp)
    · intro h
      have := List.length_pos_iff.2 hg
      omega

end Verif.HirSteps
