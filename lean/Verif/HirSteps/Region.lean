import Verif.HirSteps.Props
/-!
# Steps do not leave a region that control does not leave
-/
namespace Verif.HirSteps

open Verif.Cfg Verif.Segments Verif.Graph

/-- A set of blocks that control does not leave. -/
structure Region (m : Mapper) (R : Nat → Prop) : Prop where
  succ : ∀ a b, R a → b ∈ m.succ a → R b
  dom : ∀ a b : Loc, R a.block → m.ldom a b = true → R b.block
  join : ∀ a j, R a → m.lpd a = some j → R j

/-- All open stretches are in the region, and so are the ends they are bound to. -/
structure In (m : Mapper) (R : Nat → Prop) (s : St) : Prop where
  cur : ∀ b ∈ s.processing, R b.cur.block
  phi : ∀ b ∈ s.processing, ∃ c, s.colls[b.coll]? = some c ∧ ∀ p, c.phi = some p → R p.block
  moves : ∀ e ∈ s.spanners, ∀ to, m.ldom to (e.2 to).1 = true

/-- Both ends are in the region. -/
def Seg.within (R : Nat → Prop) (g : Seg) : Prop := R g.from.block ∧ R g.to.block

def Keeps (m : Mapper) (R : Nat → Prop) (s s' : St) : Prop :=
  In m R s → In m R s' ∧ ∃ new, s'.segs = s.segs ++ new ∧ ∀ g ∈ new, Seg.within R g

theorem Keeps.refl (m : Mapper) (R : Nat → Prop) (s : St) : Keeps m R s s :=
  fun h => ⟨h, [], (List.append_nil _).symm, by simp⟩

theorem Keeps.trans {m : Mapper} {R : Nat → Prop} {s s1 s2 : St} (h1 : Keeps m R s s1) (h2 : Keeps m R s1 s2) :
    Keeps m R s s2 := by
  intro h
  obtain ⟨i1, n1, e1, w1⟩ := h1 h
  obtain ⟨i2, n2, e2, w2⟩ := h2 i1
  refine ⟨i2, n1 ++ n2, by rw [e2, e1, List.append_assoc], ?_⟩
  intro g hg
  rcases List.mem_append.1 hg with hg | hg
  · exact w1 g hg
  · exact w2 g hg

theorem region_search {m : Mapper} {R : Nat → Prop} (hR : Region m R) (fuel : Nat) {b r : Nat} (hb : R b)
    (h : linearSearch m fuel b = .found r) : R r := by
  induction fuel generalizing b with
  | zero => exact absurd h (by simp [linearSearch])
  | succ fuel ih =>
    rw [linearSearch] at h
    split at h
    · simp only [Search.found.injEq] at h
      subst h
      exact hb
    · split at h
      · rename_i t ht
        exact ih (hR.succ b t hb (by rw [ht]; simp)) h
      · exact absurd h (by simp)

theorem phi_pushCF {colls : List Coll} {k c : Nat} {cf : CF} {x : Coll} (h : colls[c]? = some x) :
    ∃ y, (pushCF colls k cf)[c]? = some y ∧ y.phi = x.phi := by
  rw [getElem?_pushCF, h]
  split
  · exact ⟨_, rfl, rfl⟩
  · exact ⟨x, rfl, rfl⟩

theorem keeps_mkBranch {m : Mapper} {R : Nat → Prop} (hR : Region m R) {s s' : St} {l : Loc} {get : GetSpanner}
    {bid : Nat} (hg : ∀ f, get = .insertNew f → ∀ to, m.ldom to (f to).1 = true)
    (h : s.mkBranch m l get = .ok (bid, s')) : Keeps m R s s' ∧ (In m R s → R l.block) := by
  obtain ⟨scope, sw, b, i, f, sp, _, hsw, hf, hcur, _, hget, hnew, rfl⟩ := mkBranch_ok h
  obtain ⟨hbi, _⟩ := findBuilder_spec hf
  have hbm : b ∈ s.processing := List.mem_of_getElem? hbi
  have hl : In m R s → R l.block := fun hin => hcur ▸ hin.cur b hbm
  refine ⟨fun hin => ?_, hl⟩
  have hl := hl hin
  have hswR : R sw.block := by
    rcases hsw with ⟨_, rfl⟩ | ⟨blk, hfnd, rfl⟩
    · exact hl
    · exact region_search hR _ hl hfnd
  have hfm : ∀ to, m.ldom to (f to).1 = true := by
    cases get with
    | insertNew g => rw [(hnew g rfl).2]; exact hg g rfl
    | getFrom p =>
      obtain ⟨_, e, he, rfl⟩ := hget p rfl
      exact hin.moves e (List.mem_of_find?_eq_some he)
  have hspm : ∀ e ∈ sp, ∀ to, m.ldom to (e.2 to).1 = true := by
    cases get with
    | insertNew g =>
      rw [(hnew g rfl).1]
      intro e he
      rcases List.mem_append.1 he with he | he
      · exact hin.moves e he
      · rw [List.mem_singleton.1 he]; exact hg g rfl
    | getFrom p => rw [(hget p rfl).1]; exact hin.moves
  have hto : ∀ k ∈ m.succ sw.block, R (f ⟨k, 0⟩).1.block := fun k hk =>
    hR.dom ⟨k, 0⟩ _ (hR.succ _ k hswR hk) (hfm _)
  have hphi : ∀ p, (m.lpd sw.block).map (fun bb => (⟨bb, 0⟩ : Loc)) = some p → R p.block := by
    intro p hp
    cases hj : m.lpd sw.block with
    | none => rw [hj] at hp; exact absurd hp (by simp)
    | some j =>
      rw [hj] at hp
      simp only [Option.map_some, Option.some.injEq] at hp
      subst hp
      exact hR.join _ _ hswR hj
  generalize hphi' : (m.lpd sw.block).map (fun bb => (⟨bb, 0⟩ : Loc)) = phi at hphi
  have hbR : R (phi.getD b.cur).block := by
    cases phi with
    | none => exact hin.cur b hbm
    | some p => exact hphi p rfl
  have hset : ∀ x ∈ s.processing.set i { b with cur := phi.getD b.cur },
      R x.cur.block ∧ ∃ c, s.colls[x.coll]? = some c ∧ ∀ p, c.phi = some p → R p.block := by
    intro x hx
    rcases List.mem_or_eq_of_mem_set hx with hx | rfl
    · exact ⟨hin.cur x hx, hin.phi x hx⟩
    · exact ⟨hbR, hin.phi b hbm⟩
  have hnewb : ∀ x ∈ (((m.succ sw.block).map (fun k => f ⟨k, 0⟩)).zipIdx s.colls.length).map
      (fun t => (⟨t.2, t.1.1⟩ : Builder)), R x.cur.block ∧ s.colls.length ≤ x.coll ∧
        x.coll < s.colls.length + ((m.succ sw.block).map (fun k => f ⟨k, 0⟩)).length := by
    intro x hx
    obtain ⟨⟨t, j⟩, ht, rfl⟩ := List.mem_map.1 hx
    have h1 := List.mem_zipIdx ht
    refine ⟨?_, h1.1, h1.2.1⟩
    have h2 : t ∈ (m.succ sw.block).map (fun k => f ⟨k, 0⟩) := by
      rw [h1.2.2]; exact List.getElem_mem _
    obtain ⟨k, hk, rfl⟩ := List.mem_map.1 h2
    exact hto k hk
  refine ⟨⟨?_, ?_, hspm⟩, _, rfl, ?_⟩
  · intro x hx
    rcases List.mem_append.1 hx with hx | hx
    · exact (hset x hx).1
    · exact (hnewb x hx).1
  · intro x hx
    change ∃ c, (pushCF s.colls b.coll (.branch s.branches.length) ++
      List.replicate ((m.succ sw.block).map (fun k => f ⟨k, 0⟩)).length ⟨[], phi⟩)[x.coll]? = some c ∧ _
    rcases List.mem_append.1 hx with hx | hx
    · obtain ⟨c, hc, hp⟩ := (hset x hx).2
      obtain ⟨y, hy, hyp⟩ := phi_pushCF (k := b.coll) (cf := .branch s.branches.length) hc
      exact ⟨y, getElem?_append_some hy, by rw [hyp]; exact hp⟩
    · obtain ⟨_, h1, h2⟩ := hnewb x hx
      refine ⟨⟨[], phi⟩, ?_, fun p hp => hphi p hp⟩
      rw [List.getElem?_append_right (by rw [length_pushCF]; exact h1), length_pushCF,
        List.getElem?_replicate, if_pos (by omega)]
  · intro g hg
    obtain ⟨t, ht, rfl⟩ := List.mem_map.1 hg
    obtain ⟨k, hk, rfl⟩ := List.mem_map.1 ht
    exact ⟨hl, hto k hk⟩

theorem keeps_openChild {tie : Bool} {m : Mapper} {R : Nat → Prop} (hR : Region m R) {s s' : St} {p : Nat}
    {loc : Loc} (h : s.openChild tie m p loc = .ok s') : Keeps m R s s' := by
  obtain ⟨child, s2, bp, bc, h1, _, _, rfl⟩ := openChild_ok h
  have := (keeps_mkBranch hR (by simp) h1).1
  intro hin
  obtain ⟨h1, h2⟩ := this hin
  exact ⟨⟨h1.cur, h1.phi, h1.moves⟩, h2⟩

theorem keeps_insert {tie : Bool} {m : Mapper} {R : Nat → Prop} (hR : Region m R) (fuel : Nat) {s s' : St} {l : Loc}
    {sp : Nat} (h : s.insert tie m fuel l sp = .ok s') : Keeps m R s s' := by
  induction fuel generalizing s with
  | zero => simp [St.insert] at h
  | succ fuel ih =>
    rw [St.insert] at h
    cases hf : s.findSuitable m l with
    | none =>
      rw [hf] at h
      simp only [Except.ok.injEq] at h
      subst h
      exact .refl _ _ _
    | nonLinear p loc =>
      rw [hf] at h
      dsimp only at h
      cases hc : s.openChild tie m p loc with
      | error e => rw [hc] at h; exact absurd h (by simp)
      | ok s1 => rw [hc] at h; exact (keeps_openChild hR hc).trans (ih h)
    | linear b i =>
      rw [hf] at h
      dsimp only at h
      cases hs : s.currentScope with
      | error e => rw [hs] at h; exact absurd h (by simp)
      | ok scope =>
        rw [hs] at h
        simp only [Except.ok.injEq] at h
        subst h
        obtain ⟨hfb, _⟩ := findSuitable_linear hf
        obtain ⟨hbi, hd⟩ := findBuilder_spec hfb
        have hbm : b ∈ s.processing := List.mem_of_getElem? hbi
        intro hin
        have hb := hin.cur b hbm
        obtain ⟨c, hc, hp⟩ := hin.phi b hbm
        have hend : R (s.insertEnd m b l).block := by
          unfold St.insertEnd
          rw [hc]
          obtain ⟨data, phi⟩ := c
          cases phi with
          | none => exact hR.dom _ _ hb hd
          | some p =>
            dsimp only
            split
            · exact hp p rfl
            · exact hR.dom _ _ hb hd
        refine ⟨⟨?_, ?_, hin.moves⟩, _, rfl, ?_⟩
        · intro x hx
          rcases List.mem_or_eq_of_mem_set hx with hx | rfl
          · exact hin.cur x hx
          · exact hend
        · intro x hx
          have hx' : ∃ c, s.colls[x.coll]? = some c ∧ ∀ p, c.phi = some p → R p.block := by
            rcases List.mem_or_eq_of_mem_set hx with hx | rfl
            · exact hin.phi x hx
            · exact hin.phi b hbm
          obtain ⟨c', hc', hp'⟩ := hx'
          obtain ⟨y, hy, hyp⟩ := phi_pushCF (k := b.coll) (cf := .linear s.segs.length) hc'
          exact ⟨y, hy, by rw [hyp]; exact hp'⟩
        · intro g hg
          rw [List.mem_singleton.1 hg]
          exact ⟨hb, hend⟩

theorem keeps_insertLeft {E : Env} {R : Nat → Prop} (hR : Region E.m R) (fuel : Nat) (s : St) (l : Loc) :
    Keeps E.m R s (insertLeft E fuel s l) := by
  induction fuel generalizing s with
  | zero => exact .refl _ _ _
  | succ fuel ih =>
    rw [insertLeft]
    split
    · rename_i p loc _
      split
      · exact .refl _ _ _
      · rename_i s' hc
        exact (keeps_openChild hR hc).trans (ih s')
    · exact .refl _ _ _

theorem keeps_closeBranch {m : Mapper} {R : Nat → Prop} {s s' : St} {bid : Nat} (h : s.closeBranch bid = .ok s') :
    Keeps m R s s' := by
  unfold St.closeBranch at h
  split at h
  · exact absurd h (by simp)
  · rename_i b _
    simp only [Except.ok.injEq] at h
    subst h
    rw [foldl_filter_eq]
    intro hin
    exact ⟨⟨fun x hx => hin.cur x (List.mem_filter.1 hx).1, fun x hx => hin.phi x (List.mem_filter.1 hx).1, hin.moves⟩,
      [], (List.append_nil _).symm, by simp⟩

theorem spanner_moves {E : Env} (ho : Ordered E.m) (en : List (Loc × Nat)) (d : Nat) (to : Loc) :
    E.m.ldom to (E.spanner en d to).1 = true := by
  unfold Env.spanner
  split
  · rename_i l sp h
    have := List.find?_some h
    exact this
  · exact ho.refl _

/-- What happens between two states of a visit stays in the region, if it starts there. -/
def Stays (E : Env) (R : Nat → Prop) (v v' : V) : Prop :=
  In E.m R v.st → In E.m R v'.st ∧ (∃ new, v'.st.segs = v.st.segs ++ new ∧ ∀ g ∈ new, Seg.within R g) ∧
    ∃ cs, v'.calls = v.calls ++ cs ∧ (v'.fatal = [] → v.fatal = [] ∧ ∀ l, Call.openBranch l ∈ cs → R l.block)

theorem Stays.trans {E : Env} {R : Nat → Prop} {v v1 v2 : V} (h1 : Stays E R v v1) (h2 : Stays E R v1 v2) :
    Stays E R v v2 := by
  intro h
  obtain ⟨i1, ⟨n1, e1, w1⟩, c1, f1, g1⟩ := h1 h
  obtain ⟨i2, ⟨n2, e2, w2⟩, c2, f2, g2⟩ := h2 i1
  refine ⟨i2, ⟨n1 ++ n2, by rw [e2, e1, List.append_assoc], ?_⟩, c1 ++ c2, by rw [f2, f1, List.append_assoc], ?_⟩
  · intro g hg
    rcases List.mem_append.1 hg with hg | hg
    · exact w1 g hg
    · exact w2 g hg
  · intro hf
    obtain ⟨hf1, a2⟩ := g2 hf
    obtain ⟨hf0, a1⟩ := g1 hf1
    refine ⟨hf0, fun l hl => ?_⟩
    rcases List.mem_append.1 hl with hl | hl
    · exact a1 l hl
    · exact a2 l hl

/-- One call. -/
theorem Stays.one {E : Env} {R : Nat → Prop} {v v' : V} (hk : Keeps E.m R v.st v'.st) (cs : List Call)
    (hc : v'.calls = v.calls ++ cs) (hf : v'.fatal = [] → v.fatal = [])
    (ho : In E.m R v.st → v'.fatal = [] → ∀ l, Call.openBranch l ∈ cs → R l.block) : Stays E R v v' := by
  intro h
  obtain ⟨i, n⟩ := hk h
  exact ⟨i, n, cs, hc, fun hf' => ⟨hf hf', ho h hf'⟩⟩

theorem Stays.same {E : Env} {R : Nat → Prop} {v v' : V} (h1 : v'.st = v.st) (h2 : v'.calls = v.calls)
    (h3 : v'.fatal = [] → v.fatal = []) : Stays E R v v' :=
  .one (h1 ▸ .refl _ _ _) [] (by rw [h2, List.append_nil]) h3 (by simp)

theorem stays_insert {E : Env} {R : Nat → Prop} (hR : Region E.m R) {v v' : V} {l : Loc} {sp : Nat} {ok : Bool}
    (h : v.insert E l sp = .ok (v', ok)) : Stays E R v v' := by
  rcases insert_ok h with ⟨rfl, s, hs, rfl⟩ | ⟨rfl, _, rfl⟩
  · exact .one (keeps_insert hR _ hs) [.insert l sp] rfl id (by simp)
  · exact .one (keeps_insertLeft hR _ _ _) [.insert l sp] rfl (fun h => absurd h (by simp [V.failed])) (by simp)

theorem stays_openBranch {E : Env} {R : Nat → Prop} (hR : Region E.m R) (ho : Ordered E.m) {v v' : V} {l : Loc}
    {en : List (Loc × Nat)} {d : Nat} {r : Option Nat} (h : v.openBranch E l (E.spanner en d) = .ok (v', r)) :
    Stays E R v v' := by
  rcases openBranch_ok h with ⟨bid, s, rfl, hs, rfl⟩ | ⟨rfl, _, rfl⟩
  · obtain ⟨hk, hl⟩ := keeps_mkBranch hR (by
      intro f hf
      simp only [GetSpanner.insertNew.injEq] at hf
      subst hf
      exact spanner_moves ho en d) hs
    refine .one hk [.openBranch l] rfl id ?_
    intro hin _ l' hl'
    simp only [List.mem_singleton, Call.openBranch.injEq] at hl'
    subst hl'
    exact hl hin
  · exact .one (.refl _ _ _) [.openBranch l] rfl (fun h => absurd h (by simp [V.failed]))
      (fun _ h => absurd h (by simp [V.failed]))

theorem stays_closeBranch {E : Env} {R : Nat → Prop} {v v' : V} {bid : Nat} (h : v.closeBranch bid = .ok v') :
    Stays E R v v' := by
  obtain ⟨s, hs, rfl⟩ := vcloseBranch_ok h
  exact .one (keeps_closeBranch hs) [.closeBranch bid] rfl id (by simp)

theorem stays_closeScope {E : Env} {R : Nat → Prop} {v v' : V} {id : Nat} {ok : Bool}
    (h : v.closeScope id = .ok (v', ok)) : Stays E R v v' := by
  rcases vcloseScope_ok h with ⟨rfl, s, hs, rfl⟩ | ⟨rfl, _, rfl⟩
  · obtain ⟨_, _, rfl⟩ := closeScope_eq hs
    exact .one (fun h => ⟨⟨h.cur, h.phi, h.moves⟩, [], (List.append_nil _).symm, by simp⟩) [.closeScope id] rfl
      (fun h => h) (by simp)
  · exact .one (.refl _ _ _) [.closeScope id] rfl (fun h => absurd h (by simp [V.failed])) (by simp)

theorem stays_openScope {E : Env} {R : Nat → Prop} {v v' : V} {s : St} {id : Nat} (h : v.st.openScope = .ok (id, s))
    (h1 : v'.st = s) (h2 : v'.calls = v.calls ++ [.openScope]) (h3 : v'.fatal = v.fatal) : Stays E R v v' := by
  obtain ⟨_, _, _, rfl⟩ := openScope_eq h
  refine .one ?_ [.openScope] h2 (fun h => by rw [h3] at h; exact h) (by simp)
  rw [h1]
  exact fun h => ⟨⟨h.cur, h.phi, h.moves⟩, [], (List.append_nil _).symm, by simp⟩

theorem stays_push (E : Env) (R : Nat → Prop) (v : V) (l : Loc) : Stays E R v (v.push l) := .same rfl rfl id

theorem stays_pop (E : Env) (R : Nat → Prop) (v : V) (l : Loc) : Stays E R v (v.pop l) := by
  unfold V.pop
  split
  · exact .same rfl rfl id
  · split
    · exact .same rfl rfl id
    · exact .same rfl rfl (fun h => absurd h (by simp [V.failed]))

theorem stays_guarded (E : Env) (R : Nat → Prop) (v : V) (g : Option Visit) : Stays E R v (v.guarded g) := by
  unfold V.guarded
  split <;> exact .same rfl rfl id

theorem stays_closed {E : Env} {R : Nat → Prop} (hR : Region E.m R) (ho : Ordered E.m) :
    Closed E (fun a => ∀ v v', a v = .ok v' → Stays E R v v') where
  ok := by
    intro v v' h
    simp only [Except.ok.injEq] at h
    subst h
    exact .same rfl rfl id
  seq := by
    intro a b ha hb v v' h
    obtain ⟨v1, h1, h2⟩ := seq_ok h
    exact (ha v v1 h1).trans (hb v1 v' h2)
  step := by
    intro n v v' h
    rcases stepAfter_ok h with ⟨_, rfl⟩ | ⟨l, ok, _, hi⟩
    · exact .same rfl rfl id
    · exact stays_insert hR hi
  under := by
    intro n a ha v v' h
    rcases under_ok h with ⟨_, rfl⟩ | ⟨l, v1, _, h1, rfl⟩
    · exact .same rfl rfl id
    · exact (stays_push _ _ _ _).trans ((ha _ _ h1).trans (stays_pop _ _ _ _))
  branch := by
    intro n cn c i en d hc hi v v' h
    cases branch_ok h with
    | skipped v1 h1 _ _ h2 => subst h2; exact hc v v' h1
    | noStep v1 l h1 _ h2 => exact (hc v v1 h1).trans (stays_insert hR h2)
    | noBranch v1 v2 l h1 _ h2 h3 => exact (hc v v1 h1).trans ((stays_insert hR h2).trans (stays_openBranch hR ho h3))
    | visited v1 v2 v3 v4 l bid h1 _ h2 h3 h4 h5 =>
      exact (hc v v1 h1).trans ((stays_insert hR h2).trans ((stays_openBranch hR ho h3).trans
        ((hi _ _ h4).trans (stays_closeBranch h5))))
  arm := by
    intro n bn g b hg hb v v' h
    have hgd := stays_guarded E R v g
    cases arm_ok h with
    | skipped _ h => subst h; exact hgd
    | noStep a l _ _ h => exact hgd.trans ((stays_push _ _ _ _).trans (stays_insert hR h))
    | visited a l v1 v2 _ _ h1 h2 h3 =>
      subst h3
      exact hgd.trans ((stays_push _ _ _ _).trans ((stays_insert hR h1).trans ((hb _ _ h2).trans (stays_pop _ _ _ _))))
    | walked a v1 v2 _ _ h1 h2 h3 =>
      subst h3
      have h1' : Stays E R ((v.guarded g).push a) v1 := by
        cases g with
        | none =>
          simp only [Option.getD_none, Except.ok.injEq] at h1
          subst h1
          exact .same rfl rfl id
        | some x => exact hg x rfl _ _ h1
      exact hgd.trans ((stays_push _ _ _ _).trans (h1'.trans ((hb _ _ h2).trans (stays_pop _ _ _ _))))
  scope := by
    intro a ha v v' h
    obtain ⟨s, v2, cl, h1, h2, h3⟩ := inScope_ok h
    exact (stays_openScope (v' := { v.called .openScope with st := s }) h1 rfl rfl rfl).trans ((ha _ _ h2).trans (stays_closeScope h3))
  stmt := by
    intro n locals a ha v v' h
    obtain ⟨s, v2, v3, cl, h1, h2, h3, h4⟩ := inStmt_ok h
    refine (stays_openScope h1 (inside_st _ _ _) (inside_calls _ _ _) (inside_fatal _ _ _)).trans
      ((ha _ _ h2).trans ((stays_closeScope h3).trans ?_))
    rcases h4 with ⟨_, rfl⟩ | ⟨_, h4⟩
    · exact .same rfl rfl id
    · rcases stepAfter_ok h4 with ⟨_, rfl⟩ | ⟨l, ok, _, hi⟩
      · exact .same rfl rfl id
      · exact stays_insert hR hi

end Verif.HirSteps
