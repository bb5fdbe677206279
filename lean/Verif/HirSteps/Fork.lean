import Verif.HirSteps.Early
/-!
# C83: a conditional needs the step before it
-/
namespace Verif.HirSteps

open Verif.Cfg Verif.Segments Verif.Graph

theorem find_zipIdx (p : List Builder) (q : Builder → Bool) (b : Builder) (i : Nat) :
    p.zipIdx.reverse.find? (fun x => q x.1) = some (b, i) ↔
      p[i]? = some b ∧ q b = true ∧ ∀ k b', i < k → p[k]? = some b' → q b' = false := by
  have key : ∀ (r : List Builder), r.reverse.zipIdx.reverse.find? (fun x => q x.1) = some (b, i) ↔
      r.reverse[i]? = some b ∧ q b = true ∧ ∀ k b', i < k → r.reverse[k]? = some b' → q b' = false := by
    intro r
    induction r with
    | nil => simp
    | cons x r ih =>
      rw [List.reverse_cons, List.zipIdx_append, List.reverse_append]
      simp only [List.zipIdx_cons, List.zipIdx_nil, List.reverse_singleton, List.singleton_append, List.find?_cons,
        List.length_reverse, Nat.zero_add]
      cases hq : q x with
      | true =>
        simp only [Option.some.injEq, Prod.mk.injEq]
        constructor
        · rintro ⟨rfl, rfl⟩
          refine ⟨by simp, hq, ?_⟩
          intro k b' hk hb'
          rw [List.getElem?_eq_none (by simp; omega)] at hb'
          exact absurd hb' (by simp)
        · rintro ⟨h1, h2, h3⟩
          have hi := (List.getElem?_eq_some_iff.1 h1).1
          simp only [List.length_append, List.length_reverse, List.length_singleton] at hi
          rcases Nat.lt_or_ge i r.length with h | h
          · have := h3 r.length x h (by simp)
            rw [hq] at this
            exact absurd this (by simp)
          · have : i = r.length := by omega
            subst this
            simp at h1
            exact ⟨h1, rfl⟩
      | false =>
        rw [ih]
        constructor
        · rintro ⟨h1, h2, h3⟩
          have hi := (List.getElem?_eq_some_iff.1 h1).1
          rw [List.length_reverse] at hi
          refine ⟨by rw [List.getElem?_append_left (by simpa using hi)]; exact h1, h2, ?_⟩
          intro k b' hk hb'
          rcases Nat.lt_or_ge k r.length with h | h
          · rw [List.getElem?_append_left (by simpa using h)] at hb'
            exact h3 k b' hk hb'
          · have hk' := (List.getElem?_eq_some_iff.1 hb').1
            simp only [List.length_append, List.length_reverse, List.length_singleton] at hk'
            have : k = r.length := by omega
            subst this
            simp at hb'
            rw [← hb']
            exact hq
        · rintro ⟨h1, h2, h3⟩
          have hi := (List.getElem?_eq_some_iff.1 h1).1
          simp only [List.length_append, List.length_reverse, List.length_singleton] at hi
          rcases Nat.lt_or_ge i r.length with h | h
          · rw [List.getElem?_append_left (by simpa using h)] at h1
            refine ⟨h1, h2, fun k b' hk hb' => h3 k b' hk ?_⟩
            have := (List.getElem?_eq_some_iff.1 hb').1
            rw [List.getElem?_append_left this]
            exact hb'
          · have : i = r.length := by omega
            subst this
            simp at h1
            subst h1
            rw [hq] at h2
            exact absurd h2 (by simp)
  have := key p.reverse
  rwa [List.reverse_reverse] at this

theorem findBuilder_iff {m : Mapper} {s : St} {l : Loc} {b : Builder} {i : Nat} :
    s.findBuilder m l = some (b, i) ↔ s.processing[i]? = some b ∧ m.ldom b.cur l = true ∧
      ∀ k b', i < k → s.processing[k]? = some b' → m.ldom b'.cur l = false := by
  unfold St.findBuilder
  exact find_zipIdx s.processing (fun b => m.ldom b.cur l) b i

/-- Moving the stretch that was found to a place that still dominates the location: it is found again. -/
theorem findBuilder_moved {m : Mapper} {s s' : St} {l e : Loc} {b : Builder} {i : Nat}
    (h : s.findBuilder m l = some (b, i)) (he : m.ldom e l = true)
    (hs : s'.processing = s.processing.set i { b with cur := e }) :
    s'.findBuilder m l = some ({ b with cur := e }, i) := by
  rw [findBuilder_iff] at h ⊢
  obtain ⟨h1, h2, h3⟩ := h
  have hi := (List.getElem?_eq_some_iff.1 h1).1
  rw [hs]
  refine ⟨by rw [List.getElem?_set_self hi], he, ?_⟩
  intro k b' hk hb'
  rw [List.getElem?_set_ne (by omega)] at hb'
  exact h3 k b' hk hb'

/-- What an insertion that opens no branch does. -/
theorem insert_flat {tie : Bool} {m : Mapper} {fuel : Nat} {s s' : St} {l : Loc} {sp : Nat}
    (h : s.insert tie m fuel l sp = .ok s') (hb : s'.branches.length = s.branches.length) :
    (s.findSuitable m l = .none ∧ s' = s) ∨ ∃ b i scope, s.findSuitable m l = .linear b i ∧
      s.currentScope = .ok scope ∧ s' = s.insertTo b i (s.insertEnd m b l) sp scope := by
  have grows : ∀ fuel {s s' : St}, s.insert tie m fuel l sp = .ok s' → s.branches.length ≤ s'.branches.length := by
    intro fuel
    induction fuel with
    | zero => intro s s' h; simp [St.insert] at h
    | succ fuel ih =>
      intro s s' h
      rw [St.insert] at h
      split at h
      · simp only [Except.ok.injEq] at h; rw [h]; exact Nat.le_refl _
      · split at h
        · exact absurd h (by simp)
        · rename_i hc
          have := (openChild_branches hc).1
          have := ih h
          omega
      · split at h
        · exact absurd h (by simp)
        · simp only [Except.ok.injEq] at h; subst h; exact Nat.le_refl _
  cases fuel with
  | zero => simp [St.insert] at h
  | succ fuel =>
    rw [St.insert] at h
    cases hf : s.findSuitable m l with
    | none =>
      rw [hf] at h
      simp only [Except.ok.injEq] at h
      exact .inl ⟨rfl, h.symm⟩
    | nonLinear p loc =>
      rw [hf] at h
      dsimp only at h
      cases hc : s.openChild tie m p loc with
      | error e => rw [hc] at h; exact absurd h (by simp)
      | ok s1 =>
        rw [hc] at h
        have := (openChild_branches hc).1
        have := grows _ h
        omega
    | linear b i =>
      rw [hf] at h
      dsimp only at h
      cases hs : s.currentScope with
      | error e => rw [hs] at h; exact absurd h (by simp)
      | ok scope =>
        rw [hs] at h
        simp only [Except.ok.injEq] at h
        exact .inr ⟨b, i, scope, rfl, rfl, h.symm⟩

/-- After an insertion that opens no branch, a branch can be opened at the place exactly if the step to it was
recorded. -/
theorem C83_insert {tie : Bool} {m : Mapper} (ho : Ordered m) (hp : ∀ l, m.lpdom l l = true) {fuel : Nat}
    {s s' : St} {l : Loc} {sp : Nat} (h : s.insert tie m fuel l sp = .ok s')
    (hb : s'.branches.length = s.branches.length) (hd : findNextSwitch m l ≠ .diverges) (f : Spanner) :
    (∃ r, s'.openBranch m l f = .ok r) ↔ ∃ c k, s'.segs = s.segs ++ [⟨c, l, sp, k⟩] := by
  have found : ∀ {b i}, s'.findBuilder m l = some (b, i) → (∃ r, s'.openBranch m l f = .ok r) → b.cur = l := by
    rintro b i hf ⟨⟨bid, s2⟩, hr⟩
    obtain ⟨_, _, b', i', _, _, _, _, hf', hcur, _⟩ := mkBranch_ok hr
    rw [hf] at hf'
    simp only [Option.some.injEq, Prod.mk.injEq] at hf'
    rw [hf'.1]
    exact hcur
  have opens : ∀ {b i scope}, s'.findBuilder m l = some (b, i) → b.cur = l → s'.currentScope = .ok scope →
      ∃ r, s'.openBranch m l f = .ok r := by
    intro b i scope hf hcur hsc
    have hat : ∀ sw, ∃ r, s'.mkBranchAt m l sw (.insertNew f) scope = .ok r := by
      intro sw
      unfold St.mkBranchAt
      dsimp only
      rw [hf]
      dsimp only
      rw [if_neg (fun h => h hcur)]
      exact ⟨_, rfl⟩
    unfold St.openBranch St.mkBranch
    rw [hsc]
    dsimp only
    cases hsw : findNextSwitch m l with
    | diverges => exact absurd hsw hd
    | absent => exact hat l
    | found blk => exact hat _
  rcases insert_flat h hb with ⟨hn, rfl⟩ | ⟨b, i, scope, hl, hsc, rfl⟩
  · constructor
    · intro hr
      exfalso
      unfold St.findSuitable at hn
      cases hf : s'.findBuilder m l with
      | none =>
        obtain ⟨⟨bid, s2⟩, hr⟩ := hr
        obtain ⟨_, _, b', i', _, _, _, _, hf', _⟩ := mkBranch_ok hr
        rw [hf] at hf'
        exact absurd hf' (by simp)
      | some x =>
        obtain ⟨b, i⟩ := x
        have hcur := found hf hr
        rw [hf] at hn
        dsimp only at hn
        rw [hcur, hp l] at hn
        exact absurd hn (by simp)
    · rintro ⟨c, k, h⟩
      have := congrArg List.length h
      simp at this
  · obtain ⟨hfb, _⟩ := findSuitable_linear hl
    have hdom := (findBuilder_spec hfb).2
    have hend : m.ldom (s.insertEnd m b l) l = true := by
      unfold St.insertEnd
      split
      · split
        · assumption
        · exact ho.refl _
      · exact ho.refl _
    have hf' := findBuilder_moved (s' := s.insertTo b i (s.insertEnd m b l) sp scope) hfb hend rfl
    constructor
    · intro hr
      have hcur : s.insertEnd m b l = l := found hf' hr
      refine ⟨b.cur, scope, ?_⟩
      change s.segs ++ [⟨b.cur, s.insertEnd m b l, sp, scope⟩] = _
      rw [hcur]
    · rintro ⟨c, k, hs⟩
      have : s.insertEnd m b l = l := by
        have h1 : s.segs ++ [⟨b.cur, s.insertEnd m b l, sp, scope⟩] = s.segs ++ [⟨c, l, sp, k⟩] := hs
        have h2 := List.append_cancel_left h1
        simp only [List.cons.injEq, Seg.mk.injEq, and_true] at h2
        exact h2.2.1
      exact opens (scope := scope) hf' this hsc

/-- Every branch that is opened follows a step that is recorded. -/
structure Paired (E : Env) (v v' : V) : Prop where
  track : Tracked E v v'
  fatal : v'.fatal = [] → v.fatal = []
  segs : ∃ new, v'.st.segs = v.st.segs ++ new
  calls : ∃ cs, v'.calls = v.calls ++ cs ∧ (Run E.secondWins E.m v.st [] → v'.fatal = [] → Flat v v' →
    ∀ cs1 cs2 l, cs = cs1 ++ .openBranch l :: cs2 →
      ∃ cs0 sp, cs1 = cs0 ++ [.insert l sp] ∧ ∃ g ∈ v'.st.segs, g.to = l ∧ g.span = sp)

theorem Paired.trans {E : Env} {v v1 v2 : V} (h1 : Paired E v v1) (h2 : Paired E v1 v2) : Paired E v v2 := by
  obtain ⟨n1, e1⟩ := h1.segs
  obtain ⟨n2, e2⟩ := h2.segs
  obtain ⟨c1, k1, p1⟩ := h1.calls
  obtain ⟨c2, k2, p2⟩ := h2.calls
  refine ⟨h1.track.trans h2.track, fun h => h1.fatal (h2.fatal h), ⟨n1 ++ n2, by rw [e2, e1, List.append_assoc]⟩,
    c1 ++ c2, by rw [k2, k1, List.append_assoc], ?_⟩
  intro hr hf hfl cs1 cs2 l hcs
  obtain ⟨f1, f2, r1, _⟩ := flat_split h1.track h2.track hr hfl
  rcases List.append_eq_append_iff.1 hcs with ⟨a, ha, hb⟩ | ⟨a, ha, hb⟩
  · obtain ⟨cs0, sp, h, g⟩ := p2 r1 hf f2 a cs2 l hb
    exact ⟨c1 ++ cs0, sp, by rw [ha, h, List.append_assoc], g⟩
  · cases a with
    | nil =>
      simp only [List.append_nil, List.nil_append] at ha hb
      obtain ⟨cs0, sp, h, g⟩ := p2 r1 hf f2 [] cs2 l hb.symm
      exact absurd h (by simp)
    | cons x a =>
      simp only [List.cons_append, List.cons.injEq] at hb
      obtain ⟨rfl, hb⟩ := hb
      obtain ⟨cs0, sp, h, g, hg, ht⟩ := p1 hr (h2.fatal hf) f1 cs1 a l ha
      exact ⟨cs0, sp, h, g, by rw [e2]; exact List.mem_append_left _ hg, ht⟩

/-- Calls that open no branch. -/
theorem Paired.one {E : Env} {v v' : V} (ht : Tracked E v v') (hf : v'.fatal = [] → v.fatal = [])
    (hs : ∃ new, v'.st.segs = v.st.segs ++ new) (cs : List Call) (hc : v'.calls = v.calls ++ cs)
    (hn : ∀ l, Call.openBranch l ∉ cs) : Paired E v v' := by
  refine ⟨ht, hf, hs, cs, hc, ?_⟩
  intro _ _ _ cs1 cs2 l h
  exact absurd (by rw [h]; simp) (hn l)

theorem Paired.same {E : Env} {v v' : V} (h1 : v'.st = v.st) (h2 : v'.calls = v.calls)
    (h3 : v'.fatal = [] → v.fatal = []) : Paired E v v' :=
  .one (.of_eq h1 (by unfold V.closed; rw [h2])) h3 ⟨[], by rw [h1, List.append_nil]⟩ [] (by rw [h2, List.append_nil])
    (by simp)

theorem openChild_segs {tie : Bool} {m : Mapper} {s s' : St} {p : Nat} {loc : Loc}
    (h : s.openChild tie m p loc = .ok s') : ∃ new, s'.segs = s.segs ++ new := by
  obtain ⟨child, s2, bp, bc, h1, _, _, rfl⟩ := openChild_ok h
  obtain ⟨_, _, _, _, _, _, _, _, _, _, _, _, _, rfl⟩ := mkBranch_ok h1
  exact ⟨_, rfl⟩

theorem insert_segs {tie : Bool} {m : Mapper} (fuel : Nat) {s s' : St} {l : Loc} {sp : Nat}
    (h : s.insert tie m fuel l sp = .ok s') : ∃ new, s'.segs = s.segs ++ new := by
  induction fuel generalizing s with
  | zero => simp [St.insert] at h
  | succ fuel ih =>
    rw [St.insert] at h
    split at h
    · simp only [Except.ok.injEq] at h; subst h; exact ⟨[], (List.append_nil _).symm⟩
    · split at h
      · exact absurd h (by simp)
      · rename_i hc
        obtain ⟨n1, e1⟩ := openChild_segs hc
        obtain ⟨n2, e2⟩ := ih h
        exact ⟨n1 ++ n2, by rw [e2, e1, List.append_assoc]⟩
    · split at h
      · exact absurd h (by simp)
      · simp only [Except.ok.injEq] at h; subst h; exact ⟨_, rfl⟩

theorem insertLeft_segs (E : Env) (fuel : Nat) (s : St) (l : Loc) :
    ∃ new, (insertLeft E fuel s l).segs = s.segs ++ new := by
  induction fuel generalizing s with
  | zero => exact ⟨[], (List.append_nil _).symm⟩
  | succ fuel ih =>
    rw [insertLeft]
    split
    · split
      · exact ⟨[], (List.append_nil _).symm⟩
      · rename_i hc
        obtain ⟨n1, e1⟩ := openChild_segs hc
        obtain ⟨n2, e2⟩ := ih _
        exact ⟨n1 ++ n2, by rw [e2, e1, List.append_assoc]⟩
    · exact ⟨[], (List.append_nil _).symm⟩

theorem paired_insert {E : Env} {v v' : V} {l : Loc} {sp : Nat} {ok : Bool} (h : v.insert E l sp = .ok (v', ok)) :
    Paired E v v' := by
  have ht := tracked_insert h
  rcases insert_ok h with ⟨rfl, s, hs, rfl⟩ | ⟨rfl, _, rfl⟩
  · exact .one ht (fun h => h) (insert_segs _ hs) [.insert l sp] rfl (by simp)
  · exact .one ht (fun h => absurd h (by simp [V.failed])) (insertLeft_segs _ _ _ _) [.insert l sp] rfl (by simp)

theorem paired_closeScope {E : Env} {v v' : V} {id : Nat} {ok : Bool} (h : v.closeScope id = .ok (v', ok)) :
    Paired E v v' := by
  have ht := tracked_closeScope (E := E) h
  rcases vcloseScope_ok h with ⟨rfl, s, hs, rfl⟩ | ⟨rfl, _, rfl⟩
  · obtain ⟨_, _, rfl⟩ := closeScope_eq hs
    exact .one ht (fun h => h) ⟨[], (List.append_nil _).symm⟩ [.closeScope id] rfl (by simp)
  · exact .one ht (fun h => absurd h (by simp [V.failed])) ⟨[], (List.append_nil _).symm⟩ [.closeScope id] rfl
      (by simp)

theorem paired_openScope {E : Env} {v v' : V} {s : St} (h : v.st.openScope = .ok (v.st.nextScope, s))
    (h1 : v'.st = s) (h2 : v'.calls = v.calls ++ [.openScope]) (h3 : v'.fatal = v.fatal) : Paired E v v' := by
  refine .one (tracked_openScope h h1 h2) (fun h => by rw [h3] at h; exact h) ?_ [.openScope] h2 (by simp)
  obtain ⟨_, _, _, rfl⟩ := openScope_eq h
  rw [h1]
  exact ⟨[], (List.append_nil _).symm⟩

theorem paired_pop (E : Env) (v : V) (l : Loc) : Paired E v (v.pop l) := by
  unfold V.pop
  split
  · exact .same rfl rfl id
  · split
    · exact .same rfl rfl id
    · exact .same rfl rfl (fun h => absurd h (by simp [V.failed]))

theorem paired_push (E : Env) (v : V) (l : Loc) : Paired E v (v.push l) := .same rfl rfl id

theorem paired_guarded (E : Env) (v : V) (g : Option Visit) : Paired E v (v.guarded g) := by
  unfold V.guarded
  split <;> exact .same rfl rfl id

theorem openBranch_segs {m : Mapper} {s s' : St} {l : Loc} {f : Spanner} {bid : Nat}
    (h : s.openBranch m l f = .ok (bid, s')) :
    (∃ new, s'.segs = s.segs ++ new) ∧ findNextSwitch m l ≠ .diverges := by
  obtain ⟨_, _, _, _, _, _, _, hsw, _, _, _, _, _, rfl⟩ := mkBranch_ok h
  refine ⟨⟨_, rfl⟩, ?_⟩
  rcases hsw with ⟨h, _⟩ | ⟨_, h, _⟩ <;> rw [h] <;> simp

theorem paired_closed {E : Env} (hm : E.m.Proper) (ho : Ordered E.m) (hp : ∀ l, E.m.lpdom l l = true) :
    Closed E (fun a => ∀ v v', a v = .ok v' → Paired E v v') where
  ok := by
    intro v v' h
    simp only [Except.ok.injEq] at h
    subst h
    exact .same rfl rfl id
  seq := by
    intro a b ha hb v v' h
    obtain ⟨v1, h1, h2⟩ := seq_ok h
    exact (ha v v1 h1).trans (hb v1 v' h2)
  step := by
    intro n v v' h
    rcases stepAfter_ok h with ⟨_, rfl⟩ | ⟨l, ok, _, hi⟩
    · exact .same rfl rfl id
    · exact paired_insert hi
  under := by
    intro n a ha v v' h
    rcases under_ok h with ⟨_, rfl⟩ | ⟨l, v1, _, h1, rfl⟩
    · exact .same rfl rfl id
    · exact (paired_push _ _ _).trans ((ha _ _ h1).trans (paired_pop _ _ _))
  branch := by
    intro n cn c i en d hc hi v v' h
    cases branch_ok h with
    | skipped v1 h1 _ _ h2 => subst h2; exact hc v v' h1
    | noStep v1 l h1 _ h2 => exact (hc v v1 h1).trans (paired_insert h2)
    | noBranch v1 v2 l h1 _ h2 h3 =>
      refine (hc v v1 h1).trans ((paired_insert h2).trans ?_)
      rcases openBranch_ok h3 with ⟨_, _, h, _⟩ | ⟨_, _, rfl⟩
      · exact absurd h (by simp)
      · refine ⟨.of_eq rfl (closed_concat _ _ rfl), fun h => absurd h (by simp [V.failed]),
          ⟨[], (List.append_nil _).symm⟩, [.openBranch l], rfl, fun _ h => absurd h (by simp [V.failed])⟩
    | visited v1 v2 v3 v4 l bid h1 _ h2 h3 h4 h5 =>
      refine (hc v v1 h1).trans ?_
      have q4 := hi _ _ h4
      have tb : Tracked E v2 v' := tracked_branch hm h3 q4.track h5
      have ti : Tracked E v1 v2 := tracked_insert h2
      rcases openBranch_ok h3 with ⟨bid', s3, _, hs3, rfl⟩ | ⟨h, _⟩
      rotate_left
      · exact absurd h (by simp)
      obtain ⟨n4, e4⟩ := q4.segs
      obtain ⟨c4, k4, p4⟩ := q4.calls
      obtain ⟨s5, hs5, rfl⟩ := vcloseBranch_ok h5
      obtain ⟨⟨n3, e3⟩, hnd⟩ := openBranch_segs hs3
      have e5 : s5.segs = v4.st.segs := by obtain ⟨_, _, rfl⟩ := closeBranch_eq hs5; rfl
      rcases insert_ok h2 with ⟨_, s2, hs2, rfl⟩ | ⟨h, _⟩
      rotate_left
      · exact absurd h (by simp)
      obtain ⟨n2, e2⟩ := insert_segs _ hs2
      have hall : s5.segs = v1.st.segs ++ (n2 ++ (n3 ++ n4)) := by
        rw [e5, e4]
        change s3.segs ++ n4 = _
        rw [e3, ← List.append_assoc, ← List.append_assoc, ← e2]
      refine ⟨ti.trans tb, fun h => q4.fatal h, ⟨_, hall⟩,
        .insert l cn.span :: .openBranch l :: (c4 ++ [.closeBranch bid]), ?_, ?_⟩
      · change v4.calls ++ [Call.closeBranch bid] = _
        rw [k4]
        simp [V.called]
      · intro hr hf hfl cs1 cs2 l' hcs
        obtain ⟨fi, fb, r2, _⟩ := flat_split ti tb hr hfl
        have hb2 : s2.branches.length = v1.st.branches.length := by
          have hc1 : ({ v1.called (.insert l cn.span) with st := s2 } : V).closed = v1.closed := closed_concat _ _ rfl
          unfold Flat at fi
          rw [hc1] at fi
          change s2.branches.length + _ = _ at fi
          omega
        obtain ⟨c, k, hseg⟩ := (C83_insert ho hp hs2 hb2 hnd (E.spanner en d)).1 ⟨_, hs3⟩
        match cs1, hcs with
        | [], hcs => exact absurd hcs (by simp)
        | [x], hcs =>
          simp only [List.cons_append, List.nil_append, List.cons.injEq, Call.openBranch.injEq] at hcs
          obtain ⟨rfl, rfl, rfl⟩ := hcs
          refine ⟨[], cn.span, rfl, ⟨c, l, cn.span, k⟩, ?_, rfl, rfl⟩
          change _ ∈ s5.segs
          rw [hall, ← List.append_assoc, ← e2, hseg]
          simp
        | x :: y :: cs1, hcs =>
          simp only [List.cons_append, List.cons.injEq] at hcs
          obtain ⟨rfl, rfl, hcs⟩ := hcs
          have r3 : Run E.secondWins E.m s3 [] := .openBranch r2 hs3
          have f4 : Flat { ({ v1.called (.insert l cn.span) with st := s2 } : V).called (.openBranch l) with st := s3 } v4 := by
            have hc3 : ({ ({ v1.called (.insert l cn.span) with st := s2 } : V).called (.openBranch l) with st := s3 } : V).closed =
              ({ v1.called (.insert l cn.span) with st := s2 } : V).closed := closed_concat _ _ rfl
            have hc5 : ({ v4.called (.closeBranch bid) with st := s5 } : V).closed = v4.closed + 1 := by
              change (v4.calls ++ [Call.closeBranch bid]).countP Call.isClose = _
              rw [List.countP_append]
              rfl
            have b5 : s5.branches = v4.st.branches := by obtain ⟨_, _, rfl⟩ := closeBranch_eq hs5; rfl
            have b3 : s3.branches.length = s2.branches.length + 1 := by
              obtain ⟨_, _, _, _, _, _, _, _, _, _, _, _, _, rfl⟩ := mkBranch_ok hs3
              exact List.length_append
            unfold Flat at fb ⊢
            rw [hc5] at fb
            rw [hc3]
            change s5.branches.length + _ = s2.branches.length + _ at fb
            change _ = s3.branches.length + _
            rw [b5] at fb
            omega
          have hcs' : ∃ z, c4 = cs1 ++ Call.openBranch l' :: z := by
            rcases List.append_eq_append_iff.1 hcs with ⟨a, ha, hb⟩ | ⟨a, ha, hb⟩
            · match a, hb with
              | [], hb => exact absurd hb (by simp)
              | y :: a, hb =>
                simp only [List.cons_append, List.cons.injEq] at hb
                exact absurd hb.2 (by simp)
            · match a, hb with
              | [], hb => exact absurd hb (by simp)
              | y :: a, hb =>
                simp only [List.cons_append, List.cons.injEq] at hb
                obtain ⟨rfl, _⟩ := hb
                exact ⟨a, ha⟩
          obtain ⟨z, hz⟩ := hcs'
          obtain ⟨cs0, sp, h, g, hg, ht⟩ := p4 r3 hf f4 cs1 z l' hz
          refine ⟨_ :: _ :: cs0, sp, by rw [h]; rfl, g, ?_, ht⟩
          change g ∈ s5.segs
          rw [e5]
          exact hg
  arm := by
    intro n bn g b hg hb v v' h
    have hgd := paired_guarded E v g
    cases arm_ok h with
    | skipped _ h => subst h; exact hgd
    | noStep a l _ _ h => exact hgd.trans ((paired_push _ _ _).trans (paired_insert h))
    | visited a l v1 v2 _ _ h1 h2 h3 =>
      subst h3
      exact hgd.trans ((paired_push _ _ _).trans ((paired_insert h1).trans ((hb _ _ h2).trans (paired_pop _ _ _))))
    | walked a v1 v2 _ _ h1 h2 h3 =>
      subst h3
      have h1' : Paired E ((v.guarded g).push a) v1 := by
        cases g with
        | none =>
          simp only [Option.getD_none, Except.ok.injEq] at h1
          subst h1
          exact .same rfl rfl id
        | some x => exact hg x rfl _ _ h1
      exact hgd.trans ((paired_push _ _ _).trans (h1'.trans ((hb _ _ h2).trans (paired_pop _ _ _))))
  scope := by
    intro a ha v v' h
    obtain ⟨s, v2, cl, h1, h2, h3⟩ := inScope_ok h
    exact (paired_openScope (v' := { v.called .openScope with st := s }) h1 rfl rfl rfl).trans
      ((ha _ _ h2).trans (paired_closeScope h3))
  stmt := by
    intro n locals a ha v v' h
    obtain ⟨s, v2, v3, cl, h1, h2, h3, h4⟩ := inStmt_ok h
    refine (paired_openScope h1 (inside_st _ _ _) (inside_calls _ _ _) (inside_fatal _ _ _)).trans
      ((ha _ _ h2).trans ((paired_closeScope h3).trans ?_))
    rcases h4 with ⟨_, rfl⟩ | ⟨_, h4⟩
    · exact .same rfl rfl id
    · rcases stepAfter_ok h4 with ⟨_, rfl⟩ | ⟨l, ok, _, hi⟩
      · exact .same rfl rfl id
      · exact paired_insert hi

theorem filterMap_split {α β : Type} (f : α → Option β) (l : List α) {d1 d2 : List β} {x : β}
    (h : l.filterMap f = d1 ++ x :: d2) : ∃ l1 a l2, l = l1 ++ a :: l2 ∧ l1.filterMap f = d1 ∧ f a = some x := by
  rw [List.filterMap_eq_append_iff] at h
  obtain ⟨l1, l2, rfl, h1, h2⟩ := h
  rw [List.filterMap_eq_cons_iff] at h2
  obtain ⟨l3, a, l4, rfl, h3, h4, _⟩ := h2
  refine ⟨l1 ++ l3, a, l4, by simp, ?_, h4⟩
  rw [List.filterMap_append, h1, List.filterMap_eq_nil_iff.2 h3, List.append_nil]

/-- Steps are computed for a function only if every conditional that is met has its condition recorded as a step
that ends where the branch is opened. -/
theorem C83_recorded {b : Body} (hv : Valid b) {fuel : Nat} {order : List (Loc × Nat) → List (Loc × Nat)}
    {value : Expr} {f : Frozen} {locals : List (Nat × List Nat)}
    (h : compute (.ofBody b fuel order) value = .steps f locals) {d1 d2 : List Due} {l : Loc} {sp : Nat}
    (hd : dueBody b.mapper.isSwitch b.locationSuccessor value = d1 ++ .step l sp :: .fork l :: d2) :
    ∃ g ∈ f.segs, g.to = l ∧ g.span = sp := by
  generalize hE : Env.ofBody b fuel order = E at h
  have hEm : E.m = b.mapper := by rw [← hE]; rfl
  have hEn : E.next = b.locationSuccessor := by rw [← hE]; rfl
  have hEs : E.secondWins = true := by rw [← hE]; rfl
  have hm : E.m.Proper := by rw [hEm]; exact mapper_proper b
  have ho : Ordered E.m := by rw [hEm]; exact ordered_body hv
  have hp : ∀ l, E.m.lpdom l l = true := by
    intro l
    rw [hEm]
    change lpostDominates b l l = true
    simp [lpostDominates]
  rw [← hEm, ← hEn] at hd
  obtain ⟨v, hvb, _, hfat, hfz, _⟩ := compute_steps h
  have hflat := flat_of_steps hEs hm hvb hfz
  have hpair := all_body (paired_closed hm ho hp) value _ _ hvb
  obtain ⟨cs, hcs, hall⟩ := hpair.calls
  have hcs' : v.calls = cs := hcs
  have hdue := C88_all E value hvb hfat
  rw [hd, List.filter_append, List.filter_cons_of_pos (by simp), List.filter_cons_of_pos (by simp), hcs',
    ← List.singleton_append, ← List.append_assoc] at hdue
  obtain ⟨l1, a, l2, h1, h2, h3⟩ := filterMap_split _ _ hdue
  have ha : a = .openBranch l := by
    cases a <;> simp [Call.due] at h3
    rw [h3]
  subst ha
  obtain ⟨cs0, sp', h4, g, hg, ht, hsp⟩ := hall .make hfat hflat l1 l2 l h1
  rw [h4, List.filterMap_append] at h2
  have : sp' = sp := by
    have h5 := congrArg List.getLast? h2
    simp [Call.due] at h5
    exact h5
  subst this
  exact ⟨g, by rw [freeze_segs hfz]; exact hg, ht, hsp⟩

end Verif.HirSteps
