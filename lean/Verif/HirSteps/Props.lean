import Verif.HirSteps.Lemmas
import Verif.HirSteps.Spec
/-!
# Properties of the visitor that places the permission steps
-/
namespace Verif.HirSteps

open Verif.Cfg Verif.Segments Verif.Graph

/-! ## C82: scopes, branches and path hints are balanced -/

theorem openChild_scopes {tie : Bool} {m : Mapper} {s s' : St} {p : Nat} {loc : Loc}
    (h : s.openChild tie m p loc = .ok s') : s'.openScopes = s.openScopes ∧ s'.nextScope = s.nextScope := by
  obtain ⟨child, s2, bp, bc, h1, _, _, rfl⟩ := openChild_ok h
  obtain ⟨_, _, _, _, _, _, _, _, _, _, _, _, _, rfl⟩ := mkBranch_ok h1
  exact ⟨rfl, rfl⟩

theorem insert_scopes {tie : Bool} {m : Mapper} (fuel : Nat) {s s' : St} {l : Loc} {sp : Nat}
    (h : s.insert tie m fuel l sp = .ok s') : s'.openScopes = s.openScopes ∧ s'.nextScope = s.nextScope := by
  induction fuel generalizing s with
  | zero => exact absurd h (by simp [St.insert])
  | succ fuel ih =>
    rw [St.insert] at h
    cases hf : s.findSuitable m l with
    | none =>
      rw [hf] at h
      simp only [Except.ok.injEq] at h
      subst h
      exact ⟨rfl, rfl⟩
    | nonLinear p loc =>
      rw [hf] at h
      dsimp only at h
      cases hc : s.openChild tie m p loc with
      | error e => rw [hc] at h; exact absurd h (by simp)
      | ok s1 =>
        rw [hc] at h
        have h1 := ih h
        have h2 := openChild_scopes hc
        exact ⟨h1.1.trans h2.1, h1.2.trans h2.2⟩
    | linear b i =>
      rw [hf] at h
      dsimp only at h
      cases hs : s.currentScope with
      | error e => rw [hs] at h; exact absurd h (by simp)
      | ok scope =>
        rw [hs] at h
        simp only [Except.ok.injEq] at h
        subst h
        exact ⟨rfl, rfl⟩

theorem insertLeft_scopes (E : Env) (fuel : Nat) (s : St) (l : Loc) :
    (insertLeft E fuel s l).openScopes = s.openScopes ∧ (insertLeft E fuel s l).nextScope = s.nextScope := by
  induction fuel generalizing s with
  | zero => exact ⟨rfl, rfl⟩
  | succ fuel ih =>
    rw [insertLeft]
    split
    · split
      · exact ⟨rfl, rfl⟩
      · rename_i s' hc
        have h1 := ih s'
        have h2 := openChild_scopes hc
        exact ⟨h1.1.trans h2.1, h1.2.trans h2.2⟩
    · exact ⟨rfl, rfl⟩

/-- The scopes of a visitor are those of the builder it started with. -/
structure Balanced (a : Visit) (v v' : V) : Prop where
  scopes : v'.st.openScopes = v.st.openScopes
  calls : ∃ cs, v'.calls = v.calls ++ cs ∧ Nested v.st.nextScope cs v'.st.nextScope
  fatal : ∃ fs, v'.fatal = v.fatal ++ fs ∧ ∀ f ∈ fs, f = .insert ∨ f = .openBranch ∨ f = .hint
  grows : v.st.nextScope ≤ v'.st.nextScope

theorem Balanced.refl (a : Visit) (v : V) : Balanced a v v :=
  ⟨rfl, ⟨[], (List.append_nil _).symm, .nil _⟩, ⟨[], (List.append_nil _).symm, by simp⟩, Nat.le_refl _⟩

theorem Balanced.trans {a b c : Visit} {v v1 v2 : V} (h1 : Balanced a v v1) (h2 : Balanced b v1 v2) :
    Balanced c v v2 := by
  obtain ⟨cs1, hc1, hn1⟩ := h1.calls
  obtain ⟨cs2, hc2, hn2⟩ := h2.calls
  obtain ⟨fs1, hf1, ha1⟩ := h1.fatal
  obtain ⟨fs2, hf2, ha2⟩ := h2.fatal
  refine ⟨h2.scopes.trans h1.scopes, ⟨cs1 ++ cs2, by rw [hc2, hc1, List.append_assoc], hn1.append hn2⟩,
    ⟨fs1 ++ fs2, by rw [hf2, hf1, List.append_assoc], ?_⟩, Nat.le_trans h1.grows h2.grows⟩
  intro f hf
  rcases List.mem_append.1 hf with hf | hf
  · exact ha1 f hf
  · exact ha2 f hf

theorem balanced_insert {E : Env} {v v' : V} {l : Loc} {sp : Nat} {ok : Bool} (a : Visit)
    (h : v.insert E l sp = .ok (v', ok)) : Balanced a v v' := by
  rcases insert_ok h with ⟨_, s, hs, rfl⟩ | ⟨_, _, rfl⟩
  · obtain ⟨h1, h2⟩ := insert_scopes _ hs
    exact ⟨h1, ⟨[.insert l sp], rfl, by change Nested _ _ s.nextScope; rw [h2]; exact .insert _ _ _⟩,
      ⟨[], (List.append_nil _).symm, by simp⟩, Nat.le_of_eq h2.symm⟩
  · obtain ⟨h1, h2⟩ := insertLeft_scopes E E.fuel v.st l
    exact ⟨h1, ⟨[.insert l sp], rfl, by
      change Nested _ _ (insertLeft E E.fuel v.st l).nextScope; rw [h2]; exact .insert _ _ _⟩,
      ⟨[.insert], rfl, by simp⟩, Nat.le_of_eq h2.symm⟩

theorem balanced_push (a : Visit) (v : V) (l : Loc) : Balanced a v (v.push l) :=
  ⟨rfl, ⟨[], (List.append_nil _).symm, .nil _⟩, ⟨[], (List.append_nil _).symm, by simp⟩, Nat.le_refl _⟩

theorem balanced_pop (a : Visit) (v : V) (l : Loc) : Balanced a v (v.pop l) := by
  unfold V.pop
  split
  · exact .refl _ _
  · split
    · exact ⟨rfl, ⟨[], (List.append_nil _).symm, .nil _⟩, ⟨[], (List.append_nil _).symm, by simp⟩, Nat.le_refl _⟩
    · exact ⟨rfl, ⟨[], (List.append_nil _).symm, .nil _⟩, ⟨[.hint], rfl, by simp⟩, Nat.le_refl _⟩

theorem balanced_guarded (a : Visit) (v : V) (g : Option Visit) : Balanced a v (v.guarded g) := by
  unfold V.guarded
  split
  · exact ⟨rfl, ⟨[], (List.append_nil _).symm, .nil _⟩, ⟨[], (List.append_nil _).symm, by simp⟩, Nat.le_refl _⟩
  · exact .refl _ _

/-- Every scope that is opened is closed. -/
theorem balanced_scope {v v1 v2 v' : V} {s : St} {cl : Bool} (hn : 0 < v.st.nextScope)
    (h1 : v.st.openScope = .ok (v.st.nextScope, s))
    (h2 : v1.st = s ∧ v1.fatal = v.fatal ∧ v1.calls = v.calls ++ [.openScope]) (a : Visit)
    (h3 : Balanced a v1 v2) (h4 : v2.closeScope v.st.nextScope = .ok (v', cl)) : cl = true ∧ Balanced a v v' := by
  obtain ⟨cur, _, _, hs⟩ := openScope_eq h1
  obtain ⟨hst, hfa, hca⟩ := h2
  obtain ⟨cs, hc, hn'⟩ := h3.calls
  obtain ⟨fs, hf, ha⟩ := h3.fatal
  have hop : v2.st.openScopes = v.st.openScopes ++ [v.st.nextScope] := by
    rw [h3.scopes, hst, hs]
  have hnx : v1.st.nextScope = v.st.nextScope + 1 := by rw [hst, hs]
  rcases vcloseScope_ok h4 with ⟨hcl, s', hs', rfl⟩ | ⟨_, h | h, _⟩
  · refine ⟨hcl, ?_⟩
    obtain ⟨_, _, rfl⟩ := closeScope_eq hs'
    refine ⟨?_, ⟨.openScope :: cs ++ [.closeScope v.st.nextScope], ?_, ?_⟩, ⟨fs, ?_, ha⟩, ?_⟩
    · change v2.st.openScopes.dropLast = _
      rw [hop, List.dropLast_concat]
    · change v2.calls ++ _ = _
      rw [hc, hca]
      simp
    · change Nested _ _ v2.st.nextScope
      rw [hnx] at hn'
      exact .scope hn'
    · change v2.fatal = _
      rw [hf, hfa]
    · change _ ≤ v2.st.nextScope
      have := h3.grows
      omega
  · omega
  · exact absurd (by rw [hop, List.getLast?_concat]) h

theorem balanced_closed (E : Env) : Closed E (fun a => ∀ v v', 0 < v.st.nextScope → a v = .ok v' → Balanced a v v') where
  ok := by
    intro v v' _ h
    simp only [Except.ok.injEq] at h
    subst h
    exact .refl _ _
  seq := by
    intro a b ha hb v v' hn h
    obtain ⟨v1, h1, h2⟩ := seq_ok h
    have := ha v v1 hn h1
    exact this.trans (hb v1 v' (Nat.lt_of_lt_of_le hn this.grows) h2)
  step := by
    intro n v v' _ h
    rcases stepAfter_ok h with ⟨_, rfl⟩ | ⟨l, ok, _, hi⟩
    · exact .refl _ _
    · exact balanced_insert _ hi
  under := by
    intro n a ha v v' hn h
    rcases under_ok h with ⟨_, rfl⟩ | ⟨l, v1, _, h1, rfl⟩
    · exact .refl _ _
    · exact ((balanced_push a v l).trans (c := a) (ha _ _ hn h1)).trans (balanced_pop a v1 l)
  branch := by
    intro n cn c i en d hc hi v v' hn h
    cases branch_ok h with
    | skipped v1 h1 _ _ h2 => subst h2; exact (hc v v' hn h1).trans (.refl c v')
    | noStep v1 l h1 _ h2 => exact (hc v v1 hn h1).trans (balanced_insert c h2)
    | noBranch v1 v2 l h1 _ h2 h3 =>
      have hb := (hc v v1 hn h1).trans (c := c) (balanced_insert c h2)
      rcases openBranch_ok h3 with ⟨_, _, h, _⟩ | ⟨_, _, rfl⟩
      · exact absurd h (by simp)
      · refine hb.trans (b := c) ⟨rfl, ⟨[.openBranch l], rfl, .refused _ _⟩, ⟨[.openBranch], rfl, by simp⟩,
          Nat.le_refl _⟩
    | visited v1 v2 v3 v4 l bid h1 _ h2 h3 h4 h5 =>
      have hb := (hc v v1 hn h1).trans (c := c) (balanced_insert c h2)
      rcases openBranch_ok h3 with ⟨bid', s, hbid, ho, rfl⟩ | ⟨h, _⟩
      · obtain ⟨s', hs', rfl⟩ := vcloseBranch_ok h5
        obtain ⟨_, _, rfl⟩ := closeBranch_eq hs'
        have hos : s.openScopes = v2.st.openScopes ∧ s.nextScope = v2.st.nextScope := by
          obtain ⟨_, _, _, _, _, _, _, _, _, _, _, _, _, rfl⟩ := mkBranch_ok ho
          exact ⟨rfl, rfl⟩
        have hin := hi _ _ (Nat.lt_of_lt_of_le hn (Nat.le_trans hb.grows (Nat.le_of_eq hos.2.symm))) h4
        obtain ⟨cs, hcs, hns⟩ := hin.calls
        obtain ⟨fs, hfs, has⟩ := hin.fatal
        have hns' : Nested v2.st.nextScope cs v4.st.nextScope := hos.2 ▸ hns
        refine hb.trans (b := c) ⟨hin.scopes.trans hos.1,
          ⟨.openBranch l :: cs ++ [.closeBranch bid], ?_, .branch l bid hns'⟩,
          ⟨fs, hfs, has⟩, Nat.le_trans (Nat.le_of_eq hos.2.symm) hin.grows⟩
        change v4.calls ++ _ = _
        rw [hcs]
        simp [V.called]
      · exact absurd h (by simp)
  arm := by
    intro n bn g b hg hb v v' hn h
    have hgd := balanced_guarded b v g
    cases arm_ok h with
    | skipped _ h => subst h; exact hgd.trans (.refl b _)
    | noStep a l _ _ h => exact (hgd.trans (c := b) (balanced_push b _ a)).trans (balanced_insert b h)
    | visited a l v1 v2 _ _ h1 h2 h3 =>
      subst h3
      have hp := (hgd.trans (c := b) (balanced_push b _ a)).trans (c := b) (balanced_insert b h1)
      exact (hp.trans (c := b) (hb _ _ (Nat.lt_of_lt_of_le hn hp.grows) h2)).trans (balanced_pop b _ _)
    | walked a v1 v2 _ _ h1 h2 h3 =>
      subst h3
      have hp := hgd.trans (c := b) (balanced_push b _ a)
      have h1' : Balanced b v v1 := by
        cases g with
        | none =>
          simp only [Option.getD_none, Except.ok.injEq] at h1
          subst h1
          exact hp
        | some x => exact hp.trans (hg x rfl _ _ (Nat.lt_of_lt_of_le hn hp.grows) h1)
      exact (h1'.trans (c := b) (hb _ _ (Nat.lt_of_lt_of_le hn h1'.grows) h2)).trans (balanced_pop b _ _)
  scope := by
    intro a ha v v' hn h
    unfold inScope at h
    cases ho : v.openScope with
    | error e => rw [ho] at h; exact absurd h (by simp)
    | ok x =>
      obtain ⟨v1, r⟩ := x
      obtain ⟨s, rfl, hs, hv1⟩ := vopenScope_ok ho
      rw [ho] at h
      dsimp only at h
      cases hin : a v1 with
      | error e => rw [hin] at h; exact absurd h (by simp)
      | ok v2 =>
        rw [hin] at h
        dsimp only at h
        cases hcl : v2.closeScope v.st.nextScope with
        | error e => rw [hcl] at h; exact absurd h (by simp)
        | ok y =>
          obtain ⟨v3, cl⟩ := y
          rw [hcl] at h
          simp only [Except.ok.injEq] at h
          subst h
          have hnx : 0 < v1.st.nextScope := by
            obtain ⟨cur, _, _, hs'⟩ := openScope_eq hs
            subst hv1 hs'
            exact Nat.succ_pos _
          have := (balanced_scope hn hs (v1 := v1) (by subst hv1; exact ⟨rfl, rfl, rfl⟩) a (ha _ _ hnx hin) hcl).2
          exact this.trans (.refl a _)
  stmt := by
    intro n locals a ha v v' hn h
    unfold inStmt at h
    cases ho : v.openScope with
    | error e => rw [ho] at h; exact absurd h (by simp)
    | ok x =>
      obtain ⟨v1, r⟩ := x
      obtain ⟨s, rfl, hs, hv1⟩ := vopenScope_ok ho
      rw [ho] at h
      dsimp only at h
      generalize hv1' : (if locals.isEmpty = true then v1
        else { v1 with locals := v1.locals ++ [(v.st.nextScope, locals)] }) = v1' at h
      have hkeep : v1'.st = s ∧ v1'.fatal = v.fatal ∧ v1'.calls = v.calls ++ [.openScope] := by
        subst hv1' hv1
        split <;> exact ⟨rfl, rfl, rfl⟩
      cases hin : a v1' with
      | error e => rw [hin] at h; exact absurd h (by simp)
      | ok v2 =>
        rw [hin] at h
        dsimp only at h
        cases hcl : v2.closeScope v.st.nextScope with
        | error e => rw [hcl] at h; exact absurd h (by simp)
        | ok y =>
          obtain ⟨v3, cl⟩ := y
          rw [hcl] at h
          have hnx : 0 < v1'.st.nextScope := by
            obtain ⟨cur, _, _, hs'⟩ := openScope_eq hs
            rw [hkeep.1]
            subst hs'
            exact Nat.succ_pos _
          obtain ⟨hclt, hb⟩ := balanced_scope hn hs hkeep a (ha _ _ hnx hin) hcl
          subst hclt
          dsimp only at h
          rcases stepAfter_ok h with ⟨_, rfl⟩ | ⟨l, ok, _, hi⟩
          · exact hb.trans (.refl a _)
          · exact hb.trans (balanced_insert a hi)

/-- Whatever the body looks like and whichever calls fail, the calls of the visitor are properly nested, at the
end only the base scope is open, and no error comes from opening or closing a scope or from closing a branch. -/
theorem C82_scopes (E : Env) (value : Expr) {v : V} (h : visitBody E value V.make = .ok v) :
    Nested 1 v.calls v.st.nextScope ∧ v.st.openScopes = [0] ∧
      ∀ f ∈ v.fatal, f = .insert ∨ f = .openBranch ∨ f = .hint := by
  have hb := all_body (balanced_closed E) value V.make v (Nat.one_pos) h
  obtain ⟨cs, hc, hn⟩ := hb.calls
  obtain ⟨fs, hf, ha⟩ := hb.fatal
  have hc' : v.calls = cs := hc
  have hf' : v.fatal = fs := hf
  rw [hc', hf']
  exact ⟨hn, hb.scopes, ha⟩

/-- The first open stretch that dominates a location is also the first that dominates its own end. -/
theorem findBuilder_cur {m : Mapper} (ho : Ordered m) {s : St} {l : Loc} {b : Builder} {i : Nat}
    (h : s.findBuilder m l = some (b, i)) : s.findBuilder m b.cur = some (b, i) := by
  unfold St.findBuilder at h ⊢
  rw [List.find?_eq_some_iff_append] at h ⊢
  obtain ⟨h1, as, bs, h2, h3⟩ := h
  refine ⟨ho.refl _, as, bs, h2, ?_⟩
  intro x hx
  have := h3 x hx
  simp only [Bool.not_eq_true'] at this ⊢
  cases hb : m.ldom x.1.cur b.cur with
  | false => rfl
  | true =>
    have := ho.trans _ _ _ hb h1
    simp_all

theorem insert_no_fail {tie : Bool} {m : Mapper} (ho : Ordered m) (fuel : Nat) (s : St) (l : Loc) (sp : Nat) :
    s.insert tie m fuel l sp ≠ .error .fail := by
  induction fuel generalizing s with
  | zero => simp [St.insert]
  | succ fuel ih =>
    rw [St.insert]
    have hcur : ∀ e, s.currentScope = .error e → e = .panic := by
      intro e he
      unfold St.currentScope at he
      split at he
      · simpa using he.symm
      · exact absurd he (by simp)
    cases hf : s.findSuitable m l with
    | none => simp
    | linear b i =>
      dsimp only
      cases hs : s.currentScope with
      | error e => rw [hcur e hs]; simp
      | ok c => simp
    | nonLinear p loc =>
      dsimp only
      cases hc : s.openChild tie m p loc with
      | ok s' => exact ih s'
      | error e =>
        dsimp only
        obtain ⟨b, i, hb, rfl, _, _⟩ := findSuitable_nonLinear hf
        have hb' := findBuilder_cur ho hb
        have hat : ∀ sw scope, s.mkBranchAt m b.cur sw (.getFrom p) scope ≠ .error .fail := by
          intro sw scope h
          unfold St.mkBranchAt at h
          dsimp only at h
          rw [hb'] at h
          simp only [ne_eq, not_true_eq_false, if_false] at h
          split at h <;> simp at h
        unfold St.openChild at hc
        cases hm : s.mkBranch m b.cur (.getFrom p) with
        | error e' =>
          rw [hm] at hc
          simp only [Except.error.injEq] at hc
          subst hc
          unfold St.mkBranch at hm
          cases hs : s.currentScope with
          | error e => rw [hs] at hm; simp only [Except.error.injEq] at hm; subst hm; rw [hcur e hs]; simp
          | ok c =>
            rw [hs] at hm
            dsimp only at hm
            intro he
            simp only [Except.error.injEq] at he
            subst he
            split at hm
            · exact absurd hm (by simp)
            · exact hat _ _ hm
            · exact hat _ _ hm
        | ok x =>
          obtain ⟨child, s'⟩ := x
          rw [hm] at hc
          dsimp only at hc
          split at hc
          · exact absurd hc (by simp)
          · simp only [Except.error.injEq] at hc
            subst hc
            simp

/-- The hints are put back and neither an insertion nor a hint is reported. -/
structure Restored (v v' : V) : Prop where
  hints : v'.hints = v.hints
  fatal : ∃ fs, v'.fatal = v.fatal ++ fs ∧ ∀ f ∈ fs, f ≠ .insert ∧ f ≠ .hint

theorem Restored.refl (v : V) : Restored v v := ⟨rfl, [], (List.append_nil _).symm, by simp⟩

theorem Restored.same {v v' : V} (h1 : v'.hints = v.hints) (h2 : v'.fatal = v.fatal) : Restored v v' :=
  ⟨h1, [], by rw [h2, List.append_nil], by simp⟩

theorem Restored.trans {v v1 v2 : V} (h1 : Restored v v1) (h2 : Restored v1 v2) : Restored v v2 := by
  obtain ⟨fs1, hf1, ha1⟩ := h1.fatal
  obtain ⟨fs2, hf2, ha2⟩ := h2.fatal
  refine ⟨h2.hints.trans h1.hints, fs1 ++ fs2, by rw [hf2, hf1, List.append_assoc], ?_⟩
  intro f hf
  rcases List.mem_append.1 hf with hf | hf
  · exact ha1 f hf
  · exact ha2 f hf

theorem restored_insert {E : Env} (hE : Ordered E.m) {v v' : V} {l : Loc} {sp : Nat} {ok : Bool}
    (h : v.insert E l sp = .ok (v', ok)) : ok = true ∧ Restored v v' := by
  rcases insert_ok h with ⟨hok, s, hs, rfl⟩ | ⟨_, h, _⟩
  · exact ⟨hok, .same rfl rfl⟩
  · exact absurd h (insert_no_fail hE _ _ _ _)

theorem restored_pop {v v1 : V} {l : Loc} (h : Restored (v.push l) v1) : Restored v (v1.pop l) := by
  obtain ⟨fs, hf, ha⟩ := h.fatal
  have hh : v1.hints = l :: v.hints := h.hints
  have : v1.pop l = { v1 with hints := v.hints } := by
    unfold V.pop
    rw [hh]
    simp
  rw [this]
  exact ⟨rfl, fs, hf, ha⟩

theorem restored_closeScope {v v' : V} {id : Nat} {ok : Bool} (h : v.closeScope id = .ok (v', ok)) :
    Restored v v' := by
  rcases vcloseScope_ok h with ⟨_, s, _, rfl⟩ | ⟨_, _, rfl⟩
  · exact .same rfl rfl
  · exact ⟨rfl, [.closeScope], rfl, by simp⟩

theorem restored_guarded (v : V) (g : Option Visit) : Restored v (v.guarded g) := by
  unfold V.guarded
  split <;> exact .same rfl rfl

theorem restored_closed {E : Env} (hE : Ordered E.m) : Closed E (fun a => ∀ v v', a v = .ok v' → Restored v v') where
  ok := by
    intro v v' h
    simp only [Except.ok.injEq] at h
    subst h
    exact .refl _
  seq := by
    intro a b ha hb v v' h
    obtain ⟨v1, h1, h2⟩ := seq_ok h
    exact (ha v v1 h1).trans (hb v1 v' h2)
  step := by
    intro n v v' h
    rcases stepAfter_ok h with ⟨_, rfl⟩ | ⟨l, ok, _, hi⟩
    · exact .refl _
    · exact (restored_insert hE hi).2
  under := by
    intro n a ha v v' h
    rcases under_ok h with ⟨_, rfl⟩ | ⟨l, v1, _, h1, rfl⟩
    · exact .refl _
    · exact restored_pop (ha _ _ h1)
  branch := by
    intro n cn c i en d hc hi v v' h
    cases branch_ok h with
    | skipped v1 h1 _ _ h2 => subst h2; exact hc v v' h1
    | noStep v1 l h1 _ h2 => exact absurd (restored_insert hE h2).1 (by simp)
    | noBranch v1 v2 l h1 _ h2 h3 =>
      have hb := (hc v v1 h1).trans (restored_insert hE h2).2
      rcases openBranch_ok h3 with ⟨_, _, h, _⟩ | ⟨_, _, rfl⟩
      · exact absurd h (by simp)
      · exact hb.trans ⟨rfl, [.openBranch], rfl, by simp⟩
    | visited v1 v2 v3 v4 l bid h1 _ h2 h3 h4 h5 =>
      have hb := (hc v v1 h1).trans (restored_insert hE h2).2
      rcases openBranch_ok h3 with ⟨bid', s, hbid, ho, rfl⟩ | ⟨h, _⟩
      · obtain ⟨s', hs', rfl⟩ := vcloseBranch_ok h5
        have hin := hi _ _ h4
        exact hb.trans ⟨hin.hints, hin.fatal⟩
      · exact absurd h (by simp)
  arm := by
    intro n bn g b hg hb v v' h
    have hgd := restored_guarded v g
    cases arm_ok h with
    | skipped _ h => subst h; exact hgd
    | noStep a l _ _ h => exact absurd (restored_insert hE h).1 (by simp)
    | visited a l v1 v2 _ _ h1 h2 h3 =>
      subst h3
      exact hgd.trans (restored_pop ((restored_insert hE h1).2.trans (hb _ _ h2)))
    | walked a v1 v2 _ _ h1 h2 h3 =>
      subst h3
      have h1' : Restored ((v.guarded g).push a) v1 := by
        cases g with
        | none =>
          simp only [Option.getD_none, Except.ok.injEq] at h1
          subst h1
          exact .refl _
        | some x => exact hg x rfl _ _ h1
      exact hgd.trans (restored_pop (h1'.trans (hb _ _ h2)))
  scope := by
    intro a ha v v' h
    unfold inScope at h
    cases ho : v.openScope with
    | error e => rw [ho] at h; exact absurd h (by simp)
    | ok x =>
      obtain ⟨v1, r⟩ := x
      obtain ⟨s, rfl, hs, hv1⟩ := vopenScope_ok ho
      rw [ho] at h
      dsimp only at h
      cases hin : a v1 with
      | error e => rw [hin] at h; exact absurd h (by simp)
      | ok v2 =>
        rw [hin] at h
        dsimp only at h
        cases hcl : v2.closeScope v.st.nextScope with
        | error e => rw [hcl] at h; exact absurd h (by simp)
        | ok y =>
          obtain ⟨v3, cl⟩ := y
          rw [hcl] at h
          simp only [Except.ok.injEq] at h
          subst h
          exact (Restored.trans (.same (by rw [hv1]; rfl) (by rw [hv1]; rfl)) (ha _ _ hin)).trans (restored_closeScope hcl)
  stmt := by
    intro n locals a ha v v' h
    unfold inStmt at h
    cases ho : v.openScope with
    | error e => rw [ho] at h; exact absurd h (by simp)
    | ok x =>
      obtain ⟨v1, r⟩ := x
      obtain ⟨s, rfl, hs, hv1⟩ := vopenScope_ok ho
      rw [ho] at h
      dsimp only at h
      generalize hv1' : (if locals.isEmpty = true then v1
        else { v1 with locals := v1.locals ++ [(v.st.nextScope, locals)] }) = v1' at h
      have hkeep : Restored v v1' := by
        subst hv1' hv1
        split <;> exact .same rfl rfl
      cases hin : a v1' with
      | error e => rw [hin] at h; exact absurd h (by simp)
      | ok v2 =>
        rw [hin] at h
        dsimp only at h
        cases hcl : v2.closeScope v.st.nextScope with
        | error e => rw [hcl] at h; exact absurd h (by simp)
        | ok y =>
          obtain ⟨v3, cl⟩ := y
          rw [hcl] at h
          have hb := (hkeep.trans (ha _ _ hin)).trans (restored_closeScope hcl)
          cases cl with
          | false => simp only [Except.ok.injEq] at h; subst h; exact hb
          | true =>
            dsimp only at h
            rcases stepAfter_ok h with ⟨_, rfl⟩ | ⟨l, ok, _, hi⟩
            · exact hb
            · exact hb.trans (restored_insert hE hi).2

/-- Dominance of the locations of a body is a preorder. -/
theorem ordered_body {b : Body} (hv : Valid b) : Ordered b.mapper where
  refl := fun l => (C68_before hv l l).2 (.inl ⟨rfl, Nat.le_refl _⟩)
  trans := by
    intro x y z h1 h2
    rw [C68_before hv] at h1 h2 ⊢
    rcases h1 with ⟨e1, l1⟩ | ⟨n1, d1⟩ <;> rcases h2 with ⟨e2, l2⟩ | ⟨n2, d2⟩
    · exact .inl ⟨e1.trans e2, Nat.le_trans l1 l2⟩
    · exact .inr ⟨by rw [e1]; exact n2, by rw [e1]; exact d2⟩
    · exact .inr ⟨by rw [← e2]; exact n1, by rw [← e2]; exact d1⟩
    · by_cases hxz : x.block = z.block
      · rw [← hxz] at d2
        exact absurd (dom_antisymm d1 d2) n1
      · exact .inr ⟨hxz, dom_trans d1 d2⟩

/-- In a body, the only internal error is that a branch could not be opened, and no path hint is left over. -/
theorem C82_errors {b : Body} (hv : Valid b) (fuel : Nat) (order : List (Loc × Nat) → List (Loc × Nat))
    (value : Expr) {v : V} (h : visitBody (Env.ofBody b fuel order) value V.make = .ok v) :
    v.hints = [] ∧ ∀ f ∈ v.fatal, f = .openBranch := by
  have hr := all_body (restored_closed (E := Env.ofBody b fuel order) (ordered_body hv)) value _ _ h
  obtain ⟨fs, hf, ha⟩ := hr.fatal
  have hf' : v.fatal = fs := hf
  refine ⟨hr.hints, fun f hm => ?_⟩
  have h1 := (C82_scopes _ value h).2.2 f hm
  rw [hf'] at hm
  have h2 := ha f hm
  rcases h1 with h1 | h1 | h1
  · exact absurd h1 h2.1
  · exact h1
  · exact absurd h1 h2.2

end Verif.HirSteps
