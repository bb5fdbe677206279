import Verif.HirSteps.Region
import Verif.HirSteps.Finish
import Verif.HirSteps.Coverage
/-!
# What follows a conditional
-/
namespace Verif.HirSteps

open Verif.Cfg Verif.Segments Verif.Graph

/-- A relation between states of the builder that every call respects. -/
structure StClosed (E : Env) (K : St → St → Prop) : Prop where
  refl : ∀ s, K s s
  trans : ∀ {s s1 s2}, K s s1 → K s1 s2 → K s s2
  insert : ∀ {s s' l sp}, s.insert E.secondWins E.m E.fuel l sp = .ok s' → K s s'
  left : ∀ s l, K s (insertLeft E E.fuel s l)
  openBranch : ∀ {s s' l en d bid}, s.openBranch E.m l (E.spanner en d) = .ok (bid, s') → K s s'
  closeBranch : ∀ {s s' bid}, s.closeBranch bid = .ok s' → K s s'
  openScope : ∀ {s s' id}, s.openScope = .ok (id, s') → K s s'
  closeScope : ∀ {s s' id}, s.closeScope id = .ok s' → K s s'

theorem StClosed.ins {E : Env} {K : St → St → Prop} (hK : StClosed E K) {v v' : V} {l : Loc} {sp : Nat} {ok : Bool}
    (h : v.insert E l sp = .ok (v', ok)) : K v.st v'.st := by
  rcases insert_ok h with ⟨_, s, hs, rfl⟩ | ⟨_, _, rfl⟩
  · exact hK.insert hs
  · exact hK.left _ _

theorem StClosed.close {E : Env} {K : St → St → Prop} (hK : StClosed E K) {v v' : V} {id : Nat} {ok : Bool}
    (h : v.closeScope id = .ok (v', ok)) : K v.st v'.st := by
  rcases vcloseScope_ok h with ⟨_, s, hs, rfl⟩ | ⟨_, _, rfl⟩
  · exact hK.closeScope hs
  · exact hK.refl _

theorem pop_st (v : V) (l : Loc) : (v.pop l).st = v.st := by
  unfold V.pop
  split
  · rfl
  · split <;> rfl

theorem guarded_st (v : V) (g : Option Visit) : (v.guarded g).st = v.st := by
  unfold V.guarded
  split <;> rfl

theorem StClosed.closed {E : Env} {K : St → St → Prop} (hK : StClosed E K) :
    Closed E (fun a => ∀ v v', a v = .ok v' → K v.st v'.st) where
  ok := by
    intro v v' h
    simp only [Except.ok.injEq] at h
    subst h
    exact hK.refl _
  seq := by
    intro a b ha hb v v' h
    obtain ⟨v1, h1, h2⟩ := seq_ok h
    exact hK.trans (ha v v1 h1) (hb v1 v' h2)
  step := by
    intro n v v' h
    rcases stepAfter_ok h with ⟨_, rfl⟩ | ⟨l, ok, _, hi⟩
    · exact hK.refl _
    · exact hK.ins hi
  under := by
    intro n a ha v v' h
    rcases under_ok h with ⟨_, rfl⟩ | ⟨l, v1, _, h1, rfl⟩
    · exact hK.refl _
    · rw [pop_st]
      have := ha _ _ h1
      exact this
  branch := by
    intro n cn c i en d hc hi v v' h
    have ho : ∀ {v v' l r}, V.openBranch E v l (E.spanner en d) = .ok (v', r) → K v.st v'.st := by
      intro v v' l r h
      rcases openBranch_ok h with ⟨bid, s, _, hs, rfl⟩ | ⟨_, _, rfl⟩
      · exact hK.openBranch hs
      · exact hK.refl _
    cases branch_ok h with
    | skipped v1 h1 _ _ h2 => subst h2; exact hc v v' h1
    | noStep v1 l h1 _ h2 => exact hK.trans (hc v v1 h1) (hK.ins h2)
    | noBranch v1 v2 l h1 _ h2 h3 => exact hK.trans (hc v v1 h1) (hK.trans (hK.ins h2) (ho h3))
    | visited v1 v2 v3 v4 l bid h1 _ h2 h3 h4 h5 =>
      refine hK.trans (hc v v1 h1) (hK.trans (hK.ins h2) (hK.trans (ho h3) (hK.trans (hi _ _ h4) ?_)))
      obtain ⟨s, hs, rfl⟩ := vcloseBranch_ok h5
      exact hK.closeBranch hs
  arm := by
    intro n bn g b hg hb v v' h
    have hst : ∀ a, ((v.guarded g).push a).st = v.st := fun a => guarded_st v g
    cases arm_ok h with
    | skipped _ h => subst h; rw [guarded_st]; exact hK.refl _
    | noStep a l _ _ h => rw [← hst a]; exact hK.ins h
    | visited a l v1 v2 _ _ h1 h2 h3 =>
      subst h3
      rw [pop_st, ← hst a]
      exact hK.trans (hK.ins h1) (hb _ _ h2)
    | walked a v1 v2 _ _ h1 h2 h3 =>
      subst h3
      rw [pop_st, ← hst a]
      refine hK.trans ?_ (hb _ _ h2)
      cases g with
      | none =>
        simp only [Option.getD_none, Except.ok.injEq] at h1
        subst h1
        exact hK.refl _
      | some x => exact hg x rfl _ _ h1
  scope := by
    intro a ha v v' h
    obtain ⟨s, v2, cl, h1, h2, h3⟩ := inScope_ok h
    exact hK.trans (hK.openScope h1) (hK.trans (ha _ _ h2) (hK.close h3))
  stmt := by
    intro n locals a ha v v' h
    obtain ⟨s, v2, v3, cl, h1, h2, h3, h4⟩ := inStmt_ok h
    have := ha _ _ h2
    rw [inside_st] at this
    refine hK.trans (hK.openScope h1) (hK.trans this (hK.trans (hK.close h3) ?_))
    rcases h4 with ⟨_, rfl⟩ | ⟨_, h4⟩
    · exact hK.refl _
    · rcases stepAfter_ok h4 with ⟨_, rfl⟩ | ⟨l, ok, _, hi⟩
      · exact hK.refl _
      · exact hK.ins hi

/-- A composition of visits of parts of a body. -/
def Walk (E : Env) (a : Visit) : Prop := ∀ P, Closed E P → P a

/-! ## The stretch of the body itself -/

structure Root (m : Mapper) (R : Nat → Prop) (s : St) : Prop where
  cur : ∀ b ∈ s.processing, b.coll = 0 → R b.cur.block
  first : ∃ c, s.colls[0]? = some c ∧ c.phi = none
  moves : ∀ e ∈ s.spanners, ∀ to, m.ldom to (e.2 to).1 = true

theorem root_mkBranch {m : Mapper} {R : Nat → Prop} (hR : Region m R) {s s' : St} {l : Loc} {get : GetSpanner}
    {bid : Nat} (hg : ∀ f, get = .insertNew f → ∀ to, m.ldom to (f to).1 = true)
    (h : s.mkBranch m l get = .ok (bid, s')) (hin : Root m R s) : Root m R s' := by
  obtain ⟨scope, sw, b, i, f, sp, _, hsw, hf, hcur, _, hget, hnew, rfl⟩ := mkBranch_ok h
  obtain ⟨hbi, _⟩ := findBuilder_spec hf
  have hbm : b ∈ s.processing := List.mem_of_getElem? hbi
  obtain ⟨c, hc, hcp⟩ := hin.first
  have hpos : 0 < s.colls.length := (List.getElem?_eq_some_iff.1 hc).1
  have hspm : ∀ e ∈ sp, ∀ to, m.ldom to (e.2 to).1 = true := by
    cases get with
    | insertNew g =>
      rw [(hnew g rfl).1]
      intro e he
      rcases List.mem_append.1 he with he | he
      · exact hin.moves e he
      · rw [List.mem_singleton.1 he]; exact hg g rfl
    | getFrom p => rw [(hget p rfl).1]; exact hin.moves
  refine ⟨?_, ?_, hspm⟩
  · intro x hx hx0
    rcases List.mem_append.1 hx with hx | hx
    · rcases List.mem_or_eq_of_mem_set hx with hx | rfl
      · exact hin.cur x hx hx0
      · have hl : R l.block := hcur ▸ hin.cur b hbm hx0
        have hswR : R sw.block := by
          rcases hsw with ⟨_, rfl⟩ | ⟨blk, hfnd, rfl⟩
          · exact hl
          · exact region_search hR _ hl hfnd
        cases hj : m.lpd sw.block with
        | none => exact hin.cur b hbm hx0
        | some j => exact hR.join _ _ hswR hj
    · obtain ⟨⟨t, j⟩, ht, rfl⟩ := List.mem_map.1 hx
      have h1 : s.colls.length ≤ j := (List.mem_zipIdx ht).1
      have hx0 : j = 0 := hx0
      omega
  · obtain ⟨y, hy, hyp⟩ := phi_pushCF (k := b.coll) (cf := .branch s.branches.length) hc
    exact ⟨y, getElem?_append_some hy, hyp.trans hcp⟩

theorem root_openChild {tie : Bool} {m : Mapper} {R : Nat → Prop} (hR : Region m R) {s s' : St} {p : Nat}
    {loc : Loc} (h : s.openChild tie m p loc = .ok s') (hin : Root m R s) : Root m R s' := by
  obtain ⟨child, s2, bp, bc, h1, _, _, rfl⟩ := openChild_ok h
  have := root_mkBranch hR (by simp) h1 hin
  exact ⟨this.cur, this.first, this.moves⟩

theorem root_closed {E : Env} {R : Nat → Prop} (hR : Region E.m R) (ho : Ordered E.m) :
    StClosed E (fun s s' => Root E.m R s → Root E.m R s') where
  refl := fun _ h => h
  trans := fun h1 h2 h => h2 (h1 h)
  insert := by
    generalize E.fuel = fuel
    intro s s' l sp h
    induction fuel generalizing s with
    | zero => simp [St.insert] at h
    | succ fuel ih =>
      rw [St.insert] at h
      cases hf : s.findSuitable E.m l with
      | none =>
        rw [hf] at h
        simp only [Except.ok.injEq] at h
        subst h
        exact fun h => h
      | nonLinear p loc =>
        rw [hf] at h
        dsimp only at h
        cases hc : s.openChild E.secondWins E.m p loc with
        | error e => rw [hc] at h; exact absurd h (by simp)
        | ok s1 => rw [hc] at h; exact fun hin => ih h (root_openChild hR hc hin)
      | linear b i =>
        rw [hf] at h
        dsimp only at h
        cases hs : s.currentScope with
        | error e => rw [hs] at h; exact absurd h (by simp)
        | ok scope =>
          rw [hs] at h
          simp only [Except.ok.injEq] at h
          subst h
          obtain ⟨hfb, _⟩ := findSuitable_linear hf
          obtain ⟨hbi, hd⟩ := findBuilder_spec hfb
          have hbm : b ∈ s.processing := List.mem_of_getElem? hbi
          intro hin
          obtain ⟨c, hc, hcp⟩ := hin.first
          refine ⟨?_, ?_, hin.moves⟩
          · intro x hx hx0
            rcases List.mem_or_eq_of_mem_set hx with hx | rfl
            · exact hin.cur x hx hx0
            · have hx0 : b.coll = 0 := hx0
              have : s.insertEnd E.m b l = l := by
                obtain ⟨data, phi⟩ := c
                have hcp : phi = none := hcp
                subst hcp
                unfold St.insertEnd
                rw [hx0, hc]
              change R (s.insertEnd E.m b l).block
              rw [this]
              exact hR.dom _ _ (hin.cur b hbm hx0) hd
          · obtain ⟨y, hy, hyp⟩ := phi_pushCF (k := b.coll) (cf := .linear s.segs.length) hc
            exact ⟨y, hy, hyp.trans hcp⟩
  left := by
    generalize E.fuel = fuel
    intro s l
    induction fuel generalizing s with
    | zero => exact fun h => h
    | succ fuel ih =>
      rw [insertLeft]
      split
      · split
        · exact fun h => h
        · rename_i s' hc
          exact fun hin => ih s' (root_openChild hR hc hin)
      · exact fun h => h
  openBranch := by
    intro s s' l en d bid h
    exact root_mkBranch hR (by
      intro f hf
      simp only [GetSpanner.insertNew.injEq] at hf
      subst hf
      exact spanner_moves ho en d) h
  closeBranch := by
    intro s s' bid h hin
    obtain ⟨b, _, rfl⟩ := closeBranch_eq h
    exact ⟨fun x hx => hin.cur x (List.mem_filter.1 hx).1, hin.first, hin.moves⟩
  openScope := by
    intro s s' id h hin
    obtain ⟨_, _, _, rfl⟩ := openScope_eq h
    exact ⟨hin.cur, hin.first, hin.moves⟩
  closeScope := by
    intro s s' id h hin
    obtain ⟨_, _, rfl⟩ := closeScope_eq h
    exact ⟨hin.cur, hin.first, hin.moves⟩

/-- When only the stretch of the body is open, everything is in the region it is in. -/
theorem in_of_root {m : Mapper} {R : Nat → Prop} {s : St} (h : Root m R s)
    (hp : s.processing.map (·.coll) = [0]) : In m R s := by
  have h0 : ∀ b ∈ s.processing, b.coll = 0 := by
    intro b hb
    have := List.mem_map_of_mem (f := fun x : Builder => x.coll) hb
    rw [hp] at this
    exact List.mem_singleton.1 this
  refine ⟨fun b hb => h.cur b hb (h0 b hb), fun b hb => ?_, h.moves⟩
  rw [h0 b hb]
  obtain ⟨c, hc, hcp⟩ := h.first
  exact ⟨c, hc, fun p hp => absurd (hcp.symm.trans hp) (by simp)⟩

/-- The switch a branch opened at a location belongs to. -/
def switchOf (m : Mapper) (l : Loc) : Nat :=
  match findNextSwitch m l with
  | .found blk => blk
  | _ => l.block

/-- The blocks that can be reached from a block. -/
theorem region_body {b : Body} (hv : Valid b) (j : Nat) : Region b.mapper (Reach b.succ j) where
  succ := fun _ _ h1 h2 => .tail h1 h2
  dom := by
    intro x y h hd
    rcases (C68_before hv x y).1 hd with ⟨e, _⟩ | ⟨_, hd⟩
    · rw [← e]; exact h
    · exact h.trans (dom_reach hd).1
  join := by
    intro x k h hk
    refine h.trans ?_
    change leastPostDominator b x = some k at hk
    unfold leastPostDominator at hk
    dsimp only at hk
    split at hk
    · exact absurd hk (by simp)
    · have h1 := List.mem_of_find?_eq_some hk
      exact (dom_reach ((mem_region hv x k).1 (List.mem_filter.1 h1).1)).1


theorem region_all (m : Mapper) : Region m (fun _ => True) := ⟨fun _ _ _ _ => trivial, fun _ _ _ _ => trivial,
  fun _ _ _ _ => trivial⟩

/-- Between two states no branch was opened implicitly. -/
def Flat (v v' : V) : Prop := v'.st.branches.length + v.closed = v.st.branches.length + v'.closed

theorem flat_split {E : Env} {v v1 v2 : V} (h1 : Tracked E v v1) (h2 : Tracked E v1 v2)
    (hr : Run E.secondWins E.m v.st []) (hf : Flat v v2) : Flat v v1 ∧ Flat v1 v2 ∧ Run E.secondWins E.m v1.st [] ∧
      v1.st.processing.map (·.coll) = v.st.processing.map (·.coll) := by
  obtain ⟨g1, m1⟩ := h1 [] hr
  obtain ⟨g2, m2⟩ := h2 _ m1.run
  have c1 := m1.count
  have c2 := m2.count
  unfold Flat at *
  have : g1 = [] := List.length_eq_zero_iff.1 (by omega)
  subst this
  exact ⟨by simp at c1; omega, by simp at c1; omega, m1.run, m1.same rfl⟩

theorem flat_end {E : Env} {v v1 : V} (h1 : Tracked E v v1) (hr : Run E.secondWins E.m v.st []) (hf : Flat v v1) :
    Run E.secondWins E.m v1.st [] ∧ v1.st.processing.map (·.coll) = v.st.processing.map (·.coll) :=
  (flat_split h1 (.refl _ _) hr hf).2.2

/-- After a conditional that is not part of another one, everything that is open is in every region that contains
the place where the conditional comes together. -/
theorem in_after {E : Env} (hm : E.m.Proper) (ho : Ordered E.m) {R : Nat → Prop} (hR : Region E.m R) {n cn : Node}
    {c i : Visit} (hc : Walk E c) (hi : Walk E i) {en : List (Loc × Nat)} {d : Nat} {v v' : V}
    (hr : Run E.secondWins E.m v.st []) (hp : v.st.processing.map (·.coll) = [0])
    (hroot : Root E.m (fun _ => True) v.st) (h : handleBranch E n cn c i en d v = .ok v') (hflat : Flat v v')
    (hfat : v'.fatal = []) {l : Loc} (hl : (E.exitOf cn).or n.entry = some l) {j : Nat}
    (hj : E.m.lpd (switchOf E.m l) = some j) (hRj : R j) : In E.m R v'.st := by
  have hclosed := tracked_closed hm
  cases branch_ok h with
  | skipped v1 h1 he hn h2 => rw [he, hn] at hl; exact absurd hl (by simp)
  | noStep v1 l' h1 _ h2 =>
    rcases insert_ok h2 with ⟨h, _⟩ | ⟨_, _, rfl⟩
    · exact absurd h (by simp)
    · exact absurd hfat (by simp [V.failed])
  | noBranch v1 v2 l' h1 _ h2 h3 =>
    rcases openBranch_ok h3 with ⟨_, _, h, _⟩ | ⟨_, _, rfl⟩
    · exact absurd h (by simp)
    · exact absurd hfat (by simp [V.failed])
  | visited v1 v2 v3 v4 l' bid h1 hl' h2 h3 h4 h5 =>
    rw [hl] at hl'
    simp only [Option.some.injEq] at hl'
    subst hl'
    have hc1 := hc _ (root_closed (region_all E.m) ho).closed v v1 h1
    have hr2 : Root E.m (fun _ => True) v2.st := (root_closed (region_all E.m) ho).ins h2 (hc1 hroot)
    have t12 : Tracked E v v2 := (hc _ hclosed v v1 h1).trans (tracked_insert h2)
    have t25 : Tracked E v2 v' := tracked_branch hm h3 (hi _ hclosed _ _ h4) h5
    obtain ⟨_, f2, run2, p2⟩ := flat_split t12 t25 hr hflat
    obtain ⟨_, p'⟩ := flat_end t25 run2 f2
    rw [hp] at p2
    rw [p2] at p'
    rcases openBranch_ok h3 with ⟨bid', s3, hbid, hs3, rfl⟩ | ⟨h, _⟩
    rotate_left
    · exact absurd h (by simp)
    have hroot3 : Root E.m R s3 := by
      have hm3 := root_mkBranch (region_all E.m) (get := .insertNew (E.spanner en d)) (by
        intro f hf
        simp only [GetSpanner.insertNew.injEq] at hf
        subst hf
        exact spanner_moves ho en d) hs3 hr2
      refine ⟨?_, hm3.first, hm3.moves⟩
      obtain ⟨scope, sw, b, k, f, sp, _, hsw, hfb, hcur, _, _, _, rfl⟩ := mkBranch_ok hs3
      obtain ⟨hbi, _⟩ := findBuilder_spec hfb
      have hone : v2.st.processing = [b] ∧ k = 0 := by
        have hlen : v2.st.processing.length = 1 := by
          rw [← List.length_map (f := fun x : Builder => x.coll), p2]; rfl
        obtain ⟨x, hx⟩ := List.length_eq_one_iff.1 hlen
        rw [hx] at hbi ⊢
        cases k with
        | zero => simpa using hbi
        | succ k => exact absurd hbi (by simp)
      have hb0 : b.coll = 0 := by
        rw [hone.1] at p2
        simpa using p2
      have hswb : E.m.lpd sw.block = some j := by
        rw [← hj]
        unfold switchOf
        rcases hsw with ⟨h, rfl⟩ | ⟨blk, h, rfl⟩ <;> rw [h]
      intro x hx hx0
      rcases List.mem_append.1 hx with hx | hx
      · rw [hone.1, hone.2, hswb] at hx
        simp only [List.set_cons_zero, List.mem_singleton] at hx
        rw [hx]
        exact hRj
      · obtain ⟨⟨t, q⟩, ht, rfl⟩ := List.mem_map.1 hx
        have h1 : v2.st.colls.length ≤ q := (List.mem_zipIdx ht).1
        have hx0 : q = 0 := hx0
        obtain ⟨c0, hc0, _⟩ := hr2.first
        have := (List.getElem?_eq_some_iff.1 hc0).1
        omega
    have h4' := hi _ (root_closed hR ho).closed _ _ h4 hroot3
    obtain ⟨s5, hs5, rfl⟩ := vcloseBranch_ok h5
    exact in_of_root ((root_closed hR ho).closeBranch hs5 h4') p'

/-! ## The rest of a body -/

/-- The expression is a conditional, and its branch is opened at the location. -/
def Forks (sw : Nat → Bool) (next : Loc → Option Loc) (e : Expr) (l : Loc) : Prop :=
  match e with
  | .ite n cnd _ _ => (after next cnd.node).or n.entry = some l
  | .whileLoop n cnd _ _ => (after next cnd.node).or n.entry = some l
  | .forLoop n cnd _ _ => (after next cnd.node).or n.entry = some l
  | .mtch n fromFor cnd arms =>
    (after next cnd.node).or n.entry = some l ∧ isPlain sw next fromFor cnd.node arms.length = false
  | .other _ _ => False

theorem visit_forks {E : Env} {e : Expr} {l : Loc} (h : Forks E.m.isSwitch E.next e l) :
    ∃ n cn c i en d, Walk E c ∧ Walk E i ∧ (E.exitOf cn).or n.entry = some l ∧
      visitExpr E e = handleBranch E n cn c i en d := by
  have hw : ∀ e, Walk E (visitExpr E e) := fun e P hP => all_expr hP e
  cases e with
  | ite n cnd thn els =>
    rw [visitExpr.eq_def]
    exact ⟨_, _, _, _, _, _, hw _, fun P hP => hP.seq (hP.under _ (all_expr hP thn)) (all_else hP els), h, rfl⟩
  | whileLoop n cnd thn els =>
    rw [visitExpr]
    exact ⟨_, _, _, _, _, _, hw _, fun P hP => hP.seq (hP.under _ (all_expr hP thn)) (hP.under _ (all_expr hP els)),
      h, rfl⟩
  | forLoop n cnd nothing item =>
    rw [visitExpr]
    exact ⟨_, _, _, _, _, _, hw _, fun P hP => hP.seq (all_arm hP nothing) (all_arm hP item), h, rfl⟩
  | mtch n fromFor cnd arms =>
    obtain ⟨h, hp⟩ := h
    rw [isPlain_eq] at hp
    refine ⟨n, cnd.node, visitExpr E cnd, visitArms E arms, armEntries arms, 0, hw _, fun P hP => all_arms hP arms, h, ?_⟩
    funext v
    rw [visitExpr, hp]
    rfl
  | other n parts => exact absurd h (by simp [Forks])

theorem visitStmts_append (E : Env) (xs ys : List Stmt) :
    visitStmts E (xs ++ ys) = seq (visitStmts E xs) (visitStmts E ys) := by
  induction xs with
  | nil => rw [List.nil_append, visitStmts]; rfl
  | cons x xs ih =>
    rw [List.cons_append, visitStmts, ih, visitStmts]
    funext v
    unfold seq
    cases visitStmt E x v <;> rfl

/-- The tail of a block. -/
def visitTail (E : Env) : Option Expr → Visit
  | none => .ok
  | some e => seq (visitExpr E e) (fun v => v.stepAfter E e.node)

def dueTail (sw : Nat → Bool) (next : Loc → Option Loc) : Option Expr → List Due
  | none => []
  | some e => dueExpr sw next e ++ dueAfter next e.node

theorem walk_stmts (E : Env) (xs : List Stmt) : Walk E (visitStmts E xs) := fun _ hP => all_stmts hP xs
theorem walk_expr (E : Env) (e : Expr) : Walk E (visitExpr E e) := fun _ hP => all_expr hP e
theorem walk_tail (E : Env) (t : Option Expr) : Walk E (visitTail E t) := by
  intro P hP
  cases t with
  | none => exact hP.ok
  | some e => exact hP.seq (all_expr hP e) (hP.step _)

theorem visitBlock_eq (E : Env) (n : Node) (stmts : List Stmt) (t : Option Expr) :
    visitBlock E (.mk n stmts t) = inScope (seq (visitStmts E stmts) (visitTail E t)) := by
  cases t with
  | none =>
    rw [visitBlock]
    congr 1
    funext v
    unfold seq visitTail
    cases visitStmts E stmts v <;> rfl
  | some e => rw [visitBlock]; rfl

/-- The state after a scope has been opened. -/
def V.scoped (v : V) : V :=
  match v.openScope with
  | .ok (v', _) => v'
  | .error _ => v

theorem scoped_of {v : V} {s : St} (h : v.st.openScope = .ok (v.st.nextScope, s)) :
    v.scoped = { v.called .openScope with st := s } := by
  unfold V.scoped V.openScope
  change (match (match v.st.openScope with
    | .ok (id, s) => (.ok ({ v.called .openScope with st := s }, some id) : Except Err (V × Option Nat))
    | .error .fail => _
    | .error e => _) with | .ok (v', _) => v' | .error _ => v) = _
  rw [h]

theorem compute_steps {E : Env} {value : Expr} {f : Frozen} {locals : List (Nat × List Nat)}
    (h : compute E value = .steps f locals) : ∃ v, visitBody E value V.make = .ok v ∧ v.unsupported = 0 ∧
      v.fatal = [] ∧ v.st.freeze = .ok f ∧ locals = v.locals := by
  unfold compute at h
  cases hv : visitBody E value V.make with
  | error e => rw [hv] at h; exact absurd h (by simp)
  | ok v =>
    rw [hv] at h
    dsimp only at h
    split at h
    · exact absurd h (by simp)
    · rename_i h0
      split at h
      · exact absurd h (by simp)
      · rename_i hf
        cases hz : v.st.freeze with
        | error e => rw [hz] at h; exact absurd h (by simp)
        | ok f' =>
          rw [hz] at h
          simp only [Outcome.steps.injEq] at h
          exact ⟨v, rfl, Classical.not_not.1 h0, Classical.not_not.1 hf, by rw [hz, h.1], h.2.symm⟩

theorem freeze_segs {s : St} {f : Frozen} (h : s.freeze = .ok f) : f.segs = s.segs := by
  unfold St.freeze at h
  split at h
  · simp only [Except.ok.injEq] at h; rw [← h]
  · exact absurd h (by simp)

theorem flat_of_steps {E : Env} (hE : E.secondWins = true) (hm : E.m.Proper) {value : Expr} {v : V}
    (h : visitBody E value V.make = .ok v) {f : Frozen} (hf : v.st.freeze = .ok f) : Flat V.make v := by
  have := (C85_finished hE hm value h).1 ⟨f, hf⟩
  unfold Flat V.closed
  rw [this]
  change _ + 0 = 0 + _
  omega

/-- If steps are computed for a function, then everything recorded after a conditional among its statements lies in
what can be reached from the place where the conditional comes together, and so do all conditionals that follow. -/
theorem C84_rest {b : Body} (hv : Valid b) {fuel : Nat} {order : List (Loc × Nat) → List (Loc × Nat)} {n bn : Node}
    {pre post : List Stmt} {sn : Node} {e : Expr} {tail : Option Expr} {f : Frozen} {locals : List (Nat × List Nat)}
    {l : Loc} {j : Nat} (he : Forks b.mapper.isSwitch b.locationSuccessor e l)
    (hj : leastPostDominator b (switchOf b.mapper l) = some j)
    (h : compute (.ofBody b fuel order) (.other n [.block (.mk bn (pre ++ .expr sn e :: post) tail)]) =
      .steps f locals) :
    (∃ v1 v2 new, visitStmts (.ofBody b fuel order) pre V.make.scoped = .ok v1 ∧
      visitExpr (.ofBody b fuel order) e v1.scoped = .ok v2 ∧ f.segs = v2.st.segs ++ new ∧
      ∀ g ∈ new, Reach b.succ j g.from.block ∧ Reach b.succ j g.to.block) ∧
    ∀ l', Due.fork l' ∈ dueStmts b.mapper.isSwitch b.locationSuccessor post ++
      dueTail b.mapper.isSwitch b.locationSuccessor tail → Reach b.succ j l'.block := by
  generalize hE : Env.ofBody b fuel order = E at h
  have hEm : E.m = b.mapper := by rw [← hE]; rfl
  have hEn : E.next = b.locationSuccessor := by rw [← hE]; rfl
  have hEs : E.secondWins = true := by rw [← hE]; rfl
  have hm : E.m.Proper := by rw [hEm]; exact mapper_proper b
  have ho : Ordered E.m := by rw [hEm]; exact ordered_body hv
  have hR : Region E.m (Reach b.succ j) := by rw [hEm]; exact region_body hv j
  rw [← hEm, ← hEn] at he ⊢
  obtain ⟨v, hvb, _, hfat, hfz, _⟩ := compute_steps h
  have hflat := flat_of_steps hEs hm hvb hfz
  rw [visitBody] at hvb
  obtain ⟨w5, h5, hstep⟩ := seq_ok hvb
  rw [visitExpr, visitParts] at h5
  obtain ⟨w4, h4, hnil⟩ := seq_ok h5
  rw [visitParts] at hnil
  simp only [Except.ok.injEq] at hnil
  subst hnil
  rw [visitPart, visitBlock_eq] at h4
  obtain ⟨s0, w3, cl, hs0, hin, hclose⟩ := inScope_ok h4
  obtain ⟨w2, hst, htail⟩ := seq_ok hin
  rw [visitStmts_append] at hst
  obtain ⟨v1, h1, hst⟩ := seq_ok hst
  rw [visitStmts] at hst
  obtain ⟨w1, hcond, hpost⟩ := seq_ok hst
  rw [visitStmt] at hcond
  obtain ⟨s1, v2, v3, cl1, hs1, h2, hcl1, hs⟩ := inStmt_ok hcond
  have hv1 : v1.inside s1 [] = v1.scoped := (scoped_of hs1).symm
  rw [hv1] at h2
  have hv0 : ({ V.make.called .openScope with st := s0 } : V) = V.make.scoped := (scoped_of hs0).symm
  rw [hv0] at h1
  have hclosed := tracked_closed hm
  -- the parts of the visit
  have t0 : Tracked E V.make V.make.scoped := by
    rw [← hv0]; exact tracked_openScope hs0 rfl rfl
  have t1 : Tracked E V.make.scoped v1 := walk_stmts E pre _ hclosed _ _ h1
  have t1' : Tracked E v1 v1.scoped := by
    rw [scoped_of hs1]; exact tracked_openScope hs1 rfl rfl
  have t2 : Tracked E v1.scoped v2 := walk_expr E e _ hclosed _ _ h2
  have hstepAfter : ∀ {n : Node} {v v' : V}, V.stepAfter E v n = .ok v' → Tracked E v v' ∧
      Stays E (Reach b.succ j) v v' := by
    intro n v v' h
    exact ⟨(hclosed.step n) _ _ h, (stays_closed hR ho).step n _ _ h⟩
  have r2 : Tracked E v2 w1 ∧ Stays E (Reach b.succ j) v2 w1 := by
    rcases hs with ⟨_, rfl⟩ | ⟨_, hs⟩
    · exact ⟨tracked_closeScope hcl1, stays_closeScope hcl1⟩
    · exact ⟨(tracked_closeScope hcl1).trans (hstepAfter hs).1, (stays_closeScope hcl1).trans (hstepAfter hs).2⟩
  have r3 : Tracked E w1 w2 ∧ Stays E (Reach b.succ j) w1 w2 :=
    ⟨walk_stmts E post _ hclosed _ _ hpost, walk_stmts E post _ (stays_closed hR ho) _ _ hpost⟩
  have r4 : Tracked E w2 w3 ∧ Stays E (Reach b.succ j) w2 w3 :=
    ⟨walk_tail E tail _ hclosed _ _ htail, walk_tail E tail _ (stays_closed hR ho) _ _ htail⟩
  have r5 : Tracked E w3 v ∧ Stays E (Reach b.succ j) w3 v :=
    ⟨(tracked_closeScope hclose).trans (hstepAfter hstep).1, (stays_closeScope hclose).trans (hstepAfter hstep).2⟩
  have run0 : Run E.secondWins E.m V.make.st [] := .make
  obtain ⟨fa, fb, runA, pA⟩ := flat_split (t0.trans (t1.trans t1'))
    (t2.trans (r2.1.trans (r3.1.trans (r4.1.trans r5.1)))) run0 hflat
  obtain ⟨fc, _, _, _⟩ := flat_split t2 (r2.1.trans (r3.1.trans (r4.1.trans r5.1))) runA fb
  -- everything open after the conditional is in the region
  have hroot0 : Root E.m (fun _ => True) V.make.st :=
    ⟨fun _ _ _ => trivial, ⟨⟨[], none⟩, rfl, rfl⟩, by intro e he; exact absurd he (by simp [V.make, St.make])⟩
  have rc := root_closed (region_all E.m) ho
  have hrootA : Root E.m (fun _ => True) v1.scoped.st := by
    rw [scoped_of hs1]
    refine rc.openScope hs1 (walk_stmts E pre _ rc.closed _ _ h1 ?_)
    rw [← hv0]
    exact rc.openScope hs0 hroot0
  have key : ∀ {x y : V}, Stays E (Reach b.succ j) x y → In E.m (Reach b.succ j) x.st → y.fatal = [] → x.fatal = [] := by
    intro x y hxy hx hy
    obtain ⟨_, _, cs, _, hc⟩ := hxy hx
    exact (hc hy).1
  have rest := r2.2.trans (r3.2.trans (r4.2.trans r5.2))
  have hfat2 : v2.fatal = [] := by
    have d2 : ∃ w, Did v2 w1 w := by
      rcases hs with ⟨_, rfl⟩ | ⟨_, hs⟩
      · exact ⟨_, (did_closeScope hcl1).1⟩
      · exact ⟨_, (did_closeScope hcl1).1.trans (does_step E _ _ _ hs)⟩
    obtain ⟨_, _, _, _, _, f2⟩ := d2
    obtain ⟨_, _, _, _, f3⟩ := does_stmts E post _ _ hpost
    have d4 : ∃ w, Did w2 w3 w := by
      cases tail with
      | none => exact ⟨_, does_ok _ _ htail⟩
      | some t => exact ⟨_, does_seq (does_expr E t) (does_step E _) _ _ htail⟩
    obtain ⟨_, _, _, _, _, f4⟩ := d4
    obtain ⟨_, _, _, _, f5⟩ := (did_closeScope hclose).1.trans (does_step E _ _ _ hstep)
    exact (f2 (f3 (f4 (f5 hfat).1).1).1).1
  have hIn : In E.m (Reach b.succ j) v2.st := by
    obtain ⟨n', cn, c, i, en, d, wc, wi, hl', hve⟩ := visit_forks he
    rw [hve] at h2
    exact in_after hm ho hR wc wi runA pA hrootA h2 fc hfat2 hl' (by rw [hEm]; exact hj) .refl
  refine ⟨?_, ?_⟩
  · obtain ⟨_, ⟨new, hnew, hw⟩, _⟩ := rest hIn
    exact ⟨v1, v2, new, h1, h2, (freeze_segs hfz).trans hnew, hw⟩
  · intro l' hl'
    have hIn1 := (r2.2 hIn).1
    have hfat3 : w3.fatal = [] := by
      obtain ⟨_, _, _, _, f5⟩ := (did_closeScope hclose).1.trans (does_step E _ _ _ hstep)
      exact (f5 hfat).1
    obtain ⟨_, _, cs, hcs, hall⟩ := (r3.2.trans r4.2) hIn1
    have hdid : Did w1 w3 (dueStmts E.m.isSwitch E.next post ++ dueTail E.m.isSwitch E.next tail) := by
      refine (does_stmts E post _ _ hpost).trans ?_
      cases tail with
      | none => exact does_ok _ _ htail
      | some t => exact does_seq (does_expr E t) (does_step E _) _ _ htail
    obtain ⟨w', _, hd, _, hw⟩ := hdid
    obtain ⟨_, rfl⟩ := hw hfat3
    refine (hall hfat3).2 l' ?_
    have hd' : cs.filterMap Call.due = (dueStmts E.m.isSwitch E.next post ++ dueTail E.m.isSwitch E.next tail).filter
        (fun d => !isGuard d) := by
      unfold V.dues at hd
      rw [hcs, List.filterMap_append] at hd
      exact List.append_cancel_left hd
    have hmem : Due.fork l' ∈ cs.filterMap Call.due := by
      rw [hd']
      exact List.mem_filter.2 ⟨hl', by simp [isGuard]⟩
    obtain ⟨c, hc, hcd⟩ := List.mem_filterMap.1 hmem
    cases c with
    | openBranch x => simp only [Call.due, Option.some.injEq, Due.fork.injEq] at hcd; subst hcd; exact hc
    | insert x sp => exact absurd hcd (by simp [Call.due])
    | openScope => exact absurd hcd (by simp [Call.due])
    | closeScope _ => exact absurd hcd (by simp [Call.due])
    | closeBranch _ => exact absurd hcd (by simp [Call.due])

end Verif.HirSteps
