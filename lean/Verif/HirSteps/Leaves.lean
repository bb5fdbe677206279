import Verif.HirSteps.Fork
import Verif.HirSteps.Coverage
/-!
# C124: conditionals that may leave the arm they are in

The state of the builder while an arm is visited in which a conditional does not come together.
-/
namespace Verif.HirSteps

open Verif.Cfg Verif.Segments Verif.Graph

/-- A branch opened at the location begins before the place where it comes together. -/
def Straight (m : Mapper) (l : Loc) : Prop := ∀ j, m.lpd (switchOf m l) = some j → m.ldom l ⟨j, 0⟩ = true

/-- The block comes before the location, and no step that begins in it ends in another block. -/
structure Stuck (m : Mapper) (l' : Loc) (a : Nat) : Prop where
  before : ∀ x : Loc, x.block = a → m.ldom x l' = true
  stays : ∀ x y : Loc, x.block = a → m.ldom x y = true → m.lpdom y x = true → y.block = a
  other : l'.block ≠ a
  apart : ∀ x : Loc, x.block = a → m.lpd (switchOf m x) = none

/-- Of the stretches with numbers below `N`, only the one with number `k` may have got to a place before `l'`, and
earlier ones that stay in one of the blocks `O`; if `S` is a block, then `k` has got into that block. -/
structure Still (m : Mapper) (l' : Loc) (O : List Nat) (N k : Nat) (S : Option Nat) (s : St) : Prop where
  low : k < N
  size : N ≤ s.colls.length
  cur : ∀ x ∈ s.processing, x.coll < N → x.coll ≠ k → m.ldom x.cur l' = true → x.coll < k ∧ x.cur.block ∈ O
  phi : ∀ x ∈ s.processing, x.coll < N → ∀ c, s.colls[x.coll]? = some c → ∀ p, c.phi = some p → m.ldom p l' = false
  held : ∀ a, S = some a → ∀ x ∈ s.processing, x.coll = k → x.cur.block = a
  stuck : ∀ a, S = some a → Stuck m l' a
  outer : ∀ a ∈ O, Stuck m l' a

theorem not_before {m : Mapper} (ho : Ordered m) {x y l' : Loc} (h : m.ldom x l' = false) (h' : m.ldom x y = true) :
    m.ldom y l' = false := by
  cases hy : m.ldom y l' with
  | false => rfl
  | true => rw [ho.trans _ _ _ h' hy] at h; exact absurd h (by simp)

theorem pushCF_phi {colls ex : List Coll} {k i : Nat} {cf : CF} {c : Coll} (hi : i < colls.length)
    (h : (pushCF colls k cf ++ ex)[i]? = some c) : ∃ c0, colls[i]? = some c0 ∧ c.phi = c0.phi := by
  obtain ⟨y, hy, hp⟩ := phi_pushCF (k := k) (cf := cf) (List.getElem?_eq_getElem hi)
  rw [getElem?_append_some hy] at h
  cases h
  exact ⟨_, List.getElem?_eq_getElem hi, hp⟩

theorem sw_block {m : Mapper} {l sw : Loc} (hsw : findNextSwitch m l = .absent ∧ sw = l ∨
    ∃ blk, findNextSwitch m l = .found blk ∧ sw = ⟨blk, m.stmts blk⟩) : sw.block = switchOf m l := by
  unfold switchOf
  rcases hsw with ⟨h, rfl⟩ | ⟨blk, h, rfl⟩ <;> rw [h]

/-- What opening a branch does to the stretches. -/
theorem opened {m : Mapper} {s s' : St} {l : Loc} {f : Spanner} {bid : Nat} (h : s.openBranch m l f = .ok (bid, s')) :
    ∃ b i, s.findBuilder m l = some (b, i) ∧ s.processing[i]? = some b ∧ b.cur = l ∧
      s'.processing = s.processing.set i { b with cur := ((m.lpd (switchOf m l)).map (fun j => (⟨j, 0⟩ : Loc))).getD l } ++
        (((m.succ (switchOf m l)).map (fun k => f ⟨k, 0⟩)).zipIdx s.colls.length).map (fun t => ⟨t.2, t.1.1⟩) ∧
      s'.colls = pushCF s.colls b.coll (.branch s.branches.length) ++
        List.replicate (m.succ (switchOf m l)).length ⟨[], (m.lpd (switchOf m l)).map (fun j => (⟨j, 0⟩ : Loc))⟩ ∧
      s'.branches.length = s.branches.length + 1 ∧ bid = s.branches.length := by
  obtain ⟨scope, sw, b, i, f', sp, _, hsw, hf, hcur, hbid, _, hnew, rfl⟩ := mkBranch_ok h
  obtain ⟨hbi, _⟩ := findBuilder_spec hf
  obtain ⟨_, rfl⟩ := hnew f rfl
  have hb := sw_block hsw
  refine ⟨b, i, hf, hbi, hcur, ?_, ?_, List.length_append, hbid⟩
  · rw [← hb, ← hcur]
    rfl
  · rw [← hb]
    change pushCF s.colls b.coll (.branch s.branches.length) ++
      List.replicate ((m.succ sw.block).map (fun k => f' ⟨k, 0⟩)).length _ = _
    rw [List.length_map]

theorem still_open {m : Mapper} (ho : Ordered m) {l' : Loc} {O : List Nat} {N k : Nat} {S : Option Nat} {s s' : St} {l : Loc}
    {f : Spanner} {bid : Nat} (hl : Straight m l) (h : s.openBranch m l f = .ok (bid, s'))
    (hs : Still m l' O N k S s) : Still m l' O N k S s' := by
  obtain ⟨b, i, _, hbi, hcur, hp, hc, _, _⟩ := opened h
  have hbm : b ∈ s.processing := List.mem_of_getElem? hbi
  have hnew : ∀ x ∈ (((m.succ (switchOf m l)).map (fun k => f ⟨k, 0⟩)).zipIdx s.colls.length).map
      (fun t => (⟨t.2, t.1.1⟩ : Builder)), N ≤ x.coll := by
    intro x hx
    obtain ⟨⟨t, j⟩, ht, rfl⟩ := List.mem_map.1 hx
    exact Nat.le_trans hs.size (List.mem_zipIdx ht).1
  refine ⟨hs.low, ?_, ?_, ?_, ?_, hs.stuck, hs.outer⟩
  · rw [hc, List.length_append, length_pushCF]
    exact Nat.le_trans hs.size (Nat.le_add_right _ _)
  · intro x hx hN hk hx'
    rw [hp] at hx
    rcases List.mem_append.1 hx with hx | hx
    · rcases List.mem_or_eq_of_mem_set hx with hx | rfl
      · exact hs.cur x hx hN hk hx'
      · have hx' : m.ldom (((m.lpd (switchOf m l)).map (fun j => (⟨j, 0⟩ : Loc))).getD l) l' = true := hx'
        change _ ∧ (((m.lpd (switchOf m l)).map (fun j => (⟨j, 0⟩ : Loc))).getD l).block ∈ O
        have h0 := hs.cur b hbm hN hk
        rw [hcur] at h0
        cases hj : m.lpd (switchOf m l) with
        | none => rw [hj] at hx'; exact h0 hx'
        | some j =>
          rw [hj] at hx'
          obtain ⟨_, h2⟩ := h0 (ho.trans _ _ _ (hl j hj) hx')
          rw [(hs.outer _ h2).apart l rfl] at hj
          exact absurd hj (by simp)
    · exact absurd (hnew x hx) (by omega)
  · intro x hx hN c hxc p hcp
    rw [hp] at hx
    rw [hc] at hxc
    obtain ⟨c0, h0, h1⟩ := pushCF_phi (Nat.lt_of_lt_of_le hN hs.size) hxc
    rw [h1] at hcp
    rcases List.mem_append.1 hx with hx | hx
    · rcases List.mem_or_eq_of_mem_set hx with hx | rfl
      · exact hs.phi x hx hN c0 h0 p hcp
      · exact hs.phi b hbm hN c0 h0 p hcp
    · exact absurd (hnew x hx) (by omega)
  · intro a ha x hx hk
    rw [hp] at hx
    rcases List.mem_append.1 hx with hx | hx
    · rcases List.mem_or_eq_of_mem_set hx with hx | rfl
      · exact hs.held a ha x hx hk
      · have h0 := hs.held a ha b hbm hk
        rw [hcur] at h0
        change (((m.lpd (switchOf m l)).map (fun j => (⟨j, 0⟩ : Loc))).getD l).block = a
        rw [(hs.stuck a ha).apart l h0]
        exact h0
    · have := hnew x hx
      have := hs.low
      omega

theorem still_linear {m : Mapper} (ho : Ordered m) {l' : Loc} {O : List Nat} {N k : Nat} {S : Option Nat} {s : St} {l : Loc}
    {b : Builder} {i sp scope : Nat} (h : s.findSuitable m l = .linear b i) (hs : Still m l' O N k S s) :
    Still m l' O N k S (s.insertTo b i (s.insertEnd m b l) sp scope) := by
  obtain ⟨hfb, hpd⟩ := findSuitable_linear h
  obtain ⟨hbi, hd⟩ := findBuilder_spec hfb
  have hbm : b ∈ s.processing := List.mem_of_getElem? hbi
  have hend : b.coll < N → s.insertEnd m b l = l ∨ (m.ldom (s.insertEnd m b l) l = true ∧
      m.ldom (s.insertEnd m b l) l' = false) := by
    intro hN
    unfold St.insertEnd
    cases hc : s.colls[b.coll]? with
    | none => exact .inl rfl
    | some c =>
      obtain ⟨data, phi⟩ := c
      cases phi with
      | none => exact .inl rfl
      | some p =>
        dsimp only
        split
        · rename_i hp
          exact .inr ⟨hp, hs.phi b hbm hN _ hc p rfl⟩
        · exact .inl rfl
  refine ⟨hs.low, ?_, ?_, ?_, ?_, hs.stuck, hs.outer⟩
  · change N ≤ (pushCF _ _ _).length
    rw [length_pushCF]
    exact hs.size
  · intro x hx hN hk hx'
    rcases List.mem_or_eq_of_mem_set hx with hx | rfl
    · exact hs.cur x hx hN hk hx'
    · have hx' : m.ldom (s.insertEnd m b l) l' = true := hx'
      change _ ∧ (s.insertEnd m b l).block ∈ O
      rcases hend hN with he | he
      · rw [he] at hx' ⊢
        obtain ⟨h1, h2⟩ := hs.cur b hbm hN hk (ho.trans _ _ _ hd hx')
        refine ⟨h1, ?_⟩
        rw [(hs.outer _ h2).stays b.cur l rfl hd hpd]
        exact h2
      · rw [he.2] at hx'
        exact absurd hx' (by simp)
  · intro x hx hN c hxc p hcp
    change (pushCF s.colls b.coll (.linear s.segs.length))[x.coll]? = some c at hxc
    rw [← List.append_nil (pushCF _ _ _)] at hxc
    obtain ⟨c0, h0, h1⟩ := pushCF_phi (Nat.lt_of_lt_of_le hN hs.size) hxc
    rw [h1] at hcp
    rcases List.mem_or_eq_of_mem_set hx with hx | rfl
    · exact hs.phi x hx hN c0 h0 p hcp
    · exact hs.phi b hbm hN c0 h0 p hcp
  · intro a ha x hx hk
    rcases List.mem_or_eq_of_mem_set hx with hx | rfl
    · exact hs.held a ha x hx hk
    · have h0 := hs.held a ha b hbm hk
      have st := hs.stuck a ha
      have hla := st.stays b.cur l h0 hd hpd
      change (s.insertEnd m b l).block = a
      have hk' : b.coll = k := hk
      rcases hend (by rw [hk']; exact hs.low) with he | ⟨he1, he2⟩
      · rw [he]; exact hla
      · have := st.before l hla
        rw [not_before ho he2 he1] at this
        exact absurd this (by simp)

/-! ## Parts of a visit -/

/-- Between two states: what is recorded of the calls grows, and what is still so remains so, unless a branch is opened
implicitly. -/
structure Kept (E : Env) (l' : Loc) (v v' : V) : Prop where
  dues : ∀ d ∈ v.dues, d ∈ v'.dues
  fatal : v'.fatal = [] → v.fatal = []
  track : Tracked E v v'
  keep : Run E.secondWins E.m v.st [] → Flat v v' → v'.fatal = [] → (∀ l, Due.fork l ∈ v'.dues → Straight E.m l) →
    ∀ {O N k S}, Still E.m l' O N k S v.st → Still E.m l' O N k S v'.st

theorem Kept.trans {E : Env} {l' : Loc} {v v1 v2 : V} (h1 : Kept E l' v v1) (h2 : Kept E l' v1 v2) :
    Kept E l' v v2 where
  dues := fun d hd => h2.dues d (h1.dues d hd)
  fatal := fun h => h1.fatal (h2.fatal h)
  track := h1.track.trans h2.track
  keep := by
    intro hr hf hfat hd O N k S hs
    obtain ⟨f1, f2, r1, _⟩ := flat_split h1.track h2.track hr hf
    exact h2.keep r1 f2 hfat hd (h1.keep hr f1 (h2.fatal hfat) (fun l hl => hd l (h2.dues _ hl)) hs)

theorem Still.same {m : Mapper} {l' : Loc} {O : List Nat} {N k : Nat} {S : Option Nat} {s s' : St} (h : Still m l' O N k S s)
    (h1 : s'.processing = s.processing) (h2 : s'.colls = s.colls) : Still m l' O N k S s' :=
  ⟨h.low, by rw [h2]; exact h.size, by rw [h1]; exact h.cur, by rw [h1, h2]; exact h.phi, by rw [h1]; exact h.held, h.stuck, h.outer⟩

theorem Kept.same {E : Env} {l' : Loc} {v v' : V} (ht : Tracked E v v') (h1 : v'.st.processing = v.st.processing)
    (h2 : v'.st.colls = v.st.colls) (h3 : ∀ d ∈ v.dues, d ∈ v'.dues) (h4 : v'.fatal = [] → v.fatal = []) :
    Kept E l' v v' :=
  ⟨h3, h4, ht, fun _ _ _ _ _ _ _ _ hs => hs.same h1 h2⟩

theorem Kept.refl (E : Env) (l' : Loc) (v : V) : Kept E l' v v :=
  .same (.refl _ _) rfl rfl (fun _ h => h) id

theorem did_dues {v v' : V} {w : List Due} (h : Did v v' w) :
    (∀ d ∈ v.dues, d ∈ v'.dues) ∧ (v'.fatal = [] → v.fatal = []) := by
  obtain ⟨w', _, hd, _, hf⟩ := h
  exact ⟨fun d hm => by rw [hd]; exact List.mem_append_left _ hm, fun h => (hf h).1⟩

theorem kept_pop (E : Env) (l' : Loc) (v : V) (l : Loc) : Kept E l' v (v.pop l) :=
  .same (tracked_pop E v l) (by rw [pop_st]) (by rw [pop_st]) (did_dues (did_pop v l)).1 (did_dues (did_pop v l)).2

theorem kept_push (E : Env) (l' : Loc) (v : V) (l : Loc) : Kept E l' v (v.push l) :=
  .same (tracked_push E v l) rfl rfl (did_dues (did_push v l)).1 (did_dues (did_push v l)).2

theorem kept_guarded (E : Env) (l' : Loc) (v : V) (g : Option Visit) : Kept E l' v (v.guarded g) :=
  .same (tracked_guarded E v g) (by rw [guarded_st]) (by rw [guarded_st]) (did_dues (did_guarded v g)).1
    (did_dues (did_guarded v g)).2

theorem kept_closeScope {E : Env} (l' : Loc) {v v' : V} {id : Nat} {ok : Bool} (h : v.closeScope id = .ok (v', ok)) :
    Kept E l' v v' := by
  have hd := did_dues (did_closeScope h).1
  have ht := tracked_closeScope (E := E) h
  rcases vcloseScope_ok h with ⟨_, s, hs, rfl⟩ | ⟨_, _, rfl⟩
  · obtain ⟨_, _, rfl⟩ := closeScope_eq hs
    exact .same ht rfl rfl hd.1 hd.2
  · exact .same ht rfl rfl hd.1 hd.2

theorem kept_openScope {E : Env} (l' : Loc) {v v' : V} {s : St} (h : v.st.openScope = .ok (v.st.nextScope, s))
    (h1 : v'.st = s) (h2 : v'.calls = v.calls ++ [.openScope]) (h3 : v'.fatal = v.fatal) : Kept E l' v v' := by
  have ht := tracked_openScope (E := E) h h1 h2
  obtain ⟨_, _, _, rfl⟩ := openScope_eq h
  refine .same ht (by rw [h1]) (by rw [h1]) ?_ (by rw [h3]; exact id)
  intro d hd
  unfold V.dues
  rw [h2, List.filterMap_append]
  exact List.mem_append_left _ hd

/-- An insertion that opens no branch. -/
theorem flat_insert {v : V} {l : Loc} {sp : Nat} {s : St}
    (hf : Flat v { v.called (.insert l sp) with st := s }) : s.branches.length = v.st.branches.length := by
  unfold Flat V.closed at hf
  change s.branches.length + v.calls.countP Call.isClose =
    v.st.branches.length + (v.calls ++ [Call.insert l sp]).countP Call.isClose at hf
  rw [closed_concat _ _ rfl] at hf
  omega

theorem kept_insert {E : Env} (ho : Ordered E.m) (l' : Loc) {v v' : V} {l : Loc} {sp : Nat} {ok : Bool}
    (h : v.insert E l sp = .ok (v', ok)) : Kept E l' v v' := by
  obtain ⟨h1, h2⟩ := did_dues (did_insert h).1
  refine ⟨h1, h2, tracked_insert h, ?_⟩
  intro _ hf hfat _ O N k S hs
  rcases insert_ok h with ⟨rfl, s, hi, rfl⟩ | ⟨rfl, _, rfl⟩
  · rcases insert_flat hi (flat_insert hf) with ⟨_, rfl⟩ | ⟨b, i, scope, hfs, _, rfl⟩
    · exact hs
    · exact still_linear ho hfs hs
  · exact absurd hfat (by simp [V.failed])

/-- The inside of a conditional without implicit branches. -/
theorem flat_inside {E : Env} {v2 v3 v4 v' : V} {l : Loc} {f : Spanner} {bid : Nat}
    (h3 : v2.openBranch E l f = .ok (v3, some bid)) (h4 : Tracked E v3 v4) (h5 : v4.closeBranch bid = .ok v')
    (hr : Run E.secondWins E.m v2.st []) (hf : Flat v2 v') :
    ∃ s3, v2.st.openBranch E.m l f = .ok (bid, s3) ∧ v3 = { v2.called (.openBranch l) with st := s3 } ∧
      Run E.secondWins E.m v3.st [] ∧ Flat v3 v4 := by
  rcases openBranch_ok h3 with ⟨bid', s, hbid, ho, rfl⟩ | ⟨h, _⟩
  rotate_left
  · exact absurd h (by simp)
  simp only [Option.some.injEq] at hbid
  subst hbid
  refine ⟨s, ho, rfl, .openBranch hr ho, ?_⟩
  obtain ⟨s', hs', rfl⟩ := vcloseBranch_ok h5
  obtain ⟨_, _, _, _, _, _, _, hb, _⟩ := opened ho
  have hbr : s'.branches = v4.st.branches := by obtain ⟨_, _, rfl⟩ := closeBranch_eq hs'; rfl
  unfold Flat V.closed at hf ⊢
  change s'.branches.length + v2.calls.countP Call.isClose =
    v2.st.branches.length + (v4.calls ++ [Call.closeBranch bid]).countP Call.isClose at hf
  change v4.st.branches.length + (v2.calls ++ [Call.openBranch l]).countP Call.isClose =
    s.branches.length + v4.calls.countP Call.isClose
  rw [closed_concat _ _ rfl, hb]
  rw [hbr, List.countP_append] at hf
  change _ = _ + (_ + 1) at hf
  omega

theorem still_close {m : Mapper} {l' : Loc} {O : List Nat} {N k : Nat} {S : Option Nat} {s s' : St} {bid : Nat}
    (h : s.closeBranch bid = .ok s') (hs : Still m l' O N k S s) : Still m l' O N k S s' := by
  obtain ⟨b, _, rfl⟩ := closeBranch_eq h
  exact ⟨hs.low, hs.size, fun x hx => hs.cur x (List.mem_filter.1 hx).1, fun x hx => hs.phi x (List.mem_filter.1 hx).1,
    fun a ha x hx => hs.held a ha x (List.mem_filter.1 hx).1, hs.stuck, hs.outer⟩

theorem did_fork {E : Env} {v v' : V} {l : Loc} {f : Spanner} {bid : Nat}
    (h : v.openBranch E l f = .ok (v', some bid)) : Due.fork l ∈ v'.dues := by
  rcases openBranch_ok h with ⟨_, s, _, _, rfl⟩ | ⟨h, _⟩
  · simp [V.dues, V.called, Call.due]
  · exact absurd h (by simp)

theorem kept_branch {E : Env} (hm : E.m.Proper) (ho : Ordered E.m) (l' : Loc) {v2 v3 v4 v' : V} {l : Loc} {f : Spanner}
    {bid : Nat} (h3 : v2.openBranch E l f = .ok (v3, some bid)) (h4 : Kept E l' v3 v4)
    (h5 : v4.closeBranch bid = .ok v') : Kept E l' v2 v' := by
  obtain ⟨d1, d2⟩ := did_dues (did_openBranch h3).1
  obtain ⟨d3, d4⟩ := did_dues (did_closeBranch h5)
  refine ⟨fun d hd => d3 d (h4.dues d (d1 d hd)), fun h => d2 (h4.fatal (d4 h)), tracked_branch hm h3 h4.track h5, ?_⟩
  intro hr hf hfat hd O N k S hs
  obtain ⟨s3, hs3, e3, r3, f3⟩ := flat_inside h3 h4.track h5 hr hf
  obtain ⟨s5, hs5, rfl⟩ := vcloseBranch_ok h5
  have hl := hd l (d3 _ (h4.dues _ (did_fork h3)))
  have s3' : Still E.m l' O N k S v3.st := by
    rw [e3]
    exact still_open ho hl hs3 hs
  exact still_close hs5 (h4.keep r3 f3 (d4 hfat) (fun x hx => hd x (d3 _ hx)) s3')

theorem kept_closed {E : Env} (hm : E.m.Proper) (ho : Ordered E.m) (l' : Loc) :
    Closed E (fun a => ∀ v v', a v = .ok v' → Kept E l' v v') where
  ok := by
    intro v v' h
    simp only [Except.ok.injEq] at h
    subst h
    exact .refl _ _ _
  seq := by
    intro a b ha hb v v' h
    obtain ⟨v1, h1, h2⟩ := seq_ok h
    exact (ha v v1 h1).trans (hb v1 v' h2)
  step := by
    intro n v v' h
    rcases stepAfter_ok h with ⟨_, rfl⟩ | ⟨l, ok, _, hi⟩
    · exact .refl _ _ _
    · exact kept_insert ho l' hi
  under := by
    intro n a ha v v' h
    rcases under_ok h with ⟨_, rfl⟩ | ⟨l, v1, _, h1, rfl⟩
    · exact .refl _ _ _
    · exact (kept_push _ _ _ _).trans ((ha _ _ h1).trans (kept_pop _ _ _ _))
  branch := by
    intro n cn c i en d hc hi v v' h
    cases branch_ok h with
    | skipped v1 h1 _ _ h2 => subst h2; exact hc v v' h1
    | noStep v1 l h1 _ h2 => exact (hc v v1 h1).trans (kept_insert ho l' h2)
    | noBranch v1 v2 l h1 _ h2 h3 =>
      refine (hc v v1 h1).trans ((kept_insert ho l' h2).trans ?_)
      obtain ⟨d1, d2⟩ := did_dues (did_openBranch h3).1
      rcases openBranch_ok h3 with ⟨_, _, h, _⟩ | ⟨_, _, rfl⟩
      · exact absurd h (by simp)
      · exact .same (.of_eq rfl (closed_concat _ _ rfl)) rfl rfl d1 d2
    | visited v1 v2 v3 v4 l bid h1 _ h2 h3 h4 h5 =>
      exact (hc v v1 h1).trans ((kept_insert ho l' h2).trans (kept_branch hm ho l' h3 (hi _ _ h4) h5))
  arm := by
    intro n bn g b hg hb v v' h
    have hgd := kept_guarded E l' v g
    cases arm_ok h with
    | skipped _ h => subst h; exact hgd
    | noStep a l _ _ h => exact hgd.trans ((kept_push _ _ _ _).trans (kept_insert ho l' h))
    | visited a l v1 v2 _ _ h1 h2 h3 =>
      subst h3
      exact hgd.trans ((kept_push _ _ _ _).trans ((kept_insert ho l' h1).trans ((hb _ _ h2).trans (kept_pop _ _ _ _))))
    | walked a v1 v2 _ _ h1 h2 h3 =>
      subst h3
      have h1' : Kept E l' ((v.guarded g).push a) v1 := by
        cases g with
        | none =>
          simp only [Option.getD_none, Except.ok.injEq] at h1
          subst h1
          exact .refl _ _ _
        | some x => exact hg x rfl _ _ h1
      exact hgd.trans ((kept_push _ _ _ _).trans (h1'.trans ((hb _ _ h2).trans (kept_pop _ _ _ _))))
  scope := by
    intro a ha v v' h
    obtain ⟨s, v2, cl, h1, h2, h3⟩ := inScope_ok h
    refine Kept.trans (v1 := { v.called .openScope with st := s }) (kept_openScope l' h1 rfl rfl rfl) ?_
    exact (ha _ _ h2).trans (kept_closeScope l' h3)
  stmt := by
    intro n locals a ha v v' h
    obtain ⟨s, v2, v3, cl, h1, h2, h3, h4⟩ := inStmt_ok h
    refine (kept_openScope l' h1 (inside_st _ _ _) (inside_calls _ _ _) (inside_fatal _ _ _)).trans
      ((ha _ _ h2).trans ((kept_closeScope l' h3).trans ?_))
    rcases h4 with ⟨_, rfl⟩ | ⟨_, h4⟩
    · exact .refl _ _ _
    · rcases stepAfter_ok h4 with ⟨_, rfl⟩ | ⟨l, ok, _, hi⟩
      · exact .refl _ _ _
      · exact kept_insert ho l' hi

/-! ## Where a visit leads -/

/-- The stretches that are open: `k` is one of them, and what is still so. -/
structure Level (E : Env) (l' : Loc) (O : List Nat) (k : Nat) (S : Option Nat) (v : V) : Prop where
  run : Run E.secondWins E.m v.st []
  mem : k ∈ v.st.processing.map (·.coll)
  still : Still E.m l' O v.st.colls.length k S v.st

theorem Level.next {E : Env} (hm : E.m.Proper) {l' : Loc} {O : List Nat} {k : Nat} {S S' : Option Nat} {v v' : V}
    (h : Level E l' O k S v) (ht : Tracked E v v') (hf : Flat v v')
    (hs : Still E.m l' O v.st.colls.length k S' v'.st) : Level E l' O k S' v' := by
  obtain ⟨r, p⟩ := flat_end ht h.run hf
  have hb := (inv_run hm h.run).bound
  have hlow : ∀ x ∈ v'.st.processing, x.coll < v.st.colls.length := by
    intro x hx
    have : x.coll ∈ v'.st.processing.map (·.coll) := List.mem_map_of_mem hx
    rw [p] at this
    obtain ⟨y, hy, e⟩ := List.mem_map.1 this
    rw [← e]
    exact hb y hy
  exact ⟨r, by rw [p]; exact h.mem, Nat.lt_of_lt_of_le hs.low hs.size, Nat.le_refl _,
    fun x hx _ => hs.cur x hx (hlow x hx), fun x hx _ => hs.phi x hx (hlow x hx), hs.held, hs.stuck, hs.outer⟩

/-- From every level where `S` is so, the visit leads to one where `T` is so, or it cannot be completed (`none`). -/
def Leads (E : Env) (l' : Loc) (O : List Nat) (deep : Bool) (a : Visit) (S : Option Nat) (T : Option (Option Nat)) : Prop :=
  ∀ v v' k, a v = .ok v' → v'.fatal = [] → (∀ l, Due.fork l ∈ v'.dues → Straight E.m l) → Flat v v' →
    (deep = true → k ≠ 0) → Level E l' O k S v → ∃ S', T = some S' ∧ Level E l' O k S' v'

section
variable {E : Env} {l' : Loc} {O : List Nat} {deep : Bool}

theorem walk_kept (hm : E.m.Proper) (ho : Ordered E.m) (l' : Loc) {a : Visit} (h : Walk E a) {v v' : V} (ha : a v = .ok v') :
    Kept E l' v v' := h _ (kept_closed hm ho l') v v' ha

theorem leads_walk (hm : E.m.Proper) (ho : Ordered E.m) {a : Visit} (h : Walk E a) (S : Option Nat) :
    Leads E l' O deep a S (some S) := by
  intro v v' k ha hfat hd hf _ hl
  have hk := walk_kept hm ho l' h ha
  exact ⟨S, rfl, hl.next hm hk.track hf (hk.keep hl.run hf hfat hd hl.still)⟩

theorem leads_seq (hm : E.m.Proper) (ho : Ordered E.m) {a b : Visit} (wa : Walk E a) (wb : Walk E b) {S S1 : Option Nat}
    {T : Option (Option Nat)} (ha : Leads E l' O deep a S (some S1)) (hb : Leads E l' O deep b S1 T) :
    Leads E l' O deep (seq a b) S T := by
  intro v v' k h hfat hd hf hdp hl
  obtain ⟨v1, h1, h2⟩ := seq_ok h
  have k1 := walk_kept hm ho l' wa h1
  have k2 := walk_kept hm ho l' wb h2
  obtain ⟨f1, f2, _, _⟩ := flat_split k1.track k2.track hl.run hf
  obtain ⟨_, e, r⟩ := ha v v1 k h1 (k2.fatal hfat) (fun l h => hd l (k2.dues _ h)) f1 hdp hl
  cases e
  exact hb v1 v' k h2 hfat hd f2 hdp r

theorem leads_left (hm : E.m.Proper) (ho : Ordered E.m) {a b : Visit} (wa : Walk E a) (wb : Walk E b) {S : Option Nat}
    (ha : Leads E l' O deep a S none) : Leads E l' O deep (seq a b) S none := by
  intro v v' k h hfat hd hf hdp hl
  obtain ⟨v1, h1, h2⟩ := seq_ok h
  have k1 := walk_kept hm ho l' wa h1
  have k2 := walk_kept hm ho l' wb h2
  obtain ⟨f1, _, _, _⟩ := flat_split k1.track k2.track hl.run hf
  obtain ⟨_, e, _⟩ := ha v v1 k h1 (k2.fatal hfat) (fun l h => hd l (k2.dues _ h)) f1 hdp hl
  cases e

theorem Level.kept (hm : E.m.Proper) {k : Nat} {S : Option Nat} {v v' : V} (h : Level E l' O k S v)
    (hk : Kept E l' v v') (hf : Flat v v') (hfat : v'.fatal = []) (hd : ∀ l, Due.fork l ∈ v'.dues → Straight E.m l) :
    Level E l' O k S v' :=
  h.next hm hk.track hf (hk.keep h.run hf hfat hd h.still)

/-- A visit between two harmless parts. -/
theorem leads_wrap (hm : E.m.Proper) (ho : Ordered E.m) {a : Visit} (wa : Walk E a) {S : Option Nat}
    {T : Option (Option Nat)} (ha : Leads E l' O deep a S T) {v v1 v2 v' : V} {k : Nat} (k1 : Kept E l' v v1)
    (h : a v1 = .ok v2) (k2 : Kept E l' v2 v') (hfat : v'.fatal = [])
    (hd : ∀ l, Due.fork l ∈ v'.dues → Straight E.m l) (hf : Flat v v') (hdp : deep = true → k ≠ 0)
    (hl : Level E l' O k S v) : ∃ S', T = some S' ∧ Level E l' O k S' v' := by
  have ka := walk_kept hm ho l' wa h
  obtain ⟨f1, f2, r1, _⟩ := flat_split k1.track (ka.trans k2).track hl.run hf
  obtain ⟨f3, f4, _, _⟩ := flat_split ka.track k2.track r1 f2
  have l1 := hl.kept hm k1 f1 ((ka.trans k2).fatal hfat) (fun l h => hd l ((ka.trans k2).dues _ h))
  obtain ⟨S', rfl, l2⟩ := ha v1 v2 k h (k2.fatal hfat) (fun l h => hd l (k2.dues _ h)) f3 hdp l1
  exact ⟨S', rfl, l2.kept hm k2 f4 hfat hd⟩

theorem leads_scope (hm : E.m.Proper) (ho : Ordered E.m) {a : Visit} (wa : Walk E a) {S : Option Nat}
    {T : Option (Option Nat)} (ha : Leads E l' O deep a S T) : Leads E l' O deep (inScope a) S T := by
  intro v v' k h hfat hd hf hdp hl
  obtain ⟨s, v2, cl, h1, h2, h3⟩ := inScope_ok h
  have k1 : Kept E l' v { v.called .openScope with st := s } := kept_openScope l' h1 rfl rfl rfl
  exact leads_wrap hm ho wa ha k1 h2 (kept_closeScope l' h3) hfat hd hf hdp hl

theorem leads_stmt (hm : E.m.Proper) (ho : Ordered E.m) {n : Node} {locals : List Nat} {a : Visit} (wa : Walk E a)
    {S : Option Nat} {T : Option (Option Nat)} (ha : Leads E l' O deep a S T) :
    Leads E l' O deep (inStmt E n locals a) S T := by
  intro v v' k h hfat hd hf hdp hl
  obtain ⟨s, v2, v3, cl, h1, h2, h3, h4⟩ := inStmt_ok h
  have k2 : Kept E l' v2 v' := by
    refine (kept_closeScope l' h3).trans ?_
    rcases h4 with ⟨_, rfl⟩ | ⟨_, h4⟩
    · exact .refl _ _ _
    · exact (kept_closed hm ho l').step n _ _ h4
  exact leads_wrap hm ho wa ha (kept_openScope l' h1 (inside_st _ _ _) (inside_calls _ _ _) (inside_fatal _ _ _)) h2 k2
    hfat hd hf hdp hl

theorem leads_under (hm : E.m.Proper) (ho : Ordered E.m) {n : Node} {a : Visit} (hn : n.entry ≠ none) (wa : Walk E a)
    {S : Option Nat} {T : Option (Option Nat)} (ha : Leads E l' O deep a S T) : Leads E l' O deep (visitUnder n a) S T := by
  intro v v' k h hfat hd hf hdp hl
  rcases under_ok h with ⟨h, _⟩ | ⟨l, v1, _, h1, rfl⟩
  · exact absurd h hn
  · exact leads_wrap hm ho wa ha (kept_push _ _ _ _) h1 (kept_pop _ _ _ _) hfat hd hf hdp hl

theorem leads_arm (hm : E.m.Proper) (ho : Ordered E.m) {n bn : Node} {g : Option Visit} {b : Visit}
    (hn : n.entry ≠ none) (wg : ∀ x, g = some x → Walk E x) (wb : Walk E b) {S : Option Nat} {T : Option (Option Nat)}
    (hb : Leads E l' O deep b S T) : Leads E l' O deep (handleArm E n bn g b) S T := by
  intro v v' k h hfat hd hf hdp hl
  have hgd := kept_guarded E l' v g
  cases arm_ok h with
  | skipped h _ => exact absurd h hn
  | noStep a l _ _ h =>
    rcases insert_ok h with ⟨h, _⟩ | ⟨_, _, rfl⟩
    · exact absurd h (by simp)
    · exact absurd hfat (by simp [V.failed])
  | visited a l v1 v2 _ _ h1 h2 h3 =>
    subst h3
    exact leads_wrap hm ho wb hb (hgd.trans ((kept_push _ _ _ _).trans (kept_insert ho l' h1))) h2 (kept_pop _ _ _ _)
      hfat hd hf hdp hl
  | walked a v1 v2 _ _ h1 h2 h3 =>
    subst h3
    have h1' : Kept E l' ((v.guarded g).push a) v1 := by
      cases g with
      | none =>
        simp only [Option.getD_none, Except.ok.injEq] at h1
        subst h1
        exact .refl _ _ _
      | some x => exact walk_kept hm ho l' (wg x rfl) h1
    exact leads_wrap hm ho wb hb (hgd.trans ((kept_push _ _ _ _).trans h1')) h2 (kept_pop _ _ _ _) hfat hd hf hdp hl

/-- The stretch of a number. -/
theorem same_builder {s : St} (hn : (s.processing.map (·.coll)).Nodup) {x y : Builder} (hx : x ∈ s.processing)
    (hy : y ∈ s.processing) (h : x.coll = y.coll) : x = y := by
  obtain ⟨i, hi, rfl⟩ := List.mem_iff_getElem.1 hx
  obtain ⟨j, hj, rfl⟩ := List.mem_iff_getElem.1 hy
  have key : ∀ i j (hi : i < s.processing.length) (hj : j < s.processing.length), i < j →
      s.processing[i].coll ≠ s.processing[j].coll := by
    intro i j hi hj hij
    have := List.pairwise_iff_getElem.1 hn i j (by simpa using hi) (by simpa using hj) hij
    simpa using this
  rcases Nat.lt_trichotomy i j with hij | hij | hij
  · exact absurd h (key i j hi hj hij)
  · subst hij; rfl
  · exact absurd h.symm (key j i hj hi hij)

/-- The three ways through a conditional that reports no error. -/
theorem branch_kept (hm : E.m.Proper) (ho : Ordered E.m) {n cn : Node} {c i : Visit} {en : List (Loc × Nat)} {d : Nat}
    (wc : Walk E c) (wi : Walk E i) {l : Loc} (hl : (E.exitOf cn).or n.entry = some l) {v v' : V}
    (h : handleBranch E n cn c i en d v = .ok v') (hfat : v'.fatal = []) :
    ∃ v1 v2 v3 v4 bid, Kept E l' v v1 ∧ v1.insert E l cn.span = .ok (v2, true) ∧
      v2.openBranch E l (E.spanner en d) = .ok (v3, some bid) ∧ i v3 = .ok v4 ∧ v4.closeBranch bid = .ok v' ∧
      Kept E l' v1 v2 ∧ Kept E l' v2 v' ∧ Kept E l' v3 v4 := by
  cases branch_ok h with
  | skipped v1 h1 he hn h2 => rw [he, hn] at hl; exact absurd hl (by simp)
  | noStep v1 l1 h1 _ h2 =>
    rcases insert_ok h2 with ⟨h, _⟩ | ⟨_, _, rfl⟩
    · exact absurd h (by simp)
    · exact absurd hfat (by simp [V.failed])
  | noBranch v1 v2 l1 h1 _ h2 h3 =>
    rcases openBranch_ok h3 with ⟨_, _, h, _⟩ | ⟨_, _, rfl⟩
    · exact absurd h (by simp)
    · exact absurd hfat (by simp [V.failed])
  | visited v1 v2 v3 v4 l1 bid h1 he h2 h3 h4 h5 =>
    rw [hl] at he
    cases he
    have k4 := walk_kept hm ho l' wi h4
    exact ⟨v1, v2, v3, v4, bid, walk_kept hm ho l' wc h1, h2, h3, h4, h5, kept_insert ho l' h2,
      kept_branch hm ho l' h3 k4 h5, k4⟩

/-- The stretch at which a branch before `l'` is opened. -/
theorem opened_at (hm : E.m.Proper) {k : Nat} {S : Option Nat} {v : V} (h : Level E l' O k S v) {l : Loc}
    (hd : E.m.ldom l l' = true) (hO : l.block ∉ O) {f : Spanner} {bid : Nat} {s' : St}
    (ho : v.st.openBranch E.m l f = .ok (bid, s')) : ∃ (b : Builder) (i : Nat), v.st.processing[i]? = some b ∧ b.cur = l ∧ b.coll = k := by
  obtain ⟨b, i, _, hbi, hcur, _, _, _, _⟩ := opened ho
  have hbm : b ∈ v.st.processing := List.mem_of_getElem? hbi
  refine ⟨b, i, hbi, hcur, ?_⟩
  apply Classical.byContradiction
  intro hne
  have := (h.still.cur b hbm ((inv_run hm h.run).bound b hbm) hne (by rw [hcur]; exact hd)).2
  rw [hcur] at this
  exact hO this

/-- A conditional that does not come together: what is open stays at its block. -/
theorem leads_settle (hm : E.m.Proper) (ho : Ordered E.m) {n cn : Node} {c i : Visit} {en : List (Loc × Nat)} {d : Nat}
    (wc : Walk E c) (wi : Walk E i) {l : Loc} (hl : (E.exitOf cn).or n.entry = some l) (hs : Stuck E.m l' l.block)
    (hO : l.block ∉ O) (S : Option Nat) :
    Leads E l' O deep (handleBranch E n cn c i en d) S (some (some l.block)) := by
  intro v v' k h hfat hd hf _ hlv
  obtain ⟨v1, v2, v3, v4, bid, k1, h2, h3, h4, h5, k2, k3, _⟩ := branch_kept (l' := l') hm ho wc wi hl h hfat
  obtain ⟨f1, f2, r1, _⟩ := flat_split (k1.trans k2).track k3.track hlv.run hf
  have l2 := hlv.kept hm (k1.trans k2) f1 (k3.fatal hfat) (fun l h => hd l (k3.dues _ h))
  refine ⟨_, rfl, ?_⟩
  refine Level.kept hm (v := v2) ⟨l2.run, l2.mem, ?_⟩ k3 f2 hfat hd
  rcases openBranch_ok h3 with ⟨_, s, _, hopen, _⟩ | ⟨h, _⟩
  rotate_left
  · exact absurd h (by simp)
  obtain ⟨b, j, hbi, hcur, hk⟩ := opened_at hm l2 (hs.before l rfl) hO hopen
  have st := l2.still
  refine ⟨st.low, st.size, st.cur, st.phi, ?_, ?_, st.outer⟩
  · rintro a ⟨⟩ x hx hxk
    rw [same_builder (inv_run hm l2.run).nodup hx (List.mem_of_getElem? hbi) (hxk.trans hk.symm), hcur]
  · rintro a ⟨⟩
    exact hs

end

/-! ## The order of the stretches -/

theorem sorted_mkBranch {m : Mapper} {s s' : St} {l : Loc} {g : GetSpanner} {bid : Nat}
    (hb : ∀ b ∈ s.processing, b.coll < s.colls.length) (h : s.mkBranch m l g = .ok (bid, s'))
    (hs : (s.processing.map (·.coll)).Pairwise (· < ·)) : (s'.processing.map (·.coll)).Pairwise (· < ·) := by
  obtain ⟨scope, sw, b, i, f', sp, _, hsw, hf, hcur, hbid, _, hnew, rfl⟩ := mkBranch_ok h
  obtain ⟨hbi, _⟩ := findBuilder_spec hf
  change ((s.processing.set i { b with cur := _ } ++
    (((m.succ sw.block).map (fun k => f' ⟨k, 0⟩)).zipIdx s.colls.length).map (fun t => (⟨t.2, t.1.1⟩ : Builder))).map
      (·.coll)).Pairwise (· < ·)
  rw [List.map_append, map_set_coll hbi, List.map_map]
  have e : ((fun x : Builder => x.coll) ∘ fun t : (Loc × Nat) × Nat => (⟨t.2, t.1.1⟩ : Builder)) = Prod.snd := rfl
  rw [e, List.zipIdx_map_snd]
  rw [List.pairwise_append]
  refine ⟨hs, List.pairwise_lt_range', ?_⟩
  intro x hx y hy
  obtain ⟨z, hz, rfl⟩ := List.mem_map.1 hx
  have := hb z hz
  have := (List.mem_range'_1.1 hy).1
  omega

theorem sorted_run {tie : Bool} {m : Mapper} (hm : m.Proper) {s : St} {g : List (Nat × Nat)} (h : Run tie m s g) :
    (s.processing.map (·.coll)).Pairwise (· < ·) := by
  induction h with
  | make => simp [St.make]
  | openScope _ h ih => obtain ⟨_, _, _, rfl⟩ := openScope_eq h; exact ih
  | closeScope _ h ih => obtain ⟨_, _, rfl⟩ := closeScope_eq h; exact ih
  | openBranch hr h ih => exact sorted_mkBranch (inv_run hm hr).bound h ih
  | closeBranch _ _ h ih =>
    obtain ⟨_, _, rfl⟩ := closeBranch_eq h
    exact ih.sublist (List.filter_sublist.map _)
  | child hr _ h ih =>
    obtain ⟨_, _, _, _, h', _, _, rfl⟩ := openChild_ok h
    have := sorted_mkBranch (inv_run hm hr).bound h' ih
    exact this
  | linear sp hr h _ ih =>
    obtain ⟨hfb, _⟩ := findSuitable_linear h
    obtain ⟨hbi, _⟩ := findBuilder_spec hfb
    change ((List.set _ _ _).map _).Pairwise _
    rw [map_set_coll hbi]
    exact ih

section
variable {E : Env} {l' : Loc} {O : List Nat} {deep : Bool}

/-- What is open is stuck in another block: no step to the place can be recorded. -/
theorem no_insert (hm : E.m.Proper) {k a : Nat} {v v' : V} (h : Level E l' O k (some a) v) (hk : k ≠ 0) {sp : Nat}
    {ok : Bool} (hi : v.insert E l' sp = .ok (v', ok)) (hfat : v'.fatal = []) (hf : Flat v v') : False := by
  rcases insert_ok hi with ⟨rfl, s, hi', rfl⟩ | ⟨rfl, _, rfl⟩
  rotate_left
  · exact absurd hfat (by simp [V.failed])
  have st := h.still
  have hst := st.stuck a rfl
  have inv := inv_run hm h.run
  obtain ⟨x, hx, hxk⟩ := List.mem_map.1 h.mem
  have hxl := hst.before x.cur (st.held a rfl x hx hxk)
  -- the stretch found is that of `k`
  have found : ∀ b i, v.st.findBuilder E.m l' = some (b, i) → b = x := by
    intro b i hb
    obtain ⟨hbi, hbl, hmax⟩ := findBuilder_iff.1 hb
    have hbm : b ∈ v.st.processing := List.mem_of_getElem? hbi
    refine same_builder inv.nodup hbm hx ?_
    rw [hxk]
    apply Classical.byContradiction
    intro hne
    have hlt := (st.cur b hbm (inv.bound b hbm) hne hbl).1
    obtain ⟨j, hj⟩ := List.mem_iff_getElem?.1 hx
    have hij : ¬ i < j := fun hlt => by
      have := hmax j x hlt hj
      rw [hxl] at this
      exact absurd this (by simp)
    have hji : j ≠ i := by
      rintro rfl
      rw [hbi] at hj
      cases hj
      exact hne hxk
    have hs := sorted_run hm h.run
    obtain ⟨hi1, hi2⟩ := List.getElem?_eq_some_iff.1 hbi
    obtain ⟨hj1, hj2⟩ := List.getElem?_eq_some_iff.1 hj
    have := List.pairwise_iff_getElem.1 hs j i (by simpa using hj1) (by simpa using hi1) (by omega)
    simp only [List.getElem_map, hi2, hj2] at this
    omega
  have hlp : E.m.lpdom l' x.cur = false := by
    cases hp : E.m.lpdom l' x.cur with
    | false => rfl
    | true => exact absurd (hst.stays x.cur l' (st.held a rfl x hx hxk) hxl hp) hst.other
  rcases insert_flat hi' (flat_insert hf) with ⟨hn, _⟩ | ⟨b, i, _, hlin, _, _⟩
  · unfold St.findSuitable at hn
    cases hb : v.st.findBuilder E.m l' with
    | none =>
      have := hb
      unfold St.findBuilder at this
      obtain ⟨j, hj⟩ := List.mem_iff_getElem?.1 hx
      have h1 := List.find?_eq_none.1 this (x, j) (by
        rw [List.mem_reverse]
        exact List.mem_iff_getElem?.2 ⟨j, by simp [List.getElem?_zipIdx, hj]⟩)
      exact h1 hxl
    | some y =>
      obtain ⟨b, i⟩ := y
      have hbx := found b i hb
      subst hbx
      rw [hb] at hn
      dsimp only at hn
      rw [hlp] at hn
      obtain ⟨br, hbr, hmem⟩ := inv.owned b.coll (by omega) (inv.bound b hx)
      cases hc : v.st.containingBranch b.coll with
      | some bid => rw [hc] at hn; exact absurd hn (by simp)
      | none =>
        unfold St.containingBranch at hc
        rw [List.findIdx?_eq_none_iff] at hc
        have := hc br hbr
        simp [hmem] at this
  · obtain ⟨h1, h2⟩ := findSuitable_linear hlin
    rw [found b i h1, hlp] at h2
    exact absurd h2 (by simp)

/-- A step to the place after what is open has got stuck. -/
theorem leads_strike (hm : E.m.Proper) {n : Node} (hn : E.exitOf n = some l') (a : Nat) :
    Leads E l' O true (fun v => v.stepAfter E n) (some a) none := by
  intro v v' k h hfat _ hf hdp hl
  rcases stepAfter_ok h with ⟨h, _⟩ | ⟨l, ok, he, hi⟩
  · rw [hn] at h; exact absurd h (by simp)
  · rw [hn] at he
    cases he
    exact (no_insert hm hl (hdp rfl) hi hfat hf).elim

/-- A conditional at the place after what is open has got stuck. -/
theorem leads_fork (hm : E.m.Proper) (ho : Ordered E.m) {n cn : Node} {c i : Visit} {en : List (Loc × Nat)} {d : Nat}
    (wc : Walk E c) (wi : Walk E i) (hl : (E.exitOf cn).or n.entry = some l') (a : Nat) :
    Leads E l' O true (handleBranch E n cn c i en d) (some a) none := by
  intro v v' k h hfat hd hf hdp hlv
  obtain ⟨v1, v2, v3, v4, bid, k1, h2, h3, h4, h5, k2, k3, _⟩ := branch_kept (l' := l') hm ho wc wi hl h hfat
  obtain ⟨f1, f2, r1, _⟩ := flat_split k1.track (k2.trans k3).track hlv.run hf
  obtain ⟨f3, _, _, _⟩ := flat_split k2.track k3.track r1 f2
  have l1 := hlv.kept hm k1 f1 ((k2.trans k3).fatal hfat) (fun l h => hd l ((k2.trans k3).dues _ h))
  exact (no_insert hm l1 (hdp rfl) h2 (k3.fatal hfat) f3).elim

/-- Into an arm of a conditional. -/
theorem leads_into (hm : E.m.Proper) (ho : Ordered E.m) {n cn : Node} {c i : Visit} {en : List (Loc × Nat)} {d : Nat}
    (wc : Walk E c) (wi : Walk E i) {l : Loc} (hl : (E.exitOf cn).or n.entry = some l) (hd0 : E.m.ldom l l' = true)
    (hO : l.block ∉ O) {O' : List Nat}
    (hj : (∃ j, E.m.lpd (switchOf E.m l) = some j ∧ E.m.ldom ⟨j, 0⟩ l' = false ∧ O' = O) ∨
      (Stuck E.m l' l.block ∧ O' = l.block :: O))
    {q : Nat} (hq : q < (E.m.succ (switchOf E.m l)).length)
    (harm : ∀ x t, (E.m.succ (switchOf E.m l))[x]? = some t → x ≠ q → E.m.ldom ⟨t, 0⟩ l' = false)
    (hi : Leads E l' O' true i none none) (S : Option Nat) :
    Leads E l' O deep (handleBranch E n cn c i en d) S none := by
  intro v v' k h hfat hd hf hdp hlv
  obtain ⟨v1, v2, v3, v4, bid, k1, h2, h3, h4, h5, k2, k3, k4⟩ := branch_kept (l' := l') hm ho wc wi hl h hfat
  obtain ⟨f1, f2, r1, _⟩ := flat_split (k1.trans k2).track k3.track hlv.run hf
  have l2 := hlv.kept hm (k1.trans k2) f1 (k3.fatal hfat) (fun l h => hd l (k3.dues _ h))
  obtain ⟨s3, hopen, e3, r3, f3⟩ := flat_inside h3 k4.track h5 r1 f2
  obtain ⟨d3, d4⟩ := did_dues (did_closeBranch h5)
  have est : v3.st = s3 := by rw [e3]
  have st := l2.still
  have inv2 := inv_run hm l2.run
  obtain ⟨b0, i0, _, hbi0, hcur0, hp, hc, _, _⟩ := opened hopen
  have hbm0 : b0 ∈ v2.st.processing := List.mem_of_getElem? hbi0
  have hk0 : b0.coll = k := by
    apply Classical.byContradiction
    intro hne
    have := (st.cur b0 hbm0 (inv2.bound b0 hbm0) hne (by rw [hcur0]; exact hd0)).2
    rw [hcur0] at this
    exact hO this
  have hlow := st.low
  have hlen : s3.colls.length = v2.st.colls.length + (E.m.succ (switchOf E.m l)).length := by
    rw [hc, List.length_append, length_pushCF, List.length_replicate]
  -- the new stretches
  have hnew : ∀ x ∈ (((E.m.succ (switchOf E.m l)).map (fun k => E.spanner en d ⟨k, 0⟩)).zipIdx v2.st.colls.length).map
      (fun t => (⟨t.2, t.1.1⟩ : Builder)), ∃ y t, (E.m.succ (switchOf E.m l))[y]? = some t ∧
        x.coll = v2.st.colls.length + y ∧ x.cur = (E.spanner en d ⟨t, 0⟩).1 := by
    intro x hx
    obtain ⟨⟨t, j⟩, ht, rfl⟩ := List.mem_map.1 hx
    obtain ⟨y, hy⟩ := List.mem_iff_getElem?.1 ht
    simp only [List.getElem?_zipIdx, List.getElem?_map, Option.map_map, Option.map_eq_some_iff, Function.comp] at hy
    obtain ⟨t', ht', he⟩ := hy
    simp only [Prod.mk.injEq] at he
    exact ⟨y, t', ht', he.2.symm, by rw [← he.1]⟩
  have lvl : Level E l' O' (v2.st.colls.length + q) none v3 := by
    refine ⟨r3, ?_, ?_⟩
    · rw [est, hp, List.map_append, List.map_map]
      have e : ((fun x : Builder => x.coll) ∘ fun t : (Loc × Nat) × Nat => (⟨t.2, t.1.1⟩ : Builder)) = Prod.snd := rfl
      rw [e, List.zipIdx_map_snd, List.length_map]
      exact List.mem_append_right _ (List.mem_range'_1.2 ⟨by omega, by omega⟩)
    · rw [est]
      refine ⟨by omega, Nat.le_refl _, ?_, ?_, by intro a ha; exact absurd ha (by simp), by intro a ha; exact absurd ha (by simp), ?_⟩
      · intro x hx _ hxk hxl
        rw [hp] at hx
        rcases List.mem_append.1 hx with hx | hx
        · have hb : x.coll < v2.st.colls.length := by
            rcases List.mem_or_eq_of_mem_set hx with hx | rfl
            · exact inv2.bound x hx
            · exact inv2.bound b0 hbm0
          refine ⟨by omega, ?_⟩
          rcases List.mem_or_eq_of_mem_set hx with hx' | rfl
          · by_cases hxk : x.coll = k
            · have := (mem_set_builder inv2.nodup hbi0 _ x hx).1 (hxk.trans hk0.symm)
              rw [this] at hxl ⊢
              rcases hj with ⟨j, hj1, hj2, _⟩ | ⟨hst, rfl⟩
              · rw [hj1] at hxl
                change E.m.ldom ⟨j, 0⟩ l' = true at hxl
                rw [hj2] at hxl
                exact absurd hxl (by simp)
              · rw [hst.apart l rfl]
                exact List.mem_cons_self
            · have := (st.cur x hx' hb hxk hxl).2
              rcases hj with ⟨_, _, _, rfl⟩ | ⟨_, rfl⟩
              · exact this
              · exact List.mem_cons_of_mem _ this
          · rcases hj with ⟨j, hj1, hj2, _⟩ | ⟨hst, rfl⟩
            · rw [hj1] at hxl
              change E.m.ldom ⟨j, 0⟩ l' = true at hxl
              rw [hj2] at hxl
              exact absurd hxl (by simp)
            · change (((E.m.lpd (switchOf E.m l)).map (fun j => (⟨j, 0⟩ : Loc))).getD l).block ∈ _
              rw [hst.apart l rfl]
              exact List.mem_cons_self
        · obtain ⟨y, t, hy, e1, e2⟩ := hnew x hx
          rw [e2] at hxl
          have := harm y t hy (by omega)
          rw [not_before ho this (spanner_moves ho en d ⟨t, 0⟩)] at hxl
          exact absurd hxl (by simp)
      · intro x hx _ c' hxc p hcp
        rw [hp] at hx
        rw [hc] at hxc
        rcases List.mem_append.1 hx with hx | hx
        · have hb : x.coll < v2.st.colls.length ∧ ∃ x' ∈ v2.st.processing, x'.coll = x.coll := by
            rcases List.mem_or_eq_of_mem_set hx with hx | rfl
            · exact ⟨inv2.bound x hx, x, hx, rfl⟩
            · exact ⟨inv2.bound b0 hbm0, b0, hbm0, rfl⟩
          obtain ⟨hb, x', hx', e⟩ := hb
          obtain ⟨c0, h0, h1⟩ := pushCF_phi hb hxc
          rw [h1] at hcp
          rw [← e] at hb h0
          exact st.phi x' hx' hb c0 h0 p hcp
        · obtain ⟨y, t, hy, e1, e2⟩ := hnew x hx
          have hlt : y < (E.m.succ (switchOf E.m l)).length := (List.getElem?_eq_some_iff.1 hy).1
          rw [e1, List.getElem?_append_right (by rw [length_pushCF]; omega), length_pushCF,
            Nat.add_sub_cancel_left, List.getElem?_replicate, if_pos hlt] at hxc
          simp only [Option.some.injEq] at hxc
          subst hxc
          rcases hj with ⟨j, hj1, hj2, _⟩ | ⟨hst, _⟩
          · rw [hj1] at hcp
            cases hcp
            exact hj2
          · rw [hst.apart l rfl] at hcp
            exact absurd hcp (by simp)
      · intro a ha
        rcases hj with ⟨_, _, _, rfl⟩ | ⟨hst, rfl⟩
        · exact st.outer a ha
        · rcases List.mem_cons.1 ha with rfl | ha
          · exact hst
          · exact st.outer a ha
  obtain ⟨_, e, _⟩ := hi v3 v4 _ h4 (d4 hfat) (fun x hx => hd x (d3 _ hx)) f3 (by intro _; omega) lvl
  cases e

end

/-! ## The source -/

/-- What the visitor comes across: an expression, a child of an expression, a statement, or the end of a node. -/
inductive Item
  | expr (e : Expr)
  | part (p : Part)
  | stmt (s : Stmt)
  | after (n : Node)

def tailItems : Option Expr → List Item
  | none => []
  | some e => [.expr e, .after e.node]

/-- What is visited, in this order, as part of something, without a branch in between. -/
def Item.contents : Item → List Item
  | .expr (.other _ parts) => parts.map .part
  | .expr _ => []
  | .part (.expr e) => [.expr e]
  | .part (.block (.mk _ ss t)) => ss.map .stmt ++ tailItems t
  | .part (.body e) => [.expr e, .after e.node]
  | .stmt (.lt n _ init els) => (init.toList.map .expr ++ els.toList.map (fun b => .part (.block b))) ++ [.after n]
  | .stmt (.expr n e) => [.expr e, .after n]
  | .stmt (.item n bodies) => bodies.map .part ++ [.after n]
  | .after _ => []

/-- The arms of a conditional that are visited. -/
def arms : Expr → List Expr
  | .ite _ _ thn els => (thn :: els.toList).filter (fun e => e.node.entry.isSome)
  | .whileLoop _ _ thn els => [thn, els].filter (fun e => e.node.entry.isSome)
  | .forLoop _ _ nothing item => ([nothing, item].filter (fun a => a.node.entry.isSome)).map Arm.body
  | .mtch _ _ _ as => (as.filter (fun a => a.node.entry.isSome)).map Arm.body
  | .other _ _ => []

/-- Part of something without a branch in between. -/
inductive Inside : Item → Item → Prop
  | refl (i : Item) : Inside i i
  | cons {x y i : Item} : y ∈ i.contents → Inside x y → Inside x i

def visitItem (E : Env) : Item → Visit
  | .expr e => visitExpr E e
  | .part p => visitPart E p
  | .stmt s => visitStmt E s
  | .after n => fun v => v.stepAfter E n

theorem walk_item (E : Env) (i : Item) : Walk E (visitItem E i) := by
  intro P hP
  cases i with
  | expr e => exact all_expr hP e
  | part p => exact all_part hP p
  | stmt s => exact all_stmt hP s
  | after n => exact hP.step n

/-! ## One after the other -/

/-- Where a list of items leads. -/
inductive Chain (E : Env) (l' : Loc) (O : List Nat) (deep : Bool) : List Item → Option Nat → Option (Option Nat) → Prop
  | nil (S) : Chain E l' O deep [] S (some S)
  | stop {x r S} : Leads E l' O deep (visitItem E x) S none → Chain E l' O deep (x :: r) S none
  | step {x r S S1 T} : Leads E l' O deep (visitItem E x) S (some S1) → Chain E l' O deep r S1 T →
      Chain E l' O deep (x :: r) S T

section
variable {E : Env} {l' : Loc} {O : List Nat} {deep : Bool}

theorem Chain.keep (hm : E.m.Proper) (ho : Ordered E.m) (xs : List Item) {ys : List Item} {S : Option Nat}
    {T : Option (Option Nat)} (h : Chain E l' O deep ys S T) : Chain E l' O deep (xs ++ ys) S T := by
  induction xs with
  | nil => exact h
  | cons x xs ih => exact .step (leads_walk hm ho (walk_item E x) S) ih

theorem Chain.all (hm : E.m.Proper) (ho : Ordered E.m) (xs : List Item) (S : Option Nat) :
    Chain E l' O deep xs S (some S) := by
  have := Chain.keep (deep := deep) (l' := l') (O := O) hm ho xs (.nil S)
  rwa [List.append_nil] at this

theorem Chain.split {xs ys : List Item} {S : Option Nat} {T : Option (Option Nat)}
    (h : Chain E l' O deep (xs ++ ys) S T) : (Chain E l' O deep xs S none ∧ T = none) ∨
      ∃ S1, Chain E l' O deep xs S (some S1) ∧ Chain E l' O deep ys S1 T := by
  induction xs generalizing S with
  | nil => exact .inr ⟨S, .nil S, h⟩
  | cons x xs ih =>
    cases h with
    | stop hx => exact .inl ⟨.stop hx, rfl⟩
    | step hx hr =>
      rcases ih hr with ⟨h1, h2⟩ | ⟨S1, h1, h2⟩
      · exact .inl ⟨.step hx h1, h2⟩
      · exact .inr ⟨S1, .step hx h1, h2⟩

theorem Chain.one {x : Item} {S : Option Nat} {T : Option (Option Nat)} (h : Chain E l' O deep [x] S T) :
    Leads E l' O deep (visitItem E x) S T := by
  cases h with
  | stop h => exact h
  | step h1 h2 => cases h2; exact h1

theorem leads_both (hm : E.m.Proper) (ho : Ordered E.m) {a b : Visit} (wa : Walk E a) (wb : Walk E b) {S : Option Nat}
    {T : Option (Option Nat)} (h : (Leads E l' O deep a S none ∧ T = none) ∨
      ∃ S1, Leads E l' O deep a S (some S1) ∧ Leads E l' O deep b S1 T) : Leads E l' O deep (seq a b) S T := by
  rcases h with ⟨h, rfl⟩ | ⟨S1, h1, h2⟩
  · exact leads_left hm ho wa wb h
  · exact leads_seq hm ho wa wb h1 h2

theorem leads_stmt_step (hm : E.m.Proper) (ho : Ordered E.m) {n : Node} {locals : List Nat} {a : Visit} (wa : Walk E a)
    {S : Option Nat} {T : Option (Option Nat)} (h : (Leads E l' O deep a S none ∧ T = none) ∨
      ∃ S1, Leads E l' O deep a S (some S1) ∧ Leads E l' O deep (fun v => v.stepAfter E n) S1 T) :
    Leads E l' O deep (inStmt E n locals a) S T := by
  rcases h with ⟨h, rfl⟩ | ⟨S1, ha, hb⟩
  · exact leads_stmt hm ho wa h
  intro v v' k h hfat hd hf hdp hl
  obtain ⟨s, v2, v3, cl, h1, h2, h3, h4⟩ := inStmt_ok h
  have k0 : Kept E l' v (v.inside s locals) :=
    kept_openScope l' h1 (inside_st _ _ _) (inside_calls _ _ _) (inside_fatal _ _ _)
  have k1 := walk_kept hm ho l' wa h2
  have k2 := kept_closeScope (E := E) l' h3
  rcases h4 with ⟨rfl, rfl⟩ | ⟨_, h4⟩
  · rcases vcloseScope_ok h3 with ⟨h, _⟩ | ⟨_, _, rfl⟩
    · exact absurd h (by simp)
    · exact absurd hfat (by simp [V.failed])
  · have k3 : Kept E l' v3 v' := (kept_closed hm ho l').step n _ _ h4
    obtain ⟨f1, f2, _, _⟩ := flat_split (k0.trans (k1.trans k2)).track k3.track hl.run hf
    obtain ⟨_, e, l3⟩ := leads_wrap hm ho wa ha k0 h2 k2 (k3.fatal hfat) (fun l h => hd l (k3.dues _ h)) f1 hdp hl
    cases e
    exact hb v3 v' k h4 hfat hd f2 hdp l3

theorem leads_parts (hm : E.m.Proper) (ho : Ordered E.m) (ps : List Part) {S : Option Nat} {T : Option (Option Nat)}
    (h : Chain E l' O deep (ps.map .part) S T) : Leads E l' O deep (visitParts E ps) S T := by
  induction ps generalizing S with
  | nil =>
    cases h
    rw [visitParts]
    exact leads_walk hm ho (fun P hP => hP.ok) S
  | cons p ps ih =>
    rw [visitParts]
    refine leads_both hm ho (walk_item E (.part p)) (fun P hP => all_parts hP ps) ?_
    cases h with
    | stop h => exact .inl ⟨h, rfl⟩
    | step h1 h2 => exact .inr ⟨_, h1, ih h2⟩

theorem leads_stmts (hm : E.m.Proper) (ho : Ordered E.m) (ss : List Stmt) {S : Option Nat} {T : Option (Option Nat)}
    (h : Chain E l' O deep (ss.map .stmt) S T) : Leads E l' O deep (visitStmts E ss) S T := by
  induction ss generalizing S with
  | nil =>
    cases h
    rw [visitStmts]
    exact leads_walk hm ho (fun P hP => hP.ok) S
  | cons s ss ih =>
    rw [visitStmts]
    refine leads_both hm ho (walk_item E (.stmt s)) (walk_stmts E ss) ?_
    cases h with
    | stop h => exact .inl ⟨h, rfl⟩
    | step h1 h2 => exact .inr ⟨_, h1, ih h2⟩

theorem leads_tail (hm : E.m.Proper) (ho : Ordered E.m) (t : Option Expr) {S : Option Nat} {T : Option (Option Nat)}
    (h : Chain E l' O deep (tailItems t) S T) : Leads E l' O deep (visitTail E t) S T := by
  cases t with
  | none =>
    cases h
    exact leads_walk hm ho (fun P hP => hP.ok) S
  | some e =>
    refine leads_both hm ho (walk_expr E e) (walk_item E (.after e.node)) ?_
    cases h with
    | stop h => exact .inl ⟨h, rfl⟩
    | step h1 h2 => exact .inr ⟨_, h1, h2.one⟩

theorem leads_block (hm : E.m.Proper) (ho : Ordered E.m) (b : Block) {S : Option Nat} {T : Option (Option Nat)}
    (h : Chain E l' O deep (Item.part (.block b)).contents S T) : Leads E l' O deep (visitBlock E b) S T := by
  obtain ⟨n, ss, t⟩ := b
  rw [visitBlock_eq]
  refine leads_scope hm ho (fun P hP => hP.seq (all_stmts hP ss) (walk_tail E t P hP)) ?_
  refine leads_both hm ho (walk_stmts E ss) (walk_tail E t) ?_
  rcases h.split with ⟨h1, h2⟩ | ⟨S1, h1, h2⟩
  · exact .inl ⟨leads_stmts hm ho ss h1, h2⟩
  · exact .inr ⟨S1, leads_stmts hm ho ss h1, leads_tail hm ho t h2⟩

/-- An item leads where its contents lead. -/
theorem leads_item (hm : E.m.Proper) (ho : Ordered E.m) (i : Item) {S : Option Nat} {T : Option (Option Nat)}
    (h : Chain E l' O deep i.contents S T) : Leads E l' O deep (visitItem E i) S T := by
  have none : i.contents = [] → Leads E l' O deep (visitItem E i) S T := by
    intro hc
    rw [hc] at h
    cases h
    exact leads_walk hm ho (walk_item E i) S
  cases i with
  | after n => exact none rfl
  | expr e =>
    cases e with
    | other n parts =>
      change Leads E l' O deep (visitExpr E _) S T
      rw [visitExpr]
      exact leads_parts hm ho parts h
    | _ => exact none rfl
  | part p =>
    cases p with
    | expr e =>
      change Leads E l' O deep (visitPart E _) S T
      rw [visitPart]
      exact h.one
    | block b =>
      change Leads E l' O deep (visitPart E _) S T
      rw [visitPart]
      exact leads_block hm ho b h
    | body e =>
      change Leads E l' O deep (visitPart E _) S T
      rw [visitPart]
      exact leads_tail hm ho (some e) h
  | stmt s =>
    cases s with
    | lt n locals init els =>
      change Leads E l' O deep (visitStmt E _) S T
      rw [visitStmt]
      have wi : Walk E (visitOpt E init) := fun P hP => all_opt hP init
      have we : Walk E (visitOptBlock E els) := fun P hP => all_optBlock hP els
      have key : ∀ {S T}, Chain E l' O deep (init.toList.map .expr ++ els.toList.map (fun b => .part (.block b))) S T →
          Leads E l' O deep (seq (visitOpt E init) (visitOptBlock E els)) S T := by
        intro S T h
        have ki : ∀ {S T}, Chain E l' O deep (init.toList.map .expr) S T → Leads E l' O deep (visitOpt E init) S T := by
          intro S T h
          cases init with
          | none => cases h; exact leads_walk hm ho wi S
          | some e => rw [visitOpt]; exact h.one
        have ke : ∀ {S T}, Chain E l' O deep (els.toList.map (fun b => .part (.block b))) S T →
            Leads E l' O deep (visitOptBlock E els) S T := by
          intro S T h
          cases els with
          | none => cases h; exact leads_walk hm ho we S
          | some b =>
            rw [visitOptBlock]
            have := h.one
            change Leads E l' O deep (visitPart E _) S T at this
            rwa [visitPart] at this
        refine leads_both hm ho wi we ?_
        rcases h.split with ⟨h1, h2⟩ | ⟨S1, h1, h2⟩
        · exact .inl ⟨ki h1, h2⟩
        · exact .inr ⟨S1, ki h1, ke h2⟩
      refine leads_stmt_step hm ho (fun P hP => hP.seq (wi P hP) (we P hP)) ?_
      rcases h.split with ⟨h1, h2⟩ | ⟨S1, h1, h2⟩
      · exact .inl ⟨key h1, h2⟩
      · exact .inr ⟨S1, key h1, h2.one⟩
    | expr n e =>
      change Leads E l' O deep (visitStmt E _) S T
      rw [visitStmt]
      refine leads_stmt_step hm ho (walk_expr E e) ?_
      cases h with
      | stop h => exact .inl ⟨h, rfl⟩
      | step h1 h2 => exact .inr ⟨_, h1, h2.one⟩
    | item n bodies =>
      change Leads E l' O deep (visitStmt E _) S T
      rw [visitStmt]
      refine leads_stmt_step hm ho (fun P hP => all_parts hP bodies) ?_
      rcases h.split with ⟨h1, h2⟩ | ⟨S1, h1, h2⟩
      · exact .inl ⟨leads_parts hm ho bodies h1, h2⟩
      · exact .inr ⟨S1, leads_parts hm ho bodies h1, h2.one⟩

theorem leads_inside (hm : E.m.Proper) (ho : Ordered E.m) {x i : Item} (h : Inside x i) {S : Option Nat}
    {T : Option (Option Nat)} (hT : ∀ S', T = some S' → ∃ a, S' = some a)
    (hx : Leads E l' O deep (visitItem E x) S T) : Leads E l' O deep (visitItem E i) S T := by
  induction h with
  | refl => exact hx
  | cons hy _ ih =>
    apply leads_item hm ho
    obtain ⟨pre, post, hs⟩ := List.append_of_mem hy
    rw [hs]
    refine Chain.keep hm ho pre ?_
    cases T with
    | none => exact .stop ih
    | some S' => exact .step ih (.all hm ho post S')

/-! ## The arms of a conditional -/

theorem under_if (hm : E.m.Proper) (ho : Ordered E.m) {e : Expr} (he : e.node.entry.isSome = true) {S : Option Nat}
    (h : Leads E l' O deep (visitExpr E e) S none) : Leads E l' O deep (visitUnder e.node (visitExpr E e)) S none :=
  leads_under hm ho (by intro hn; rw [hn] at he; exact absurd he (by simp)) (walk_expr E e) h

theorem arm_if (hm : E.m.Proper) (ho : Ordered E.m) {a : Arm} (he : a.node.entry.isSome = true) {S : Option Nat}
    (h : Leads E l' O deep (visitExpr E a.body) S none) : Leads E l' O deep (visitArm E a) S none := by
  obtain ⟨n, p, g, body⟩ := a
  rw [visitArm.eq_def]
  dsimp only
  refine leads_arm hm ho (by intro hn; change n.entry.isSome = true at he; rw [hn] at he; exact absurd he (by simp))
    ?_ (walk_expr E body) h
  intro x hx
  cases g with
  | none => exact absurd hx (by simp)
  | some g => cases hx; exact walk_expr E g

theorem leads_arms (hm : E.m.Proper) (ho : Ordered E.m) {as : List Arm} {a : Arm} (ha : a ∈ as)
    (he : a.node.entry.isSome = true) {S : Option Nat} (h : Leads E l' O deep (visitExpr E a.body) S none) :
    Leads E l' O deep (visitArms E as) S none := by
  induction as with
  | nil => exact absurd ha (by simp)
  | cons x as ih =>
    rw [visitArms]
    have wx : Walk E (visitArm E x) := fun P hP => all_arm hP x
    have wa : Walk E (visitArms E as) := fun P hP => all_arms hP as
    rcases List.mem_cons.1 ha with rfl | ha
    · exact leads_left hm ho wx wa (arm_if hm ho he h)
    · exact leads_seq hm ho wx wa (leads_walk hm ho wx S) (ih ha)

/-- A conditional, and what is visited while its branch is open. -/
theorem visit_arms (hm : E.m.Proper) (ho : Ordered E.m) {e : Expr} {l : Loc} (h : Forks E.m.isSwitch E.next e l) :
    ∃ n cn c i en d, Walk E c ∧ Walk E i ∧ (E.exitOf cn).or n.entry = some l ∧
      visitExpr E e = handleBranch E n cn c i en d ∧ ∀ x ∈ arms e, ∀ {l' O deep S},
        Leads E l' O deep (visitExpr E x) S none → Leads E l' O deep i S none := by
  have hw : ∀ e, Walk E (visitExpr E e) := fun e P hP => all_expr hP e
  cases e with
  | ite n cnd thn els =>
    rw [visitExpr.eq_def]
    have w1 : Walk E (visitUnder thn.node (visitExpr E thn)) := fun P hP => hP.under _ (all_expr hP thn)
    have w2 : Walk E (visitElse E els) := fun P hP => all_else hP els
    refine ⟨_, _, _, _, _, _, hw _, fun P hP => hP.seq (w1 P hP) (w2 P hP), h, rfl, ?_⟩
    intro x hx l' O deep S hl
    obtain ⟨hx, he⟩ := List.mem_filter.1 hx
    rcases List.mem_cons.1 hx with rfl | hx
    · exact leads_left hm ho w1 w2 (under_if hm ho he hl)
    · cases els with
      | none => exact absurd hx (by simp)
      | some y =>
        simp only [Option.toList_some, List.mem_singleton] at hx
        subst hx
        refine leads_seq hm ho w1 w2 (leads_walk hm ho w1 S) ?_
        rw [visitElse]
        exact under_if hm ho he hl
  | whileLoop n cnd thn els =>
    rw [visitExpr]
    have w1 : Walk E (visitUnder thn.node (visitExpr E thn)) := fun P hP => hP.under _ (all_expr hP thn)
    have w2 : Walk E (visitUnder els.node (visitExpr E els)) := fun P hP => hP.under _ (all_expr hP els)
    refine ⟨_, _, _, _, _, _, hw _, fun P hP => hP.seq (w1 P hP) (w2 P hP), h, rfl, ?_⟩
    intro x hx l' O deep S hl
    obtain ⟨hx, he⟩ := List.mem_filter.1 hx
    rcases List.mem_cons.1 hx with rfl | hx
    · exact leads_left hm ho w1 w2 (under_if hm ho he hl)
    · rw [List.mem_singleton] at hx
      subst hx
      exact leads_seq hm ho w1 w2 (leads_walk hm ho w1 S) (under_if hm ho he hl)
  | forLoop n cnd nothing item =>
    rw [visitExpr]
    have w1 : Walk E (visitArm E nothing) := fun P hP => all_arm hP nothing
    have w2 : Walk E (visitArm E item) := fun P hP => all_arm hP item
    refine ⟨_, _, _, _, _, _, hw _, fun P hP => hP.seq (w1 P hP) (w2 P hP), h, rfl, ?_⟩
    intro x hx l' O deep S hl
    obtain ⟨a, ha, rfl⟩ := List.mem_map.1 hx
    obtain ⟨ha, he⟩ := List.mem_filter.1 ha
    rcases List.mem_cons.1 ha with rfl | ha
    · exact leads_left hm ho w1 w2 (arm_if hm ho he hl)
    · rw [List.mem_singleton] at ha
      subst ha
      exact leads_seq hm ho w1 w2 (leads_walk hm ho w1 S) (arm_if hm ho he hl)
  | mtch n fromFor cnd as =>
    obtain ⟨h, hp⟩ := h
    rw [isPlain_eq] at hp
    refine ⟨n, cnd.node, visitExpr E cnd, visitArms E as, armEntries as, 0, hw _, fun P hP => all_arms hP as, h, ?_, ?_⟩
    · funext v
      rw [visitExpr, hp]
      rfl
    · intro x hx l' O deep S hl
      obtain ⟨a, ha, rfl⟩ := List.mem_map.1 hx
      obtain ⟨ha, he⟩ := List.mem_filter.1 ha
      exact leads_arms hm ho ha he hl
  | other n parts => exact absurd h (by simp [Forks])

end

/-! ## Statements about bodies -/

/-- The switch in the block is on every way to the location, and its arms do not come together: no other block it
dominates is on every way from it to the return. -/
structure Splits (b : Body) (l' : Loc) (a : Nat) : Prop where
  switch : b.mapper.isSwitch a = true
  before : Dominates b.succ a l'.block
  other : l'.block ≠ a
  apart : ∀ j, j ≠ a → Dominates b.succ a j → ¬ PostDominates b.succ b.returns a j

/-- Among the targets of the switch that follows the location, at most one is on every way to `l'`. -/
structure Toward (b : Body) (l l' : Loc) : Prop where
  before : Dominates b.succ l.block l'.block
  other : l'.block ≠ l.block
  arm : ∃ q, q < (b.succ (switchOf b.mapper l)).length ∧
    ∀ x t, (b.succ (switchOf b.mapper l))[x]? = some t → x ≠ q → ¬ Dominates b.succ t l'.block

/-- Visiting the item asks for a step, or for a branch, at the location. -/
def Asks (b : Body) (l : Loc) (i : Item) : Prop :=
  ∃ x, Inside x i ∧ ((∃ n, x = .after n ∧ after b.locationSuccessor n = some l) ∨
    ∃ e, x = .expr e ∧ Forks b.mapper.isSwitch b.locationSuccessor e l)

/-- Somewhere in an arm of a conditional, a conditional that does not come together is followed by something that ends
at `l'`, after that conditional.  `O` are the blocks of the conditionals around it that do not come together either;
the flag says whether the item is in an arm. -/
inductive Leaves (b : Body) (l' : Loc) : List Nat → Bool → Item → Prop
  | here {O i pre x mid y post e l} : i.contents = pre ++ x :: (mid ++ y :: post) → Inside (.expr e) x →
      Forks b.mapper.isSwitch b.locationSuccessor e l → Splits b l' l.block → l.block ∉ O → Asks b l' y →
      Leaves b l' O true i
  | inside {O deep i x} : x ∈ i.contents → Leaves b l' O deep x → Leaves b l' O deep i
  | arm {O deep e x l j} : Forks b.mapper.isSwitch b.locationSuccessor e l → x ∈ arms e → Toward b l l' →
      l.block ∉ O → leastPostDominator b (switchOf b.mapper l) = some j → ¬ Dominates b.succ j l'.block →
      Leaves b l' O true (.expr x) → Leaves b l' O deep (.expr e)
  | armOfSplit {O deep e x l} : Forks b.mapper.isSwitch b.locationSuccessor e l → x ∈ arms e → Toward b l l' →
      l.block ∉ O → Splits b l' l.block → Leaves b l' (l.block :: O) true (.expr x) → Leaves b l' O deep (.expr e)

theorem switchOf_switch {m : Mapper} {x : Loc} (h : m.isSwitch x.block = true) : switchOf m x = x.block := by
  unfold switchOf findNextSwitch linearSearch
  rw [if_pos h]

theorem stuck_of_splits {b : Body} (hv : Valid b) {l' : Loc} {a : Nat} (h : Splits b l' a) : Stuck b.mapper l' a where
  before := by
    intro x hx
    refine (C68_before hv x l').2 (.inr ⟨?_, ?_⟩)
    · rw [hx]; exact fun e => h.other e.symm
    · rw [hx]; exact h.before
  stays := by
    intro x y hx hd hp
    apply Classical.byContradiction
    intro hne
    rcases (C68_before hv x y).1 hd with ⟨e, _⟩ | ⟨_, hdom⟩
    · exact hne (e.symm.trans hx)
    · obtain ⟨hy, hx'⟩ := dom_lt hv hdom
      rcases (C68_after hv y x hy hx').1 hp with ⟨e, _⟩ | ⟨_, hpost⟩
      · exact hne (e.trans hx)
      · rw [hx] at hdom hpost
        exact h.apart y.block hne hdom hpost
  other := h.other
  apart := by
    intro x hx
    rw [switchOf_switch (by rw [hx]; exact h.switch), hx]
    cases hj : b.mapper.lpd a with
    | none => rfl
    | some j =>
      have hret : b.returns ≠ [] := by
        intro hr
        refine h.apart l'.block h.other h.before ?_
        intro x hx
        rw [hr] at hx
        exact absurd hx (by simp)
      obtain ⟨_, ha, _⟩ := (C68_join hv hret a j).1 hj
      exact absurd ha.post (h.apart j ha.ne ha.dominated)

theorem not_ldom {b : Body} (hv : Valid b) {t : Nat} {l' : Loc} (hr : Reach b.succ 0 l'.block)
    (h : ¬ Dominates b.succ t l'.block) : b.mapper.ldom ⟨t, 0⟩ l' = false := by
  cases hd : b.mapper.ldom ⟨t, 0⟩ l' with
  | false => rfl
  | true =>
    rcases (C68_before hv _ _).1 hd with ⟨e, _⟩ | ⟨_, hdom⟩
    · refine absurd ⟨hr, fun l hl => ?_⟩ h
      change t = l'.block at e
      rw [e]
      exact hl.last_mem
    · exact absurd hdom h

theorem leaves_leads {b : Body} (hv : Valid b) {fuel : Nat} {order : List (Loc × Nat) → List (Loc × Nat)} {l' : Loc}
    {O : List Nat} {deep : Bool} {i : Item} (h : Leaves b l' O deep i) :
    ∀ S, Leads (.ofBody b fuel order) l' O deep (visitItem (.ofBody b fuel order) i) S none := by
  have hm : (Env.ofBody b fuel order).m.Proper := mapper_proper b
  have ho : Ordered (Env.ofBody b fuel order).m := ordered_body hv
  induction h with
  | @here O i pre x mid y post e l hc hin hfork hs hO hask =>
    intro S
    apply leads_item hm ho
    rw [hc]
    refine Chain.keep hm ho pre (.step (S1 := some l.block) ?_ (Chain.keep hm ho mid (.stop ?_)))
    · refine leads_inside hm ho hin (fun S' h => ⟨_, (Option.some.inj h).symm⟩) ?_
      change Leads _ l' O true (visitExpr _ e) S _
      obtain ⟨n, cn, c, i, en, d, wc, wi, hl, he⟩ := visit_forks (E := .ofBody b fuel order) hfork
      rw [he]
      exact leads_settle hm ho wc wi hl (stuck_of_splits hv hs) hO S
    · obtain ⟨z, hz, hz'⟩ := hask
      refine leads_inside hm ho hz (fun S' h => absurd h (by simp)) ?_
      rcases hz' with ⟨n, rfl, hn⟩ | ⟨e', rfl, he'⟩
      · exact leads_strike hm hn _
      · change Leads _ l' O true (visitExpr _ e') _ _
        obtain ⟨n, cn, c, i, en, d, wc, wi, hl, he⟩ := visit_forks (E := .ofBody b fuel order) he'
        rw [he]
        exact leads_fork hm ho wc wi hl _
  | @inside O deep i x hx _ ih =>
    intro S
    exact leads_inside hm ho (.cons hx (.refl x)) (fun S' h => absurd h (by simp)) (ih S)
  | @arm O deep e x l j hfork hx ht hO hj hn _ ih =>
    intro S
    obtain ⟨n, cn, c, i, en, d, wc, wi, hl, he, hi⟩ := visit_arms (E := .ofBody b fuel order) hm ho hfork
    change Leads _ l' O deep (visitExpr _ e) S _
    rw [he]
    obtain ⟨q, hq, harm⟩ := ht.arm
    refine leads_into hm ho wc wi hl ((C68_before hv l l').2 (.inr ⟨fun e => ht.other e.symm, ht.before⟩)) hO
      (.inl ⟨j, hj, not_ldom hv ht.before.1 hn, rfl⟩) hq (fun x t hx hne => not_ldom hv ht.before.1 (harm x t hx hne))
      (hi x hx (ih none)) S
  | @armOfSplit O deep e x l hfork hx ht hO hs _ ih =>
    intro S
    obtain ⟨n, cn, c, i, en, d, wc, wi, hl, he, hi⟩ := visit_arms (E := .ofBody b fuel order) hm ho hfork
    change Leads _ l' O deep (visitExpr _ e) S _
    rw [he]
    obtain ⟨q, hq, harm⟩ := ht.arm
    refine leads_into hm ho wc wi hl ((C68_before hv l l').2 (.inr ⟨fun e => ht.other e.symm, ht.before⟩)) hO
      (.inr ⟨stuck_of_splits hv hs, rfl⟩) hq (fun x t hx hne => not_ldom hv ht.before.1 (harm x t hx hne))
      (hi x hx (ih none)) S

/-- If in an arm of a conditional a conditional that does not come together is followed by a statement, then no steps
are computed for the function. -/
theorem C124_no_steps {b : Body} (hv : Valid b) (fuel : Nat) (order : List (Loc × Nat) → List (Loc × Nat)) {value : Expr}
    {l' : Loc} (hF : ∀ l, Due.fork l ∈ dueBody b.mapper.isSwitch b.locationSuccessor value →
      Dominates b.succ l.block (switchOf b.mapper l)) (h : Leaves b l' [] false (.part (.body value))) :
    ∀ f locals, compute (.ofBody b fuel order) value ≠ .steps f locals := by
  intro f locals hc
  have hm : (Env.ofBody b fuel order).m.Proper := mapper_proper b
  obtain ⟨v, hvb, _, hfat, hfz, _⟩ := compute_steps hc
  have hflat := flat_of_steps rfl hm hvb hfz
  have hlead := leaves_leads hv (fuel := fuel) (order := order) h none
  have hstart : Level (.ofBody b fuel order) l' [] 0 none V.make := by
    refine ⟨.make, by simp [V.make, St.make], ⟨by simp [V.make, St.make], Nat.le_refl _, ?_, ?_, ?_, ?_, ?_⟩⟩
    · intro x hx _ hne
      simp only [V.make, St.make, List.mem_singleton] at hx
      subst hx
      exact absurd rfl hne
    · intro x hx _ c hxc p hp
      simp only [V.make, St.make, List.mem_singleton] at hx
      subst hx
      cases hxc
      exact absurd hp (by simp)
    · intro a ha; exact absurd ha (by simp)
    · intro a ha; exact absurd ha (by simp)
    · intro a ha; exact absurd ha (by simp)
  have hdues : ∀ l, Due.fork l ∈ v.dues → Straight (Env.ofBody b fuel order).m l := by
    intro l hl j hj
    have hd := hF l ((C88_only _ value hvb).subset hl)
    have hj' : leastPostDominator b (switchOf b.mapper l) = some j := hj
    have hj2 := hj'
    have hdj : Dominates b.succ (switchOf b.mapper l) j := by
      unfold leastPostDominator at hj'
      dsimp only at hj'
      split at hj'
      · exact absurd hj' (by simp)
      · have h1 := List.mem_of_find?_eq_some hj'
        exact (mem_region hv _ j).1 (List.mem_filter.1 h1).1
    refine (C68_before hv l ⟨j, 0⟩).2 (.inr ⟨?_, dom_trans hd hdj⟩)
    intro e
    change l.block = j at e
    rw [← e] at hdj hj2
    have := dom_antisymm hd hdj
    rw [← this] at hj2
    exact mapper_proper b _ hj2
  have hvb' : visitItem (.ofBody b fuel order) (.part (.body value)) V.make = .ok v := by
    change visitPart _ _ _ = _
    rw [visitPart]
    exact hvb
  obtain ⟨_, e, _⟩ := hlead V.make v 0 hvb' hfat hdues hflat (by intro h; exact absurd h (by simp)) hstart
  exact absurd e (by simp)

end Verif.HirSteps
