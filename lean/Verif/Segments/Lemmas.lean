import Verif.Segments.Spec
/-!
# Invariants of the builder
-/
namespace Verif.Segments

open Verif.Cfg Verif.Graph

theorem Joined.mono {f f' : Frozen} (hs : ∀ (i : Nat) x, f.segs[i]? = some x → f'.segs[i]? = some x)
    (hb : ∀ (i : Nat) x, f.branches[i]? = some x → f'.branches[i]? = some x) {l : Loc} {d : List CF} {e : Loc}
    (h : Joined f l d e) : Joined f' l d e := by
  induction h with
  | nil l => exact .nil l
  | linear h1 _ ih => exact .linear (hs _ _ h1) ih
  | branch h1 h2 _ ih =>
    refine .branch (hb _ _ h1) ?_ ih
    intro sid hsid
    obtain ⟨s, h3, h4⟩ := h2 sid hsid
    exact ⟨s, hs _ _ h3, h4⟩

theorem Joined.append {f : Frozen} {l : Loc} {d : List CF} {e : Loc} (h : Joined f l d e) {d' : List CF}
    {e' : Loc} (h' : Joined f e d' e') : Joined f l (d ++ d') e' := by
  induction h with
  | nil l => exact h'
  | linear h1 _ ih => exact .linear h1 (ih h')
  | branch h1 h2 _ ih => exact .branch h1 h2 (ih h')

theorem getElem?_append_some {α : Type} {l l' : List α} {i : Nat} {x : α} (h : l[i]? = some x) :
    (l ++ l')[i]? = some x := by
  rw [List.getElem?_append_left (List.getElem?_eq_some_iff.1 h).1]; exact h

theorem mem_zipIdx_iff {α : Type} (l : List α) (x : α) (i : Nat) : (x, i) ∈ l.zipIdx ↔ l[i]? = some x := by
  rw [List.mem_zipIdx_iff_getElem?]

theorem findBuilder_spec {m : Mapper} {s : St} {l : Loc} {b : Builder} {i : Nat}
    (h : s.findBuilder m l = some (b, i)) : s.processing[i]? = some b ∧ m.ldom b.cur l = true := by
  unfold St.findBuilder at h
  have h1 := List.mem_of_find?_eq_some h
  have h2 := List.find?_some h
  rw [List.mem_reverse, mem_zipIdx_iff] at h1
  exact ⟨h1, h2⟩

/-- A collection joins end to start from `start`; if it is open its builder is at the end. -/
def Contig (s : St) (start : Loc) (cid : Nat) : Prop :=
  ∃ (c : Coll) (e : Loc), s.colls[cid]? = some c ∧ Joined s.view start c.data e ∧ ∀ b ∈ s.processing, b.coll = cid → b.cur = e

def CF.valid (s : St) (cid : Nat) : CF → Prop
  | .linear sid => sid < s.segs.length
  | .branch bid => ∃ b, s.branches[bid]? = some b ∧ ∀ x ∈ b.nested, cid < x

structure Inv (s : St) : Prop where
  first : Contig s startLoc 0
  data : ∀ (cid : Nat) (c : Coll), s.colls[cid]? = some c → ∀ part ∈ c.data, CF.valid s cid part
  branch : ∀ (bid : Nat) (b : Branch), s.branches[bid]? = some b →
    b.tableId = bid ∧ b.splits.length = b.nested.length ∧
    (∀ sid ∈ b.splits, sid < s.segs.length) ∧ (∀ cid ∈ b.nested, 0 < cid ∧ cid < s.colls.length) ∧
    ∀ i sid cid : Nat, b.splits[i]? = some sid → b.nested[i]? = some cid →
      ∃ sg, s.segs[sid]? = some sg ∧ Contig s sg.to cid
  disjoint : ∀ (b1 b2 : Nat) (br1 br2 : Branch), s.branches[b1]? = some br1 → s.branches[b2]? = some br2 →
    ∀ x, x ∈ br1.nested → x ∈ br2.nested → b1 = b2
  owned : ∀ cid, 0 < cid → cid < s.colls.length → ∃ b ∈ s.branches, cid ∈ b.nested
  nodup : (s.processing.map (·.coll)).Nodup
  bound : ∀ b ∈ s.processing, b.coll < s.colls.length
  keys : s.uf.root.length = s.branches.length ∧ s.uf.rank.length = s.branches.length
  zero : ∃ b ∈ s.processing, b.coll = 0

theorem map_set_coll {p : List Builder} {i : Nat} {b : Builder} (h : p[i]? = some b) (cur : Loc) :
    (p.set i { b with cur := cur }).map (·.coll) = p.map (·.coll) := by
  rw [List.map_set]
  dsimp only
  apply List.ext_getElem?
  intro j
  rw [List.getElem?_set]
  split
  · rename_i hij
    subst hij
    rw [List.getElem?_map, h, List.length_map]
    have := (List.getElem?_eq_some_iff.1 h).1
    simp [this]
  · rfl

/-- After moving the builder of a collection, it is the only one of that collection, at the new place. -/
theorem mem_set_builder {p : List Builder} (hn : (p.map (·.coll)).Nodup) {i : Nat} {b : Builder}
    (h : p[i]? = some b) (cur : Loc) (x : Builder) (hx : x ∈ p.set i { b with cur := cur }) :
    (x.coll = b.coll → x.cur = cur) ∧ (x.coll ≠ b.coll → x ∈ p) := by
  rw [List.mem_iff_getElem?] at hx
  obtain ⟨j, hj⟩ := hx
  rw [List.getElem?_set] at hj
  split at hj
  · split at hj
    · simp only [Option.some.injEq] at hj
      subst hj
      exact ⟨fun _ => rfl, fun h => absurd rfl h⟩
    · exact absurd hj (by simp)
  · rename_i hij
    refine ⟨?_, fun _ => List.mem_of_getElem? hj⟩
    intro hc
    exfalso
    apply hij
    have h1 : (p.map (·.coll))[i]? = some b.coll := by rw [List.getElem?_map, h]; rfl
    have h2 : (p.map (·.coll))[j]? = some b.coll := by rw [List.getElem?_map, hj]; simp [hc]
    have hlt : i < (p.map (·.coll)).length := (List.getElem?_eq_some_iff.1 h1).1
    exact (List.getElem?_inj hlt hn).1 (h1.trans h2.symm)

theorem getElem?_pushCF (colls : List Coll) (k : Nat) (cf : CF) (c : Nat) :
    (pushCF colls k cf)[c]? = (colls[c]?).map (fun x => if k = c then { x with data := x.data ++ [cf] } else x) := by
  unfold pushCF
  rw [List.getElem?_modify]
  split <;> simp [*]

theorem length_pushCF (colls : List Coll) (k : Nat) (cf : CF) : (pushCF colls k cf).length = colls.length := by
  unfold pushCF; exact List.length_modify ..

theorem inv_make : Inv St.make where
  first := ⟨⟨[], none⟩, startLoc, rfl, .nil _, by
    intro b hb _; simp only [St.make, List.mem_singleton] at hb; subst hb; rfl⟩
  data := by
    intro cid c hc part hp
    simp only [St.make] at hc
    rw [List.getElem?_singleton] at hc
    split at hc
    · simp only [Option.some.injEq] at hc; subst hc; simp at hp
    · exact absurd hc (by simp)
  branch := by intro bid b hb; simp [St.make] at hb
  disjoint := by intro b1 b2 br1 br2 hb; simp [St.make] at hb
  owned := by intro cid h0 h1; simp only [St.make, List.length_singleton] at h1; omega
  nodup := by simp [St.make]
  bound := by intro b hb; simp only [St.make, List.mem_singleton] at hb; subst hb; simp [St.make]
  keys := ⟨rfl, rfl⟩
  zero := ⟨_, List.mem_singleton.2 rfl, rfl⟩

/-- Changing only the scopes keeps the invariant. -/
theorem inv_scopes {s : St} (h : Inv s) (g : List (Nat × Nat)) (o : List Nat) (n : Nat) :
    Inv { s with scopeGraph := g, openScopes := o, nextScope := n } := by
  have hc : ∀ st cid, Contig s st cid → Contig { s with scopeGraph := g, openScopes := o, nextScope := n } st cid := by
    rintro st cid ⟨c, e, h1, h2, h3⟩
    refine ⟨c, e, h1, Joined.mono (f := s.view) ?_ ?_ h2, h3⟩ <;> exact fun _ _ h => h
  exact {
    first := hc _ _ h.first
    data := h.data
    branch := by
      intro bid b hb
      obtain ⟨h1, h2, h3, h4, h5⟩ := h.branch bid b hb
      refine ⟨h1, h2, h3, h4, ?_⟩
      intro i sid cid hi hj
      obtain ⟨sg, h6, h7⟩ := h5 i sid cid hi hj
      exact ⟨sg, h6, hc _ _ h7⟩
    disjoint := h.disjoint
    owned := h.owned
    nodup := h.nodup
    bound := h.bound
    keys := h.keys
    zero := h.zero }

/-- Changing the span functions or the union-find (with the same keys) keeps it. -/
theorem inv_uf {s : St} (h : Inv s) (sp : List (Nat × Spanner)) (u : Uf)
    (hu : u.root.length = s.branches.length ∧ u.rank.length = s.branches.length) :
    Inv { s with spanners := sp, uf := u } := by
  have hc : ∀ st cid, Contig s st cid → Contig { s with spanners := sp, uf := u } st cid := by
    rintro st cid ⟨c, e, h1, h2, h3⟩
    refine ⟨c, e, h1, Joined.mono (f := s.view) ?_ ?_ h2, h3⟩ <;> exact fun _ _ h => h
  exact {
    first := hc _ _ h.first
    data := h.data
    branch := by
      intro bid b hb
      obtain ⟨h1, h2, h3, h4, h5⟩ := h.branch bid b hb
      refine ⟨h1, h2, h3, h4, ?_⟩
      intro i sid cid hi hj
      obtain ⟨sg, h6, h7⟩ := h5 i sid cid hi hj
      exact ⟨sg, h6, hc _ _ h7⟩
    disjoint := h.disjoint
    owned := h.owned
    nodup := h.nodup
    bound := h.bound
    keys := hu
    zero := h.zero }

theorem inv_insertTo {s : St} (h : Inv s) {b : Builder} {i : Nat} (hb : s.processing[i]? = some b) (to : Loc)
    (span scope : Nat) : Inv (s.insertTo b i to span scope) := by
  have hbm : b ∈ s.processing := List.mem_of_getElem? hb
  have hc : ∀ st cid, Contig s st cid → Contig (s.insertTo b i to span scope) st cid := by
    rintro st cid ⟨c, e, h1, h2, h3⟩
    have h2' : Joined (s.insertTo b i to span scope).view st c.data e := by
      refine Joined.mono (f := s.view) ?_ ?_ h2
      · intro i x h; exact getElem?_append_some h
      · exact fun _ _ h => h
    by_cases hcid : b.coll = cid
    · have he : b.cur = e := h3 b hbm hcid
      refine ⟨{ c with data := c.data ++ [.linear s.segs.length] }, to, ?_, ?_, ?_⟩
      · simp only [St.insertTo, getElem?_pushCF, h1, Option.map_some, hcid, if_true]
      · refine h2'.append ?_
        rw [← he]
        have hs : (s.insertTo b i to span scope).view.segs[s.segs.length]? = some ⟨b.cur, to, span, scope⟩ := by
          simp [St.view, St.insertTo]
        exact Joined.linear hs (.nil _)
      · intro x hx hxc
        exact (mem_set_builder h.nodup hb to x hx).1 (hxc.trans hcid.symm)
    · refine ⟨c, e, ?_, h2', ?_⟩
      · simp only [St.insertTo, getElem?_pushCF, h1, Option.map_some, hcid, if_false]
      · intro x hx hxc
        exact h3 x ((mem_set_builder h.nodup hb to x hx).2 (fun hh => hcid (hh.symm.trans hxc))) hxc
  exact {
    first := hc _ _ h.first
    data := by
      intro cid c hcid part hp
      simp only [St.insertTo, getElem?_pushCF] at hcid
      cases hc0 : s.colls[cid]? with
      | none => rw [hc0] at hcid; exact absurd hcid (by simp)
      | some c0 =>
        rw [hc0] at hcid
        simp only [Option.map_some, Option.some.injEq] at hcid
        have hv : ∀ part ∈ c0.data, CF.valid (s.insertTo b i to span scope) cid part := by
          intro part hp
          have := h.data cid c0 hc0 part hp
          cases part with
          | linear sid => simp only [CF.valid, St.insertTo, List.length_append] at this ⊢; omega
          | branch bid => exact this
        split at hcid
        · subst hcid
          rcases List.mem_append.1 hp with hp | hp
          · exact hv part hp
          · simp only [List.mem_singleton] at hp
            subst hp
            simp [CF.valid, St.insertTo]
        · subst hcid; exact hv part hp
    branch := by
      intro bid br hbr
      obtain ⟨h1, h2, h3, h4, h5⟩ := h.branch bid br hbr
      refine ⟨h1, h2, ?_, ?_, ?_⟩
      · intro sid hs
        have := h3 sid hs
        simp only [St.insertTo, List.length_append]; omega
      · intro cid hcid
        simp only [St.insertTo, length_pushCF]
        exact h4 cid hcid
      · intro j sid cid hi hj
        obtain ⟨sg, h6, h7⟩ := h5 j sid cid hi hj
        exact ⟨sg, getElem?_append_some h6, hc _ _ h7⟩
    disjoint := h.disjoint
    owned := by
      intro cid h0 h1
      simp only [St.insertTo, length_pushCF] at h1
      exact h.owned cid h0 h1
    nodup := by
      show ((s.processing.set i { b with cur := to }).map (·.coll)).Nodup
      rw [map_set_coll hb]; exact h.nodup
    bound := by
      intro x hx
      simp only [St.insertTo, length_pushCF]
      have : x.coll ∈ (s.processing.set i { b with cur := to }).map (·.coll) := List.mem_map.2 ⟨x, hx, rfl⟩
      rw [map_set_coll hb] at this
      obtain ⟨y, hy, hyx⟩ := List.mem_map.1 this
      rw [← hyx]; exact h.bound y hy
    keys := h.keys
    zero := by
      obtain ⟨z, hz, hz0⟩ := h.zero
      have : (0 : Nat) ∈ (s.processing.set i { b with cur := to }).map (·.coll) := by
        rw [map_set_coll hb]; exact List.mem_map.2 ⟨z, hz, hz0⟩
      obtain ⟨y, hy, hyx⟩ := List.mem_map.1 this
      exact ⟨y, hy, hyx⟩ }

theorem inv_filter {s : St} (h : Inv s) (p : Builder → Bool) (hz : ∀ b ∈ s.processing, b.coll = 0 → p b = true) :
    Inv { s with processing := s.processing.filter p } := by
  have hc : ∀ st cid, Contig s st cid → Contig { s with processing := s.processing.filter p } st cid := by
    rintro st cid ⟨c, e, h1, h2, h3⟩
    refine ⟨c, e, h1, Joined.mono (f := s.view) ?_ ?_ h2, fun b hb => h3 b (List.mem_filter.1 hb).1⟩ <;>
      exact fun _ _ h => h
  exact {
    first := hc _ _ h.first
    data := h.data
    branch := by
      intro bid b hb
      obtain ⟨h1, h2, h3, h4, h5⟩ := h.branch bid b hb
      refine ⟨h1, h2, h3, h4, ?_⟩
      intro i sid cid hi hj
      obtain ⟨sg, h6, h7⟩ := h5 i sid cid hi hj
      exact ⟨sg, h6, hc _ _ h7⟩
    disjoint := h.disjoint
    owned := h.owned
    nodup := h.nodup.sublist (List.Sublist.map _ List.filter_sublist)
    bound := fun b hb => h.bound b (List.mem_filter.1 hb).1
    keys := h.keys
    zero := by
      obtain ⟨z, hz1, hz0⟩ := h.zero
      exact ⟨z, List.mem_filter.2 ⟨hz1, hz z hz1 hz0⟩, hz0⟩ }

theorem foldl_filter_eq (bs : List Branch) (p : List Builder) :
    bs.foldl (fun p br => p.filter (fun ob => !decide (ob.coll ∈ br.nested))) p =
      p.filter (fun ob => bs.all (fun br => !decide (ob.coll ∈ br.nested))) := by
  induction bs generalizing p with
  | nil => exact (List.filter_eq_self.2 (by simp)).symm
  | cons b r ih =>
    rw [List.foldl_cons, ih, List.filter_filter]
    congr 1
    funext ob
    rw [List.all_cons, Bool.and_comm]

theorem closeBranch_eq {s s' : St} {bid : Nat} (h : s.closeBranch bid = .ok s') :
    ∃ b, s.branches[bid]? = some b ∧
      let p := fun ob : Builder => (s.toClose b.tableId).all (fun br => !decide (ob.coll ∈ br.nested))
      s' = { s with processing := s.processing.filter p } := by
  unfold St.closeBranch at h
  cases hb : s.branches[bid]? with
  | none => rw [hb] at h; exact absurd h (by simp)
  | some b =>
    rw [hb] at h
    simp only [Except.ok.injEq, foldl_filter_eq] at h
    exact ⟨b, rfl, h.symm⟩

theorem inv_closeBranch {s s' : St} (h : Inv s) {bid : Nat} (hc : s.closeBranch bid = .ok s') : Inv s' := by
  obtain ⟨b, _, rfl⟩ := closeBranch_eq hc
  refine inv_filter h _ ?_
  intro ob _ h0
  rw [List.all_eq_true]
  intro br hbr
  unfold St.toClose at hbr
  obtain ⟨i, hi⟩ := List.mem_iff_getElem?.1 (List.mem_filter.1 hbr).1
  have := (h.branch i br hi).2.2.2.1
  simp only [Bool.not_eq_true', decide_eq_false_iff_not, h0]
  intro hm
  have := (this 0 hm).1
  omega

/-! ## Opening branches -/

theorem addBranch_seg {m : Mapper} {s : St} {location sw : Loc} {phi : Option Loc} {i : Nat} {b : Builder}
    {get : Spanner} {scope : Nat} (j : Nat) {k : Nat} (hk : (m.succ sw.block)[j]? = some k) :
    (s.addBranch m location sw phi i b get scope).segs[s.segs.length + j]? =
      some ⟨location, (get ⟨k, 0⟩).1, (get ⟨k, 0⟩).2, scope⟩ := by
  simp only [St.addBranch]
  rw [List.getElem?_append_right (by omega), Nat.add_sub_cancel_left, List.map_map, List.getElem?_map, hk]
  rfl

theorem getElem?_range' (a n j : Nat) (h : j < n) : (List.range' a n)[j]? = some (a + j) := by
  rw [List.getElem?_range' h]; simp

theorem inv_addBranch {m : Mapper} {s : St} (h : Inv s) {location sw : Loc} {phi : Option Loc}
    (hphi : ∀ p, phi = some p → p ≠ sw) {i : Nat}
    {b : Builder} (hb : s.processing[i]? = some b) (hloc : b.cur = location) (get : Spanner) (scope : Nat) :
    Inv (s.addBranch m location sw phi i b get scope) := by
  have hbm : b ∈ s.processing := List.mem_of_getElem? hb
  have hlt : b.coll < s.colls.length := h.bound b hbm
  generalize hs' : s.addBranch m location sw phi i b get scope = s'
  have hsegs : ∀ (j : Nat) x, s.segs[j]? = some x → s'.segs[j]? = some x := by
    intro j x hx; subst hs'; exact getElem?_append_some hx
  have hbrs : ∀ (j : Nat) x, s.branches[j]? = some x → s'.branches[j]? = some x := by
    intro j x hx; subst hs'; exact getElem?_append_some hx
  have hnew : s'.branches[s.branches.length]? = some ⟨s.uf.root.length, sw, phi.getD sw,
      List.range' s.segs.length (m.succ sw.block).length,
      List.range' s.colls.length (m.succ sw.block).length⟩ := by
    subst hs'; simp [St.addBranch]
  have hblen : s'.branches.length = s.branches.length + 1 := by subst hs'; simp [St.addBranch]
  have hslen : s'.segs.length = s.segs.length + (m.succ sw.block).length := by subst hs'; simp [St.addBranch]
  have hclen : s'.colls.length = s.colls.length + (m.succ sw.block).length := by
    subst hs'; simp [St.addBranch, length_pushCF]
  have hcold : ∀ c < s.colls.length, s'.colls[c]? =
      (s.colls[c]?).map (fun x => if b.coll = c then { x with data := x.data ++ [.branch s.branches.length] } else x) := by
    intro c hc
    subst hs'
    simp only [St.addBranch]
    rw [List.getElem?_append_left (by rw [length_pushCF]; exact hc), getElem?_pushCF]
  have hcnew : ∀ j < (m.succ sw.block).length, s'.colls[s.colls.length + j]? = some ⟨[], phi⟩ := by
    intro j hj
    subst hs'
    simp only [St.addBranch]
    rw [List.getElem?_append_right (by rw [length_pushCF]; omega), length_pushCF, Nat.add_sub_cancel_left,
      List.getElem?_replicate, if_pos (by simpa using hj)]
  have hproc : ∀ x, x ∈ s'.processing ↔ x ∈ s.processing.set i { b with cur := phi.getD b.cur } ∨
      ∃ j k, (m.succ sw.block)[j]? = some k ∧ x = ⟨s.colls.length + j, (get ⟨k, 0⟩).1⟩ := by
    intro x
    subst hs'
    simp only [St.addBranch, List.mem_append, List.mem_map]
    constructor
    · rintro (h | ⟨t, ht, rfl⟩)
      · exact .inl h
      · obtain ⟨t1, t2⟩ := t
        rw [List.mem_zipIdx_iff_le_and_getElem?_sub] at ht
        obtain ⟨h1, h2⟩ := ht
        rw [List.getElem?_map] at h2
        cases hk : (m.succ sw.block)[t2 - s.colls.length]? with
        | none => rw [hk] at h2; exact absurd h2 (by simp)
        | some k =>
          rw [hk] at h2
          simp only [Option.map_some, Option.some.injEq] at h2
          subst h2
          exact .inr ⟨_, k, hk, by rw [Nat.add_sub_cancel' h1]⟩
    · rintro (h | ⟨j, k, hk, rfl⟩)
      · exact .inl h
      · refine .inr ⟨(get ⟨k, 0⟩, s.colls.length + j), ?_, rfl⟩
        rw [List.mem_zipIdx_iff_le_and_getElem?_sub]
        refine ⟨by omega, ?_⟩
        rw [Nat.add_sub_cancel_left, List.getElem?_map, hk]; rfl
  have hset : ∀ x ∈ s.processing.set i { b with cur := phi.getD b.cur }, x.coll < s.colls.length := by
    intro x hx
    have : x.coll ∈ (s.processing.set i { b with cur := phi.getD b.cur }).map (·.coll) :=
      List.mem_map.2 ⟨x, hx, rfl⟩
    rw [map_set_coll hb] at this
    obtain ⟨y, hy, hyx⟩ := List.mem_map.1 this
    rw [← hyx]; exact h.bound y hy
  have hc : ∀ st cid, Contig s st cid → Contig s' st cid := by
    rintro st cid ⟨c, e, h1, h2, h3⟩
    have hcl : cid < s.colls.length := (List.getElem?_eq_some_iff.1 h1).1
    have h2' : Joined s'.view st c.data e := h2.mono hsegs hbrs
    by_cases hcid : b.coll = cid
    · have he : b.cur = e := h3 b hbm hcid
      refine ⟨{ c with data := c.data ++ [.branch s.branches.length] }, phi.getD b.cur, ?_, ?_, ?_⟩
      · rw [hcold cid hcl, h1, Option.map_some, if_pos hcid]
      · refine h2'.append ?_
        rw [← he]
        have hleave : Branch.leaves ⟨s.uf.root.length, sw, phi.getD sw,
            List.range' s.segs.length (m.succ sw.block).length,
            List.range' s.colls.length (m.succ sw.block).length⟩ b.cur = phi.getD b.cur := by
          unfold Branch.leaves
          cases phi with
          | none => simp
          | some p => simp [hphi p rfl]
        refine Joined.branch hnew ?_ (by rw [hleave]; exact .nil _)
        intro sid hsid
        rw [List.mem_range'_1] at hsid
        obtain ⟨j, rfl⟩ := Nat.le.dest hsid.1
        have hj : j < (m.succ sw.block).length := by omega
        have hsg := addBranch_seg (s := s) (location := location) (phi := phi) (i := i) (b := b) (get := get)
          (scope := scope) j (List.getElem?_eq_getElem hj)
        rw [hs'] at hsg
        exact ⟨_, hsg, hloc.symm⟩
      · intro x hx hxc
        rcases (hproc x).1 hx with hx | ⟨j, k, _, rfl⟩
        · exact (mem_set_builder h.nodup hb _ x hx).1 (hxc.trans hcid.symm)
        · dsimp only at hxc; omega
    · refine ⟨c, e, ?_, h2', ?_⟩
      · rw [hcold cid hcl, h1, Option.map_some, if_neg hcid]
      · intro x hx hxc
        rcases (hproc x).1 hx with hx | ⟨j, k, _, rfl⟩
        · exact h3 x ((mem_set_builder h.nodup hb _ x hx).2 (fun hh => hcid (hh.symm.trans hxc))) hxc
        · dsimp only at hxc; omega
  have hbranch : ∀ bid br, s'.branches[bid]? = some br → (bid < s.branches.length ∧ s.branches[bid]? = some br) ∨
      (bid = s.branches.length ∧ br = ⟨s.uf.root.length, sw, phi.getD sw,
        List.range' s.segs.length (m.succ sw.block).length,
        List.range' s.colls.length (m.succ sw.block).length⟩) := by
    intro bid br hbr
    by_cases hlt : bid < s.branches.length
    · left
      refine ⟨hlt, ?_⟩
      have := hbrs bid _ (List.getElem?_eq_getElem hlt)
      rw [hbr] at this
      rw [List.getElem?_eq_getElem hlt, this]
    · right
      have h1 : bid < s'.branches.length := (List.getElem?_eq_some_iff.1 hbr).1
      have h2 : bid = s.branches.length := by omega
      subst h2
      rw [hnew] at hbr
      simp only [Option.some.injEq] at hbr
      exact ⟨rfl, hbr.symm⟩
  exact {
    first := hc _ _ h.first
    data := by
      intro cid c hcid part hp
      have hv : ∀ c0, s.colls[cid]? = some c0 → ∀ part ∈ c0.data, CF.valid s' cid part := by
        intro c0 hc0 part hp
        have := h.data cid c0 hc0 part hp
        cases part with
        | linear sid => simp only [CF.valid] at this ⊢; omega
        | branch bid =>
          obtain ⟨br, h1, h2⟩ := this
          exact ⟨br, hbrs _ _ h1, h2⟩
      by_cases hl : cid < s.colls.length
      · rw [hcold cid hl, List.getElem?_eq_getElem hl, Option.map_some, Option.some.injEq] at hcid
        split at hcid
        · subst hcid
          rcases List.mem_append.1 hp with hp | hp
          · exact hv _ (List.getElem?_eq_getElem hl) part hp
          · simp only [List.mem_singleton] at hp
            subst hp
            refine ⟨_, hnew, ?_⟩
            intro x hx
            rw [List.mem_range'_1] at hx
            omega
        · subst hcid
          exact hv _ (List.getElem?_eq_getElem hl) part hp
      · have h1 : cid < s'.colls.length := (List.getElem?_eq_some_iff.1 hcid).1
        obtain ⟨j, rfl⟩ := Nat.le.dest (Nat.le_of_not_lt hl)
        rw [hcnew j (by omega)] at hcid
        simp only [Option.some.injEq] at hcid
        subst hcid
        simp at hp
    branch := by
      intro bid br hbr
      rcases hbranch bid br hbr with ⟨_, hold⟩ | ⟨rfl, rfl⟩
      · obtain ⟨h1, h2, h3, h4, h5⟩ := h.branch bid br hold
        refine ⟨h1, h2, ?_, ?_, ?_⟩
        · intro sid hs; have := h3 sid hs; omega
        · intro cid hcid; have := h4 cid hcid; omega
        · intro j sid cid hi hj
          obtain ⟨sg, h6, h7⟩ := h5 j sid cid hi hj
          exact ⟨sg, hsegs _ _ h6, hc _ _ h7⟩
      · refine ⟨h.keys.1, by simp, ?_, ?_, ?_⟩
        · intro sid hs
          dsimp only at hs
          rw [List.mem_range'_1] at hs; omega
        · intro cid hcid
          dsimp only at hcid
          rw [List.mem_range'_1] at hcid; omega
        · intro j sid cid hi hj
          dsimp only at hi hj
          have hjl : j < (m.succ sw.block).length := by
            have := (List.getElem?_eq_some_iff.1 hi).1
            simpa using this
          rw [getElem?_range' _ _ _ hjl, Option.some.injEq] at hi hj
          subst hi hj
          have hk := List.getElem?_eq_getElem hjl
          refine ⟨⟨location, (get ⟨(m.succ sw.block)[j], 0⟩).1, (get ⟨(m.succ sw.block)[j], 0⟩).2, scope⟩, ?_, ?_⟩
          · subst hs'; exact addBranch_seg j hk
          · refine ⟨_, _, hcnew j hjl, .nil _, ?_⟩
            intro x hx hxc
            rcases (hproc x).1 hx with hx | ⟨j', k', hk', rfl⟩
            · have := hset x hx; omega
            · dsimp only at hxc
              have : j' = j := by omega
              subst this
              rw [hk] at hk'
              simp only [Option.some.injEq] at hk'
              subst hk'
              rfl
    disjoint := by
      intro b1 b2 br1 br2 hb1 hb2 x hx1 hx2
      rcases hbranch b1 br1 hb1 with ⟨_, h1⟩ | ⟨rfl, rfl⟩ <;> rcases hbranch b2 br2 hb2 with ⟨_, h2⟩ | ⟨rfl, rfl⟩
      · exact h.disjoint b1 b2 br1 br2 h1 h2 x hx1 hx2
      · have := ((h.branch b1 br1 h1).2.2.2.1 x hx1).2
        dsimp only at hx2
        rw [List.mem_range'_1] at hx2; omega
      · have := ((h.branch b2 br2 h2).2.2.2.1 x hx2).2
        dsimp only at hx1
        rw [List.mem_range'_1] at hx1; omega
      · rfl
    owned := by
      intro cid h0 h1
      by_cases hl : cid < s.colls.length
      · obtain ⟨br, hbr, hm⟩ := h.owned cid h0 hl
        obtain ⟨j, hj⟩ := List.mem_iff_getElem?.1 hbr
        exact ⟨br, List.mem_of_getElem? (hbrs j br hj), hm⟩
      · refine ⟨_, List.mem_of_getElem? hnew, ?_⟩
        dsimp only
        rw [List.mem_range'_1]; omega
    nodup := by
      have : s'.processing.map (·.coll) = s.processing.map (·.coll) ++
          List.range' s.colls.length (m.succ sw.block).length := by
        subst hs'
        simp only [St.addBranch, List.map_append, map_set_coll hb, List.map_map]
        congr 1
        apply List.ext_getElem?
        intro j
        rw [List.getElem?_map, List.getElem?_zipIdx, List.getElem?_map]
        by_cases hj : j < (m.succ sw.block).length
        · rw [List.getElem?_eq_getElem hj, getElem?_range' _ _ _ hj]; rfl
        · rw [List.getElem?_eq_none (by omega), List.getElem?_eq_none (by simp; omega)]; rfl
      rw [this, List.nodup_append]
      refine ⟨h.nodup, List.nodup_range', ?_⟩
      intro a ha c hc' hac
      rw [List.mem_range'_1] at hc'
      obtain ⟨y, hy, hyx⟩ := List.mem_map.1 ha
      have := h.bound y hy
      omega
    bound := by
      intro x hx
      rcases (hproc x).1 hx with hx | ⟨j, k, hk, rfl⟩
      · have := hset x hx; omega
      · have := (List.getElem?_eq_some_iff.1 hk).1
        dsimp only; omega
    keys := by
      rw [hblen]
      subst hs'
      simp only [St.addBranch, Uf.newKey, List.length_append, List.length_singleton]
      exact ⟨by rw [h.keys.1], by rw [h.keys.2]⟩
    zero := by
      obtain ⟨z, hz, hz0⟩ := h.zero
      have : (0 : Nat) ∈ (s.processing.set i { b with cur := phi.getD b.cur }).map (·.coll) := by
        rw [map_set_coll hb]; exact List.mem_map.2 ⟨z, hz, hz0⟩
      obtain ⟨y, hy, hyx⟩ := List.mem_map.1 this
      exact ⟨y, (hproc y).2 (.inl hy), hyx⟩ }

/-- What a successful `mk_branch` does. -/
theorem mkBranch_ok {m : Mapper} {s s' : St} {location : Loc} {get : GetSpanner} {bid : Nat}
    (h : s.mkBranch m location get = .ok (bid, s')) :
    ∃ scope sw b i f sp, s.currentScope = .ok scope ∧
      (findNextSwitch m location = .absent ∧ sw = location ∨
        ∃ blk, findNextSwitch m location = .found blk ∧ sw = ⟨blk, m.stmts blk⟩) ∧
      s.findBuilder m location = some (b, i) ∧ b.cur = location ∧ bid = s.branches.length ∧
      (∀ p, get = .getFrom p → sp = s.spanners ∧ ∃ e, s.spanners.find? (fun e : Nat × Spanner => decide (e.1 = p)) = some e ∧ f = e.2) ∧
      (∀ g, get = .insertNew g → sp = s.spanners ++ [(bid, g)] ∧ f = g) ∧
      s' = { s.addBranch m location sw ((m.lpd sw.block).map (fun bb => ⟨bb, 0⟩)) i b f scope with
        spanners := sp } := by
  unfold St.mkBranch at h
  cases hsc : s.currentScope with
  | error e => rw [hsc] at h; exact absurd h (by simp)
  | ok scope =>
    rw [hsc] at h
    dsimp only at h
    have key : ∀ sw : Loc, s.mkBranchAt m location sw get scope = .ok (bid, s') →
      ∃ b i f sp, s.findBuilder m location = some (b, i) ∧ b.cur = location ∧ bid = s.branches.length ∧
        (∀ p, get = .getFrom p → sp = s.spanners ∧ ∃ e, s.spanners.find? (fun e : Nat × Spanner => decide (e.1 = p)) = some e ∧ f = e.2) ∧
        (∀ g, get = .insertNew g → sp = s.spanners ++ [(bid, g)] ∧ f = g) ∧
        s' = { s.addBranch m location sw ((m.lpd sw.block).map (fun bb => ⟨bb, 0⟩)) i b f scope with
          spanners := sp } := by
      intro sw h
      unfold St.mkBranchAt at h
      dsimp only at h
      cases hf : s.findBuilder m location with
      | none => rw [hf] at h; exact absurd h (by simp)
      | some x =>
        obtain ⟨b, i⟩ := x
        rw [hf] at h
        dsimp only at h
        split at h
        · exact absurd h (by simp)
        · rename_i hcur
          have hcur : b.cur = location := Classical.not_not.1 hcur
          cases get with
          | insertNew f =>
            simp only [Except.ok.injEq, Prod.mk.injEq] at h
            obtain ⟨h1, h2⟩ := h
            refine ⟨b, i, f, s.spanners ++ [(bid, f)], rfl, hcur, h1.symm, ?_, ?_, ?_⟩
            · intro p hp; exact absurd hp (by simp)
            · intro g hg; simp only [GetSpanner.insertNew.injEq] at hg; subst hg; exact ⟨rfl, rfl⟩
            · rw [← h2, h1]
          | getFrom p =>
            dsimp only at h
            cases hsp : s.spanners.find? (fun e : Nat × Spanner => decide (e.1 = p)) with
            | none => rw [hsp] at h; exact absurd h (by simp)
            | some e =>
              rw [hsp] at h
              simp only [Except.ok.injEq, Prod.mk.injEq] at h
              obtain ⟨h1, h2⟩ := h
              refine ⟨b, i, e.2, s.spanners, rfl, hcur, h1.symm, ?_, ?_, ?_⟩
              · intro q hq
                simp only [GetSpanner.getFrom.injEq] at hq
                subst hq
                exact ⟨rfl, e, hsp, rfl⟩
              · intro g hg; exact absurd hg (by simp)
              · rw [← h2]; rfl
    cases hsw : findNextSwitch m location with
    | diverges => rw [hsw] at h; exact absurd h (by simp)
    | absent =>
      rw [hsw] at h
      obtain ⟨b, i, f, sp, h1, h2, h3, h4, h5, h6⟩ := key location h
      exact ⟨scope, location, b, i, f, sp, rfl, .inl ⟨rfl, rfl⟩, h1, h2, h3, h4, h5, h6⟩
    | found blk =>
      rw [hsw] at h
      obtain ⟨b, i, f, sp, h1, h2, h3, h4, h5, h6⟩ := key ⟨blk, m.stmts blk⟩ h
      exact ⟨scope, _, b, i, f, sp, rfl, .inr ⟨blk, rfl, rfl⟩, h1, h2, h3, h4, h5, h6⟩

theorem inv_mkBranch {m : Mapper} (hm : m.Proper) {s s' : St} (h : Inv s) {location : Loc} {get : GetSpanner}
    {bid : Nat} (hb : s.mkBranch m location get = .ok (bid, s')) : Inv s' := by
  obtain ⟨scope, sw, b, i, f, sp, _, _, hf, hcur, _, _, _, rfl⟩ := mkBranch_ok hb
  have := inv_addBranch (m := m) h (sw := sw) (phi := (m.lpd sw.block).map (fun bb => ⟨bb, 0⟩)) (by
    intro p hp hc
    subst hc
    cases hl : m.lpd p.block with
    | none => rw [hl] at hp; exact absurd hp (by simp)
    | some bb =>
      rw [hl] at hp
      simp only [Option.map_some, Option.some.injEq] at hp
      have : p.block = bb := by rw [← hp]
      rw [this] at hl
      exact hm bb hl) (findBuilder_spec hf).1 hcur f scope
  exact inv_uf this sp _ this.keys

theorem Uf.union_length (sw : Bool) (u : Uf) (a b : Nat) :
    (u.union sw a b).root.length = u.root.length ∧ (u.union sw a b).rank.length = u.rank.length := by
  unfold Uf.union
  dsimp only
  repeat' split
  all_goals simp [Uf.redirect]

theorem openChild_ok {secondWins : Bool} {m : Mapper} {s s' : St} {p : Nat} {loc : Loc}
    (h : s.openChild secondWins m p loc = .ok s') :
    ∃ child s1 bp bc, s.mkBranch m loc (.getFrom p) = .ok (child, s1) ∧ s1.branches[p]? = some bp ∧
      s1.branches[child]? = some bc ∧ s' = { s1 with uf := s1.uf.union secondWins bp.tableId bc.tableId } := by
  unfold St.openChild at h
  cases hm : s.mkBranch m loc (.getFrom p) with
  | error e => rw [hm] at h; exact absurd h (by simp)
  | ok x =>
    obtain ⟨child, s1⟩ := x
    rw [hm] at h
    dsimp only at h
    cases h1 : s1.branches[p]? with
    | none => rw [h1] at h; exact absurd h (by simp)
    | some bp =>
      cases h2 : s1.branches[child]? with
      | none => rw [h1, h2] at h; exact absurd h (by simp)
      | some bc =>
        rw [h1, h2] at h
        simp only [Except.ok.injEq] at h
        exact ⟨child, s1, bp, bc, rfl, h1, h2, h.symm⟩

theorem inv_openChild {secondWins : Bool} {m : Mapper} (hm : m.Proper) {s s' : St} (h : Inv s) {p : Nat}
    {loc : Loc} (hc : s.openChild secondWins m p loc = .ok s') : Inv s' := by
  obtain ⟨child, s1, bp, bc, h1, _, _, rfl⟩ := openChild_ok hc
  have := inv_mkBranch hm h h1
  have hl := Uf.union_length secondWins s1.uf bp.tableId bc.tableId
  exact inv_uf this s1.spanners _ ⟨hl.1.trans this.keys.1, hl.2.trans this.keys.2⟩

theorem findSuitable_linear {m : Mapper} {s : St} {l : Loc} {b : Builder} {i : Nat}
    (h : s.findSuitable m l = .linear b i) : s.findBuilder m l = some (b, i) ∧ m.lpdom l b.cur = true := by
  unfold St.findSuitable at h
  cases hf : s.findBuilder m l with
  | none => rw [hf] at h; exact absurd h (by simp)
  | some x =>
    obtain ⟨b', i'⟩ := x
    rw [hf] at h
    dsimp only at h
    split at h
    · rename_i hp
      simp only [Find.linear.injEq] at h
      obtain ⟨rfl, rfl⟩ := h
      exact ⟨rfl, hp⟩
    · split at h <;> exact absurd h (by simp)

theorem findSuitable_nonLinear {m : Mapper} {s : St} {l : Loc} {p : Nat} {loc : Loc}
    (h : s.findSuitable m l = .nonLinear p loc) : ∃ b i, s.findBuilder m l = some (b, i) ∧ b.cur = loc ∧
      m.lpdom l b.cur = false ∧ s.containingBranch b.coll = some p := by
  unfold St.findSuitable at h
  cases hf : s.findBuilder m l with
  | none => rw [hf] at h; exact absurd h (by simp)
  | some x =>
    obtain ⟨b', i'⟩ := x
    rw [hf] at h
    dsimp only at h
    split at h
    · exact absurd h (by simp)
    · rename_i hp
      cases hc : s.containingBranch b'.coll with
      | none => rw [hc] at h; exact absurd h (by simp)
      | some bid =>
        rw [hc] at h
        simp only [Find.nonLinear.injEq] at h
        obtain ⟨rfl, h2⟩ := h
        exact ⟨b', i', rfl, h2, by simpa using hp, hc⟩

theorem openScope_eq {s s' : St} {id : Nat} (h : s.openScope = .ok (id, s')) :
    ∃ cur, s.openScopes.getLast? = some cur ∧ id = s.nextScope ∧ s' = { s with
      scopeGraph := s.scopeGraph ++ [(s.nextScope, cur)], nextScope := s.nextScope + 1,
      openScopes := s.openScopes ++ [s.nextScope] } := by
  unfold St.openScope St.currentScope at h
  cases hl : s.openScopes.getLast? with
  | none => rw [hl] at h; exact absurd h (by simp)
  | some cur =>
    rw [hl] at h
    simp only [Except.ok.injEq, Prod.mk.injEq] at h
    exact ⟨cur, rfl, h.1.symm, h.2.symm⟩

theorem closeScope_eq {s s' : St} {id : Nat} (h : s.closeScope id = .ok s') :
    id ≠ 0 ∧ s.openScopes.getLast? = some id ∧ s' = { s with openScopes := s.openScopes.dropLast } := by
  unfold St.closeScope at h
  split at h
  · exact absurd h (by simp)
  · rename_i h0
    cases hl : s.openScopes.getLast? with
    | none => rw [hl] at h; exact absurd h (by simp)
    | some last =>
      rw [hl] at h
      dsimp only at h
      split at h
      · rename_i heq
        subst heq
        simp only [Except.ok.injEq] at h
        exact ⟨h0, rfl, h.symm⟩
      · exact absurd h (by simp)

theorem inv_run {secondWins : Bool} {m : Mapper} (hm : m.Proper) {s : St} {g : List (Nat × Nat)}
    (h : Run secondWins m s g) : Inv s := by
  induction h with
  | make => exact inv_make
  | openScope _ h ih =>
    obtain ⟨cur, _, _, rfl⟩ := openScope_eq h
    exact inv_scopes ih _ _ _
  | @closeScope s _ _ _ _ h ih =>
    obtain ⟨_, _, rfl⟩ := closeScope_eq h
    exact inv_scopes ih s.scopeGraph _ s.nextScope
  | openBranch _ h ih => exact inv_mkBranch hm ih h
  | closeBranch _ _ h ih => exact inv_closeBranch ih h
  | child _ _ h ih => exact inv_openChild hm ih h
  | linear span _ h _ ih => exact inv_insertTo ih (findBuilder_spec (findSuitable_linear h).1).1 _ _ _

/-- The public insertion is a sequence of elementary steps. -/
theorem insert_run {secondWins : Bool} {m : Mapper} (fuel : Nat) {s s' : St} {g : List (Nat × Nat)}
    (h : Run secondWins m s g) {l : Loc} {span : Nat} (hi : s.insert secondWins m fuel l span = .ok s') :
    ∃ g', Run secondWins m s' g' := by
  induction fuel generalizing s g with
  | zero => exact absurd hi (by simp [St.insert])
  | succ fuel ih =>
    rw [St.insert] at hi
    cases hf : s.findSuitable m l with
    | none =>
      rw [hf] at hi
      simp only [Except.ok.injEq] at hi
      subst hi
      exact ⟨g, h⟩
    | nonLinear p loc =>
      rw [hf] at hi
      dsimp only at hi
      cases hc : s.openChild secondWins m p loc with
      | error e => rw [hc] at hi; exact absurd hi (by simp)
      | ok s1 =>
        rw [hc] at hi
        exact ih (.child h hf hc) hi
    | linear b i =>
      rw [hf] at hi
      dsimp only at hi
      cases hs : s.currentScope with
      | error e => rw [hs] at hi; exact absurd hi (by simp)
      | ok scope =>
        rw [hs] at hi
        simp only [Except.ok.injEq] at hi
        subst hi
        exact ⟨g, .linear span h hf hs⟩

end Verif.Segments
