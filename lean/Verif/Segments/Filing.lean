import Verif.Segments.Tables
/-!
# C101: every step has its place in the body

Whatever is inserted, every step and every branch can be reached from the first collection, and a branch has one
split step for each target of its switch.
-/
namespace Verif.Segments

open Verif.Cfg

/-- Every step and every branch is listed somewhere, and a branch has a split for each target. -/
structure Placed (m : Mapper) (s : St) : Prop where
  seg : ∀ sid, sid < s.segs.length →
    (∃ (cid : Nat) (c : Coll), s.colls[cid]? = some c ∧ CF.linear sid ∈ c.data) ∨
    ∃ (bid : Nat) (b : Branch), s.branches[bid]? = some b ∧ sid ∈ b.splits
  branch : ∀ bid, bid < s.branches.length →
    ∃ (cid : Nat) (c : Coll), s.colls[cid]? = some c ∧ CF.branch bid ∈ c.data
  targets : ∀ b ∈ s.branches, b.splits.length = (m.succ b.reachFrom.block).length

theorem placed_make (m : Mapper) : Placed m St.make :=
  ⟨by simp [St.make], by simp [St.make], by simp [St.make]⟩

/-- Collections only grow. -/
theorem pushCF_mem {colls : List Coll} {k : Nat} {cf : CF} {cid : Nat} {c : Coll} {x : CF} (h : colls[cid]? = some c)
    (hx : x ∈ c.data) : ∃ c', (pushCF colls k cf)[cid]? = some c' ∧ x ∈ c'.data := by
  rw [getElem?_pushCF, h]
  refine ⟨_, rfl, ?_⟩
  split
  · exact List.mem_append_left _ hx
  · exact hx

theorem pushCF_new {colls : List Coll} {k : Nat} (cf : CF) (h : k < colls.length) :
    ∃ c', (pushCF colls k cf)[k]? = some c' ∧ cf ∈ c'.data := by
  rw [getElem?_pushCF, List.getElem?_eq_getElem h]
  refine ⟨_, rfl, ?_⟩
  simp

theorem placed_insertTo {m : Mapper} {s : St} (hi : Inv s) (h : Placed m s) {b : Builder} {i : Nat}
    (hb : s.processing[i]? = some b) (to : Loc) (span scope : Nat) : Placed m (s.insertTo b i to span scope) := by
  have hlt := hi.bound b (List.mem_of_getElem? hb)
  refine ⟨?_, ?_, h.targets⟩
  · intro sid hsid
    simp only [St.insertTo, List.length_append, List.length_singleton] at hsid
    rcases Nat.lt_or_ge sid s.segs.length with hl | hl
    · rcases h.seg sid hl with ⟨cid, c, h1, h2⟩ | h1
      · obtain ⟨c', h3, h4⟩ := pushCF_mem (k := b.coll) (cf := .linear s.segs.length) h1 h2
        exact .inl ⟨cid, c', h3, h4⟩
      · exact .inr h1
    · obtain rfl : sid = s.segs.length := by omega
      obtain ⟨c', h3, h4⟩ := pushCF_new (.linear s.segs.length) hlt
      exact .inl ⟨_, c', h3, h4⟩
  · intro bid hbid
    obtain ⟨cid, c, h1, h2⟩ := h.branch bid hbid
    obtain ⟨c', h3, h4⟩ := pushCF_mem (k := b.coll) (cf := .linear s.segs.length) h1 h2
    exact ⟨cid, c', h3, h4⟩

theorem placed_addBranch {m : Mapper} {s : St} (hi : Inv s) (h : Placed m s) {location sw : Loc} {phi : Option Loc}
    {i : Nat} {b : Builder} (hb : s.processing[i]? = some b) (get : Spanner) (scope : Nat) :
    Placed m (s.addBranch m location sw phi i b get scope) := by
  have hlt := hi.bound b (List.mem_of_getElem? hb)
  have hold : ∀ {cid : Nat} {c : Coll} {x : CF}, s.colls[cid]? = some c → x ∈ c.data →
      ∃ (cid : Nat) (c : Coll), (s.addBranch m location sw phi i b get scope).colls[cid]? = some c ∧ x ∈ c.data := by
    intro cid c x h1 h2
    obtain ⟨c', h3, h4⟩ := pushCF_mem (k := b.coll) (cf := .branch s.branches.length) h1 h2
    exact ⟨cid, c', getElem?_append_some h3, h4⟩
  refine ⟨?_, ?_, ?_⟩
  · intro sid hsid
    rcases Nat.lt_or_ge sid s.segs.length with hl | hl
    · rcases h.seg sid hl with ⟨cid, c, h1, h2⟩ | ⟨bid, br, h1, h2⟩
      · exact .inl (hold h1 h2)
      · exact .inr ⟨bid, br, getElem?_append_some h1, h2⟩
    · refine .inr ⟨s.branches.length, _, List.getElem?_concat_length, ?_⟩
      simp only [St.addBranch, List.length_append, List.length_map] at hsid
      dsimp only
      rw [List.mem_range'_1, List.length_map]
      omega
  · intro bid hbid
    simp only [St.addBranch, List.length_append, List.length_singleton] at hbid
    rcases Nat.lt_or_ge bid s.branches.length with hl | hl
    · obtain ⟨cid, c, h1, h2⟩ := h.branch bid hl
      exact hold h1 h2
    · obtain rfl : bid = s.branches.length := by omega
      obtain ⟨c', h3, h4⟩ := pushCF_new (.branch s.branches.length) hlt
      exact ⟨_, c', getElem?_append_some h3, h4⟩
  · intro x hx
    rcases List.mem_append.1 hx with hx | hx
    · exact h.targets x hx
    · rw [List.mem_singleton] at hx
      subst hx
      simp

theorem placed_mkBranch {m : Mapper} {s s' : St} (hi : Inv s) (h : Placed m s) {location : Loc} {get : GetSpanner}
    {bid : Nat} (hb : s.mkBranch m location get = .ok (bid, s')) : Placed m s' := by
  obtain ⟨scope, sw, b, i, f, sp, _, _, hf, _, _, _, _, rfl⟩ := mkBranch_ok hb
  have := placed_addBranch hi h (location := location) (sw := sw)
    (phi := (m.lpd sw.block).map (fun bb => ⟨bb, 0⟩)) (findBuilder_spec hf).1 f scope
  exact ⟨this.seg, this.branch, this.targets⟩

theorem placed_run {tie : Bool} {m : Mapper} (hm : m.Proper) {s : St} {g : List (Nat × Nat)}
    (h : Run tie m s g) : Placed m s := by
  induction h with
  | make => exact placed_make m
  | openScope _ h ih =>
    obtain ⟨cur, _, _, rfl⟩ := openScope_eq h
    exact ⟨ih.seg, ih.branch, ih.targets⟩
  | closeScope _ h ih =>
    obtain ⟨_, _, rfl⟩ := closeScope_eq h
    exact ⟨ih.seg, ih.branch, ih.targets⟩
  | openBranch hr h ih => exact placed_mkBranch (inv_run hm hr) ih h
  | closeBranch _ _ h ih =>
    obtain ⟨b, _, rfl⟩ := closeBranch_eq h
    exact ⟨ih.seg, ih.branch, ih.targets⟩
  | child hr _ h ih =>
    obtain ⟨child, s1, bp, bc, h1, _, _, rfl⟩ := openChild_ok h
    have := placed_mkBranch (inv_run hm hr) ih h1
    exact ⟨this.seg, this.branch, this.targets⟩
  | linear span hr h _ ih =>
    exact placed_insertTo (inv_run hm hr) ih (findBuilder_spec (findSuitable_linear h).1).1 _ _ _

/-- What belongs to a collection belongs to the first one. -/
theorem inTree_up {m : Mapper} {s : St} (hi : Inv s) (h : Placed m s) (cid : Nat) (hc : cid < s.colls.length) {l : Loc}
    {t : Tab} (ht : InTree s.view cid l t) : InTree s.view 0 l t := by
  induction cid using Nat.strongRecOn with
  | ind cid ih =>
    rcases Nat.eq_zero_or_pos cid with rfl | h0
    · exact ht
    · obtain ⟨b, hb, hm⟩ := hi.owned cid h0 hc
      obtain ⟨bid, hbid⟩ := List.mem_iff_getElem?.1 hb
      obtain ⟨cid', c, h1, h2⟩ := h.branch bid (List.getElem?_eq_some_iff.1 hbid).1
      obtain ⟨b', h3, h4⟩ := hi.data cid' c h1 _ h2
      rw [hbid, Option.some.injEq] at h3
      subst h3
      exact ih cid' (h4 cid hm) (List.getElem?_eq_some_iff.1 h1).1 (.nested h1 h2 hbid hm ht)

/-- The tables of a finished body are those of its steps and branches. -/
def Made (f : Frozen) (l : Loc) (t : Tab) : Prop :=
  (∃ sid, SegTab f sid l t) ∨ ∃ (bid : Nat) (b : Branch), f.branches[bid]? = some b ∧ l = b.reachTo ∧ t = .attached bid

theorem inTree_made {f : Frozen} {cid : Nat} {l : Loc} {t : Tab} (h : InTree f cid l t) : Made f l t := by
  induction h with
  | linear _ _ h1 h2 => exact .inl ⟨_, _, h1, h2, rfl, rfl⟩
  | split _ _ _ _ h1 h2 => exact .inl ⟨_, _, h1, h2, rfl, rfl⟩
  | attached _ _ h1 => exact .inr ⟨_, _, h1, rfl, rfl⟩
  | nested _ _ _ _ _ ih => exact ih

theorem frozen_view {s : St} {f : Frozen} (hf : s.freeze = .ok f) : f = s.view := by
  unfold St.freeze at hf
  split at hf
  · simp only [Except.ok.injEq] at hf; exact hf.symm
  · exact absurd hf (by simp)

/-- **C101 (nothing is misplaced).** Whatever was inserted, every step that goes somewhere and every branch belongs
to the tree from which the tables are collected; nothing else does. -/
theorem C101_in_tree {tie : Bool} {m : Mapper} (hm : m.Proper) {s : St} {g : List (Nat × Nat)} (h : Run tie m s g)
    {f : Frozen} (hf : s.freeze = .ok f) (l : Loc) (t : Tab) : InTree f 0 l t ↔ Made f l t := by
  have hi := inv_run hm h
  have hp := placed_run hm h
  obtain rfl := frozen_view hf
  refine ⟨inTree_made, ?_⟩
  have up : ∀ {bid : Nat} {b : Branch}, s.branches[bid]? = some b →
      ∃ (cid : Nat) (c : Coll), s.colls[cid]? = some c ∧ CF.branch bid ∈ c.data := fun h =>
    hp.branch _ (List.getElem?_eq_some_iff.1 h).1
  rintro (⟨sid, sg, h1, h2, rfl, rfl⟩ | ⟨bid, b, h1, rfl, rfl⟩)
  · rcases hp.seg sid (List.getElem?_eq_some_iff.1 h1).1 with ⟨cid, c, h3, h4⟩ | ⟨bid, b, h3, h4⟩
    · exact inTree_up hi hp cid (List.getElem?_eq_some_iff.1 h3).1 (.linear h3 h4 h1 h2)
    · obtain ⟨cid, c, h5, h6⟩ := up h3
      exact inTree_up hi hp cid (List.getElem?_eq_some_iff.1 h5).1 (.split h5 h6 h3 h4 h1 h2)
  · obtain ⟨cid, c, h5, h6⟩ := up h1
    exact inTree_up hi hp cid (List.getElem?_eq_some_iff.1 h5).1 (.attached h5 h6 h1)

/-- **C101 (splits).** A branch has a split step for each block its switch may go to. -/
theorem C101_splits {tie : Bool} {m : Mapper} (hm : m.Proper) {s : St} {g : List (Nat × Nat)} (h : Run tie m s g)
    {f : Frozen} (hf : s.freeze = .ok f) (b : Branch) (hb : b ∈ f.branches) :
    b.splits.length = (m.succ b.reachFrom.block).length := by
  obtain rfl := frozen_view hf
  exact (placed_run hm h).targets b hb

/-- Two tests, one in the other: six tables, of the four split steps and the two branches. -/
example : InTree nestedFrozen 0 ⟨3, 0⟩ (.seg 2) ∧ InTree nestedFrozen 0 ⟨2, 0⟩ (.seg 3) ∧
    ¬ InTree nestedFrozen 0 ⟨1, 1⟩ (.seg 2) := by
  have h1 : Run true nestedIf.mapper nestedClosed [] := C44_lost.1
  have h2 := C44_lost.2.1
  have key := C101_in_tree (mapper_proper nestedIf) h1 h2
  refine ⟨(key _ _).2 (.inl ⟨2, ⟨⟨1, 0⟩, ⟨3, 0⟩, 0, 0⟩, by decide +kernel, by decide, rfl, rfl⟩),
    (key _ _).2 (.inl ⟨3, ⟨⟨1, 0⟩, ⟨2, 0⟩, 0, 0⟩, by decide +kernel, by decide, rfl, rfl⟩), ?_⟩
  intro h
  rcases (key _ _).1 h with ⟨sid, sg, e1, _, e2, e3⟩ | ⟨_, _, _, _, e3⟩
  · cases e3
    have : nestedFrozen.segs[2]? = some ⟨⟨1, 0⟩, ⟨3, 0⟩, 0, 0⟩ := by decide +kernel
    rw [this, Option.some.injEq] at e1
    subst e1
    exact absurd e2 (by decide)
  · exact absurd e3 (by simp)

end Verif.Segments
