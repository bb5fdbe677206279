import Verif.Segments.Join
/-!
# C66: steps cut short at a join point

`C66_straight_partial` leaves open what the steps look like that the builder cuts short.  Here every linear step is
either straight or runs backwards, and it is straight exactly if its start comes before its end.  What comes before what
is said by paths of the control-flow graph, not by the tests of the code.
-/
namespace Verif.Segments

open Verif.Graph Verif.Cfg

/-! ## Specification -/

/-- Every way from the start of the function to `y` passes `x`. -/
def Before (b : Body) (x y : Loc) : Prop :=
  (x.block = y.block ∧ x.idx ≤ y.idx) ∨ (x.block ≠ y.block ∧ Dominates b.succ x.block y.block)

/-- Every way from `x` to a return passes `y`. -/
def Certain (b : Body) (x y : Loc) : Prop :=
  (x.block = y.block ∧ x.idx ≤ y.idx) ∨ (x.block ≠ y.block ∧ PostDominates b.succ b.returns x.block y.block)

/-- A straight piece of control flow. -/
def Piece (b : Body) (x y : Loc) : Prop := Before b x y ∧ Certain b x y

/-- Runs against the direction of control flow. -/
def Backwards (b : Body) (x y : Loc) : Prop := Before b y x ∧ x ≠ y

/-! ## Proofs -/

theorem before_ldom {b : Body} (hv : Valid b) {x y : Loc} : b.mapper.ldom x y = true ↔ Before b x y :=
  C68_before hv x y

theorem certain_of {b : Body} (hv : Valid b) {x y : Loc} (h : Before b x y) (h' : b.mapper.lpdom y x = true) :
    Certain b x y := by
  rcases h with h | h
  · exact .inl h
  · obtain ⟨h3, h4⟩ := dom_lt hv h.2
    rcases (C68_after hv y x h3 h4).1 h' with h5 | h5
    · exact absurd h5.1.symm h.1
    · exact .inr ⟨h.1, h5.2⟩

theorem Before.antisymm {b : Body} {x y : Loc} (h : Before b x y) (h' : Before b y x) : x = y := by
  rcases h with ⟨h1, h2⟩ | ⟨h1, h2⟩ <;> rcases h' with ⟨h3, h4⟩ | ⟨h3, h4⟩
  · cases x; cases y; simp only [Loc.mk.injEq] at *; omega
  · exact absurd h1.symm h3
  · exact absurd h3.symm h1
  · exact absurd (dom_antisymm h2 h4) h1

/-- Of two locations before a third, where the third is certain from the first. -/
theorem cut_shape {b : Body} {x p l : Loc} (h1 : Before b x l) (h2 : Certain b x l) (h3 : Before b p l) :
    Piece b x p ∨ Backwards b x p := by
  by_cases hxp : x.block = p.block
  · by_cases hi : x.idx ≤ p.idx
    · exact .inl ⟨.inl ⟨hxp, hi⟩, .inl ⟨hxp, hi⟩⟩
    · exact .inr ⟨.inl ⟨hxp.symm, by omega⟩, by rintro rfl; omega⟩
  · have hne : x ≠ p := by rintro rfl; exact hxp rfl
    rcases h1 with ⟨hb, _⟩ | ⟨hb, hd⟩
    · rcases h3 with ⟨hb', _⟩ | ⟨hb', hd'⟩
      · exact absurd (hb.trans hb'.symm) hxp
      · exact .inr ⟨.inr ⟨fun e => hxp e.symm, by rw [hb]; exact hd'⟩, hne⟩
    · rcases h2 with ⟨hb2, _⟩ | ⟨_, hp⟩
      · exact absurd hb2 hb
      · rcases h3 with ⟨hb', _⟩ | ⟨hb', hd'⟩
        · rw [← hb'] at hd hp
          exact .inl ⟨.inr ⟨hxp, hd⟩, .inr ⟨hxp, hp⟩⟩
        · rcases dom_chain hd hd' with hc | hc
          · exact .inl ⟨.inr ⟨hxp, hc⟩, .inr ⟨hxp, post_of_dom (fun e => hxp e.symm) hc hd' hp⟩⟩
          · exact .inr ⟨.inr ⟨fun e => hxp e.symm, hc⟩, hne⟩

/-- What holds of every insertion holds of every linear step. -/
theorem linear_steps {tie : Bool} {m : Mapper} (hm : m.Proper) (P : Loc → Loc → Option Loc → Prop)
    (hgo : ∀ x l phi, m.ldom x l = true → m.lpdom l x = true → (∀ p, phi = some p → ¬ m.ldom p l = true) → P x l phi)
    (hcut : ∀ x l phi, m.ldom x l = true → m.lpdom l x = true → m.ldom phi l = true → P x phi (some phi))
    {s : St} {g : List (Nat × Nat)} (h : Run tie m s g) :
    ∀ (cid : Nat) (c : Coll), s.colls[cid]? = some c → ∀ sid, .linear sid ∈ c.data → ∀ sg, s.segs[sid]? = some sg →
      P sg.from sg.to c.phi := by
  induction h with
  | make =>
    intro cid c hc sid hs
    simp only [St.make, List.getElem?_singleton] at hc
    split at hc
    · simp only [Option.some.injEq] at hc; subst hc; simp at hs
    · exact absurd hc (by simp)
  | openScope _ h ih => obtain ⟨cur, _, _, rfl⟩ := openScope_eq h; exact ih
  | closeScope _ h ih => obtain ⟨_, _, rfl⟩ := closeScope_eq h; exact ih
  | closeBranch _ _ h ih => obtain ⟨b, _, rfl⟩ := closeBranch_eq h; exact ih
  | @openBranch s g l f bid s' hr h ih =>
    obtain ⟨scope, sw, b, i, f', sp, _, _, hf, _, _, _, _, rfl⟩ := mkBranch_ok h
    exact add_steps P (inv_run hm hr) ih (i := i)
  | @child s g l p loc s' hr hfs h ih =>
    obtain ⟨child, s1, bp, bc, h1, _, _, rfl⟩ := openChild_ok h
    obtain ⟨scope, sw, b, i, f', sp, _, _, hf, _, _, _, _, rfl⟩ := mkBranch_ok h1
    exact add_steps P (inv_run hm hr) ih (i := i)
  | @linear s g l b i scope span hr h hs ih =>
    have hi := inv_run hm hr
    obtain ⟨hfb, hpd⟩ := findSuitable_linear h
    intro cid c hc sid hsid sg hsg
    simp only [St.insertTo, getElem?_pushCF] at hc
    cases hc0 : s.colls[cid]? with
    | none => rw [hc0] at hc; exact absurd hc (by simp)
    | some c0 =>
      rw [hc0] at hc
      simp only [Option.map_some, Option.some.injEq] at hc
      have hold : .linear sid ∈ c0.data → P sg.from sg.to c0.phi := by
        intro hm0
        have hv : sid < s.segs.length := hi.data cid c0 hc0 _ hm0
        refine ih cid c0 hc0 sid hm0 sg ?_
        simp only [St.insertTo] at hsg
        rw [List.getElem?_append_left hv] at hsg
        exact hsg
      split at hc
      · rename_i hcid
        subst hc
        rcases List.mem_append.1 hsid with hsid | hsid
        · exact hold hsid
        · simp only [List.mem_singleton, CF.linear.injEq] at hsid
          subst hsid
          simp only [St.insertTo, List.getElem?_concat_length, Option.some.injEq] at hsg
          subst hsg
          subst hcid
          dsimp only
          unfold St.insertEnd
          rw [hc0]
          obtain ⟨d, phi⟩ := c0
          cases phi with
          | none => exact hgo _ _ _ (findBuilder_spec hfb).2 hpd (by simp)
          | some p =>
            dsimp only
            split
            · rename_i hp
              exact hcut _ _ _ (findBuilder_spec hfb).2 hpd hp
            · rename_i hp
              refine hgo _ _ _ (findBuilder_spec hfb).2 hpd (fun q hq => ?_)
              simp only [Option.some.injEq] at hq
              subst hq
              exact hp
      · subst hc
        exact hold hsid
where
  add_steps (P : Loc → Loc → Option Loc → Prop) {m : Mapper} {s : St} (hi : Inv s)
      (ih : ∀ (cid : Nat) (c : Coll), s.colls[cid]? = some c → ∀ sid, CF.linear sid ∈ c.data → ∀ sg,
        s.segs[sid]? = some sg → P sg.from sg.to c.phi)
      {loc sw : Loc} {phi : Option Loc} {i : Nat} {b : Builder} {f : Spanner} {scope : Nat} :
      ∀ (cid : Nat) (c : Coll), (s.addBranch m loc sw phi i b f scope).colls[cid]? = some c → ∀ sid,
        CF.linear sid ∈ c.data → ∀ sg, (s.addBranch m loc sw phi i b f scope).segs[sid]? = some sg →
        P sg.from sg.to c.phi := by
    intro cid c hc sid hsid sg hsg
    simp only [St.addBranch] at hc hsg
    by_cases hl : cid < s.colls.length
    · rw [List.getElem?_append_left (by rw [length_pushCF]; exact hl), getElem?_pushCF,
        List.getElem?_eq_getElem hl] at hc
      simp only [Option.map_some, Option.some.injEq] at hc
      have hmem : CF.linear sid ∈ s.colls[cid].data := by
        split at hc
        · subst hc
          rcases List.mem_append.1 hsid with hsid | hsid
          · exact hsid
          · simp at hsid
        · subst hc; exact hsid
      have hphi : c.phi = s.colls[cid].phi := by
        split at hc <;> (subst hc; rfl)
      have hv : sid < s.segs.length := hi.data cid _ (List.getElem?_eq_getElem hl) _ hmem
      rw [List.getElem?_append_left hv] at hsg
      rw [hphi]
      exact ih cid _ (List.getElem?_eq_getElem hl) sid hmem sg hsg
    · rw [List.getElem?_append_right (by rw [length_pushCF]; omega)] at hc
      have := List.mem_of_getElem? hc
      rw [List.mem_replicate] at this
      rw [this.2] at hsid
      simp at hsid

/-- Every linear step of every history is a straight piece of control flow, or it ends at the join point of its stretch
and runs backwards. -/
theorem C66_exact {tie : Bool} {b : Body} (hv : Valid b) {s : St} {g : List (Nat × Nat)} (h : Run tie b.mapper s g)
    {cid sid : Nat} {c : Coll} {sg : Seg} (hc : s.colls[cid]? = some c) (hs : .linear sid ∈ c.data)
    (hg : s.segs[sid]? = some sg) :
    Piece b sg.from sg.to ∨ (Backwards b sg.from sg.to ∧ c.phi = some sg.to) := by
  refine linear_steps (mapper_proper b) (fun x y phi => Piece b x y ∨ (Backwards b x y ∧ phi = some y))
    ?_ ?_ h cid c hc sid hs sg hg
  · intro x l _ h1 h2 _
    have h1 := (before_ldom hv).1 h1
    exact .inl ⟨h1, certain_of hv h1 h2⟩
  · intro x l p h1 h2 h3
    have h1 := (before_ldom hv).1 h1
    exact (cut_shape h1 (certain_of hv h1 h2) ((before_ldom hv).1 h3)).imp id (fun h => ⟨h, rfl⟩)

/-- A linear step is straight exactly if its start comes before its end; in particular every step inside a stretch
without a join point is. -/
theorem C66_straight_iff {tie : Bool} {b : Body} (hv : Valid b) {s : St} {g : List (Nat × Nat)}
    (h : Run tie b.mapper s g) {cid sid : Nat} {c : Coll} {sg : Seg} (hc : s.colls[cid]? = some c)
    (hs : .linear sid ∈ c.data) (hg : s.segs[sid]? = some sg) :
    (Piece b sg.from sg.to ↔ Before b sg.from sg.to) ∧ (c.phi = none → Piece b sg.from sg.to) := by
  have hx := C66_exact hv h hc hs hg
  refine ⟨⟨fun h => h.1, fun hb => ?_⟩, fun hn => ?_⟩
  · rcases hx with hx | ⟨hx, _⟩
    · exact hx
    · exact absurd (hb.antisymm hx.1) hx.2
  · rcases hx with hx | ⟨_, hx⟩
    · exact hx
    · rw [hn] at hx; exact absurd hx (by simp)

/-- No linear step ends past the join point of its stretch. -/
theorem ends_before {tie : Bool} {b : Body} (hv : Valid b) {s : St} {g : List (Nat × Nat)} (h : Run tie b.mapper s g)
    {cid sid : Nat} {c : Coll} {sg : Seg} (hc : s.colls[cid]? = some c) (hs : .linear sid ∈ c.data)
    (hg : s.segs[sid]? = some sg) {p : Loc} (hp : c.phi = some p) : ¬ Backwards b sg.to p := by
  refine linear_steps (mapper_proper b) (fun _ y phi => ∀ p, phi = some p → ¬ Backwards b y p) ?_ ?_ h cid c hc sid hs
    sg hg p hp
  · intro x l phi _ _ h3 p hp hb
    exact h3 p hp ((before_ldom hv).2 hb.1)
  · intro x l phi _ _ _ p hp hb
    simp only [Option.some.injEq] at hp
    exact hb.2 hp

theorem forward_parts {b : Body} {f : Frozen} {p : Loc}
    (hend : ∀ sg : Seg, Piece b sg.from sg.to ∨ Backwards b sg.from sg.to ∧ sg.to = p → ¬ Backwards b sg.from p →
      Piece b sg.from sg.to)
    {l e : Loc} {data : List CF} (hj : Joined f l data e)
    (hl : ¬ Backwards b l p)
    (hlin : ∀ sid, .linear sid ∈ data → ∀ sg, f.segs[sid]? = some sg →
      (Piece b sg.from sg.to ∨ Backwards b sg.from sg.to ∧ sg.to = p) ∧ ¬ Backwards b sg.to p)
    (hbr : ∀ bid, .branch bid ∈ data → ∀ br, f.branches[bid]? = some br → br.reachTo ≠ br.reachFrom →
      ¬ Backwards b br.reachTo p) :
    ∀ sid, .linear sid ∈ data → ∀ sg, f.segs[sid]? = some sg → Piece b sg.from sg.to := by
  induction hj with
  | nil => intro sid h; simp at h
  | @linear sid s rest e hs hj ih =>
    intro sid' h sg hg
    have h0 := hlin sid (by simp) s hs
    rcases List.mem_cons.1 h with h | h
    · simp only [CF.linear.injEq] at h
      subst h
      rw [hs] at hg
      simp only [Option.some.injEq] at hg
      subst hg
      exact hend _ h0.1 hl
    · exact ih h0.2 (fun x hx => hlin x (List.mem_cons_of_mem _ hx)) (fun x hx => hbr x (List.mem_cons_of_mem _ hx))
        sid' h sg hg
  | @branch l bid br rest e hb _ hj ih =>
    intro sid' h sg hg
    refine ih ?_ (fun x hx => hlin x (List.mem_cons_of_mem _ hx)) (fun x hx => hbr x (List.mem_cons_of_mem _ hx))
        sid' ((List.mem_cons.1 h).resolve_left (by simp)) sg hg
    unfold Branch.leaves
    split
    · exact hl
    · rename_i hne
      exact hbr bid (by simp) br hb hne

/-- If no branch leads into a stretch past the join point of the stretch, and no branch inside a stretch joins past it,
then every linear step is a straight piece of control flow.  Missing for the full claim: the builder does not check
this (`C66_backwards`). -/
theorem C66_forward_partial {tie : Bool} {b : Body} (hv : Valid b) {s : St} {g : List (Nat × Nat)}
    (h : Run tie b.mapper s g)
    (hsplit : ∀ br ∈ s.branches, ∀ i sid cid : Nat, br.splits[i]? = some sid → br.nested[i]? = some cid →
      ∀ sg c p, s.segs[sid]? = some sg → s.colls[cid]? = some c → c.phi = some p → ¬ Backwards b sg.to p)
    (hjoin : ∀ (cid : Nat) (c : Coll) (p : Loc), s.colls[cid]? = some c → c.phi = some p → ∀ bid, .branch bid ∈ c.data →
      ∀ br, s.branches[bid]? = some br → br.reachTo ≠ br.reachFrom → ¬ Backwards b br.reachTo p)
    {cid sid : Nat} {c : Coll} {sg : Seg} (hc : s.colls[cid]? = some c) (hs : .linear sid ∈ c.data)
    (hg : s.segs[sid]? = some sg) : Piece b sg.from sg.to := by
  cases hp : c.phi with
  | none => exact (C66_straight_iff hv h hc hs hg).2 hp
  | some p =>
    have hend : ∀ sg : Seg, Piece b sg.from sg.to ∨ Backwards b sg.from sg.to ∧ sg.to = p →
        ¬ Backwards b sg.from p → Piece b sg.from sg.to := by
      rintro sg (h | ⟨h, rfl⟩) hn
      · exact h
      · exact absurd h hn
    have key : ∀ l e, Joined s.view l c.data e → ¬ Backwards b l p → Piece b sg.from sg.to := by
      intro l e hj hl
      refine forward_parts hend hj hl (fun x hx y hy => ?_) (fun x hx br hb hne => hjoin cid c p hc hp x hx br hb hne)
        sid hs sg hg
      refine ⟨(C66_exact hv h hc hx hy).imp id (fun h => ⟨h.1, ?_⟩), ends_before hv h hc hx hy hp⟩
      have := h.2
      rw [hp] at this
      simpa using this.symm
    have hct := C45_contiguous (mapper_proper b) h
    by_cases h0 : cid = 0
    · subst h0
      obtain ⟨⟨c', e, h1, h2⟩, _⟩ := hct
      rw [hc] at h1
      simp only [Option.some.injEq] at h1
      subst h1
      refine key _ _ h2 ?_
      rintro ⟨hb, hne⟩
      rcases hb with ⟨h3, h4⟩ | ⟨h3, h4⟩
      · apply hne
        cases p
        simp only [startLoc, Loc.mk.injEq] at *
        omega
      · have := h4.2 [0] (.single 0)
        simp only [List.mem_singleton] at this
        exact h3 this
    · have hlt : cid < s.colls.length := (List.getElem?_eq_some_iff.1 hc).1
      obtain ⟨bid, br, hbr, hin, _⟩ := C45_one_start (mapper_proper b) h (by omega) hlt
      obtain ⟨i, hi⟩ := List.mem_iff_getElem?.1 hin
      have hinv := (inv_run (mapper_proper b) h).branch bid br hbr
      have hil : i < br.splits.length := by
        rw [hinv.2.1]
        exact (List.getElem?_eq_some_iff.1 hi).1
      obtain ⟨sg', c', e, h1, h2, h3⟩ := hct.2 br (List.mem_of_getElem? hbr) i _ cid (List.getElem?_eq_getElem hil) hi
      rw [hc] at h2
      simp only [Option.some.injEq] at h2
      subst h2
      exact key _ _ h3 (hsplit br (List.mem_of_getElem? hbr) i _ cid (List.getElem?_eq_getElem hil) hi sg' c p h1 hc hp)

/-! ## Examples -/

/-- `if a { … }`: a step past the join point is put into the missing `else` and cut short there; it is empty. -/
def cutState : St := (opened ifOnly.mapper St.make startLoc plain).insertTo ⟨2, ⟨2, 0⟩⟩ 2 ⟨2, 0⟩ 7 0

theorem ifOnly_valid : Valid ifOnly := valid_of (by decide) (by decide)

theorem run_cut : Run true ifOnly.mapper cutState [] :=
  .linear (l := ⟨2, 1⟩) (b := ⟨2, ⟨2, 0⟩⟩) (i := 2) (scope := 0) 7 (run_opened .make (by decide +kernel))
    (by decide +kernel) rfl

example : (cutState.colls[2]?).map (·.phi) = some (some ⟨2, 0⟩) ∧
    (cutState.segs[2]?).map (fun s => (s.from, s.to)) = some (⟨2, 0⟩, ⟨2, 0⟩) := by decide +kernel

/-- The hypotheses of `C66_forward_partial` hold of it. -/
example : Piece ifOnly ⟨2, 0⟩ ⟨2, 0⟩ := by
  have hb : ∀ x p : Loc, (ifOnly.mapper.ldom p x && decide (x ≠ p)) = false → ¬ Backwards ifOnly x p := by
    rintro x p h ⟨h1, h2⟩
    rw [(before_ldom ifOnly_valid).2 h1] at h
    simp [h2] at h
  have hbr : cutState.branches = [⟨0, ⟨0, 0⟩, ⟨2, 0⟩, [0, 1], [1, 2]⟩] := by decide +kernel
  have hco : cutState.colls = [⟨[.branch 0], none⟩, ⟨[], some ⟨2, 0⟩⟩, ⟨[.linear 2], some ⟨2, 0⟩⟩] := by
    decide +kernel
  have hsg : cutState.segs = [⟨⟨0, 0⟩, ⟨1, 0⟩, 0, 0⟩, ⟨⟨0, 0⟩, ⟨2, 0⟩, 0, 0⟩, ⟨⟨2, 0⟩, ⟨2, 0⟩, 7, 0⟩] := by
    decide +kernel
  refine C66_forward_partial (cid := 2) (sid := 2) (c := ⟨[.linear 2], some ⟨2, 0⟩⟩)
    (sg := ⟨⟨2, 0⟩, ⟨2, 0⟩, 7, 0⟩) ifOnly_valid run_cut ?_ ?_ (by rw [hco]; rfl) (by simp) (by rw [hsg]; rfl)
  · intro br h i sid cid h1 h2 sg c p h3 h4 h5
    rw [hbr] at h
    simp only [List.mem_singleton] at h
    subst h
    rw [hsg] at h3
    rw [hco] at h4
    match i, h1, h2 with
    | 0, h1, h2 =>
      simp at h1 h2
      subst h1 h2
      simp at h3 h4
      subst h3 h4
      simp at h5
      subst h5
      exact hb _ _ (by decide +kernel)
    | 1, h1, h2 =>
      simp at h1 h2
      subst h1 h2
      simp at h3 h4
      subst h3 h4
      simp at h5
      subst h5
      exact hb _ _ (by decide +kernel)
    | n + 2, h1, _ => simp at h1
  · intro cid c p h1 h2 bid h3
    rw [hco] at h1
    match cid, h1 with
    | 0, h1 => simp at h1; subst h1; simp at h2
    | 1, h1 => simp at h1; subst h1; simp at h3
    | 2, h1 => simp at h1; subst h1; simp at h3
    | n + 3, h1 => simp at h1

end Verif.Segments
