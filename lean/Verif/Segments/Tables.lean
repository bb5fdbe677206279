import Verif.Segments.Props
/-!
# Collecting the tables (C44)
-/
namespace Verif.Segments

open Verif.Cfg Verif.Graph

/-! ## Specification -/

/-- Table `t`, ending at `l`, belongs to the tree of collection `cid`.  Segments that end where they begin
have no table. -/
inductive InTree (f : Frozen) : Nat → Loc → Tab → Prop
  | linear {cid c sid s} : f.colls[cid]? = some c → CF.linear sid ∈ c.data → f.segs[sid]? = some s → s.from ≠ s.to →
      InTree f cid s.to (.seg sid)
  | split {cid c bid b sid s} : f.colls[cid]? = some c → CF.branch bid ∈ c.data → f.branches[bid]? = some b →
      sid ∈ b.splits → f.segs[sid]? = some s → s.from ≠ s.to → InTree f cid s.to (.seg sid)
  | attached {cid c bid b} : f.colls[cid]? = some c → CF.branch bid ∈ c.data → f.branches[bid]? = some b →
      InTree f cid b.reachTo (.attached bid)
  | nested {cid c bid b cid' l t} : f.colls[cid]? = some c → CF.branch bid ∈ c.data → f.branches[bid]? = some b →
      cid' ∈ b.nested → InTree f cid' l t → InTree f cid l t

/-- Table `t` is filed under `l`. -/
def Filed (m : Tables) (l : Loc) (t : Tab) : Prop := ∃ v, (l, v) ∈ m ∧ t ∈ v

/-! ## Maps -/

theorem filed_nil (l : Loc) (t : Tab) : ¬Filed [] l t := by rintro ⟨v, h, _⟩; simp at h

theorem keys_pushTab (m : Tables) (l : Loc) (t : Tab) (x : Loc) :
    x ∈ (pushTab m l t).map (·.1) ↔ x ∈ m.map (·.1) ∨ x = l := by
  induction m with
  | nil => simp [pushTab]
  | cons e r ih =>
    obtain ⟨k, v⟩ := e
    simp only [pushTab]
    split
    · rename_i h; subst h
      simp only [List.map_cons, List.mem_cons]
      constructor
      · rintro (h | h) <;> simp [h]
      · rintro ((h | h) | h) <;> simp [h]
    · simp only [List.map_cons, List.mem_cons, ih, or_assoc]

theorem nodup_pushTab {m : Tables} (h : (m.map (·.1)).Nodup) (l : Loc) (t : Tab) :
    ((pushTab m l t).map (·.1)).Nodup := by
  induction m with
  | nil => simp [pushTab]
  | cons e r ih =>
    obtain ⟨k, v⟩ := e
    simp only [List.map_cons, List.nodup_cons] at h
    simp only [pushTab]
    split
    · simp only [List.map_cons, List.nodup_cons]; exact h
    · rename_i hk
      simp only [List.map_cons, List.nodup_cons, keys_pushTab]
      refine ⟨?_, ih h.2⟩
      rintro (hh | hh)
      · exact h.1 hh
      · exact hk hh

theorem filed_cons (k : Loc) (v : List Tab) (r : Tables) (l : Loc) (t : Tab) :
    Filed ((k, v) :: r) l t ↔ (l = k ∧ t ∈ v) ∨ Filed r l t := by
  constructor
  · rintro ⟨w, h, ht⟩
    rcases List.mem_cons.1 h with h | h
    · simp only [Prod.mk.injEq] at h
      obtain ⟨rfl, rfl⟩ := h
      exact .inl ⟨rfl, ht⟩
    · exact .inr ⟨w, h, ht⟩
  · rintro (⟨rfl, ht⟩ | ⟨w, h, ht⟩)
    · exact ⟨v, by simp, ht⟩
    · exact ⟨w, by simp [h], ht⟩

theorem filed_pushTab (m : Tables) (l : Loc) (t : Tab) (l' : Loc) (t' : Tab) :
    Filed (pushTab m l t) l' t' ↔ Filed m l' t' ∨ (l' = l ∧ t' = t) := by
  induction m with
  | nil =>
    simp only [pushTab, filed_cons, List.mem_singleton]
    constructor
    · rintro (h | h)
      · exact .inr h
      · exact .inl h
    · rintro (h | h)
      · exact .inr h
      · exact .inl h
  | cons e r ih =>
    obtain ⟨k, v⟩ := e
    simp only [pushTab]
    split
    · rename_i h; subst h
      simp only [filed_cons, List.mem_append, List.mem_singleton]
      constructor
      · rintro (⟨h1, h2 | h2⟩ | h)
        · exact .inl (.inl ⟨h1, h2⟩)
        · exact .inr ⟨h1, h2⟩
        · exact .inl (.inr h)
      · rintro ((⟨h1, h2⟩ | h) | ⟨h1, h2⟩)
        · exact .inl ⟨h1, .inl h2⟩
        · exact .inr h
        · exact .inl ⟨h1, .inr h2⟩
    · simp only [filed_cons, ih, or_assoc]

theorem keys_setTab (m : Tables) (l : Loc) (w : List Tab) (x : Loc) :
    x ∈ (setTab m l w).map (·.1) ↔ x ∈ m.map (·.1) ∨ x = l := by
  induction m with
  | nil => simp [setTab]
  | cons e r ih =>
    obtain ⟨k, v⟩ := e
    simp only [setTab]
    split
    · rename_i h; subst h
      simp only [List.map_cons, List.mem_cons]
      constructor
      · rintro (h | h) <;> simp [h]
      · rintro ((h | h) | h) <;> simp [h]
    · simp only [List.map_cons, List.mem_cons, ih, or_assoc]

theorem nodup_setTab {m : Tables} (h : (m.map (·.1)).Nodup) (l : Loc) (w : List Tab) :
    ((setTab m l w).map (·.1)).Nodup := by
  induction m with
  | nil => simp [setTab]
  | cons e r ih =>
    obtain ⟨k, v⟩ := e
    simp only [List.map_cons, List.nodup_cons] at h
    simp only [setTab]
    split
    · rename_i hk; subst hk
      simp only [List.map_cons, List.nodup_cons]; exact h
    · rename_i hk
      simp only [List.map_cons, List.nodup_cons, keys_setTab]
      refine ⟨?_, ih h.2⟩
      rintro (hh | hh)
      · exact h.1 hh
      · exact hk hh

theorem filed_key {m : Tables} {l : Loc} {t : Tab} (h : Filed m l t) : l ∈ m.map (·.1) := by
  obtain ⟨v, h, _⟩ := h
  exact List.mem_map.2 ⟨_, h, rfl⟩

theorem filed_setTab {m : Tables} (hn : (m.map (·.1)).Nodup) (l : Loc) (w : List Tab) (l' : Loc) (t' : Tab) :
    Filed (setTab m l w) l' t' ↔ (l' = l ∧ t' ∈ w) ∨ (l' ≠ l ∧ Filed m l' t') := by
  induction m with
  | nil =>
    simp only [setTab, filed_cons]
    constructor
    · rintro (h | h)
      · exact .inl h
      · exact absurd h (filed_nil _ _)
    · rintro (h | ⟨_, h⟩)
      · exact .inl h
      · exact absurd h (filed_nil _ _)
  | cons e r ih =>
    obtain ⟨k, v⟩ := e
    simp only [List.map_cons, List.nodup_cons] at hn
    simp only [setTab]
    split
    · rename_i h; subst h
      simp only [filed_cons]
      constructor
      · rintro (h | h)
        · exact .inl h
        · refine .inr ⟨?_, .inr h⟩
          rintro rfl
          exact hn.1 (filed_key h)
      · rintro (h | ⟨h1, ⟨h2, _⟩ | h2⟩)
        · exact .inl h
        · exact absurd h2 h1
        · exact .inr h2
    · rename_i hk
      simp only [filed_cons, ih hn.2]
      constructor
      · rintro (⟨rfl, h⟩ | h | ⟨h1, h2⟩)
        · exact .inr ⟨hk, .inl ⟨rfl, h⟩⟩
        · exact .inl h
        · exact .inr ⟨h1, .inr h2⟩
      · rintro (h | ⟨h1, h2 | h2⟩)
        · exact .inr (.inl h)
        · exact .inl h2
        · exact .inr (.inr ⟨h1, h2⟩)

theorem extendTab_spec (m temp : Tables) (hm : (m.map (·.1)).Nodup) (ht : (temp.map (·.1)).Nodup) :
    ((extendTab m temp).map (·.1)).Nodup ∧
    (∀ x, x ∈ (extendTab m temp).map (·.1) ↔ x ∈ m.map (·.1) ∨ x ∈ temp.map (·.1)) ∧
    ∀ l t, Filed (extendTab m temp) l t ↔ Filed temp l t ∨ (l ∉ temp.map (·.1) ∧ Filed m l t) := by
  induction temp generalizing m with
  | nil =>
    refine ⟨hm, fun x => by simp [extendTab], fun l t => ?_⟩
    simp only [extendTab, List.foldl_nil, List.map_nil, List.not_mem_nil, not_false_iff, true_and]
    exact ⟨.inr, fun h => h.resolve_left (filed_nil _ _)⟩
  | cons e r ih =>
    obtain ⟨k, v⟩ := e
    simp only [List.map_cons, List.nodup_cons] at ht
    obtain ⟨h1, h2, h3⟩ := ih (setTab m k v) (nodup_setTab hm k v) ht.2
    refine ⟨h1, fun x => ?_, fun l t => ?_⟩
    · show x ∈ (extendTab (setTab m k v) r).map (·.1) ↔ _
      rw [h2, keys_setTab]
      simp only [List.map_cons, List.mem_cons]
      constructor
      · rintro ((h | h) | h) <;> simp [h]
      · rintro (h | h | h) <;> simp [h]
    · show Filed (extendTab (setTab m k v) r) l t ↔ _
      rw [h3, filed_setTab hm, filed_cons]
      simp only [List.map_cons, List.mem_cons, not_or]
      constructor
      · rintro (h | ⟨h, h' | ⟨h', h''⟩⟩)
        · exact .inl (.inr h)
        · exact .inl (.inl h')
        · exact .inr ⟨⟨h', h⟩, h''⟩
      · rintro ((⟨rfl, h⟩ | h) | ⟨⟨h', h⟩, h''⟩)
        · exact .inr ⟨ht.1, .inl ⟨rfl, h⟩⟩
        · exact .inl h
        · exact .inr ⟨h, .inr ⟨h', h''⟩⟩

/-! ## Adding a set of tables -/

/-- `r'` is `r` with the tables `E` added, where a table may be displaced by one of `E` with the same end. -/
structure Adds (E : Loc → Tab → Prop) (r r' : Tables) : Prop where
  nodup : (r'.map (·.1)).Nodup
  only : ∀ l t, Filed r' l t → Filed r l t ∨ E l t
  added : ∀ l t, E l t → (∀ t', E l t' → t' = t) → Filed r' l t
  kept : ∀ l t, Filed r l t → (∀ t', ¬E l t') → Filed r' l t
  keys : ∀ l, l ∈ r'.map (·.1) → l ∈ r.map (·.1) ∨ ∃ t, E l t

theorem Adds.refl {r : Tables} (h : (r.map (·.1)).Nodup) : Adds (fun _ _ => False) r r :=
  ⟨h, fun _ _ h => .inl h, fun _ _ h => h.elim, fun _ _ h _ => h, fun _ h => .inl h⟩

theorem Adds.trans {E1 E2 : Loc → Tab → Prop} {r r1 r2 : Tables} (h1 : Adds E1 r r1) (h2 : Adds E2 r1 r2) :
    Adds (fun l t => E1 l t ∨ E2 l t) r r2 := by
  refine ⟨h2.nodup, ?_, ?_, ?_, ?_⟩
  · intro l t h
    rcases h2.only l t h with h | h
    · rcases h1.only l t h with h | h
      · exact .inl h
      · exact .inr (.inl h)
    · exact .inr (.inr h)
  · intro l t h hu
    have hu2 : ∀ t', E2 l t' → t' = t := fun t' h' => hu t' (.inr h')
    rcases h with h | h
    · by_cases hx : ∃ t', E2 l t'
      · obtain ⟨t', ht'⟩ := hx
        have := hu2 t' ht'
        subst this
        exact h2.added l t' ht' hu2
      · exact h2.kept l t (h1.added l t h (fun t' h' => hu t' (.inl h'))) (fun t' h' => hx ⟨t', h'⟩)
    · exact h2.added l t h hu2
  · intro l t h hn
    exact h2.kept l t (h1.kept l t h (fun t' h' => hn t' (.inl h'))) (fun t' h' => hn t' (.inr h'))
  · intro l h
    rcases h2.keys l h with h | ⟨t, h⟩
    · rcases h1.keys l h with h | ⟨t, h⟩
      · exact .inl h
      · exact .inr ⟨t, .inl h⟩
    · exact .inr ⟨t, .inr h⟩

theorem Adds.congr {E E' : Loc → Tab → Prop} {r r' : Tables} (h : Adds E r r') (he : ∀ l t, E l t ↔ E' l t) :
    Adds E' r r' := by
  have : E = E' := by funext l t; exact propext (he l t)
  rw [← this]; exact h

theorem adds_push {r : Tables} (h : (r.map (·.1)).Nodup) (l : Loc) (t : Tab) :
    Adds (fun l' t' => l' = l ∧ t' = t) r (pushTab r l t) := by
  refine ⟨nodup_pushTab h l t, ?_, ?_, ?_, ?_⟩
  · intro l' t' h; exact (filed_pushTab r l t l' t').1 h
  · intro l' t' h _; exact (filed_pushTab r l t l' t').2 (.inr h)
  · intro l' t' h _; exact (filed_pushTab r l t l' t').2 (.inl h)
  · intro l' h
    rcases (keys_pushTab r l t l').1 h with h | h
    · exact .inl h
    · exact .inr ⟨t, h, rfl⟩

theorem adds_extend {E : Loc → Tab → Prop} {r temp : Tables} (hr : (r.map (·.1)).Nodup) (h : Adds E [] temp) :
    Adds E r (extendTab r temp) := by
  obtain ⟨h1, h2, h3⟩ := extendTab_spec r temp hr h.nodup
  refine ⟨h1, ?_, ?_, ?_, ?_⟩
  · intro l t hl
    rcases (h3 l t).1 hl with hl | ⟨_, hl⟩
    · rcases h.only l t hl with hl | hl
      · exact absurd hl (filed_nil _ _)
      · exact .inr hl
    · exact .inl hl
  · intro l t hl hu
    exact (h3 l t).2 (.inl (h.added l t hl hu))
  · intro l t hl hn
    refine (h3 l t).2 (.inr ⟨?_, hl⟩)
    intro hk
    rcases h.keys l hk with hk | ⟨t', hk⟩
    · simp at hk
    · exact hn t' hk
  · intro l hl
    rcases (h2 l).1 hl with hl | hl
    · exact .inl hl
    · rcases h.keys l hl with hk | hk
      · simp at hk
      · exact .inr hk

/-- The table of a segment. -/
def SegTab (f : Frozen) (sid : Nat) (l : Loc) (t : Tab) : Prop :=
  ∃ s, f.segs[sid]? = some s ∧ s.from ≠ s.to ∧ l = s.to ∧ t = .seg sid

theorem adds_segment {f : Frozen} {r r' : Tables} {sid : Nat} (hr : (r.map (·.1)).Nodup)
    (h : insertSegment f r sid = some r') : Adds (SegTab f sid) r r' := by
  unfold insertSegment at h
  cases hs : f.segs[sid]? with
  | none => rw [hs] at h; exact absurd h (by simp)
  | some s =>
    rw [hs] at h
    dsimp only at h
    split at h
    · rename_i heq
      simp only [Option.some.injEq] at h
      subst h
      refine (Adds.refl hr).congr ?_
      intro l t
      refine ⟨fun h => h.elim, ?_⟩
      rintro ⟨s', h1, h2, _⟩
      rw [hs] at h1
      simp only [Option.some.injEq] at h1
      subst h1
      exact h2 heq
    · rename_i hne
      simp only [Option.some.injEq] at h
      subst h
      refine (adds_push hr _ _).congr ?_
      intro l t
      constructor
      · rintro ⟨rfl, rfl⟩; exact ⟨s, hs, hne, rfl, rfl⟩
      · rintro ⟨s', h1, h2, h3, h4⟩
        rw [hs] at h1
        simp only [Option.some.injEq] at h1
        subst h1
        exact ⟨h3, h4⟩

theorem adds_segments {f : Frozen} (sids : List Nat) {r r' : Tables} (hr : (r.map (·.1)).Nodup)
    (h : insertSegments f r sids = some r') : Adds (fun l t => ∃ sid ∈ sids, SegTab f sid l t) r r' := by
  induction sids generalizing r with
  | nil =>
    simp only [insertSegments, Option.some.injEq] at h
    subst h
    exact (Adds.refl hr).congr (by simp)
  | cons sid rest ih =>
    rw [insertSegments] at h
    cases hs : insertSegment f r sid with
    | none => rw [hs] at h; exact absurd h (by simp)
    | some r1 =>
      rw [hs] at h
      have h1 := adds_segment hr hs
      refine (h1.trans (ih h1.nodup h)).congr ?_
      intro l t
      simp only [List.mem_cons]
      constructor
      · rintro (h | ⟨x, hx, h⟩)
        · exact ⟨sid, .inl rfl, h⟩
        · exact ⟨x, .inr hx, h⟩
      · rintro ⟨x, rfl | hx, h⟩
        · exact .inl h
        · exact .inr ⟨x, hx, h⟩

theorem adds_foldlM {α : Type} (E : α → Loc → Tab → Prop) (g : Tables → α → Option Tables) (xs : List α)
    (hg : ∀ x ∈ xs, ∀ r r', (r.map (·.1)).Nodup → g r x = some r' → Adds (E x) r r') {r r' : Tables}
    (hr : (r.map (·.1)).Nodup) (h : xs.foldlM g r = some r') : Adds (fun l t => ∃ x ∈ xs, E x l t) r r' := by
  induction xs generalizing r with
  | nil =>
    simp only [List.foldlM_nil] at h
    have h : r = r' := by simpa using h
    subst h
    exact (Adds.refl hr).congr (by simp)
  | cons x rest ih =>
    rw [List.foldlM_cons] at h
    cases hs : g r x with
    | none => rw [hs] at h; exact absurd h (by simp)
    | some r1 =>
      rw [hs] at h
      have h1 := hg x (by simp) r r1 hr hs
      refine (h1.trans (ih (fun y hy => hg y (List.mem_cons_of_mem _ hy)) h1.nodup h)).congr ?_
      intro l t
      simp only [List.mem_cons]
      constructor
      · rintro (h | ⟨y, hy, h⟩)
        · exact ⟨x, .inl rfl, h⟩
        · exact ⟨y, .inr hy, h⟩
      · rintro ⟨y, rfl | hy, h⟩
        · exact .inl h
        · exact .inr ⟨y, hy, h⟩

/-- The tables of one part of a collection. -/
def PartTab (f : Frozen) : CF → Loc → Tab → Prop
  | .linear sid, l, t => SegTab f sid l t
  | .branch bid, l, t => ∃ b, f.branches[bid]? = some b ∧
      ((∃ sid ∈ b.splits, SegTab f sid l t) ∨ (∃ cid ∈ b.nested, InTree f cid l t) ∨
        l = b.reachTo ∧ t = .attached bid)

theorem inTree_iff (f : Frozen) (cid : Nat) (l : Loc) (t : Tab) :
    InTree f cid l t ↔ ∃ c, f.colls[cid]? = some c ∧ ∃ part ∈ c.data, PartTab f part l t := by
  constructor
  · intro h
    cases h with
    | linear h1 h2 h3 h4 => exact ⟨_, h1, _, h2, _, h3, h4, rfl, rfl⟩
    | split h1 h2 h3 h4 h5 h6 => exact ⟨_, h1, _, h2, _, h3, .inl ⟨_, h4, _, h5, h6, rfl, rfl⟩⟩
    | attached h1 h2 h3 => exact ⟨_, h1, _, h2, _, h3, .inr (.inr ⟨rfl, rfl⟩)⟩
    | nested h1 h2 h3 h4 h5 => exact ⟨_, h1, _, h2, _, h3, .inr (.inl ⟨_, h4, h5⟩)⟩
  · rintro ⟨c, hc, part, hp, h⟩
    cases part with
    | linear sid =>
      obtain ⟨s, h1, h2, rfl, rfl⟩ := h
      exact .linear hc hp h1 h2
    | branch bid =>
      obtain ⟨b, hb, ⟨sid, hs, s, h1, h2, rfl, rfl⟩ | ⟨cid', hn, h⟩ | ⟨rfl, rfl⟩⟩ := h
      · exact .split hc hp hb hs h1 h2
      · exact .nested hc hp hb hn h
      · exact .attached hc hp hb

theorem adds_collection {f : Frozen} (fuel : Nat) {cid : Nat} {r r' : Tables} (hr : (r.map (·.1)).Nodup)
    (h : insertCollection f fuel r cid = some r') : Adds (InTree f cid) r r' := by
  induction fuel generalizing cid r r' with
  | zero => exact absurd h (by simp [insertCollection])
  | succ fuel ih =>
    rw [insertCollection] at h
    dsimp only at h
    cases hc : f.colls[cid]? with
    | none => rw [hc] at h; exact absurd h (by simp)
    | some c =>
      rw [hc] at h
      dsimp only at h
      have := adds_foldlM (PartTab f) _ c.data ?_ hr h
      · refine this.congr ?_
        intro l t
        rw [inTree_iff]
        constructor
        · intro h; exact ⟨c, hc, h⟩
        · rintro ⟨c', hc', h⟩
          rw [hc] at hc'
          simp only [Option.some.injEq] at hc'
          subst hc'
          exact h
      · intro part _ r r' hr hp
        cases part with
        | linear sid => exact adds_segment hr hp
        | branch bid =>
          dsimp only at hp
          cases hb : f.branches[bid]? with
          | none => rw [hb] at hp; exact absurd hp (by simp)
          | some b =>
            rw [hb] at hp
            dsimp only at hp
            cases h1 : insertSegments f [] b.splits with
            | none => rw [h1] at hp; exact absurd hp (by simp)
            | some temp =>
              rw [h1] at hp
              dsimp only at hp
              cases h2 : b.nested.foldlM (insertCollection f fuel) temp with
              | none => rw [h2] at hp; exact absurd hp (by simp)
              | some temp2 =>
                rw [h2] at hp
                dsimp only at hp
                cases h3 : f.branchScope bid with
                | none => rw [h3] at hp; exact absurd hp (by simp)
                | some sc =>
                  rw [h3] at hp
                  simp only [Option.some.injEq] at hp
                  subst hp
                  have a1 := adds_segments b.splits (by simp) h1
                  have a2 := adds_foldlM (InTree f) _ b.nested (fun x _ r r' hr h => ih hr h) a1.nodup h2
                  have a3 := adds_extend hr (a1.trans a2)
                  refine (a3.trans (adds_push a3.nodup _ _)).congr ?_
                  intro l t
                  simp only [PartTab]
                  constructor
                  · rintro ((h | h) | h)
                    · exact ⟨b, hb, .inl h⟩
                    · exact ⟨b, hb, .inr (.inl h)⟩
                    · exact ⟨b, hb, .inr (.inr h)⟩
                  · rintro ⟨b', hb', h⟩
                    rw [hb] at hb'
                    simp only [Option.some.injEq] at hb'
                    subst hb'
                    rcases h with h | h | h
                    · exact .inl (.inl h)
                    · exact .inl (.inr h)
                    · exact .inr h

/-! ## Properties -/

/-- Nothing is filed that was not there before and is not a table of the body. -/
theorem C44_only {f : Frozen} {fuel : Nat} {r r' : Tables} {cid : Nat} (hr : (r.map (·.1)).Nodup)
    (h : insertCollection f fuel r cid = some r') {l : Loc} {t : Tab} (ht : Filed r' l t) :
    Filed r l t ∨ InTree f cid l t := (adds_collection fuel hr h).only l t ht

/-- A table whose end no other table of the body shares is present in the result; so is every earlier table
whose end no table of the body has.  Missing for the full claim: tables with a common end. -/
theorem C44_kept_partial {f : Frozen} {fuel : Nat} {r r' : Tables} {cid : Nat} (hr : (r.map (·.1)).Nodup)
    (h : insertCollection f fuel r cid = some r') :
    (∀ l t, InTree f cid l t → (∀ t', InTree f cid l t' → t' = t) → Filed r' l t) ∧
    ∀ l t, Filed r l t → (∀ t', ¬InTree f cid l t') → Filed r' l t :=
  ⟨(adds_collection fuel hr h).added, (adds_collection fuel hr h).kept⟩

theorem insertSegments_total {f : Frozen} (sids : List Nat) (r : Tables) (h : ∀ sid ∈ sids, sid < f.segs.length) :
    ∃ r', insertSegments f r sids = some r' := by
  induction sids generalizing r with
  | nil => exact ⟨r, rfl⟩
  | cons sid rest ih =>
    have : ∃ r1, insertSegment f r sid = some r1 := by
      unfold insertSegment
      rw [List.getElem?_eq_getElem (h sid (by simp))]
      dsimp only
      split <;> exact ⟨_, rfl⟩
    obtain ⟨r1, h1⟩ := this
    rw [insertSegments, h1]
    exact ih r1 (fun x hx => h x (List.mem_cons_of_mem _ hx))

theorem foldlM_total {α : Type} (g : Tables → α → Option Tables) (xs : List α)
    (hg : ∀ x ∈ xs, ∀ r, ∃ r', g r x = some r') (r : Tables) : ∃ r', xs.foldlM g r = some r' := by
  induction xs generalizing r with
  | nil => exact ⟨r, rfl⟩
  | cons x rest ih =>
    obtain ⟨r1, h1⟩ := hg x (by simp) r
    rw [List.foldlM_cons, h1]
    exact ih (fun y hy => hg y (List.mem_cons_of_mem _ hy)) r1

theorem collection_total {f : Frozen} (hc : Complete f)
    (hn : ∀ (cid : Nat) (c : Coll), f.colls[cid]? = some c → ∀ bid, .branch bid ∈ c.data →
      ∃ b : Branch, f.branches[bid]? = some b ∧ ∀ x ∈ b.nested, cid < x)
    (hs : ∀ b ∈ f.branches, b.splits ≠ []) (fuel : Nat) {cid : Nat} (hcid : cid < f.colls.length)
    (hfuel : f.colls.length ≤ fuel + cid) (r : Tables) : ∃ r', insertCollection f fuel r cid = some r' := by
  induction fuel generalizing cid r with
  | zero => omega
  | succ fuel ih =>
    rw [insertCollection]
    dsimp only
    rw [List.getElem?_eq_getElem hcid]
    dsimp only
    apply foldlM_total
    intro part hp r
    have hv := hc.2.1 _ (List.getElem_mem hcid) part hp
    cases part with
    | linear sid =>
      obtain ⟨r', h⟩ := insertSegments_total [sid] r (by simpa using hv)
      rw [insertSegments] at h
      cases h1 : insertSegment f r sid with
      | none => rw [h1] at h; exact absurd h (by simp)
      | some r1 => exact ⟨r1, h1⟩
    | branch bid =>
      obtain ⟨b, hb, hlt⟩ := hn cid _ (List.getElem?_eq_getElem hcid) bid hp
      have hbm := List.mem_of_getElem? hb
      obtain ⟨hsp, hnn⟩ := hc.2.2 b hbm
      obtain ⟨temp, h1⟩ := insertSegments_total b.splits [] hsp
      obtain ⟨temp2, h2⟩ := foldlM_total (insertCollection f fuel) b.nested
        (fun x hx r => ih (hnn x hx) (by have := hlt x hx; omega) r) temp
      have h3 : ∃ sc, f.branchScope bid = some sc := by
        unfold Frozen.branchScope
        rw [hb]
        dsimp only
        cases hsl : b.splits with
        | nil => exact absurd hsl (hs b hbm)
        | cons sid rest =>
          dsimp only
          rw [List.getElem?_eq_getElem (hsp sid (by simp [hsl]))]
          exact ⟨_, rfl⟩
      obtain ⟨sc, h3⟩ := h3
      dsimp only
      rw [hb]
      dsimp only
      rw [h1]
      dsimp only
      rw [h2]
      dsimp only
      rw [h3]
      exact ⟨_, rfl⟩

/-- Collecting the tables of a delivered body whose branches all have split steps ends, without a failed
lookup. -/
theorem C44_total {tie : Bool} {m : Mapper} (hm : m.Proper) {s : St} {g : List (Nat × Nat)}
    (h : Run tie m s g) {f : Frozen} (hf : s.freeze = .ok f) (hs : ∀ b ∈ f.branches, b.splits ≠ []) (r : Tables) :
    ∃ r', insertCollection f f.colls.length r 0 = some r' := by
  obtain ⟨h1, _, h3⟩ := C47_complete hm h hf
  exact collection_total h1 h3 hs _ h1.1 (by omega) r

def nestedClosed : St := closed (closed nestedInner 1) 0
def nestedFrozen : Frozen := okOr ⟨[], [], [], []⟩ nestedClosed.freeze

/-- Two tests, one in the other, that both go on to one block: the table of the outer step to that block is
overwritten by the inner one. -/
theorem C44_lost : Run true nestedIf.mapper nestedClosed [] ∧ nestedClosed.freeze = .ok nestedFrozen ∧
    InTree nestedFrozen 0 ⟨2, 0⟩ (.seg 1) ∧
    ∃ r, insertCollection nestedFrozen nestedFrozen.colls.length [] 0 = some r ∧ ¬Filed r ⟨2, 0⟩ (.seg 1) := by
  refine ⟨?_, ?_, ?_, ?_⟩
  · exact run_closed (run_closed (run_nestedInner true) (by simp) (by decide +kernel)) (by simp) (by decide +kernel)
  · exact eq_okOr (by decide +kernel)
  · have h1 : nestedFrozen.colls[0]? = some ⟨[.branch 0], none⟩ := by decide +kernel
    have h2 : nestedFrozen.branches[0]? = some ⟨0, ⟨0, 1⟩, ⟨2, 0⟩, [0, 1], [1, 2]⟩ := by decide +kernel
    have h3 : nestedFrozen.segs[1]? = some ⟨⟨0, 0⟩, ⟨2, 0⟩, 0, 0⟩ := by decide +kernel
    exact InTree.split h1 (by simp) h2 (by simp) h3 (by simp)
  · refine ⟨[(⟨1, 0⟩, [.seg 0]), (⟨2, 0⟩, [.seg 3, .attached 0]), (⟨3, 0⟩, [.seg 2]), (⟨1, 1⟩, [.attached 1])],
      by decide +kernel, ?_⟩
    rintro ⟨v, hv, ht⟩
    simp only [List.mem_cons, Prod.mk.injEq, List.not_mem_nil, or_false] at hv
    rcases hv with ⟨h, rfl⟩ | ⟨h, rfl⟩ | ⟨h, rfl⟩ | ⟨h, rfl⟩ <;> simp at h ht

end Verif.Segments
