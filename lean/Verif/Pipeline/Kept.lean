import Verif.Pipeline.Programs
/-!
# C103: tables that are not displaced

A finer account of which tables survive when they are collected (C44): those of a step that ends where a branch ends,
if it is one of the steps into this branch.  This is what happens where a loop is left.
-/
namespace Verif.Segments

open Verif.Cfg

/-- Where `l` is a key, the table is filed there. -/
def Held (l : Loc) (t : Tab) (r : Tables) : Prop := l ∈ r.map (·.1) → Filed r l t

/-- The table is filed under `l` if it is one of those that are added or was there before. -/
structure Keeps (l : Loc) (t : Tab) (E : Prop) (r r' : Tables) : Prop where
  nodup : (r'.map (·.1)).Nodup
  old : Filed r l t → Filed r' l t
  new : E → Filed r' l t
  held : Held l t r → Held l t r'

theorem Keeps.refl {l : Loc} {t : Tab} {E : Prop} {r : Tables} (h : (r.map (·.1)).Nodup) (he : ¬ E) : Keeps l t E r r :=
  ⟨h, id, fun e => (he e).elim, id⟩

theorem Keeps.trans {l : Loc} {t : Tab} {E1 E2 : Prop} {r r1 r2 : Tables} (h1 : Keeps l t E1 r r1)
    (h2 : Keeps l t E2 r1 r2) : Keeps l t (E1 ∨ E2) r r2 :=
  ⟨h2.nodup, fun h => h2.old (h1.old h), fun h => h.elim (fun h => h2.old (h1.new h)) h2.new,
    fun h => h2.held (h1.held h)⟩

theorem Keeps.congr {l : Loc} {t : Tab} {E E' : Prop} {r r' : Tables} (h : Keeps l t E r r') (he : E' → E) :
    Keeps l t E' r r' := ⟨h.nodup, h.old, fun e => h.new (he e), h.held⟩

theorem keeps_segment {f : Frozen} {l : Loc} {t : Tab} (hs : ∀ sid t', SegTab f sid l t' → t' = t) {r r' : Tables}
    {sid : Nat} (hr : (r.map (·.1)).Nodup) (h : insertSegment f r sid = some r') :
    Keeps l t (SegTab f sid l t) r r' := by
  unfold insertSegment at h
  cases hg : f.segs[sid]? with
  | none => rw [hg] at h; exact absurd h (by simp)
  | some s =>
    rw [hg] at h
    dsimp only at h
    split at h
    · rename_i heq
      cases h
      refine .refl hr ?_
      rintro ⟨s', h1, h2, _⟩
      rw [hg] at h1
      cases h1
      exact h2 heq
    · rename_i hne
      cases h
      have key : s.to = l → Filed (pushTab r s.to (.seg sid)) l t := by
        rintro rfl
        have := hs sid _ ⟨s, hg, hne, rfl, rfl⟩
        exact (filed_pushTab _ _ _ _ _).2 (.inr ⟨rfl, this.symm⟩)
      refine ⟨nodup_pushTab hr _ _, fun h => (filed_pushTab _ _ _ _ _).2 (.inl h), ?_, ?_⟩
      · rintro ⟨s', h1, h2, h3, h4⟩
        rw [hg] at h1
        cases h1
        exact key h3.symm
      · intro hh hk
        rcases (keys_pushTab _ _ _ _).1 hk with hk | hk
        · exact (filed_pushTab _ _ _ _ _).2 (.inl (hh hk))
        · exact key hk.symm

theorem keeps_segments {f : Frozen} {l : Loc} {t : Tab} (hs : ∀ sid t', SegTab f sid l t' → t' = t) (sids : List Nat)
    {r r' : Tables} (hr : (r.map (·.1)).Nodup) (h : insertSegments f r sids = some r') :
    Keeps l t (∃ sid ∈ sids, SegTab f sid l t) r r' := by
  induction sids generalizing r with
  | nil =>
    simp only [insertSegments, Option.some.injEq] at h
    subst h
    exact .refl hr (by simp)
  | cons sid rest ih =>
    rw [insertSegments] at h
    cases hg : insertSegment f r sid with
    | none => rw [hg] at h; exact absurd h (by simp)
    | some r1 =>
      rw [hg] at h
      have h1 := keeps_segment hs hr hg
      refine (h1.trans (ih h1.nodup h)).congr ?_
      rintro ⟨x, hx, h⟩
      rcases List.mem_cons.1 hx with rfl | hx
      · exact .inl h
      · exact .inr ⟨x, hx, h⟩

theorem keeps_foldlM {α : Type} {l : Loc} {t : Tab} (E : α → Prop) (g : Tables → α → Option Tables) (xs : List α)
    (hg : ∀ x ∈ xs, ∀ r r', (r.map (·.1)).Nodup → g r x = some r' → Keeps l t (E x) r r') {r r' : Tables}
    (hr : (r.map (·.1)).Nodup) (h : xs.foldlM g r = some r') : Keeps l t (∃ x ∈ xs, E x) r r' := by
  induction xs generalizing r with
  | nil =>
    simp only [List.foldlM_nil] at h
    have h : r = r' := by simpa using h
    subst h
    exact .refl hr (by simp)
  | cons x rest ih =>
    rw [List.foldlM_cons] at h
    cases hs : g r x with
    | none => rw [hs] at h; exact absurd h (by simp)
    | some r1 =>
      rw [hs] at h
      have h1 := hg x (by simp) r r1 hr hs
      refine (h1.trans (ih (fun y hy => hg y (List.mem_cons_of_mem _ hy)) h1.nodup h)).congr ?_
      rintro ⟨y, hy, h⟩
      rcases List.mem_cons.1 hy with rfl | hy
      · exact .inl h
      · exact .inr ⟨y, hy, h⟩

theorem keeps_extend {l : Loc} {t : Tab} {E : Prop} {r temp : Tables} (hr : (r.map (·.1)).Nodup)
    (h : Keeps l t E [] temp) : Keeps l t E r (extendTab r temp) := by
  obtain ⟨h1, h2, h3⟩ := extendTab_spec r temp hr h.nodup
  have hh : Held l t temp := h.held (by intro hk; simp at hk)
  refine ⟨h1, ?_, fun e => (h3 l t).2 (.inl (h.new e)), ?_⟩
  · intro ho
    by_cases hk : l ∈ temp.map (·.1)
    · exact (h3 l t).2 (.inl (hh hk))
    · exact (h3 l t).2 (.inr ⟨hk, ho⟩)
  · intro ho hk
    by_cases hk' : l ∈ temp.map (·.1)
    · exact (h3 l t).2 (.inl (hh hk'))
    · rcases (h2 l).1 hk with hk | hk
      · exact (h3 l t).2 (.inr ⟨hk', ho hk⟩)
      · exact absurd hk hk'

theorem keeps_collection {f : Frozen} {l : Loc} {t : Tab} (hs : ∀ sid t', SegTab f sid l t' → t' = t)
    (hb : ∀ (bid : Nat) (b : Branch), f.branches[bid]? = some b → b.reachTo = l → ∃ sid ∈ b.splits, SegTab f sid l t)
    (ht : ∀ bid, t ≠ .attached bid) (fuel : Nat) {cid : Nat} {r r' : Tables} (hr : (r.map (·.1)).Nodup)
    (h : insertCollection f fuel r cid = some r') : Keeps l t (InTree f cid l t) r r' := by
  induction fuel generalizing cid r r' with
  | zero => exact absurd h (by simp [insertCollection])
  | succ fuel ih =>
    rw [insertCollection] at h
    dsimp only at h
    cases hc : f.colls[cid]? with
    | none => rw [hc] at h; exact absurd h (by simp)
    | some c =>
      rw [hc] at h
      dsimp only at h
      have := keeps_foldlM (l := l) (t := t) (fun part => PartTab f part l t) _ c.data ?_ hr h
      · refine this.congr ?_
        rw [inTree_iff]
        rintro ⟨c', hc', h⟩
        rw [hc] at hc'
        cases hc'
        exact h
      · intro part _ r r' hr hp
        cases part with
        | linear sid => exact keeps_segment hs hr hp
        | branch bid =>
          dsimp only at hp
          cases hbr : f.branches[bid]? with
          | none => rw [hbr] at hp; exact absurd hp (by simp)
          | some b =>
            rw [hbr] at hp
            dsimp only at hp
            cases h1 : insertSegments f [] b.splits with
            | none => rw [h1] at hp; exact absurd hp (by simp)
            | some temp =>
              rw [h1] at hp
              dsimp only at hp
              cases h2 : b.nested.foldlM (insertCollection f fuel) temp with
              | none => rw [h2] at hp; exact absurd hp (by simp)
              | some temp2 =>
                rw [h2] at hp
                dsimp only at hp
                cases h3 : f.branchScope bid with
                | none => rw [h3] at hp; exact absurd hp (by simp)
                | some sc =>
                  rw [h3] at hp
                  simp only [Option.some.injEq] at hp
                  subst hp
                  have a1 := keeps_segments hs b.splits (by simp) h1
                  have a2 := keeps_foldlM (fun cid => InTree f cid l t) _ b.nested (fun x _ r r' hr h => ih hr h)
                    a1.nodup h2
                  have a3 := keeps_extend hr (a1.trans a2)
                  refine ⟨nodup_pushTab a3.nodup _ _, fun h => (filed_pushTab _ _ _ _ _).2 (.inl (a3.old h)), ?_, ?_⟩
                  · rintro ⟨b', hb', h⟩
                    rw [hbr] at hb'
                    cases hb'
                    rcases h with h | h | ⟨_, h⟩
                    · exact (filed_pushTab _ _ _ _ _).2 (.inl (a3.new (.inl h)))
                    · exact (filed_pushTab _ _ _ _ _).2 (.inl (a3.new (.inr h)))
                    · exact absurd h (ht bid)
                  · intro hh hk
                    rcases (keys_pushTab _ _ _ _).1 hk with hk | hk
                    · exact (filed_pushTab _ _ _ _ _).2 (.inl (a3.held hh hk))
                    · exact (filed_pushTab _ _ _ _ _).2 (.inl (a3.new (.inl (hb bid b hbr hk.symm))))

/-- **C103 (tables that share an end).** The table of a step is present in the result, if no other step ends where it
ends and it is one of the steps into every branch that ends there. -/
theorem C103_kept {f : Frozen} {fuel : Nat} {r r' : Tables} {cid : Nat} (hr : (r.map (·.1)).Nodup)
    (h : insertCollection f fuel r cid = some r') {k : Nat} {s : Seg} (hs : f.segs[k]? = some s)
    (hin : InTree f cid s.to (.seg k))
    (hend : ∀ (j : Nat) (s' : Seg), f.segs[j]? = some s' → s'.from ≠ s'.to → s'.to = s.to → j = k)
    (hjoin : ∀ b ∈ f.branches, b.reachTo = s.to → k ∈ b.splits) : Filed r' s.to (.seg k) := by
  have hne : s.from ≠ s.to := by
    rcases inTree_made hin with ⟨sid, s', h1, h2, h3, h4⟩ | ⟨_, _, _, _, h4⟩
    · cases h4
      rw [hs] at h1
      cases h1
      exact h2
    · cases h4
  refine (keeps_collection (f := f) (l := s.to) (t := .seg k) ?_ ?_ (fun _ => by simp) fuel hr h).new hin
  · rintro sid t' ⟨s', h1, h2, h3, rfl⟩
    rw [hend sid s' h1 h2 h3.symm]
  · intro bid b hb he
    exact ⟨k, hjoin b (List.mem_of_getElem? hb) he, s, hs, hne, rfl, rfl⟩

end Verif.Segments

namespace Verif.Pipeline

open Verif.Cfg Verif.Segments Verif.Steps Verif.Permissions Verif.HirSteps

/-- **C103 (a step is shown).** For any control flow: a step that changes a visible place is shown with exactly the
permissions before and after, if no other step ends where it ends, it is one of the steps into each branch that joins
there, it is the only one on its line to change the place, and no step is due in the `let`s that declare the
variable. -/
theorem C103_shown_partial {b : Body} {fuel : Nat} {ord : List (Loc × Nat) → List (Loc × Nat)} {value : Expr} {f : Frozen}
    {locals : List (Nat × List Nat)} (hf : compute (.ofBody b fuel ord) value = .steps f locals)
    {c : Ctxt} {order : Tables → Tables} (ho : ∀ m, (order m).Perm m) {src : List Char} {err : Option Nat}
    {visible : Place → Bool} {ds : List Display}
    (hd : finalizeBody c f locals order src err visible .changes = some ds)
    {p : Place} (hp : p ∈ c.places) (hv : visible p = true)
    (hx : ∀ e ∈ letsExpr b.mapper.isSwitch b.locationSuccessor value, p.local_ ∈ e.1 → e.2 = [])
    {k : Nat} {s : Seg} (hs : f.segs[k]? = some s) (hne : Changes c p s)
    (hend : ∀ (j : Nat) (s' : Seg), f.segs[j]? = some s' → s'.from ≠ s'.to → s'.to = s.to → j = k)
    (hjoin : ∀ x ∈ f.branches, x.reachTo = s.to → k ∈ x.splits)
    {line : Nat} (hline : OnLine src err (c.endOf s.span) line)
    (hu : ∀ (j : Nat) (s' : Seg), f.segs[j]? = some s' → Changes c p s' → lineOf src (c.endOf s'.span) = line → j = k)
    (hb : lineOf src c.brace = line → bottomData.permissions = (c.data c.start p).permissions) :
    ∃ d, Shown src ds line p d ∧ Says d (c.data s.from p).permissions (c.data s.to p).permissions := by
  obtain ⟨v, h1, _, _, h4, _⟩ := compute_steps hf
  obtain ⟨g, hmv⟩ := all_body (tracked_closed (E := .ofBody b fuel ord) (mapper_proper b)) value V.make v h1 [] .make
  have htree := C101_in_tree (mapper_proper b) hmv.run h4
  obtain ⟨hcov, hatt⟩ := C97_not_hidden (c := c) hf hp hx
  have hft : s.from ≠ s.to := by
    intro h
    exact hne (by rw [h])
  obtain ⟨m, _, hm, _, _, _⟩ := finalize_tables ho hd
  have hkept := C103_kept (by simp) hm hs ((htree _ _).2 (.inl ⟨k, s, hs, hft, rfl, rfl⟩)) hend hjoin
  refine ⟨_, shown_only ho hd ⟨m, s.to, hm, hkept⟩ (hcov k s hs) hline hv hne ?_, Frontend.C76_cells _ _⟩
  intro t a b' hi _ hc hl hn
  cases hc with
  | entry _ => exact absurd (hb hl) hn
  | seg _ hs' _ => rw [hu _ _ hs' hn hl]
  | attached a1 a2 a3 a4 a5 => exact (hatt _ _ _ _ (.attached a1 a2 a3 a4 a5)).elim

end Verif.Pipeline
