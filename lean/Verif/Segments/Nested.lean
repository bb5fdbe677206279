import Verif.Segments.Join
import Verif.Cfg.Flow
import Verif.Cfg.Chain
/-!
# The mapper on properly nested conditionals

The dominance tests, the join points and the search for a switch on a body whose normal control flow is described by
a `Flow`.
-/
namespace Verif.Segments

open Verif.Graph Verif.Cfg

/-- A part of a stretch: from one of its blocks to its end, or such a part of one of its arms. -/
inductive Sub (G : Flow) : Flow → Prop
  | refl : Sub G G
  | blk {b r} : Sub G r → Sub G (.blk b r)
  | t {b t e r} : Sub G t → Sub G (.fork b t e r)
  | e {b t e r} : Sub G e → Sub G (.fork b t e r)
  | r {b t e r} : Sub G r → Sub G (.fork b t e r)

/-- Exactly the conditionals end in a switch. -/
def Switched (sw : Nat → Bool) : Flow → Prop
  | .nil => True
  | .blk b r => sw b = false ∧ Switched sw r
  | .fork b t e r => sw b = true ∧ Switched sw t ∧ Switched sw e ∧ Switched sw r

/-- The normal control flow of the body is described by the stretch. -/
structure Structured (b : Body) (F : Flow) : Prop where
  start : F.first none = some 0
  lay : F.Lay b.succ none
  nodup : F.blocks.Nodup
  exit : b.returns = F.spine.getLast?.toList
  real : ∀ n ∈ F.blocks, ¬ EndsInFalseEdge b n
  switched : Switched b.mapper.isSwitch F

namespace Sub

theorem trans {G H F : Flow} (h1 : Sub G H) (h2 : Sub H F) : Sub G F := by
  induction h2 with
  | refl => exact h1
  | blk _ ih => exact .blk ih
  | t _ ih => exact .t ih
  | e _ ih => exact .e ih
  | r _ ih => exact .r ih

theorem mem {G F : Flow} (h : Sub G F) {x : Nat} (hx : x ∈ G.blocks) : x ∈ F.blocks := by
  induction h with
  | refl => exact hx
  | blk _ ih => exact Flow.mem_blk.2 (.inr ih)
  | t _ ih => exact Flow.mem_fork.2 (.inr (.inl ih))
  | e _ ih => exact Flow.mem_fork.2 (.inr (.inr (.inl ih)))
  | r _ ih => exact Flow.mem_fork.2 (.inr (.inr (.inr ih)))

theorem nodup {G F : Flow} (h : Sub G F) (hn : F.blocks.Nodup) : G.blocks.Nodup := by
  induction h with
  | refl => exact hn
  | blk _ ih => exact ih (by simp only [Flow.blocks, List.nodup_cons] at hn; exact hn.2)
  | t _ ih => exact ih (Flow.apart hn).nt
  | e _ ih => exact ih (Flow.apart hn).ne
  | r _ ih => exact ih (Flow.apart hn).nr

theorem switched {sw : Nat → Bool} {G F : Flow} (h : Sub G F) (hs : Switched sw F) : Switched sw G := by
  induction h with
  | refl => exact hs
  | blk _ ih => exact ih hs.2
  | t _ ih => exact ih hs.2.1
  | e _ ih => exact ih hs.2.2.1
  | r _ ih => exact ih hs.2.2.2

theorem lay {succ : Nat → List Nat} {G F : Flow} (h : Sub G F) : ∀ {x}, F.Lay succ x → ∃ y, G.Lay succ y := by
  induction h with
  | refl => exact fun {x} h => ⟨x, h⟩
  | blk _ ih => exact fun {x} h => ih h.2
  | t _ ih => exact fun {x} h => ih h.2.2.2.2.1
  | e _ ih => exact fun {x} h => ih h.2.2.2.2.2.1
  | r _ ih => exact fun {x} h => ih h.2.2.2.2.2.2

theorem fore {G F : Flow} (h : Sub G F) (hn : F.blocks.Nodup) {u v : Nat} (hu : u ∈ G.blocks) :
    F.Fore u v ↔ G.Fore u v := by
  induction h with
  | refl => exact Iff.rfl
  | @blk b r hs ih =>
    rw [← ih (by simp only [Flow.blocks, List.nodup_cons] at hn; exact hn.2)]
    have hb : u ≠ b := by
      rintro rfl
      simp only [Flow.blocks, List.nodup_cons] at hn
      exact hn.1 (hs.mem hu)
    simp [Flow.Fore, hb]
  | @t b t e r hs ih =>
    have ap := Flow.apart hn
    rw [← ih ap.nt]
    have hut := hs.mem hu
    have hb : u ≠ b := fun h => ap.bt (h ▸ hut)
    have he : ¬ e.Fore u v := fun h => ap.te u hut (Flow.fore_mem h).1
    have hr : ¬ r.Fore u v := fun h => ap.tr u hut (Flow.fore_mem h).1
    simp [Flow.Fore, hb, he, hr]
  | @e b t e r hs ih =>
    have ap := Flow.apart hn
    rw [← ih ap.ne]
    have hut := hs.mem hu
    have hb : u ≠ b := fun h => ap.be (h ▸ hut)
    have he : ¬ t.Fore u v := fun h => ap.te u (Flow.fore_mem h).1 hut
    have hr : ¬ r.Fore u v := fun h => ap.er u hut (Flow.fore_mem h).1
    simp [Flow.Fore, hb, he, hr]
  | @r b t e r hs ih =>
    have ap := Flow.apart hn
    rw [← ih ap.nr]
    have hut := hs.mem hu
    have hb : u ≠ b := fun h => ap.br (h ▸ hut)
    have he : ¬ t.Fore u v := fun h => ap.tr u (Flow.fore_mem h).1 hut
    have hr : ¬ e.Fore u v := fun h => ap.er u (Flow.fore_mem h).1 hut
    simp [Flow.Fore, hb, he, hr]

theorem aft {G F : Flow} (h : Sub G F) (hn : F.blocks.Nodup) {u v : Nat} (hu : u ∈ G.blocks) (hv : v ∈ G.blocks) :
    F.Aft u v ↔ G.Aft u v := by
  induction h with
  | refl => exact Iff.rfl
  | @blk b r hs ih =>
    rw [← ih (by simp only [Flow.blocks, List.nodup_cons] at hn; exact hn.2)]
    have hb : u ≠ b := by
      rintro rfl
      simp only [Flow.blocks, List.nodup_cons] at hn
      exact hn.1 (hs.mem hu)
    simp [Flow.Aft, hb]
  | @t b t e r hs ih =>
    have ap := Flow.apart hn
    rw [← ih ap.nt]
    have hut := hs.mem hu
    have hb : v ∉ r.spine := fun h => ap.tr v (hs.mem hv) (Flow.spine_blocks h)
    have he : ¬ e.Aft u v := fun h => ap.te u hut (Flow.aft_mem h).1
    have hr : ¬ r.Aft u v := fun h => ap.tr u hut (Flow.aft_mem h).1
    simp [Flow.Aft, hb, he, hr]
  | @e b t e r hs ih =>
    have ap := Flow.apart hn
    rw [← ih ap.ne]
    have hut := hs.mem hu
    have hb : v ∉ r.spine := fun h => ap.er v (hs.mem hv) (Flow.spine_blocks h)
    have he : ¬ t.Aft u v := fun h => ap.te u (Flow.aft_mem h).1 hut
    have hr : ¬ r.Aft u v := fun h => ap.er u hut (Flow.aft_mem h).1
    simp [Flow.Aft, hb, he, hr]
  | @r b t e r hs ih =>
    have ap := Flow.apart hn
    rw [← ih ap.nr]
    have hut := hs.mem hu
    have hb : u ≠ b ∧ u ∉ t.blocks ∧ u ∉ e.blocks :=
      ⟨fun h => ap.br (h ▸ hut), fun h => ap.tr u h hut, fun h => ap.er u h hut⟩
    have he : ¬ t.Aft u v := fun h => ap.tr u (Flow.aft_mem h).1 hut
    have hr : ¬ e.Aft u v := fun h => ap.er u (Flow.aft_mem h).1 hut
    simp [Flow.Aft, hb, he, hr]

end Sub

/-! ## Order on a stretch -/

theorem fore_first : ∀ {r : Flow} {j c : Nat}, r.first none = some j → c ∈ r.blocks → c = j ∨ r.Fore j c
  | .nil, _, _, h, _ => by simp [Flow.first] at h
  | .blk b r, j, c, h, hc => by
    simp only [Flow.first, Option.some.injEq] at h
    rcases Flow.mem_blk.1 hc with h' | h'
    · exact .inl (h'.trans h)
    · exact .inr (.inl ⟨h.symm, h'⟩)
  | .fork b t e r, j, c, h, hc => by
    simp only [Flow.first, Option.some.injEq] at h
    rcases Flow.mem_fork.1 hc with h' | h'
    · exact .inl (h'.trans h)
    · exact .inr (.inl ⟨h.symm, h'⟩)

theorem aft_last : ∀ {succ : Nat → List Nat} {r : Flow} {x : Option Nat} {u z : Nat}, r.Lay succ x →
    r.spine.getLast? = some z → u ∈ r.blocks → u = z ∨ r.Aft u z
  | _, .nil, _, _, _, _, h, _ => by simp [Flow.spine] at h
  | succ, .blk b r, x, u, z, hl, h, hu => by
    by_cases hr : r = .nil
    · subst hr
      simp only [Flow.spine, List.getLast?_singleton, Option.some.injEq] at h
      simp only [Flow.blocks, List.mem_singleton] at hu
      exact .inl (hu.trans h)
    · have h' := (Flow.getLast_cons hr).1 h
      rcases Flow.mem_blk.1 hu with hu | hu
      · exact .inr (.inl ⟨hu, Flow.last_spine h'⟩)
      · rcases aft_last hl.2 h' hu with h | h
        · exact .inl h
        · exact .inr (.inr h)
  | succ, .fork b t e r, x, u, z, ⟨_, _, hr, _, _, _, hl⟩, h, hu => by
    have h' := (Flow.getLast_cons hr).1 h
    rcases Flow.mem_fork.1 hu with hu | hu | hu | hu
    · exact .inr (.inl ⟨.inl hu, Flow.last_spine h'⟩)
    · exact .inr (.inl ⟨.inr (.inl hu), Flow.last_spine h'⟩)
    · exact .inr (.inl ⟨.inr (.inr hu), Flow.last_spine h'⟩)
    · rcases aft_last hl h' hu with h | h
      · exact .inl h
      · exact .inr (.inr (.inr (.inr h)))

/-- Of two blocks of a stretch the earlier one comes before the later one on every way, and the other way round. -/
theorem spine_order : ∀ {L : Flow} {i j u v : Nat}, L.spine[i]? = some u → L.spine[j]? = some v → i < j →
    L.Fore u v ∧ L.Aft u v
  | .nil, _, _, _, _, h, _, _ => by simp [Flow.spine] at h
  | .blk b r, i, j, u, v, hi, hj, hij => by
    obtain ⟨j, rfl⟩ : ∃ k, j = k + 1 := ⟨j - 1, by omega⟩
    have hj' : r.spine[j]? = some v := hj
    have hv := List.mem_of_getElem? hj'
    cases i with
    | zero =>
      have : b = u := by simpa [Flow.spine] using hi
      exact ⟨.inl ⟨this.symm, Flow.spine_blocks hv⟩, .inl ⟨this.symm, hv⟩⟩
    | succ i =>
      obtain ⟨h1, h2⟩ := spine_order (L := r) hi hj' (by omega)
      exact ⟨.inr h1, .inr h2⟩
  | .fork b t e r, i, j, u, v, hi, hj, hij => by
    obtain ⟨j, rfl⟩ : ∃ k, j = k + 1 := ⟨j - 1, by omega⟩
    have hj' : r.spine[j]? = some v := hj
    have hv := List.mem_of_getElem? hj'
    cases i with
    | zero =>
      have : b = u := by simpa [Flow.spine] using hi
      exact ⟨.inl ⟨this.symm, .inr (.inr (Flow.spine_blocks hv))⟩, .inl ⟨.inl this.symm, hv⟩⟩
    | succ i =>
      obtain ⟨h1, h2⟩ := spine_order (L := r) hi hj' (by omega)
      exact ⟨.inr (.inr (.inr h1)), .inr (.inr (.inr h2))⟩

namespace Structured

variable {b : Body} {F : Flow}

theorem last (h : Structured b F) : ∃ z, F.spine.getLast? = some z ∧ b.returns = [z] := by
  have hF : F ≠ .nil := by
    rintro rfl
    exact absurd h.start (by simp [Flow.first])
  obtain ⟨z, hz⟩ := Flow.spine_ne hF
  exact ⟨z, hz, by rw [h.exit, hz]; rfl⟩

theorem dom (h : Structured b F) (u v : Nat) : Dominates b.succ u v ↔ v ∈ F.blocks ∧ (u = v ∨ F.Fore u v) :=
  h.lay.dominates h.nodup h.start u v

theorem pdom (h : Structured b F) {u v : Nat} (hu : u ∈ F.blocks) :
    PostDominates b.succ b.returns u v ↔ u = v ∨ F.Aft u v := by
  obtain ⟨z, hz, hr⟩ := h.last
  rw [hr]
  exact h.lay.postDominates h.nodup hz hu

theorem lt (hv : Valid b) (h : Structured b F) {u : Nat} (hu : u ∈ F.blocks) : u < b.length :=
  (dom_lt hv ((h.dom u u).2 ⟨hu, .inl rfl⟩)).1

/-- The block in which the arms of a conditional come together. -/
theorem join (hv : Valid b) (h : Structured b F) {a : Nat} {t e r : Flow} (hs : Sub (.fork a t e r) F) :
    b.mapper.lpd a = r.first none := by
  obtain ⟨x, _, _, hr, _, _, _, hl⟩ := hs.lay h.lay
  obtain ⟨j, hj, hjr⟩ := Flow.first_spine hr
  have ap := Flow.apart (hs.nodup h.nodup)
  have hret : b.returns ≠ [] := by
    obtain ⟨z, _, hz⟩ := h.last
    simp [hz]
  have ha : a ∈ (Flow.fork a t e r).blocks := Flow.mem_fork.2 (.inl rfl)
  have haF := hs.mem ha
  have inR : ∀ {c}, c ∈ r.blocks → c ∈ (Flow.fork a t e r).blocks := fun hc => Flow.mem_fork.2 (.inr (.inr (.inr hc)))
  have hsr : Sub r F := (Sub.r (.refl (G := r))).trans hs
  rw [hj]
  refine (C68_join hv hret a j).2 ⟨?_, ?_, ?_⟩
  · obtain ⟨z, hz⟩ := Flow.spine_ne hr
    have hzr := Flow.last_spine hz
    refine ⟨z, (h.dom a z).2 ⟨hs.mem (inR (Flow.spine_blocks hzr)), .inr ((hs.fore h.nodup ha).2
      (.inl ⟨rfl, .inr (.inr (Flow.spine_blocks hzr))⟩))⟩, fun y hy => ?_⟩
    obtain ⟨hyF, hy⟩ := (h.dom a y).1 hy
    refine (h.pdom hyF).2 ?_
    have hyG : y ∈ (Flow.fork a t e r).blocks := by
      rcases hy with rfl | hy
      · exact ha
      · exact (Flow.fore_mem ((hs.fore h.nodup ha).1 hy)).2
    rw [hs.aft h.nodup hyG (inR (Flow.spine_blocks hzr))]
    rcases Flow.mem_fork.1 hyG with hy | hy | hy | hy
    · exact .inr (.inl ⟨.inl hy, hzr⟩)
    · exact .inr (.inl ⟨.inr (.inl hy), hzr⟩)
    · exact .inr (.inl ⟨.inr (.inr hy), hzr⟩)
    · rcases aft_last hl hz hy with h | h
      · exact .inl h
      · exact .inr (.inr (.inr (.inr h)))
  · have hjr' := Flow.spine_blocks hjr
    refine ⟨fun h => ap.br (h ▸ hjr'), (h.dom a j).2 ⟨hs.mem (inR hjr'), .inr ((hs.fore h.nodup ha).2
      (.inl ⟨rfl, .inr (.inr hjr')⟩))⟩, h.real _ (hs.mem (inR hjr')), (h.pdom haF).2 (.inr ?_)⟩
    exact (hs.aft h.nodup ha (inR hjr')).2 (.inl ⟨.inl rfl, hjr⟩)
  · intro c hc
    have hcF := ((h.dom a c).1 hc.dominated)
    have hcG : c ∈ (Flow.fork a t e r).blocks := by
      rcases hcF.2 with rfl | hy
      · exact ha
      · exact (Flow.fore_mem ((hs.fore h.nodup ha).1 hy)).2
    have hcr : c ∈ r.blocks := by
      rcases (h.pdom haF).1 hc.post with hy | hy
      · exact absurd hy.symm hc.ne
      · rcases (hs.aft h.nodup ha hcG).1 hy with ⟨_, hy⟩ | hy | hy | hy
        · exact Flow.spine_blocks hy
        · exact absurd (Flow.aft_mem hy).1 ap.bt
        · exact absurd (Flow.aft_mem hy).1 ap.be
        · exact absurd (Flow.aft_mem hy).1 ap.br
    refine (h.dom j c).2 ⟨hcF.1, ?_⟩
    rcases fore_first (hj none) hcr with h' | h'
    · exact .inl h'.symm
    · exact .inr ((hsr.fore h.nodup (Flow.spine_blocks hjr)).2 h')

theorem ldom_before (hv : Valid b) (h : Structured b F) {L : Flow} (hs : Sub L F) {c l : Loc}
    (hb : Before L.spine c l) : b.mapper.ldom c l = true ∧ b.mapper.lpdom l c = true := by
  obtain ⟨i, j, hi, hj, hij⟩ := hb
  have hc := Flow.spine_blocks (List.mem_of_getElem? hi)
  have hl := Flow.spine_blocks (List.mem_of_getElem? hj)
  rw [C68_before hv, C68_after hv _ _ (h.lt hv (hs.mem hl)) (h.lt hv (hs.mem hc))]
  by_cases he : c.block = l.block
  · have hij' : i = j ∧ c.idx ≤ l.idx := by
      rcases hij with hij | hij
      · obtain ⟨h1, _⟩ := spine_order hi hj hij
        rw [he] at h1
        exfalso
        have := (hs.fore h.nodup hl).2 h1
        have hd : ∀ (G : Flow) (y : Nat), G.blocks.Nodup → ¬ G.Fore y y := by
          intro G
          induction G with
          | nil => exact fun _ _ h => h
          | blk b r ih =>
            intro y hn hf
            simp only [Flow.blocks, List.nodup_cons] at hn
            rcases hf with ⟨rfl, h⟩ | h
            · exact hn.1 h
            · exact ih y hn.2 h
          | fork b t e r it ie ir =>
            intro y hn hf
            have ap := Flow.apart hn
            rcases hf with ⟨rfl, h⟩ | h | h | h
            · exact h.elim ap.bt fun h => h.elim ap.be ap.br
            · exact it y ap.nt h
            · exact ie y ap.ne h
            · exact ir y ap.nr h
        exact hd F _ h.nodup this
      · exact hij
    exact ⟨.inl ⟨he, hij'.2⟩, .inl ⟨he.symm, hij'.2⟩⟩
  · have hij' : i < j := by
      rcases hij with hij | ⟨rfl, _⟩
      · exact hij
      · rw [hi] at hj
        exact absurd (Option.some.inj hj) he
    obtain ⟨h1, h2⟩ := spine_order hi hj hij'
    exact ⟨.inr ⟨he, (h.dom _ _).2 ⟨hs.mem hl, .inr ((hs.fore h.nodup hc).2 h1)⟩⟩,
      .inr ⟨fun h => he h.symm, (h.pdom (hs.mem hc)).2 (.inr ((hs.aft h.nodup hc hl).2 h2))⟩⟩

/-- Nothing of one arm, and nothing after the conditional, dominates anything in the other arm. -/
theorem ldom_apart (hv : Valid b) (h : Structured b F) {a : Nat} {t e r : Flow} (hs : Sub (.fork a t e r) F)
    {c l : Loc} (hcl : (c.block ∈ t.blocks ∧ l.block ∈ e.blocks) ∨ (c.block ∈ e.blocks ∧ l.block ∈ t.blocks) ∨
      (c.block ∈ r.blocks ∧ (l.block ∈ t.blocks ∨ l.block ∈ e.blocks))) : b.mapper.ldom c l = false := by
  have ap := Flow.apart (hs.nodup h.nodup)
  have key : c.block ∈ (Flow.fork a t e r).blocks → c.block ≠ l.block → ¬ (Flow.fork a t e r).Fore c.block l.block →
      b.mapper.ldom c l = false := by
    intro hc hne hf
    rw [Bool.eq_false_iff]
    intro hd
    rcases (C68_before hv c l).1 hd with ⟨he, _⟩ | ⟨_, hd⟩
    · exact hne he
    · rcases ((h.dom _ _).1 hd).2 with he | hfo
      · exact hne he
      · exact hf ((hs.fore h.nodup hc).1 hfo)
  rcases hcl with ⟨h1, h2⟩ | ⟨h1, h2⟩ | ⟨h1, h2⟩
  · refine key (Flow.mem_fork.2 (.inr (.inl h1))) (fun e => ap.te _ h1 (e ▸ h2)) ?_
    rintro (⟨h3, _⟩ | h3 | h3 | h3)
    · exact ap.bt (h3 ▸ h1)
    · exact ap.te _ (Flow.fore_mem h3).2 h2
    · exact ap.te _ h1 (Flow.fore_mem h3).1
    · exact ap.tr _ h1 (Flow.fore_mem h3).1
  · refine key (Flow.mem_fork.2 (.inr (.inr (.inl h1)))) (fun e => ap.te _ h2 (e ▸ h1)) ?_
    rintro (⟨h3, _⟩ | h3 | h3 | h3)
    · exact ap.be (h3 ▸ h1)
    · exact ap.te _ (Flow.fore_mem h3).1 h1
    · exact ap.te _ h2 (Flow.fore_mem h3).2
    · exact ap.er _ h1 (Flow.fore_mem h3).1
  · have hnr : l.block ∉ r.blocks := fun h' => h2.elim (fun h2 => ap.tr _ h2 h') (fun h2 => ap.er _ h2 h')
    refine key (Flow.mem_fork.2 (.inr (.inr (.inr h1)))) (fun e => hnr (e ▸ h1)) ?_
    rintro (⟨h3, _⟩ | h3 | h3 | h3)
    · exact ap.br (h3 ▸ h1)
    · exact ap.tr _ (Flow.fore_mem h3).1 h1
    · exact ap.er _ (Flow.fore_mem h3).1 h1
    · exact hnr (Flow.fore_mem h3).2

end Structured

/-! ## From a block to the next conditional -/

/-- After blocks without a conditional comes the conditional `G`. -/
def Comes : Flow → Flow → Prop
  | .nil, _ => False
  | .blk _ r, G => Comes r G
  | .fork b t e r, G => .fork b t e r = G

/-- From the block `u` of the stretch on, the next conditional is `G`. -/
def Leads : Flow → Nat → Flow → Prop
  | .nil, _, _ => False
  | .blk b r, u, G => (u = b ∧ Comes r G) ∨ Leads r u G
  | .fork b t e r, u, G => (u = b ∧ .fork b t e r = G) ∨ Leads r u G

theorem Comes.sub : ∀ {L G : Flow}, Comes L G → Sub G L
  | .nil, _, h => h.elim
  | .blk _ _, _, h => .blk (Comes.sub h)
  | .fork _ _ _ _, _, h => by cases h; exact .refl

theorem Leads.sub : ∀ {L G : Flow} {u : Nat}, Leads L u G → Sub G L
  | .nil, _, _, h => h.elim
  | .blk b r, G, u, h => by
    rcases h with ⟨_, h⟩ | h
    · exact .blk h.sub
    · exact .blk (Leads.sub h)
  | .fork b t e r, G, u, h => by
    rcases h with ⟨_, h⟩ | h
    · cases h; exact .refl
    · exact .r (Leads.sub h)

theorem straight_search {m : Mapper} : ∀ {L : Flow} {x : Option Nat} {a : Nat} {t e r : Flow}, L.Lay m.succ x →
    Switched m.isSwitch L → Comes L (.fork a t e r) → ∀ {k u : Nat}, L.spine.length ≤ k → L.first none = some u →
    linearSearch m k u = .found a
  | .nil, _, _, _, _, _, _, _, h, _, _, _, _ => h.elim
  | .blk b L, x, a, t, e, r, hl, hw, h, k, u, hk, hu => by
    simp only [Flow.first, Option.some.injEq] at hu
    subst hu
    obtain ⟨k, rfl⟩ : ∃ i, k = i + 1 := ⟨k - 1, by simp only [Flow.spine, List.length_cons] at hk; omega⟩
    have hL : L ≠ .nil := by rintro rfl; exact h
    obtain ⟨c, hc, _⟩ := Flow.first_spine hL
    rw [linearSearch, hw.1, hl.1, hc]
    exact straight_search hl.2 hw.2 h (by simp only [Flow.spine, List.length_cons] at hk; omega) (hc none)
  | .fork b t' e' r', x, a, t, e, r, hl, hw, h, k, u, hk, hu => by
    simp only [Flow.first, Option.some.injEq] at hu
    subst hu
    obtain ⟨k, rfl⟩ : ∃ i, k = i + 1 := ⟨k - 1, by simp only [Flow.spine, List.length_cons] at hk; omega⟩
    cases h
    rw [linearSearch, hw.1]
    rfl

theorem leads_search {m : Mapper} : ∀ {L : Flow} {x : Option Nat} {a u : Nat} {t e r : Flow}, L.Lay m.succ x →
    Switched m.isSwitch L → Leads L u (.fork a t e r) → ∀ {k : Nat}, L.spine.length ≤ k →
    linearSearch m k u = .found a
  | .nil, _, _, _, _, _, _, _, _, h, _, _ => h.elim
  | .blk b L, x, a, u, t, e, r, hl, hw, h, k, hk => by
    rcases h with ⟨rfl, h⟩ | h
    · exact straight_search (L := .blk u L) hl hw h hk rfl
    · exact leads_search hl.2 hw.2 h (by simp only [Flow.spine, List.length_cons] at hk; omega)
  | .fork b t' e' r', x, a, u, t, e, r, hl, hw, h, k, hk => by
    rcases h with ⟨rfl, h⟩ | h
    · exact straight_search (L := .fork u t' e' r') hl hw h hk rfl
    · exact leads_search hl.2.2.2.2.2.2 hw.2.2.2 h (by simp only [Flow.spine, List.length_cons] at hk; omega)

theorem spine_le : ∀ (L : Flow), L.spine.length ≤ L.blocks.length
  | .nil => Nat.le_refl _
  | .blk b r => by
    have := spine_le r
    simp only [Flow.spine, Flow.blocks, List.length_cons]
    omega
  | .fork b t e r => by
    have := spine_le r
    simp only [Flow.spine, Flow.blocks, List.length_cons, List.length_append]
    omega

/-- The search for the switch finds the next conditional. -/
theorem Structured.search {b : Body} {F : Flow} (hv : Valid b) (h : Structured b F) {L : Flow} (hs : Sub L F)
    {l : Loc} {a : Nat} {t e r : Flow} (hl : Leads L l.block (.fork a t e r)) :
    findNextSwitch b.mapper l = .found a := by
  obtain ⟨x, hx⟩ := hs.lay h.lay
  refine leads_search (m := b.mapper) hx (hs.switched h.switched) hl ?_
  have h1 := spine_le L
  have h2 : L.blocks.length ≤ b.length := nodup_bound (hs.nodup h.nodup) fun y hy => h.lt hv (hs.mem hy)
  change _ ≤ b.length + 1
  omega

end Verif.Segments
