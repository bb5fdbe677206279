import Verif.Cfg.Spec
/-!
# Control flow made of properly nested two-way conditionals

A description of a control flow graph by nesting, and the dominators and post-dominators of such a graph.
-/
namespace Verif.Cfg

open Verif.Graph

/-- A stretch of control flow: blocks one after the other, some of them followed by two arms that come together
in the next block of the stretch. -/
inductive Flow
  | nil
  | blk (b : Nat) (rest : Flow)
  | fork (b : Nat) (t e rest : Flow)
  deriving DecidableEq, Repr

namespace Flow

/-- All the blocks. -/
def blocks : Flow → List Nat
  | nil => []
  | blk b r => b :: r.blocks
  | fork b t e r => b :: (t.blocks ++ (e.blocks ++ r.blocks))

/-- The blocks of the stretch itself, without those of the arms. -/
def spine : Flow → List Nat
  | nil => []
  | blk b r => b :: r.spine
  | fork b _ _ r => b :: r.spine

/-- The block in which the stretch begins, if it is followed by `x`. -/
def first : Flow → Option Nat → Option Nat
  | nil, x => x
  | blk b _, _ => some b
  | fork b _ _ _, _ => some b

/-- The edges of the graph are those of the stretch, which is followed by `x`. -/
def Lay (succ : Nat → List Nat) : Flow → Option Nat → Prop
  | nil, _ => True
  | blk b r, x => succ b = (r.first x).toList ∧ Lay succ r x
  | fork b t e r, x => t ≠ nil ∧ e ≠ nil ∧ r ≠ nil ∧ succ b = (t.first none).toList ++ (e.first none).toList ∧
      Lay succ t (r.first x) ∧ Lay succ e (r.first x) ∧ Lay succ r x

/-- `u` comes before `v` on every way to `v`. -/
def Fore : Flow → Nat → Nat → Prop
  | nil, _, _ => False
  | blk b r, u, v => (u = b ∧ v ∈ r.blocks) ∨ Fore r u v
  | fork b t e r, u, v => (u = b ∧ (v ∈ t.blocks ∨ v ∈ e.blocks ∨ v ∈ r.blocks)) ∨ Fore t u v ∨ Fore e u v ∨ Fore r u v

/-- `v` comes after `u` on every way from `u`. -/
def Aft : Flow → Nat → Nat → Prop
  | nil, _, _ => False
  | blk b r, u, v => (u = b ∧ v ∈ r.spine) ∨ Aft r u v
  | fork b t e r, u, v => ((u = b ∨ u ∈ t.blocks ∨ u ∈ e.blocks) ∧ v ∈ r.spine) ∨ Aft t u v ∨ Aft e u v ∨ Aft r u v

theorem spine_blocks : ∀ {F : Flow} {v : Nat}, v ∈ F.spine → v ∈ F.blocks
  | nil, _, h => h
  | blk b r, v, h => by
    rcases List.mem_cons.1 h with h | h
    · exact List.mem_cons.2 (.inl h)
    · exact List.mem_cons.2 (.inr (spine_blocks h))
  | fork b t e r, v, h => by
    rcases List.mem_cons.1 h with h | h
    · exact List.mem_cons.2 (.inl h)
    · exact List.mem_cons.2 (.inr (List.mem_append_right _ (List.mem_append_right _ (spine_blocks h))))

theorem mem_fork {b : Nat} {t e r : Flow} {v : Nat} :
    v ∈ (fork b t e r).blocks ↔ v = b ∨ v ∈ t.blocks ∨ v ∈ e.blocks ∨ v ∈ r.blocks := by
  simp [blocks]

theorem mem_blk {b : Nat} {r : Flow} {v : Nat} : v ∈ (blk b r).blocks ↔ v = b ∨ v ∈ r.blocks := by
  simp [blocks]

/-- What the absence of repetitions says of a conditional. -/
structure Apart (b : Nat) (t e r : Flow) : Prop where
  bt : b ∉ t.blocks
  be : b ∉ e.blocks
  br : b ∉ r.blocks
  nt : t.blocks.Nodup
  ne : e.blocks.Nodup
  nr : r.blocks.Nodup
  te : ∀ x, x ∈ t.blocks → x ∉ e.blocks
  tr : ∀ x, x ∈ t.blocks → x ∉ r.blocks
  er : ∀ x, x ∈ e.blocks → x ∉ r.blocks

theorem apart {b : Nat} {t e r : Flow} (h : (fork b t e r).blocks.Nodup) : Apart b t e r := by
  simp only [blocks, List.nodup_cons, List.mem_append, not_or, List.nodup_append] at h
  obtain ⟨⟨h1, h2, h3⟩, h4, ⟨h5, h6, h7⟩, h8⟩ := h
  exact ⟨h1, h2, h3, h4, h5, h6, fun x hx hy => h8 x hx x (.inl hy) rfl, fun x hx hy => h8 x hx x (.inr hy) rfl,
    fun x hx hy => h7 x hx x hy rfl⟩

theorem first_spine : ∀ {F : Flow}, F ≠ nil → ∃ a, (∀ x, F.first x = some a) ∧ a ∈ F.spine
  | nil, h => absurd rfl h
  | blk b r, _ => ⟨b, fun _ => rfl, List.mem_cons_self⟩
  | fork b t e r, _ => ⟨b, fun _ => rfl, List.mem_cons_self⟩

theorem spine_ne : ∀ {F : Flow}, F ≠ nil → ∃ z, F.spine.getLast? = some z
  | nil, h => absurd rfl h
  | blk b r, _ => ⟨_, List.getLast?_eq_some_getLast (List.cons_ne_nil _ _)⟩
  | fork b t e r, _ => ⟨_, List.getLast?_eq_some_getLast (List.cons_ne_nil _ _)⟩

theorem getLast_cons {b z : Nat} {F : Flow} (h : F ≠ nil) :
    (b :: F.spine).getLast? = some z ↔ F.spine.getLast? = some z := by
  obtain ⟨y, hy⟩ := spine_ne h
  rw [List.getLast?_cons, hy]
  simp

theorem last_spine {F : Flow} {z : Nat} (h : F.spine.getLast? = some z) : z ∈ F.spine := List.mem_of_getLast? h

theorem fore_mem : ∀ {F : Flow} {u v : Nat}, Fore F u v → u ∈ F.blocks ∧ v ∈ F.blocks
  | nil, _, _, h => h.elim
  | blk b r, u, v, h => by
    rw [mem_blk, mem_blk]
    rcases h with ⟨h1, h2⟩ | h
    · exact ⟨.inl h1, .inr h2⟩
    · exact ⟨.inr (fore_mem h).1, .inr (fore_mem h).2⟩
  | fork b t e r, u, v, h => by
    rw [mem_fork, mem_fork]
    rcases h with ⟨h1, h2⟩ | h | h | h
    · exact ⟨.inl h1, .inr h2⟩
    · exact ⟨.inr (.inl (fore_mem h).1), .inr (.inl (fore_mem h).2)⟩
    · exact ⟨.inr (.inr (.inl (fore_mem h).1)), .inr (.inr (.inl (fore_mem h).2))⟩
    · exact ⟨.inr (.inr (.inr (fore_mem h).1)), .inr (.inr (.inr (fore_mem h).2))⟩

theorem aft_mem : ∀ {F : Flow} {u v : Nat}, Aft F u v → u ∈ F.blocks ∧ v ∈ F.blocks
  | nil, _, _, h => h.elim
  | blk b r, u, v, h => by
    rw [mem_blk, mem_blk]
    rcases h with ⟨h1, h2⟩ | h
    · exact ⟨.inl h1, .inr (spine_blocks h2)⟩
    · exact ⟨.inr (aft_mem h).1, .inr (aft_mem h).2⟩
  | fork b t e r, u, v, h => by
    rw [mem_fork, mem_fork]
    rcases h with ⟨h1, h2⟩ | h | h | h
    · refine ⟨?_, .inr (.inr (.inr (spine_blocks h2)))⟩
      rcases h1 with h1 | h1 | h1
      · exact .inl h1
      · exact .inr (.inl h1)
      · exact .inr (.inr (.inl h1))
    · exact ⟨.inr (.inl (aft_mem h).1), .inr (.inl (aft_mem h).2)⟩
    · exact ⟨.inr (.inr (.inl (aft_mem h).1)), .inr (.inr (.inl (aft_mem h).2))⟩
    · exact ⟨.inr (.inr (.inr (aft_mem h).1)), .inr (.inr (.inr (aft_mem h).2))⟩

/-! ## Edges -/

section
variable {succ : Nat → List Nat}

theorem first_mem {F : Flow} {x : Option Nat} {q : Nat} (h : F.first x = some q) : q ∈ F.blocks ∨ some q = x := by
  cases F with
  | nil => exact .inr h.symm
  | blk b r => exact .inl (by simp only [first, Option.some.injEq] at h; simp [blocks, h])
  | fork b t e r => exact .inl (by simp only [first, Option.some.injEq] at h; simp [blocks, h])

theorem Lay.closed : ∀ {F : Flow} {x : Option Nat}, Lay succ F x → ∀ {p q : Nat}, p ∈ F.blocks → q ∈ succ p →
    q ∈ F.blocks ∨ some q = x
  | nil, _, _, _, _, hp, _ => absurd hp (by simp [blocks])
  | blk b r, x, ⟨h1, h2⟩, p, q, hp, hq => by
    rcases mem_blk.1 hp with rfl | hp
    · rw [h1, Option.mem_toList] at hq
      rcases first_mem hq with h | h
      · exact .inl (mem_blk.2 (.inr h))
      · exact .inr h
    · rcases h2.closed hp hq with h | h
      · exact .inl (mem_blk.2 (.inr h))
      · exact .inr h
  | fork b t e r, x, ⟨ht, he, hr, h1, h2, h3, h4⟩, p, q, hp, hq => by
    rw [mem_fork]
    obtain ⟨j, hj, hjr⟩ := first_spine hr
    rcases mem_fork.1 hp with rfl | hp | hp | hp
    · rw [h1, List.mem_append, Option.mem_toList, Option.mem_toList] at hq
      rcases hq with hq | hq
      · rcases first_mem hq with h | h
        · exact .inl (.inr (.inl h))
        · simp at h
      · rcases first_mem hq with h | h
        · exact .inl (.inr (.inr (.inl h)))
        · simp at h
    · rcases h2.closed hp hq with h | h
      · exact .inl (.inr (.inl h))
      · rw [hj] at h
        simp only [Option.some.injEq] at h
        subst h
        exact .inl (.inr (.inr (.inr (spine_blocks hjr))))
    · rcases h3.closed hp hq with h | h
      · exact .inl (.inr (.inr (.inl h)))
      · rw [hj] at h
        simp only [Option.some.injEq] at h
        subst h
        exact .inl (.inr (.inr (.inr (spine_blocks hjr))))
    · rcases h4.closed hp hq with h | h
      · exact .inl (.inr (.inr (.inr h)))
      · exact .inr h

/-! ## Ways in and out of a set of blocks -/

theorem enter {A K : Nat → Prop} {u : Nat} (hK : ∀ p, K p → ∀ q ∈ succ p, K q)
    (h : ∀ p q, K p → ¬ A p → q ∈ succ p → A q → p = u) {a v : Nat} {l : List Nat} (hp : Path succ a v l)
    (hka : K a) (ha : ¬ A a) (hv : A v) : u ∈ l := by
  induction hp with
  | single a => exact absurd hv ha
  | @cons a b c l hb _ ih =>
    by_cases hAb : A b
    · rw [h a b hka ha hb hAb]
      exact List.mem_cons_self
    · exact List.mem_cons_of_mem _ (ih (hK a hka b hb) hAb hv)

theorem leave {B : Nat → Prop} {v : Nat} (h : ∀ p q, B p → q ∈ succ p → ¬ B q → q = v) {a z : Nat} {l : List Nat}
    (hp : Path succ a z l) (ha : B a) (hz : ¬ B z) : v ∈ l := by
  induction hp with
  | single a => exact absurd ha hz
  | @cons a b c l hb hp ih =>
    by_cases hBb : B b
    · exact List.mem_cons_of_mem _ (ih hBb hz)
    · rw [← h a b ha hb hBb]
      exact List.mem_cons_of_mem _ hp.head_mem

/-- From the blocks of `K`, the stretch is entered at its first block only. -/
def Entered (succ : Nat → List Nat) (K : Nat → Prop) (F : Flow) : Prop :=
  ∀ p q, K p → p ∉ F.blocks → q ∈ succ p → q ∈ F.blocks → F.first none = some q

theorem entered_blk {K : Nat → Prop} {b : Nat} {r : Flow} {x : Option Nat} (hl : Lay succ (blk b r) x)
    (hn : (blk b r).blocks.Nodup) (hx : ∀ y, x = some y → y ∉ (blk b r).blocks)
    (he : Entered succ K (blk b r)) :
    Entered succ K r ∧ ∀ p q, K p → p ∉ r.blocks → q ∈ succ p → q ∈ r.blocks → p = b := by
  have hb : b ∉ r.blocks := by simp only [blocks, List.nodup_cons] at hn; exact hn.1
  have hp : ∀ p q, K p → p ∉ r.blocks → q ∈ succ p → q ∈ r.blocks → p = b := by
    intro p q hk hp hq hqr
    apply Classical.byContradiction
    intro hpb
    have := he p q hk (by rw [mem_blk]; exact fun h => h.elim hpb hp) hq (mem_blk.2 (.inr hqr))
    simp only [first, Option.some.injEq] at this
    exact hb (this ▸ hqr)
  refine ⟨fun p q hk hp' hq hqr => ?_, hp⟩
  rw [hp p q hk hp' hq hqr, hl.1, Option.mem_toList] at hq
  rcases first_mem hq with h | h
  · obtain ⟨a, ha, _⟩ := first_spine (F := r) (by rintro rfl; exact absurd h (by simp [blocks]))
    rw [ha] at hq ⊢
    exact hq
  · exact absurd hqr (fun h' => hx q h.symm (mem_blk.2 (.inr h')))

theorem entered_fork {K : Nat → Prop} {b : Nat} {t e r : Flow} {x : Option Nat} (hl : Lay succ (fork b t e r) x)
    (hn : (fork b t e r).blocks.Nodup) (hx : ∀ y, x = some y → y ∉ (fork b t e r).blocks)
    (he : Entered succ K (fork b t e r)) :
    (Entered succ K t ∧ ∀ p q, K p → p ∉ t.blocks → q ∈ succ p → q ∈ t.blocks → p = b) ∧
    (Entered succ K e ∧ ∀ p q, K p → p ∉ e.blocks → q ∈ succ p → q ∈ e.blocks → p = b) ∧
    Entered succ K r ∧
    ∀ p q, K p → p ∉ (fork b t e r).blocks ∨ p = b → q ∈ succ p → q ∈ r.blocks → False := by
  have ap := apart hn
  obtain ⟨ht, hne, hr, h1, h2, h3, h4⟩ := hl
  obtain ⟨j, hj, hjr⟩ := first_spine hr
  have hjr := spine_blocks hjr
  obtain ⟨a, ha, hat⟩ := first_spine ht
  have hat := spine_blocks hat
  obtain ⟨c, hc, hce⟩ := first_spine hne
  have hce := spine_blocks hce
  rw [ha, hc] at h1
  have out : ∀ p q, K p → p ∉ (fork b t e r).blocks → q ∈ succ p → q ∈ (fork b t e r).blocks → q = b := by
    intro p q hk hp hq hq'
    have := he p q hk hp hq hq'
    simp only [first, Option.some.injEq] at this
    exact this.symm
  have fromT : ∀ p q, p ∈ t.blocks → q ∈ succ p → q ∈ t.blocks ∨ q = j := by
    intro p q hp hq
    rcases h2.closed hp hq with h | h
    · exact .inl h
    · rw [hj] at h; simp only [Option.some.injEq] at h; exact .inr h
  have fromE : ∀ p q, p ∈ e.blocks → q ∈ succ p → q ∈ e.blocks ∨ q = j := by
    intro p q hp hq
    rcases h3.closed hp hq with h | h
    · exact .inl h
    · rw [hj] at h; simp only [Option.some.injEq] at h; exact .inr h
  have fromR : ∀ p q, p ∈ r.blocks → q ∈ succ p → q ∈ (fork b t e r).blocks → q ∈ r.blocks := by
    intro p q hp hq hq'
    rcases h4.closed hp hq with h | h
    · exact h
    · exact absurd hq' (hx q h.symm)
  have fromB : ∀ q, q ∈ succ b → q = a ∨ q = c := by
    intro q hq
    rw [h1] at hq
    simpa using hq
  have onlyT : ∀ p q, K p → p ∉ t.blocks → q ∈ succ p → q ∈ t.blocks → p = b := by
    intro p q hk hp hq hqt
    apply Classical.byContradiction
    intro hpb
    by_cases hpe : p ∈ e.blocks
    · rcases fromE p q hpe hq with h | h
      · exact ap.te q hqt h
      · exact ap.tr q hqt (h ▸ hjr)
    · by_cases hpr : p ∈ r.blocks
      · exact ap.tr q hqt (fromR p q hpr hq (mem_fork.2 (.inr (.inl hqt))))
      · have := out p q hk (by rw [mem_fork]; simp [hpb, hp, hpe, hpr]) hq (mem_fork.2 (.inr (.inl hqt)))
        exact ap.bt (this ▸ hqt)
  have onlyE : ∀ p q, K p → p ∉ e.blocks → q ∈ succ p → q ∈ e.blocks → p = b := by
    intro p q hk hp hq hqe
    apply Classical.byContradiction
    intro hpb
    by_cases hpt : p ∈ t.blocks
    · rcases fromT p q hpt hq with h | h
      · exact ap.te q h hqe
      · exact ap.er q hqe (h ▸ hjr)
    · by_cases hpr : p ∈ r.blocks
      · exact ap.er q hqe (fromR p q hpr hq (mem_fork.2 (.inr (.inr (.inl hqe)))))
      · have := out p q hk (by rw [mem_fork]; simp [hpb, hp, hpt, hpr]) hq (mem_fork.2 (.inr (.inr (.inl hqe))))
        exact ap.be (this ▸ hqe)
  have notR : ∀ p q, K p → p ∉ (fork b t e r).blocks ∨ p = b → q ∈ succ p → q ∈ r.blocks → False := by
    rintro p q hk (hp | rfl) hq hqr
    · have := out p q hk hp hq (mem_fork.2 (.inr (.inr (.inr hqr))))
      exact ap.br (this ▸ hqr)
    · rcases fromB q hq with rfl | rfl
      · exact ap.tr _ hat hqr
      · exact ap.er _ hce hqr
  refine ⟨⟨fun p q hk hp hq hqt => ?_, onlyT⟩, ⟨fun p q hk hp hq hqe => ?_, onlyE⟩, fun p q hk hp hq hqr => ?_, notR⟩
  · rw [onlyT p q hk hp hq hqt] at hq
    rcases fromB q hq with rfl | rfl
    · exact ha none
    · exact absurd hce (ap.te _ hqt)
  · rw [onlyE p q hk hp hq hqe] at hq
    rcases fromB q hq with rfl | rfl
    · exact absurd hqe (ap.te _ hat)
    · exact hc none
  · by_cases hpt : p ∈ t.blocks
    · rcases fromT p q hpt hq with h | h
      · exact absurd hqr (ap.tr q h)
      · rw [h]; exact hj none
    · by_cases hpe : p ∈ e.blocks
      · rcases fromE p q hpe hq with h | h
        · exact absurd hqr (ap.er q h)
        · rw [h]; exact hj none
      · by_cases hpb : p = b
        · exact (notR p q hk (.inr hpb) hq hqr).elim
        · exact (notR p q hk (.inl (by rw [mem_fork]; simp [hpb, hpt, hpe, hp])) hq hqr).elim

theorem out_tail {x : Option Nat} {b : Nat} {r : Flow} (hx : ∀ y, x = some y → y ∉ (blk b r).blocks) :
    ∀ y, x = some y → y ∉ r.blocks := fun y hy h => hx y hy (mem_blk.2 (.inr h))

/-- Every way to `v` from outside the stretch, or from its first block, passes the blocks before `v`. -/
theorem Lay.passes {K : Nat → Prop} (hK : ∀ p, K p → ∀ q ∈ succ p, K q) : ∀ {F : Flow} {x : Option Nat},
    Lay succ F x → F.blocks.Nodup → (∀ y, x = some y → y ∉ F.blocks) → Entered succ K F →
    ∀ {u v a : Nat} {l : List Nat}, Fore F u v → K a → (a ∉ F.blocks ∨ F.first none = some a) →
    Path succ a v l → u ∈ l
  | nil, _, _, _, _, _, _, _, _, _, h, _, _, _ => h.elim
  | blk b r, x, hl, hn, hx, he, u, v, a, l, h, hk, ha, hp => by
    obtain ⟨he1, he2⟩ := entered_blk hl hn hx he
    have hb : b ∉ r.blocks ∧ r.blocks.Nodup := by simpa only [blocks, List.nodup_cons] using hn
    have har : a ∉ r.blocks := by
      rcases ha with ha | ha
      · exact fun h => ha (mem_blk.2 (.inr h))
      · simp only [first, Option.some.injEq] at ha
        exact ha ▸ hb.1
    rcases h with ⟨rfl, hv⟩ | h
    · exact enter (A := fun y => y ∈ r.blocks) hK he2 hp hk har hv
    · exact Lay.passes hK hl.2 hb.2 (out_tail hx) he1 h hk (.inl har) hp
  | fork b t e r, x, hl, hn, hx, he, u, v, a, l, h, hk, ha, hp => by
    obtain ⟨⟨ht, ht'⟩, ⟨hee, he'⟩, hr, hr'⟩ := entered_fork hl hn hx he
    have ap := apart hn
    obtain ⟨h1, h2, h3, h4, h5, h6, h7⟩ := hl
    obtain ⟨j, hj, hjr⟩ := first_spine h3
    have hjr := spine_blocks hjr
    have hj' : ∀ y, r.first x = some y → y = j := by
      intro y hy
      rw [hj] at hy
      simpa using hy.symm
    have hab : a ∉ t.blocks ∧ a ∉ e.blocks ∧ a ∉ r.blocks := by
      rcases ha with ha | ha
      · rw [mem_fork] at ha
        simp only [not_or] at ha
        exact ha.2
      · simp only [first, Option.some.injEq] at ha
        exact ha ▸ ⟨ap.bt, ap.be, ap.br⟩
    rcases h with ⟨rfl, hv⟩ | h | h | h
    · -- everything inside is entered through the block itself
      refine enter (A := fun y => y ∈ t.blocks ∨ y ∈ e.blocks ∨ y ∈ r.blocks) (u := u) hK ?_ hp hk
        (fun h => h.elim hab.1 fun h => h.elim hab.2.1 hab.2.2) hv
      intro p q hkp hpA hq hqA
      simp only [not_or] at hpA
      rcases hqA with h | h | h
      · exact ht' p q hkp hpA.1 hq h
      · exact he' p q hkp hpA.2.1 hq h
      · by_cases hpu : p = u
        · exact hpu
        · exact (hr' p q hkp (.inl (by rw [mem_fork]; simp [hpu, hpA])) hq h).elim
    · exact Lay.passes hK h5 ap.nt (fun y hy h' => ap.tr y h' (hj' y hy ▸ hjr)) ht h hk (.inl hab.1) hp
    · exact Lay.passes hK h6 ap.ne (fun y hy h' => ap.er y h' (hj' y hy ▸ hjr)) hee h hk (.inl hab.2.1) hp
    · exact Lay.passes hK h7 ap.nr (fun y hy h' => hx y hy (mem_fork.2 (.inr (.inr (.inr h'))))) hr h hk
        (.inl hab.2.2) hp

/-! ## Ways around a block -/

/-- One can get from `a` to `c` without passing `u`. -/
def Way (succ : Nat → List Nat) (u a c : Nat) : Prop := ∃ l, Path succ a c l ∧ u ∉ l

theorem Way.refl {u a : Nat} (h : u ≠ a) : Way succ u a a := ⟨[a], .single a, by simpa using h⟩

theorem Way.step {u a b c : Nat} (h : u ≠ a) (hb : b ∈ succ a) (hw : Way succ u b c) : Way succ u a c := by
  obtain ⟨l, hl, hu⟩ := hw
  exact ⟨a :: l, .cons hb hl, by simp [h, hu]⟩

theorem Way.trans {u a b c : Nat} (h1 : Way succ u a b) (h2 : Way succ u b c) : Way succ u a c := by
  obtain ⟨l, hl, hu⟩ := h1
  obtain ⟨k, hk, hu'⟩ := h2
  refine ⟨_, hl.append hk, ?_⟩
  rw [List.mem_append]
  exact fun h => h.elim hu (fun h => hu' (List.mem_of_mem_tail h))

theorem Way.last {u a b : Nat} (h : Way succ u a b) : u ≠ b := by
  obtain ⟨l, hl, hu⟩ := h
  rintro rfl
  exact hu hl.last_mem

theorem Way.reach {u a b : Nat} (h : Way succ u a b) : Reach succ a b := by
  obtain ⟨l, hl, _⟩ := h
  exact hl.reach

theorem Lay.last : ∀ {F : Flow} {x : Option Nat} {z : Nat}, Lay succ F x → F.spine.getLast? = some z →
    succ z = x.toList
  | nil, _, _, _, h => by simp [spine] at h
  | blk b r, x, z, hl, h => by
    by_cases hr : r = nil
    · subst hr
      simp only [spine, List.getLast?_singleton, Option.some.injEq] at h
      rw [← h]
      exact hl.1
    · exact Lay.last hl.2 ((getLast_cons hr).1 h)
  | fork b t e r, x, z, ⟨_, _, hr, _, _, _, h4⟩, h => Lay.last h4 ((getLast_cons hr).1 h)

/-- A stretch can be crossed without passing a block that is not one of its own. -/
theorem Lay.cross : ∀ {F : Flow} {x : Option Nat}, Lay succ F x → F.blocks.Nodup → ∀ {u a z : Nat}, u ∉ F.spine →
    F.first none = some a → F.spine.getLast? = some z → Way succ u a z
  | nil, _, _, _, _, _, _, _, h, _ => by simp [first] at h
  | blk b r, x, hl, hn, u, a, z, hu, ha, hz => by
    simp only [first, Option.some.injEq] at ha
    subst ha
    have hub : u ≠ b ∧ u ∉ r.spine := by simpa [spine] using hu
    by_cases hr : r = nil
    · subst hr
      simp only [spine, List.getLast?_singleton, Option.some.injEq] at hz
      exact hz ▸ .refl hub.1
    · obtain ⟨c, hc, _⟩ := first_spine hr
      refine .step hub.1 (b := c) (by rw [hl.1, hc]; simp) ?_
      exact Lay.cross hl.2 (by simp only [blocks, List.nodup_cons] at hn; exact hn.2) hub.2 (hc none)
        ((getLast_cons hr).1 hz)
  | fork b t e r, x, hl, hn, u, a, z, hu, ha, hz => by
    simp only [first, Option.some.injEq] at ha
    subst ha
    have ap := apart hn
    have hub : u ≠ b ∧ u ∉ r.spine := by simpa [spine] using hu
    obtain ⟨h1, h2, h3, h4, h5, h6, h7⟩ := hl
    obtain ⟨j, hj, _⟩ := first_spine h3
    obtain ⟨p, hp, _⟩ := first_spine h1
    obtain ⟨q, hq, _⟩ := first_spine h2
    obtain ⟨y, hy⟩ := spine_ne h1
    obtain ⟨w, hw⟩ := spine_ne h2
    have hrest := Lay.cross h7 ap.nr hub.2 (hj none) ((getLast_cons h3).1 hz)
    by_cases hut : u ∈ t.spine
    · have hue : u ∉ e.spine := fun h => ap.te u (spine_blocks hut) (spine_blocks h)
      refine .step hub.1 (b := q) (by rw [h4, hp, hq]; simp) (.trans (Lay.cross h6 ap.ne hue (hq none) hw) ?_)
      exact .step (fun h => hue (h ▸ last_spine hw)) (b := j) (by rw [Lay.last h6 hw, hj]; simp) hrest
    · refine .step hub.1 (b := p) (by rw [h4, hp, hq]; simp) (.trans (Lay.cross h5 ap.nt hut (hp none) hy) ?_)
      exact .step (fun h => hut (h ▸ last_spine hy)) (b := j) (by rw [Lay.last h5 hy, hj]; simp) hrest

/-- A block not before `v` can be avoided on the way to `v`. -/
theorem Lay.arrive : ∀ {F : Flow} {x : Option Nat}, Lay succ F x → F.blocks.Nodup → ∀ {u v a : Nat}, v ∈ F.blocks →
    u ≠ v → ¬ Fore F u v → F.first none = some a → Way succ u a v
  | nil, _, _, _, _, _, _, h, _, _, _ => absurd h (by simp [blocks])
  | blk b r, x, hl, hn, u, v, a, hv, huv, hf, ha => by
    simp only [first, Option.some.injEq] at ha
    subst ha
    rcases mem_blk.1 hv with rfl | hv
    · exact .refl huv
    · obtain ⟨c, hc, _⟩ := first_spine (F := r) (by rintro rfl; simp [blocks] at hv)
      refine .step (fun h => hf (.inl ⟨h, hv⟩)) (b := c) (by rw [hl.1, hc]; simp) ?_
      exact Lay.arrive hl.2 (by simp only [blocks, List.nodup_cons] at hn; exact hn.2) hv huv (fun h => hf (.inr h))
        (hc none)
  | fork b t e r, x, hl, hn, u, v, a, hv, huv, hf, ha => by
    simp only [first, Option.some.injEq] at ha
    subst ha
    have ap := apart hn
    obtain ⟨h1, h2, h3, h4, h5, h6, h7⟩ := hl
    obtain ⟨j, hj, _⟩ := first_spine h3
    obtain ⟨p, hp, _⟩ := first_spine h1
    obtain ⟨q, hq, _⟩ := first_spine h2
    obtain ⟨y, hy⟩ := spine_ne h1
    obtain ⟨w, hw⟩ := spine_ne h2
    rcases mem_fork.1 hv with rfl | hv
    · exact .refl huv
    · have hub : u ≠ b := fun h => hf (.inl ⟨h, hv⟩)
      rcases hv with hv | hv | hv
      · exact .step hub (b := p) (by rw [h4, hp, hq]; simp)
          (Lay.arrive h5 ap.nt hv huv (fun h => hf (.inr (.inl h))) (hp none))
      · exact .step hub (b := q) (by rw [h4, hp, hq]; simp)
          (Lay.arrive h6 ap.ne hv huv (fun h => hf (.inr (.inr (.inl h)))) (hq none))
      · have hrest := Lay.arrive h7 ap.nr hv huv (fun h => hf (.inr (.inr (.inr h)))) (hj none)
        by_cases hut : u ∈ t.spine
        · have hue : u ∉ e.spine := fun h => ap.te u (spine_blocks hut) (spine_blocks h)
          refine .step hub (b := q) (by rw [h4, hp, hq]; simp) (.trans (Lay.cross h6 ap.ne hue (hq none) hw) ?_)
          exact .step (fun h => hue (h ▸ last_spine hw)) (b := j) (by rw [Lay.last h6 hw, hj]; simp) hrest
        · refine .step hub (b := p) (by rw [h4, hp, hq]; simp) (.trans (Lay.cross h5 ap.nt hut (hp none) hy) ?_)
          exact .step (fun h => hut (h ▸ last_spine hy)) (b := j) (by rw [Lay.last h5 hy, hj]; simp) hrest

/-- A block not after `u` can be avoided on the way from `u` to the end. -/
theorem Lay.depart : ∀ {F : Flow} {x : Option Nat}, Lay succ F x → F.blocks.Nodup → ∀ {u v z : Nat}, u ∈ F.blocks →
    u ≠ v → ¬ Aft F u v → F.spine.getLast? = some z → Way succ v u z
  | nil, _, _, _, _, _, _, h, _, _, _ => absurd h (by simp [blocks])
  | blk b r, x, hl, hn, u, v, z, hu, huv, hf, hz => by
    have hnr : r.blocks.Nodup := by simp only [blocks, List.nodup_cons] at hn; exact hn.2
    rcases mem_blk.1 hu with rfl | hu
    · by_cases hr : r = nil
      · subst hr
        simp only [spine, List.getLast?_singleton, Option.some.injEq] at hz
        exact hz ▸ .refl (Ne.symm huv)
      · obtain ⟨c, hc, _⟩ := first_spine hr
        exact .step (Ne.symm huv) (b := c) (by rw [hl.1, hc]; simp)
          (Lay.cross hl.2 hnr (fun h => hf (.inl ⟨rfl, h⟩)) (hc none) ((getLast_cons hr).1 hz))
    · exact Lay.depart hl.2 hnr hu huv (fun h => hf (.inr h))
        ((getLast_cons (by rintro rfl; simp [blocks] at hu)).1 hz)
  | fork b t e r, x, hl, hn, u, v, z, hu, huv, hf, hz => by
    have ap := apart hn
    obtain ⟨h1, h2, h3, h4, h5, h6, h7⟩ := hl
    obtain ⟨j, hj, _⟩ := first_spine h3
    obtain ⟨p, hp, _⟩ := first_spine h1
    obtain ⟨q, hq, _⟩ := first_spine h2
    obtain ⟨y, hy⟩ := spine_ne h1
    obtain ⟨w, hw⟩ := spine_ne h2
    have hz' := (getLast_cons h3).1 hz
    have rest : v ∉ r.spine → Way succ v j z := fun h => Lay.cross h7 ap.nr h (hj none) hz'
    rcases mem_fork.1 hu with rfl | hu | hu | hu
    · have hrest := rest (fun h => hf (.inl ⟨.inl rfl, h⟩))
      by_cases hvt : v ∈ t.spine
      · have hve : v ∉ e.spine := fun h => ap.te v (spine_blocks hvt) (spine_blocks h)
        refine .step (Ne.symm huv) (b := q) (by rw [h4, hp, hq]; simp)
          (.trans (Lay.cross h6 ap.ne hve (hq none) hw) ?_)
        exact .step (fun h => hve (h ▸ last_spine hw)) (b := j) (by rw [Lay.last h6 hw, hj]; simp) hrest
      · refine .step (Ne.symm huv) (b := p) (by rw [h4, hp, hq]; simp)
          (.trans (Lay.cross h5 ap.nt hvt (hp none) hy) ?_)
        exact .step (fun h => hvt (h ▸ last_spine hy)) (b := j) (by rw [Lay.last h5 hy, hj]; simp) hrest
    · have hrest := rest (fun h => hf (.inl ⟨.inr (.inl hu), h⟩))
      have hw1 := Lay.depart h5 ap.nt hu huv (fun h => hf (.inr (.inl h))) hy
      exact hw1.trans (.step hw1.last (b := j) (by rw [Lay.last h5 hy, hj]; simp) hrest)
    · have hrest := rest (fun h => hf (.inl ⟨.inr (.inr hu), h⟩))
      have hw1 := Lay.depart h6 ap.ne hu huv (fun h => hf (.inr (.inr (.inl h)))) hw
      exact hw1.trans (.step hw1.last (b := j) (by rw [Lay.last h6 hw, hj]; simp) hrest)
    · exact Lay.depart h7 ap.nr hu huv (fun h => hf (.inr (.inr (.inr h)))) hz'

/-! ## Ways from a block to the end -/

/-- A block outside the stretch, or its end. -/
def Beyond (F : Flow) (z : Nat) : Prop := z ∉ F.blocks ∨ F.spine.getLast? = some z

theorem beyond_fork {b : Nat} {t e r : Flow} {z : Nat} (hr : r ≠ nil) (ap : Apart b t e r)
    (h : Beyond (fork b t e r) z) : z ≠ b ∧ z ∉ t.blocks ∧ z ∉ e.blocks ∧ Beyond r z := by
  rcases h with h | h
  · rw [mem_fork] at h
    simp only [not_or] at h
    exact ⟨h.1, h.2.1, h.2.2.1, .inl h.2.2.2⟩
  · have h' := (getLast_cons hr).1 h
    have hz := spine_blocks (last_spine h')
    exact ⟨fun e => ap.br (e ▸ hz), fun h => ap.tr z h hz, fun h => ap.er z h hz, .inr h'⟩

theorem beyond_blk {b : Nat} {r : Flow} {z : Nat} (hr : r ≠ nil) (hb : b ∉ r.blocks)
    (h : Beyond (blk b r) z) : z ≠ b ∧ Beyond r z := by
  rcases h with h | h
  · rw [mem_blk] at h
    simp only [not_or] at h
    exact ⟨h.1, .inl h.2⟩
  · have h' := (getLast_cons hr).1 h
    have hz := spine_blocks (last_spine h')
    exact ⟨fun e => hb (e ▸ hz), .inr h'⟩

theorem path_tail {a z : Nat} {l : List Nat} (h : Path succ a z l) (hne : z ≠ a) :
    ∃ b l', b ∈ succ a ∧ Path succ b z l' ∧ l = a :: l' := by
  cases h with
  | single => exact absurd rfl hne
  | cons hb hp => exact ⟨_, _, hb, hp, rfl⟩

/-- A way out of an arm passes the block in which the arms come together. -/
theorem Lay.out {F : Flow} {j : Nat} (hl : Lay succ F (some j)) {u z : Nat} {l : List Nat} (hu : u ∈ F.blocks)
    (hz : z ∉ F.blocks) (hp : Path succ u z l) : j ∈ l := by
  refine leave (B := fun y => y ∈ F.blocks) ?_ hp hu hz
  intro p q hp hq hnq
  rcases hl.closed hp hq with h | h
  · exact absurd h hnq
  · simpa using h

/-- A way through a stretch passes all its own blocks. -/
theorem Lay.along : ∀ {F : Flow} {x : Option Nat}, Lay succ F x → F.blocks.Nodup → ∀ {v a z : Nat} {l : List Nat},
    v ∈ F.spine → F.first none = some a → Beyond F z → Path succ a z l → v ∈ l
  | nil, _, _, _, _, _, _, _, h, _, _, _ => absurd h (by simp [spine])
  | blk b r, x, hl, hn, v, a, z, l, hv, ha, hz, hp => by
    simp only [first, Option.some.injEq] at ha
    subst ha
    rcases List.mem_cons.1 hv with rfl | hv
    · exact hp.head_mem
    · have hr : r ≠ nil := by rintro rfl; simp [spine] at hv
      have hnr : b ∉ r.blocks ∧ r.blocks.Nodup := by simpa only [blocks, List.nodup_cons] using hn
      obtain ⟨hzb, hzr⟩ := beyond_blk hr hnr.1 hz
      obtain ⟨c, l', hc, hp', rfl⟩ := path_tail hp hzb
      obtain ⟨d, hd, _⟩ := first_spine hr
      rw [hl.1, hd] at hc
      simp only [Option.toList_some, List.mem_singleton] at hc
      subst hc
      exact List.mem_cons_of_mem _ (Lay.along hl.2 hnr.2 hv (hd none) hzr hp')
  | fork b t e r, x, hl, hn, v, a, z, l, hv, ha, hz, hp => by
    simp only [first, Option.some.injEq] at ha
    subst ha
    rcases List.mem_cons.1 hv with rfl | hv
    · exact hp.head_mem
    · have ap := apart hn
      obtain ⟨h1, h2, h3, h4, h5, h6, h7⟩ := hl
      obtain ⟨hzb, hzt, hze, hzr⟩ := beyond_fork h3 ap hz
      obtain ⟨j, hj, _⟩ := first_spine h3
      obtain ⟨p, hpf, hpt⟩ := first_spine h1
      obtain ⟨q, hqf, hqe⟩ := first_spine h2
      obtain ⟨c, l', hc, hp', rfl⟩ := path_tail hp hzb
      rw [hj] at h5 h6
      have hjl : j ∈ l' := by
        rw [h4, hpf, hqf] at hc
        simp only [Option.toList_some, List.cons_append, List.nil_append, List.mem_cons, List.not_mem_nil,
          or_false] at hc
        rcases hc with rfl | rfl
        · exact Lay.out h5 (spine_blocks hpt) hzt hp'
        · exact Lay.out h6 (spine_blocks hqe) hze hp'
      obtain ⟨l1, l2, _, hp2, _, _, hs⟩ := hp'.split hjl
      exact List.mem_cons_of_mem _ (hs _ (Lay.along h7 ap.nr hv (hj none) hzr hp2))

/-- Every way from `u` beyond the stretch, or to its end, passes the blocks after `u`. -/
theorem Lay.met : ∀ {F : Flow} {x : Option Nat}, Lay succ F x → F.blocks.Nodup → ∀ {u v z : Nat} {l : List Nat},
    Aft F u v → Beyond F z → Path succ u z l → v ∈ l
  | nil, _, _, _, _, _, _, _, h, _, _ => h.elim
  | blk b r, x, hl, hn, u, v, z, l, h, hz, hp => by
    rcases h with ⟨rfl, hv⟩ | h
    · exact Lay.along hl hn (List.mem_cons_of_mem _ hv) rfl hz hp
    · have hr : r ≠ nil := by rintro rfl; exact h
      have hnr : b ∉ r.blocks ∧ r.blocks.Nodup := by simpa only [blocks, List.nodup_cons] using hn
      exact Lay.met hl.2 hnr.2 h (beyond_blk hr hnr.1 hz).2 hp
  | fork b t e r, x, hl, hn, u, v, z, l, h, hz, hp => by
    have ap := apart hn
    rcases h with ⟨hu, hv⟩ | h
    · rcases hu with rfl | hu
      · exact Lay.along hl hn (List.mem_cons_of_mem _ hv) rfl hz hp
      · obtain ⟨h1, h2, h3, h4, h5, h6, h7⟩ := hl
        obtain ⟨hzb, hzt, hze, hzr⟩ := beyond_fork h3 ap hz
        obtain ⟨j, hj, _⟩ := first_spine h3
        rw [hj] at h5 h6
        have hjl : j ∈ l := by
          rcases hu with hu | hu
          · exact Lay.out h5 hu hzt hp
          · exact Lay.out h6 hu hze hp
        obtain ⟨l1, l2, _, hp2, _, _, hs⟩ := hp.split hjl
        exact hs _ (Lay.along h7 ap.nr hv (hj none) hzr hp2)
    · obtain ⟨h1, h2, h3, h4, h5, h6, h7⟩ := hl
      obtain ⟨hzb, hzt, hze, hzr⟩ := beyond_fork h3 ap hz
      rcases h with h | h | h
      · exact Lay.met h5 ap.nt h (.inl hzt) hp
      · exact Lay.met h6 ap.ne h (.inl hze) hp
      · exact Lay.met h7 ap.nr h hzr hp

/-! ## The whole graph -/

theorem Lay.reach_mem {F : Flow} (hl : Lay succ F none) {a x : Nat} (ha : a ∈ F.blocks) (h : Reach succ a x) :
    x ∈ F.blocks := by
  induction h with
  | refl => exact ha
  | tail _ hc ih =>
    rcases hl.closed ih hc with h | h
    · exact h
    · simp at h

theorem le_sum {L : List Nat} {y : Nat} (hy : y ∈ L) : y ≤ L.sum := by
  induction L with
  | nil => simp at hy
  | cons a r ih =>
    rw [List.sum_cons]
    rcases List.mem_cons.1 hy with rfl | hy
    · omega
    · have := ih hy
      omega

/-- A block of the graph comes before another one exactly if it dominates it. -/
theorem Lay.dominates {F : Flow} (hl : Lay succ F none) (hn : F.blocks.Nodup) (h0 : F.first none = some 0) (u v : Nat) :
    Dominates succ u v ↔ v ∈ F.blocks ∧ (u = v ∨ Fore F u v) := by
  have hF : F ≠ nil := by rintro rfl; simp [first] at h0
  have h0m : 0 ∈ F.blocks := by
    obtain ⟨a, ha, hm⟩ := first_spine hF
    rw [ha] at h0
    simp only [Option.some.injEq] at h0
    exact h0 ▸ spine_blocks hm
  constructor
  · rintro ⟨h1, h2⟩
    have hv := hl.reach_mem h0m h1
    refine ⟨hv, ?_⟩
    apply Classical.byContradiction
    intro hc
    simp only [not_or] at hc
    obtain ⟨l, hp, hu⟩ := hl.arrive hn hv hc.1 hc.2 h0
    exact hu (h2 l hp)
  · rintro ⟨hv, h⟩
    constructor
    · refine (hl.arrive hn (u := F.blocks.sum + v + 1) hv (by omega) (fun hf => ?_) h0).reach
      have := le_sum (fore_mem hf).1
      omega
    · intro l hp
      rcases h with rfl | h
      · exact hp.last_mem
      · refine hl.passes (K := fun y => y ∈ F.blocks) ?_ hn (by simp) ?_ h h0m (.inr h0) hp
        · intro p hp q hq
          rcases hl.closed hp hq with h | h
          · exact h
          · simp at h
        · intro p q hp hnp
          exact absurd hp hnp

/-- A block of the graph comes after another one exactly if it post-dominates it. -/
theorem Lay.postDominates {F : Flow} (hl : Lay succ F none) (hn : F.blocks.Nodup) {z : Nat}
    (hz : F.spine.getLast? = some z) {u v : Nat} (hu : u ∈ F.blocks) :
    PostDominates succ [z] u v ↔ u = v ∨ Aft F u v := by
  constructor
  · intro h
    apply Classical.byContradiction
    intro hc
    simp only [not_or] at hc
    obtain ⟨l, hp, hv⟩ := hl.depart hn hu hc.1 hc.2 hz
    exact hv ((h z (by simp)).2 l hp)
  · intro h x hx
    rw [List.mem_singleton] at hx
    subst hx
    constructor
    · refine (hl.depart hn (v := F.blocks.sum + u + 1) hu (by omega) (fun hf => ?_) hz).reach
      have := le_sum (aft_mem hf).2
      omega
    · intro l hp
      rcases h with rfl | h
      · exact hp.head_mem
      · exact hl.met hn h (.inr hz) hp

end

end Flow

end Verif.Cfg
