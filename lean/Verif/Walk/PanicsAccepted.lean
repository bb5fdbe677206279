import Verif.Walk.Accepted
import Verif.Walk.Panics
/-!
# C132: the check of the tests and functions that panic

The check accepts the steps of every function of `C128`, although nothing of an arm that panics is on a step but its
first location.
-/
namespace Verif.Walk.Panics

open Verif.Cfg Verif.Segments Verif.Graph Verif.HirSteps Verif.Walk
open Verif.HirSteps.Prog (Slice Slice.tail next_inside filter_one)

theorem armSteps_in {dead : Bool} {u : Nat} : ∀ (t : List Nat) (n : Nat), ∀ x ∈ armSteps dead t u n,
    dead = false ∧ x.1.block = u ∧ x.2.1.block = u ∧ x.1.idx ≤ x.2.1.idx
  | [], _, x, hx => by simp [armSteps] at hx
  | _ :: t, n, x, hx => by
    unfold armSteps at hx
    cases dead with
    | true => simp at hx
    | false =>
      simp only [Bool.false_eq_true, if_false, List.mem_cons] at hx
      rcases hx with rfl | hx
      · exact ⟨rfl, rfl, rfl, Nat.le_succ n⟩
      · exact armSteps_in t (n + 1) x hx

section
variable {b : Body} {ret : Nat} (W : Whole b ret)
include W

theorem Ready.before {k n m : Nat} {c : Loc} (h : Ready b k n c) (hc : Cut b k) (hm : n ≤ m) : Before b c ⟨k, m⟩ := by
  rcases h with ⟨h1, h2⟩ | ⟨h1, h2⟩
  · exact .inl ⟨h1, Nat.le_trans h2 hm⟩
  · exact .inr ⟨by dsimp only; omega, h2.dom hc.reach (by dsimp only; omega)⟩

theorem arm_ends {u j : Nat} {dead : Bool} {ts : List Nat} (h : b[u]? = some (armBlock dead ts j)) (hj : j ≤ ret)
    (hr : Reach b.succ j ret) {t : List Nat} {n : Nat} {x : Step} (hx : x ∈ armSteps dead t u n) :
    Before b x.1 x.2.1 ∧ (x.2.1.idx = 0 ∨ Reach b.succ x.2.1.block ret) := by
  obtain ⟨rfl, h1, h2, h3⟩ := armSteps_in t n x hx
  refine ⟨.inl ⟨by rw [h1, h2], h3⟩, .inr ?_⟩
  have hs := succ_arm W h hj
  simp only [Bool.false_eq_true, if_false] at hs
  rw [h2]
  exact .head (by rw [hs]; simp) hr

/-- Steps run forwards; those that do not end at the start of a block end where the function can still return. -/
theorem Code.ends : ∀ (p : Code) (k n : Nat) (c : Loc), Slice b k (p.code k n) → k + p.size = ret + 1 → Cut b k → Ready b k n c →
    ∀ x ∈ p.expected k n c, Before b x.1 x.2.1 ∧ (x.2.1.idx = 0 ∨ Reach b.succ x.2.1.block ret)
  | .fin, k, n, c, hs, hk, hc, hr => by
    intro x hx
    simp [Code.expected] at hx
  | .act sp r, k, n, c, hs, hk, hc, hr => by
    intro x hx
    rw [Code.expected, List.mem_cons] at hx
    rcases hx with rfl | hx
    · exact ⟨Ready.before W hr hc (Nat.le_succ n), .inr (r.exits W k (n + 1) hs hk hc)⟩
    · exact r.ends k (n + 1) _ hs hk hc (.inl ⟨rfl, Nat.le_refl _⟩) x hx
  | .ite sp lt le hi t e y r, k, n, c, hs, hk, hc, hr => by
    intro x hx
    have hex := (Code.ite sp lt le hi t e y r).exits W k n hs hk hc
    obtain ⟨h0, h1, h2, h3⟩ := slice3 hs
    have hp := r.size_pos
    simp only [Code.size] at hk
    have F := fork_of W hc h0 h1 h2 y.one (by omega)
    have hx3 := r.exits W (k + 3) 0 h3 (by omega) F.next
    simp only [Code.expected, List.mem_cons, List.mem_append] at hx
    rcases hx with rfl | rfl | rfl | hx | hx | hx
    · exact ⟨Ready.before W hr hc (Nat.le_succ n), .inr hex⟩
    · exact ⟨.inr ⟨by dsimp only; omega, hc.dom F.reach1 (by dsimp only; omega)⟩, .inl rfl⟩
    · exact ⟨.inr ⟨by dsimp only; omega, hc.dom F.reach2 (by dsimp only; omega)⟩, .inl rfl⟩
    · exact arm_ends W h2 (by omega) hx3 hx
    · exact arm_ends W h1 (by omega) hx3 hx
    · exact r.ends (k + 3) 0 _ h3 (by omega) F.next (resume_ready W F) x hx
  | .only sp lt hi t dead r, k, n, c, hs, hk, hc, hr => by
    intro x hx
    have hex := (Code.only sp lt hi t dead r).exits W k n hs hk hc
    obtain ⟨h0, h1, h2, h3⟩ := slice3 hs
    have hp := r.size_pos
    simp only [Code.size] at hk
    have F := fork_of W hc h0 h1 h2 rfl (by omega)
    have hx3 := r.exits W (k + 3) 0 h3 (by omega) F.next
    simp only [Code.expected, List.mem_cons, List.mem_append] at hx
    rcases hx with rfl | rfl | rfl | hx | hx
    · exact ⟨Ready.before W hr hc (Nat.le_succ n), .inr hex⟩
    · exact ⟨.inr ⟨by dsimp only; omega, hc.dom F.reach1 (by dsimp only; omega)⟩, .inl rfl⟩
    · exact ⟨.inr ⟨by dsimp only; omega, hc.dom F.reach2 (by dsimp only; omega)⟩, .inl rfl⟩
    · exact arm_ends W h2 (by omega) hx3 hx
    · exact r.ends (k + 3) 0 _ h3 (by omega) F.next (resume_ready W F) x hx

/-- Every block can be reached. -/
theorem Code.reaches : ∀ (p : Code) (k n : Nat), Slice b k (p.code k n) → k + p.size = ret + 1 → Cut b k →
    ∀ y, k ≤ y → y ≤ ret → Reach b.succ k y
  | .fin, k, n, hs, hk, hc => by
    intro y h1 h2
    simp only [Code.size] at hk
    have : y = k := by omega
    subst this
    exact .refl
  | .act _ r, k, n, hs, hk, hc => r.reaches k (n + 1) hs hk hc
  | .ite _ _ _ _ t e x r, k, n, hs, hk, hc => by
    obtain ⟨h0, h1, h2, h3⟩ := slice3 hs
    have hp := r.size_pos
    simp only [Code.size] at hk
    have F := fork_of W hc h0 h1 h2 x.one (by omega)
    exact reaches_fork F (r.reaches (k + 3) 0 h3 (by omega) F.next)
  | .only _ _ _ t x r, k, n, hs, hk, hc => by
    obtain ⟨h0, h1, h2, h3⟩ := slice3 hs
    have hp := r.size_pos
    simp only [Code.size] at hk
    have F := fork_of W hc h0 h1 h2 rfl (by omega)
    exact reaches_fork F (r.reaches (k + 3) 0 h3 (by omega) F.next)
where
  reaches_fork {k : Nat} (F : Fork2 b k) (hr : ∀ y, k + 3 ≤ y → y ≤ ret → Reach b.succ (k + 3) y) :
      ∀ y, k ≤ y → y ≤ ret → Reach b.succ k y := by
    intro y h1 h2
    by_cases y0 : y = k
    · subst y0
      exact .refl
    · by_cases y1 : y = k + 1
      · subst y1
        exact .single (by rw [F.succ]; simp)
      · by_cases y2 : y = k + 2
        · subst y2
          exact .single (by rw [F.succ]; simp)
        · exact F.reach3.trans (hr y (by omega) h2)

/-- Behind a switch everything counts as passed. -/
theorem Fork2.passed {k n : Nat} (F : Fork2 b k) {s1 s2 : Nat} {ws : List Step} (m1 : ((⟨k, n⟩ : Loc), (⟨k + 1, 0⟩ : Loc), s1) ∈ ws)
    (m2 : ((⟨k, n⟩ : Loc), (⟨k + 2, 0⟩ : Loc), s2) ∈ ws) {l : Loc} (hl : Reach b.succ k l.block) (hw : Within b l)
    (hs : l.block = k → n ≤ l.idx) : ∃ x ∈ ws, Passed b (Step.seg x) l :=
  passed_fork (by dsimp only; omega) (by dsimp only; omega) (by dsimp only; omega)
    ⟨[k, k + 1], path_two (by rw [F.succ]; simp), by simp⟩ ⟨[k, k + 2], path_two (by rw [F.succ]; simp), by simp⟩ hl hw hs m1 m2

/-- The step for the end, if there is one. -/
def Code.close (p : Code) (k n sp : Nat) : List Step :=
  if p.panics then [] else [(p.finAt k n, ⟨(p.finAt k n).block, (p.finAt k n).idx + 1⟩, sp)]

/-- Everything counts as passed. -/
theorem Code.covers (sp : Nat) : ∀ (p : Code) (k n : Nat), Slice b k (p.code k n) → k + p.size = ret + 1 → Cut b k →
    ∀ l : Loc, k ≤ l.block → l.block ≤ ret → (l.block = k → n ≤ l.idx) → Within b l →
      ∃ x ∈ p.expected k n ⟨k, n⟩ ++ p.close k n sp, Passed b (Step.seg x) l
  | .fin, k, n, hs, hk, hc => by
    intro l h1 h2 h3 hw
    simp only [Code.size] at hk
    have hb : l.block = k := by omega
    have hd : b[k]? = some ⟨n + 1, .ret, false⟩ := by
      have := hs 0 ⟨n + 1, .ret, false⟩ rfl
      simpa using this
    unfold Within at hw
    rw [hb, stmts_of hd] at hw
    refine ⟨(⟨k, n⟩, ⟨k, n + 1⟩, sp), ?_, passed_same hb (h3 hb) hw⟩
    simp [Code.expected, Code.close, Code.panics, Code.finAt]
  | .act s r, k, n, hs, hk, hc => by
    intro l h1 h2 h3 hw
    by_cases h : l.block = k ∧ l.idx ≤ n + 1
    · exact ⟨(⟨k, n⟩, ⟨k, n + 1⟩, s), by simp [Code.expected], passed_same h.1 (h3 h.1) h.2⟩
    · obtain ⟨x, hx, hp⟩ := r.covers sp k (n + 1) hs hk hc l h1 h2 (fun e => by
        have : ¬ l.idx ≤ n + 1 := fun q => h ⟨e, q⟩
        omega) hw
      refine ⟨x, ?_, hp⟩
      rw [Code.expected, List.cons_append]
      exact List.mem_cons_of_mem _ hx
  | .ite s lt le hi t e y r, k, n, hs, hk, hc => by
    intro l h1 h2 h3 hw
    have hre := (Code.ite s lt le hi t e y r).reaches W k n hs hk hc l.block h1 h2
    obtain ⟨h0, h1', h2', h3'⟩ := slice3 hs
    have hp := r.size_pos
    simp only [Code.size] at hk
    have F := fork_of W hc h0 h1' h2' y.one (by omega)
    by_cases h : l.block = k ∧ l.idx ≤ n + 1
    · exact ⟨(⟨k, n⟩, ⟨k, n + 1⟩, s), by simp [Code.expected], passed_same h.1 (h3 h.1) h.2⟩
    · exact F.passed W (n := n + 1) (s1 := le) (s2 := lt) (by simp [Code.expected]) (by simp [Code.expected]) hre hw (fun e => by
        have : ¬ l.idx ≤ n + 1 := fun q => h ⟨e, q⟩
        omega)
  | .only s lt hi t dead r, k, n, hs, hk, hc => by
    intro l h1 h2 h3 hw
    have hre := (Code.only s lt hi t dead r).reaches W k n hs hk hc l.block h1 h2
    obtain ⟨h0, h1', h2', h3'⟩ := slice3 hs
    have hp := r.size_pos
    simp only [Code.size] at hk
    have F := fork_of W hc h0 h1' h2' rfl (by omega)
    by_cases h : l.block = k ∧ l.idx ≤ n + 1
    · exact ⟨(⟨k, n⟩, ⟨k, n + 1⟩, s), by simp [Code.expected], passed_same h.1 (h3 h.1) h.2⟩
    · exact F.passed W (n := n + 1) (s1 := hi) (s2 := lt) (by simp [Code.expected]) (by simp [Code.expected]) hre hw (fun e => by
        have : ¬ l.idx ≤ n + 1 := fun q => h ⟨e, q⟩
        omega)

end

theorem Code.finAt_block : ∀ (p : Code) (k n : Nat), (p.finAt k n).block + 1 = k + p.size
  | .fin, _, _ => rfl
  | .act _ r, k, n => r.finAt_block k (n + 1)
  | .ite _ _ _ _ _ _ _ r, k, n => by
    have := r.finAt_block (k + 3) 0
    simp only [Code.finAt, Code.size]
    omega
  | .only _ _ _ _ _ r, k, n => by
    have := r.finAt_block (k + 3) 0
    simp only [Code.finAt, Code.size]
    omega

theorem stuck {succ : Nat → List Nat} {a c : Nat} (h : succ a = []) (hr : Reach succ a c) : c = a := by
  induction hr with
  | refl => rfl
  | tail _ hc ih =>
    rw [ih, h] at hc
    simp at hc

/-- **C132 (panics).** The check accepts the steps of every function in which arms of conditionals may panic.  In a block
that ends with a panic, no location but the first one is on any step. -/
theorem C132_panics (p : Code) (sp : Nat) {fuel : Nat} (hfu : fuel ≠ 0)
    {order : List (Loc × Nat) → List (Loc × Nat)} (ho : ∀ l, (order l).Perm l) :
    ∃ f locals, compute (.ofBody p.body fuel order) (p.source sp) = .steps f locals ∧ validate p.body f = .ok () ∧
      ∀ (l : Loc) (d : Cfg.Block), p.body[l.block]? = some d → d.term = .other [] → 1 ≤ l.idx →
        ∀ g ∈ f.segs, ¬ OnStep p.body g l := by
  obtain ⟨f, locals, h1, h2, _⟩ := C128_steps p sp hfu ho
  have W := body_whole p
  have hsz := p.size_pos
  have hc : Cut p.body 0 := ⟨.refl, fun u v _ hu => absurd hu (Nat.not_lt_zero u)⟩
  have hmem : ∀ y : Step, y ∈ p.expected 0 0 ⟨0, 0⟩ ++ p.close 0 0 sp ↔ ∃ g ∈ f.segs, (g.from, g.to, g.span) = y := by
    intro y
    rw [Code.close, ← h2, List.mem_map]
  have hends : ∀ x ∈ p.expected 0 0 ⟨0, 0⟩ ++ p.close 0 0 sp,
      Before p.body x.1 x.2.1 ∧ (x.2.1.idx = 0 ∨ Reach p.body.succ x.2.1.block (p.size - 1)) := by
    intro x hx
    rcases List.mem_append.1 hx with hx | hx
    · exact p.ends W 0 0 ⟨0, 0⟩ (body_slice p) (by omega) hc (.inl ⟨rfl, Nat.le_refl _⟩) x hx
    · unfold Code.close at hx
      split at hx
      · simp at hx
      · rw [List.mem_singleton] at hx
        subst hx
        refine ⟨.inl ⟨rfl, Nat.le_succ _⟩, .inr ?_⟩
        have := p.finAt_block 0 0
        rw [show p.size - 1 = (p.finAt 0 0).block by omega]
        exact .refl
  refine ⟨f, locals, h1, ?_, ?_⟩
  · obtain ⟨s, g, hr, hf⟩ := run_of_steps (mapper_proper p.body) h1
    rw [C132_before W.valid hr hf]
    refine ⟨fun sg hsg => (hends _ ((hmem _).2 ⟨sg, hsg, rfl⟩)).1, ?_⟩
    intro l ⟨hl1, hl2, hl3⟩
    have hlt : l.block < p.body.length := by
      unfold Body.keep at hl2
      cases hx : p.body[l.block]? with
      | none => rw [hx] at hl2; exact absurd hl2 (by simp)
      | some d => exact (List.getElem?_eq_some_iff.1 hx).1
    rw [body_length] at hlt
    obtain ⟨y, hy, hp⟩ := p.covers W sp 0 0 (body_slice p) (by omega) hc l (Nat.zero_le _) (by omega)
      (fun _ => Nat.zero_le _) hl3
    obtain ⟨sg, hsg, rfl⟩ := (hmem y).1 hy
    exact ⟨sg, hsg, hp⟩
  · intro l d hd ht hi g hg ⟨⟨_, hp⟩, hr⟩
    have hs : p.body.succ l.block = [] := by
      rw [W.fine.succ hd (by simp [ht, Term.targets]), ht]
      rfl
    have hto := stuck hs hr
    rcases hp with ⟨_, h3⟩ | ⟨_, _, w, hw, hnw⟩
    · rcases (hends _ ((hmem _).2 ⟨g, hg, rfl⟩)).2 with h4 | h4
      · dsimp only at h4
        omega
      · dsimp only at h4
        rw [hto] at h4
        have h5 := stuck hs h4
        have h6 : p.size - 1 ∈ p.body.returns := by rw [W.returns]; simp
        rw [h5] at h6
        simp [Body.returns, Body.term, hd, ht] at h6
    · exact hnw (hto ▸ hw.last_mem)

/-- A panic in the first of two conditionals; the second statement of its arm is lost. -/
example : ∃ f locals, compute (.ofBody (Code.ite 1 2 3 4 [5, 6] [7] .onlyElse (.act 8 (.only 9 10 11 [12] false .fin))).body 1 id)
      ((Code.ite 1 2 3 4 [5, 6] [7] .onlyElse (.act 8 (.only 9 10 11 [12] false .fin))).source 99) = .steps f locals ∧
    validate (Code.ite 1 2 3 4 [5, 6] [7] .onlyElse (.act 8 (.only 9 10 11 [12] false .fin))).body f = .ok () ∧
    ∀ g ∈ f.segs, ¬ OnStep (Code.ite 1 2 3 4 [5, 6] [7] .onlyElse (.act 8 (.only 9 10 11 [12] false .fin))).body g ⟨2, 1⟩ := by
  obtain ⟨f, locals, h1, h2, h3⟩ := C132_panics (Code.ite 1 2 3 4 [5, 6] [7] .onlyElse (.act 8 (.only 9 10 11 [12] false .fin))) 99
    (fuel := 1) (by omega) (order := id) (fun _ => .refl _)
  exact ⟨f, locals, h1, h2, h3 ⟨2, 1⟩ ⟨2, .other [], false⟩ rfl rfl (by decide)⟩

end Verif.Walk.Panics
