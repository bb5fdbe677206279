import Verif.Segments.CheckProps
import Verif.Walk.Early
import Verif.Walk.Ends
/-!
# C132: the check of the tests accepts the steps of every program

Every step of a program starts before its end.  Up to the first fork, every location is on a step; behind it, every
location counts as passed (`C132_blind`).
-/
namespace Verif.Walk

open Verif.Cfg Verif.Segments Verif.Graph Verif.HirSteps
open Verif.HirSteps.Prog (Slice Slice.tail)

variable {b : Body}

/-- The steps of a body come from a history of the builder. -/
theorem run_of_steps {E : Env} (hm : E.m.Proper) {value : Expr} {f : Frozen} {locals : List (Nat × List Nat)}
    (h : compute E value = .steps f locals) : ∃ s g, Run E.secondWins E.m s g ∧ s.freeze = .ok f := by
  obtain ⟨v, h1, _, _, h4, _⟩ := compute_steps h
  obtain ⟨g, hmv⟩ := all_body (tracked_closed hm) value V.make v h1 [] .make
  exact ⟨v.st, _, hmv.run, h4⟩

/-- A step as a segment. -/
def Step.seg (x : Step) : Seg := ⟨x.1, x.2.1, x.2.2, 0⟩

/-! ## The order of the ends -/

theorem before_same {k i j : Nat} (h : i ≤ j) : Before b ⟨k, i⟩ ⟨k, j⟩ := .inl ⟨rfl, h⟩

theorem before_dom {x y : Loc} (h : x.block ≠ y.block) (hd : Dominates b.succ x.block y.block) : Before b x y := .inr ⟨h, hd⟩

theorem Arms.entries_in : ∀ (as : Arms) (k : Nat), ∀ y ∈ as.entries k, In k (k + as.size) y.1.block
  | .last i f, k => by
    intro y hy
    have hp := f.size_pos
    rw [Arms.entries, List.mem_singleton] at hy
    subst hy
    simp only [In, Arms.size, Arms.limbs, Limbs.size, Bool.toNat_false]
    simp only [Prog.size] at hp
    omega
  | .cons i f as, k => by
    intro y hy
    have hp := f.size_pos
    have he : k + (Arms.cons i f as).size = k + 1 + f.size + as.size := by
      simp only [Arms.size, Arms.limbs, Limbs.size, Bool.toNat_true, Prog.size]; omega
    rw [he]
    rw [Arms.entries, List.mem_cons] at hy
    rcases hy with rfl | hy
    · exact ⟨by dsimp only; omega, by dsimp only; omega⟩
    · have := as.entries_in (k + 1 + f.size) y hy
      unfold In at *
      omega

mutual
theorem Prog.befores {ret : Nat} (W : Whole b ret) : ∀ (p : Prog) (k n : Nat) (last : Term) (xs : List Nat),
    (∀ r i, last ≠ .falseEdge r i) → Place b.succ p.shape k xs → Slice b k (p.code k n last) →
    ∀ x ∈ p.expected k n, Before b x.1 x.2.1
  | .fin, k, n, last, xs, hl, P, hs => by
    intro x hx
    simp [Prog.expected] at hx
  | .act sp r, k, n, last, xs, hl, P, hs => by
    intro x hx
    rw [Prog.expected, List.mem_cons] at hx
    rcases hx with rfl | hx
    · exact before_same (Nat.le_succ n)
    · exact r.befores W k (n + 1) last xs hl P hs x hx
  | .bind sp vs r, k, n, last, xs, hl, P, hs => by
    intro x hx
    rw [Prog.expected, List.mem_cons] at hx
    rcases hx with rfl | hx
    · exact before_same (Nat.le_succ n)
    · exact r.befores W k (n + 1) last xs hl P hs x hx
  | .call sp r, k, n, last, xs, hl, P, hs => by
    intro x hx
    have hp := r.size_pos
    rw [Prog.expected, List.mem_cons] at hx
    rw [Prog.shape] at P
    rcases hx with rfl | hx
    · refine before_dom (by dsimp only; omega) (P.region.dom ⟨by dsimp only; omega, ?_⟩)
      simp only [Shape.size, Prog.size] at *
      omega
    · exact r.befores W (k + 1) 0 last xs hl P.line (Slice.tail hs).2 x hx
  | .ite sp lt le hi t e r, k, n, last, xs, hl, P, hs => by
    obtain ⟨hd, hse, hst, hsr⟩ := slice_ite hs
    have hp := r.size_pos
    have hpt := t.size_pos
    have hpe := e.size_pos
    have hj : k + 1 + (Limbs.cons false e.shape (.cons false t.shape .nil)).size = k + 1 + e.size + t.size := by
      simp only [Limbs.size, Bool.toNat_false, Prog.size]; omega
    rw [Prog.shape] at P
    have PE := P.limb (i := 0) (h' := k + 1) (hd := false) (f := e.shape) rfl
    have PT := P.limb (i := 1) (h' := k + 1 + e.size) (hd := false) (f := t.shape) rfl
    have PR := P.join
    rw [hj] at PE PT PR
    have D : ∀ y, k ≤ y → y < k + 1 + e.size + t.size → Dominates b.succ k y := fun y h1 h2 => P.region.dom ⟨h1, by
      have : k + (Shape.fork (Limbs.cons false e.shape (.cons false t.shape .nil)) r.shape).size =
          k + 1 + e.size + t.size + r.size := by
        simp only [Shape.size, Limbs.size, Bool.toNat_false, Prog.size]; omega
      omega⟩
    intro x hx
    simp only [Prog.expected, List.mem_cons, List.mem_append] at hx
    rcases hx with rfl | rfl | rfl | hx | hx | hx
    · exact before_same (Nat.le_succ n)
    · exact before_dom (by dsimp only; omega) (D _ (by dsimp only; omega) (by dsimp only; omega))
    · exact before_dom (by dsimp only; omega) (D _ (by dsimp only; omega) (by dsimp only; omega))
    · exact t.befores W _ 0 _ _ (by intro _ _ h; cases h) PT hst x hx
    · exact e.befores W _ 0 _ _ (by intro _ _ h; cases h) PE hse x hx
    · exact r.befores W _ 0 last xs hl PR hsr x hx
  | .only sp lt hi t r, k, n, last, xs, hl, P, hs => by
    obtain ⟨hd, hse, hst, hsr⟩ := slice_only hs
    have hp := r.size_pos
    have hpt := t.size_pos
    have hj : k + 1 + (Limbs.cons false .fin (.cons false t.shape .nil)).size = k + 1 + 1 + t.size := by
      simp only [Limbs.size, Shape.size, Bool.toNat_false, Prog.size]; omega
    rw [Prog.shape] at P
    have PT := P.limb (i := 1) (h' := k + 1 + 1) (hd := false) (f := t.shape) rfl
    have PR := P.join
    rw [hj] at PT PR
    have D : ∀ y, k ≤ y → y < k + 1 + 1 + t.size → Dominates b.succ k y := fun y h1 h2 => P.region.dom ⟨h1, by
      have : k + (Shape.fork (Limbs.cons false .fin (.cons false t.shape .nil)) r.shape).size =
          k + 1 + 1 + t.size + r.size := by
        simp only [Shape.size, Limbs.size, Bool.toNat_false, Prog.size]; omega
      omega⟩
    intro x hx
    simp only [Prog.expected, List.mem_cons, List.mem_append] at hx
    rcases hx with rfl | rfl | rfl | hx | hx
    · exact before_same (Nat.le_succ n)
    · exact before_dom (by dsimp only; omega) (D _ (by dsimp only; omega) (by dsimp only; omega))
    · exact before_dom (by dsimp only; omega) (D _ (by dsimp only; omega) (by dsimp only; omega))
    · exact t.befores W _ 0 _ _ (by intro _ _ h; cases h) PT hst x hx
    · exact r.befores W _ 0 last xs hl PR hsr x hx
  | .mtch sp ds i f as r, k, n, last, xs, hl, P, hs => by
    obtain ⟨hd, hd1, hsf, hsa, hsr⟩ := slice_mtch hs
    have hp := r.size_pos
    have hpf := f.size_pos
    have hpa := as.size_pos
    have hj : k + 1 + (Limbs.cons true f.shape as.limbs).size = k + 1 + 1 + f.size + as.size := by
      simp only [Limbs.size, Bool.toNat_true, Prog.size, Arms.size]; omega
    rw [Prog.shape] at P
    have PF := P.limb (i := 0) (h' := k + 1) (hd := true) (f := f.shape) rfl
    have PR := P.join
    rw [hj] at PF PR
    have D : ∀ y, k ≤ y → y < k + 1 + 1 + f.size + as.size → Dominates b.succ k y := fun y h1 h2 => P.region.dom ⟨h1, by
      have : k + (Shape.fork (Limbs.cons true f.shape as.limbs) r.shape).size =
          k + 1 + 1 + f.size + as.size + r.size := by
        simp only [Shape.size, Limbs.size, Bool.toNat_true, Prog.size, Arms.size]; omega
      omega⟩
    intro x hx
    simp only [Prog.expected, List.map_cons, List.mem_cons, List.mem_append, List.mem_map] at hx
    rcases hx with rfl | (rfl | ⟨y, hy, rfl⟩) | (rfl | hx) | hx | hx
    · exact before_same (Nat.le_succ n)
    · exact before_dom (by dsimp only; omega) (D _ (by dsimp only; omega) (by dsimp only; omega))
    · have := as.entries_in (k + 1 + 1 + f.size) y hy
      unfold In at this
      exact before_dom (by dsimp only; omega) (D _ (by dsimp only; omega) (by dsimp only; omega))
    · exact before_same (Nat.le_refl _)
    · exact f.befores W _ i.nb _ _ (by intro _ _ h; cases h) PF hsf x hx
    · exact as.befores W _ _ hsa (fun q h hd g hpt => by
        have := P.limb (i := q + 1) (h' := h) (hd := hd) (f := g) hpt
        rw [hj] at this
        exact this) x hx
    · exact r.befores W _ 0 last xs hl PR hsr x hx
  | .whl sp sc lt hi sb c t r, k, n, last, xs, hl, P, hs => by
    obtain ⟨hd0, hd1, hdc, hda, hst, hsr⟩ := slice_whl hs
    have hp := r.size_pos
    have hpt := t.size_pos
    rw [Prog.shape] at P
    have B := P.loop W (real_of hl hsr) (by simp)
    have he : k + (Shape.loop c false t.shape r.shape).size = k + 3 + c + t.size + r.size := by
      simp only [Shape.size, Bool.toNat_false, Prog.size]; omega
    have hR := P.region
    rw [he] at B hR
    intro x hx
    simp only [Prog.expected, List.mem_cons, List.mem_append] at hx
    rcases hx with rfl | rfl | rfl | hx | rfl | rfl | hx
    · exact before_dom (by dsimp only; omega) (hR.dom ⟨by dsimp only; omega, by dsimp only; omega⟩)
    · exact before_dom (by dsimp only; omega) (B.dom ⟨by dsimp only; omega, by dsimp only; omega⟩)
    · exact before_dom (by dsimp only; omega) (B.dom ⟨by dsimp only; omega, by dsimp only; omega⟩)
    · exact t.befores W _ 0 _ _ (by intro _ _ h; cases h) P.body hst x hx
    · exact before_same (Nat.le_refl _)
    · exact before_same (Nat.zero_le _)
    · exact r.befores W _ 1 last xs hl P.after hsr x hx
  | .frl sp sa sc hi sn lb li nb t r, k, n, last, xs, hl, P, hs => by
    obtain ⟨hd0, hd1, hd2, hd3, hda, hd5, hst, hsr⟩ := slice_frl hs
    have hp := r.size_pos
    have hpt := t.size_pos
    rw [Prog.shape] at P
    have Q := P.line
    have B := Q.loop W (real_of hl hsr) (fun _ => ⟨_, _, term_of hd5⟩)
    have he : k + (Shape.line (Shape.loop 1 true t.shape r.shape)).size = k + 6 + t.size + r.size := by
      simp only [Shape.size, Bool.toNat_true, Prog.size]; omega
    have he' : k + 1 + (Shape.loop 1 true t.shape r.shape).size = k + 6 + t.size + r.size := by
      simp only [Shape.size, Bool.toNat_true, Prog.size]; omega
    have hR := P.region
    rw [he] at hR
    rw [he'] at B
    intro x hx
    simp only [Prog.expected, List.mem_cons, List.mem_append] at hx
    rcases hx with rfl | rfl | rfl | rfl | rfl | rfl | hx | rfl | hx
    · exact before_dom (by dsimp only; omega) (hR.dom ⟨by dsimp only; omega, by dsimp only; omega⟩)
    · exact before_dom (by dsimp only; omega) Q.step_dom
    · exact before_dom (by dsimp only; omega) (B.dom ⟨by dsimp only; omega, by dsimp only; omega⟩)
    · exact before_dom (by dsimp only; omega) (B.dom ⟨by dsimp only; omega, by dsimp only; omega⟩)
    · exact before_same (Nat.le_refl _)
    · exact before_same (Nat.le_refl _)
    · exact t.befores W _ nb _ _ (by intro _ _ h; cases h) Q.body hst x hx
    · exact before_same (Nat.zero_le _)
    · exact r.befores W _ 1 last xs hl Q.after hsr x hx
theorem Arms.befores {ret : Nat} (W : Whole b ret) : ∀ (as : Arms) (k j : Nat), Slice b k (as.code k j) →
    (∀ (i h : Nat) (hd : Bool) (g : Shape), (as.limbs.parts k)[i]? = some (h, hd, g) →
      Place b.succ g (h + hd.toNat) [j]) →
    ∀ x ∈ (as.expected k).flatten, Before b x.1 x.2.1
  | .last i f, k, j, hs, hP => by
    intro x hx
    simp only [Arms.expected, List.flatten_cons, List.flatten_nil, List.append_nil, List.mem_cons] at hx
    rcases hx with rfl | hx
    · exact before_same (Nat.le_refl _)
    · exact f.befores W k i.nb _ _ (by intro _ _ h; cases h) (hP 0 k false f.shape rfl) (slice_last hs) x hx
  | .cons i f as, k, j, hs, hP => by
    obtain ⟨_, hsf, hsa⟩ := slice_cons hs
    intro x hx
    simp only [Arms.expected, List.flatten_cons, List.mem_append, List.mem_cons] at hx
    rcases hx with (rfl | hx) | hx
    · exact before_same (Nat.le_refl _)
    · exact f.befores W (k + 1) i.nb _ _ (by intro _ _ h; cases h) (hP 0 k true f.shape rfl) hsf x hx
    · exact as.befores W (k + 1 + f.size) j hsa (fun q h hd g hpt => hP (q + 1) h hd g hpt) x hx
end

/-! ## What is passed -/

theorem dom_reach {x y : Nat} (h : Dominates b.succ x y) : Reach b.succ x y := by
  obtain ⟨w, hw⟩ := h.1.path
  obtain ⟨_, _, _, h2, _⟩ := hw.split (h.2 w hw)
  exact h2.reach

/-- A location of the first block of a step that stays in it. -/
theorem passed_same {k i j s : Nat} {l : Loc} (h1 : l.block = k) (h2 : i ≤ l.idx) (h3 : l.idx ≤ j) :
    Passed b (Step.seg (⟨k, i⟩, ⟨k, j⟩, s)) l := ⟨fun _ => h2, .inl ⟨h1, h3⟩⟩

/-- Behind a fork. -/
theorem passed_fork {s t1 t2 : Loc} {p1 p2 : Nat} {l : Loc} (hne : t1.block ≠ t2.block) (h1 : s.block ≠ t1.block)
    (h2 : s.block ≠ t2.block) (hr1 : ∃ w, Path b.succ s.block t1.block w ∧ t2.block ∉ w)
    (hr2 : ∃ w, Path b.succ s.block t2.block w ∧ t1.block ∉ w) (hl : Reach b.succ s.block l.block) (hw : Within b l)
    (hs : l.block = s.block → s.idx ≤ l.idx) {ws : List Step} (m1 : (s, t1, p1) ∈ ws) (m2 : (s, t2, p2) ∈ ws) :
    ∃ x ∈ ws, Passed b (Step.seg x) l := by
  rcases C132_blind (g1 := Step.seg (s, t1, p1)) (g2 := Step.seg (s, t2, p2)) rfl hne h1 h2 hr1 hr2 hl hw hs with h | h
  · exact ⟨_, m1, h⟩
  · exact ⟨_, m2, h⟩

theorem path_two {k x : Nat} (h : x ∈ b.succ k) : Path b.succ k x [k, x] := .cons h (.single _)

theorem path_three {k y x : Nat} (h : y ∈ b.succ k) (h' : x ∈ b.succ y) : Path b.succ k x [k, y, x] :=
  .cons h (.cons h' (.single _))

/-- The step for the whole function. -/
def Prog.close (p : Prog) (k n sp : Nat) : List Step :=
  [(p.finAt k n, ⟨(p.finAt k n).block, (p.finAt k n).idx + 1⟩, sp)]

/-- The entry of the first of the further arms, and how it is reached. -/
theorem Arms.first (as : Arms) {k x j : Nat} (hf : as.limbs.Fits b.succ k j) (hx : k ∈ b.succ x) :
    ∃ e p w, (e, p) ∈ as.entries k ∧ k ≤ e.block ∧ Path b.succ x e.block w ∧ ∀ y ∈ w, y = x ∨ k ≤ y := by
  cases as with
  | last i f => exact ⟨_, _, _, List.mem_cons_self, Nat.le_refl _, path_two hx, by simp⟩
  | cons i f as =>
    rw [Arms.limbs, Limbs.Fits] at hf
    refine ⟨_, _, _, List.mem_cons_self, Nat.le_succ _, path_three hx (by rw [hf.1 rfl]; exact List.mem_cons_self), ?_⟩
    intro y hy
    simp only [List.mem_cons, List.not_mem_nil, or_false] at hy
    omega

/-- The steps `ws` pass every location of a program that lies at `c`. -/
def Passes (b : Body) (s : Prog) (c : Loc) (ws : List Step) : Prop :=
  ∀ l : Loc, In c.block (c.block + s.size) l.block → (l.block = c.block → c.idx ≤ l.idx) → Within b l →
    ∃ x ∈ ws, Passed b (Step.seg x) l

theorem Prog.passes {ret : Nat} (W : Whole b ret) {s : Prog} {ws : List Step} : ∀ (p : Prog) (k n : Nat) (xs : List Nat),
    Place b.succ (p.plug s).shape k xs → Slice b k ((p.plug s).code k n .ret) → Passes b s (p.finAt k n) ws →
    Passes b (p.plug s) ⟨k, n⟩ (p.expected k n ++ ws)
  | .fin, k, n, xs, P, hs, hws => hws
  | .act sp r, k, n, xs, P, hs, hws => by
    intro l hl hn hw
    dsimp only at hl hn
    rw [Prog.plug] at P hs hl
    by_cases h : l.block = k ∧ l.idx = n
    · exact ⟨_, List.mem_cons_self, passed_same (j := n + 1) (i := n) h.1 (by omega) (by omega)⟩
    · obtain ⟨x, hx, hp⟩ := Prog.passes W r k (n + 1) xs P hs hws l hl (fun e => by have := hn e; dsimp only at e ⊢; omega) hw
      exact ⟨x, List.mem_cons_of_mem _ hx, hp⟩
  | .bind sp vs r, k, n, xs, P, hs, hws => by
    intro l hl hn hw
    dsimp only at hl hn
    rw [Prog.plug] at P hs hl
    by_cases h : l.block = k ∧ l.idx = n
    · exact ⟨_, List.mem_cons_self, passed_same (j := n + 1) (i := n) h.1 (by omega) (by omega)⟩
    · obtain ⟨x, hx, hp⟩ := Prog.passes W r k (n + 1) xs P hs hws l hl (fun e => by have := hn e; dsimp only at e ⊢; omega) hw
      exact ⟨x, List.mem_cons_of_mem _ hx, hp⟩
  | .call sp r, k, n, xs, P, hs, hws => by
    intro l hl hn hw
    dsimp only at hl hn
    rw [Prog.plug] at P hs hl
    obtain ⟨hd, hr⟩ := Slice.tail hs
    by_cases h : l.block = k
    · refine ⟨_, List.mem_cons_self, fun _ => hn h, .inr ⟨hw, ?_, [k], ?_, ?_⟩⟩
      · simp only [Step.seg]; omega
      · rw [h]; exact .single _
      · simp only [Step.seg, List.mem_singleton]; omega
    · rw [Prog.shape] at P
      have : In (k + 1) (k + 1 + (r.plug s).size) l.block := by
        simp only [In, Prog.size, Prog.shape, Shape.size] at *
        omega
      obtain ⟨x, hx, hp⟩ := Prog.passes W r (k + 1) 0 xs P.line hr hws l this (fun _ => Nat.zero_le _) hw
      exact ⟨x, List.mem_cons_of_mem _ hx, hp⟩
  | .ite sp lt le hi t e r, k, n, xs, P, hs, hws => by
    intro l hl hn hw
    dsimp only at hl hn
    rw [Prog.plug] at P hs hl
    obtain ⟨hd, _⟩ := slice_ite hs
    have hpe := e.size_pos
    rw [Prog.shape] at P
    have F := P.forked
    by_cases h : l.block = k
    · unfold Within at hw
      rw [h, stmts_of hd] at hw
      exact ⟨_, List.mem_cons_self, passed_same h (hn h) hw⟩
    · have m0 : k + 1 ∈ b.succ k := F.enter (i := 0) (h := k + 1) (hd := false) (f := e.shape) rfl
      have m1 : k + 1 + e.size ∈ b.succ k := F.enter (i := 1) (h := k + 1 + e.size) (hd := false) (f := t.shape) rfl
      refine passed_fork (s := ⟨k, n + 1⟩) (t1 := ⟨k + 1, 0⟩) (t2 := ⟨k + 1 + e.size, 0⟩) (p1 := le) (p2 := lt)
        (by dsimp only; omega) (by dsimp only; omega) (by dsimp only; omega) ⟨_, path_two m0, ?_⟩ ⟨_, path_two m1, ?_⟩
        (dom_reach (P.region.dom hl)) hw (fun e => absurd e h) (by simp [Prog.expected]) (by simp [Prog.expected])
      · simp only [List.mem_cons, List.not_mem_nil, or_false]; omega
      · simp only [List.mem_cons, List.not_mem_nil, or_false]; omega
  | .only sp lt hi t r, k, n, xs, P, hs, hws => by
    intro l hl hn hw
    dsimp only at hl hn
    rw [Prog.plug] at P hs hl
    obtain ⟨hd, _⟩ := slice_only hs
    rw [Prog.shape] at P
    have F := P.forked
    by_cases h : l.block = k
    · unfold Within at hw
      rw [h, stmts_of hd] at hw
      exact ⟨_, List.mem_cons_self, passed_same h (hn h) hw⟩
    · have m0 : k + 1 ∈ b.succ k := F.enter (i := 0) (h := k + 1) (hd := false) (f := .fin) rfl
      have m1 : k + 1 + 1 ∈ b.succ k := F.enter (i := 1) (h := k + 1 + 1) (hd := false) (f := t.shape) rfl
      refine passed_fork (s := ⟨k, n + 1⟩) (t1 := ⟨k + 1, 0⟩) (t2 := ⟨k + 1 + 1, 0⟩) (p1 := hi) (p2 := lt)
        (by dsimp only; omega) (by dsimp only; omega) (by dsimp only; omega) ⟨_, path_two m0, ?_⟩ ⟨_, path_two m1, ?_⟩
        (dom_reach (P.region.dom hl)) hw (fun e => absurd e h) (by simp [Prog.expected]) (by simp [Prog.expected])
      · simp only [List.mem_cons, List.not_mem_nil, or_false]; omega
      · simp only [List.mem_cons, List.not_mem_nil, or_false]; omega
  | .mtch sp ds i f as r, k, n, xs, P, hs, hws => by
    intro l hl hn hw
    dsimp only at hl hn
    rw [Prog.plug] at P hs hl
    obtain ⟨hd, _⟩ := slice_mtch hs
    have hpf := f.size_pos
    rw [Prog.shape] at P
    have F := P.forked
    by_cases h : l.block = k ∧ l.idx ≤ n + 1
    · exact ⟨_, List.mem_cons_self, passed_same h.1 (hn h.1) h.2⟩
    · have m0 : k + 1 ∈ b.succ k := F.enter (i := 0) (h := k + 1) (hd := true) (f := f.shape) rfl
      have fits := F.limbs
      rw [Limbs.Fits] at fits
      obtain ⟨f1, _, f3⟩ := fits
      have m1 : k + 1 + 1 ∈ b.succ (k + 1) := by rw [f1 rfl]; exact List.mem_cons_self
      have m2 : k + 1 + 1 + f.size ∈ b.succ k := by
        cases as with
        | last i' f' => exact F.enter (i := 1) (h := k + 1 + 1 + f.size) (hd := false) (f := f'.shape) rfl
        | cons i' f' as => exact F.enter (i := 1) (h := k + 1 + 1 + f.size) (hd := true) (f := f'.shape) rfl
      obtain ⟨e, p, w, he, hke, hpw, hyw⟩ := as.first f3 m2
      rw [Bool.toNat_true] at hke hyw
      change k + 1 + 1 + f.size ≤ e.block at hke
      change ∀ y ∈ w, y = k ∨ k + 1 + 1 + f.size ≤ y at hyw
      refine passed_fork (s := ⟨k, n + 1⟩) (t1 := ⟨k + 1 + 1, i.nb⟩) (t2 := e) (p1 := i.pat) (p2 := p)
        (by show k + 1 + 1 ≠ e.block; omega) (by dsimp only; omega) (by show k ≠ e.block; omega) ⟨_, path_three m0 m1, ?_⟩ ⟨w, hpw, ?_⟩
        (dom_reach (P.region.dom hl)) hw (fun e => by have e : l.block = k := e; show n + 1 ≤ l.idx; omega) (by simp [Prog.expected]) ?_
      · simp only [List.mem_cons, List.not_mem_nil, or_false]; omega
      · intro hm
        have := hyw _ hm
        dsimp only at this
        omega
      · simp only [Prog.expected, List.cons_append, List.append_assoc, List.map_cons, List.mem_cons, List.mem_append,
          List.mem_map]
        exact .inr (.inr (.inl ⟨_, he, rfl⟩))
  | .whl sp sc lt hi sb c t r, k, n, xs, P, hs, hws => by
    intro l hl hn hw
    dsimp only at hl hn
    rw [Prog.plug] at P hs hl
    obtain ⟨hd0, hd1, hdc, hda, hst, hsr⟩ := slice_whl hs
    have hp := (r.plug s).size_pos
    have hpt := t.size_pos
    rw [Prog.shape] at P
    have L := P.looped
    have B := P.loop W (real_of (by intro _ _ h; cases h) hsr) (by simp)
    by_cases h : l.block ≤ k + 2 + c
    · refine ⟨_, List.mem_cons_self, hn, ?_⟩
      by_cases h2 : l.block = k + 2 + c
      · unfold Within at hw
        rw [h2, stmts_of hda] at hw
        exact .inl ⟨h2, hw⟩
      · obtain ⟨w, h3, h4⟩ := L.before (y := l.block) ⟨hl.1, by omega⟩
        refine .inr ⟨hw, by simp only [Step.seg]; omega, w, h3, fun hm => ?_⟩
        have : k + 2 + c < l.block + 1 := (h4 _ hm).2
        omega
    · have hsw := L.switch
      simp only [Bool.false_eq_true, if_false, Bool.toNat_false, Nat.add_zero] at hsw
      have m0 : k + 3 + c + t.size ∈ b.succ (k + 2 + c) := by rw [hsw]; simp
      have m1 : k + 3 + c ∈ b.succ (k + 2 + c) := by rw [hsw]; simp
      refine passed_fork (s := ⟨k + 2 + c, 1⟩) (t1 := ⟨k + 3 + c + t.size, 0⟩) (t2 := ⟨k + 3 + c, 0⟩) (p1 := hi) (p2 := lt)
        (by dsimp only; omega) (by dsimp only; omega) (by dsimp only; omega) ⟨_, path_two m0, ?_⟩ ⟨_, path_two m1, ?_⟩
        (dom_reach (B.dom ⟨by omega, hl.2⟩)) hw (fun e => by dsimp only at e; omega)
        (by simp [Prog.expected]) (by simp [Prog.expected])
      · simp only [List.mem_cons, List.not_mem_nil, or_false]; omega
      · simp only [List.mem_cons, List.not_mem_nil, or_false]; omega
  | .frl sp sa sc hi sn lb li nb t r, k, n, xs, P, hs, hws => by
    intro l hl hn hw
    dsimp only at hl hn
    rw [Prog.plug] at P hs hl
    obtain ⟨hd0, hd1, hd2, hd3, hda, hd5, hst, hsr⟩ := slice_frl hs
    have hp := (r.plug s).size_pos
    have hpt := t.size_pos
    rw [Prog.shape] at P
    have hfit := P.fits
    rw [Shape.Fits] at hfit
    have Q := P.line
    have L := Q.looped
    have B := Q.loop W (real_of (by intro _ _ h; cases h) hsr) (fun _ => ⟨_, _, term_of hd5⟩)
    have he' : k + 1 + (Shape.loop 1 true t.shape (r.plug s).shape).size =
        k + (Prog.frl sp sa sc hi sn lb li nb t (r.plug s)).size := by
      simp only [Prog.shape, Shape.size, Prog.size]; omega
    rw [he'] at B
    by_cases h : l.block < k + 3
    · refine ⟨_, List.mem_cons_self, hn, .inr ⟨hw, by simp only [Step.seg]; omega, ?_⟩⟩
      by_cases h2 : l.block = k
      · refine ⟨[k], by rw [h2]; exact .single _, ?_⟩
        simp only [Step.seg, List.mem_singleton]; omega
      · obtain ⟨w, h3, h4⟩ := L.before (y := l.block) ⟨by have := hl.1; omega, by omega⟩
        have m : k + 1 ∈ b.succ k := by rw [hfit.1]; exact List.mem_cons_self
        refine ⟨k :: w, .cons m h3, fun hm => ?_⟩
        rcases List.mem_cons.1 hm with hm | hm
        · have : k + 3 = k := hm
          omega
        · have : k + 3 < l.block + 1 := (h4 _ hm).2
          omega
    · by_cases h2 : l.block = k + 3
      · refine ⟨_, List.mem_cons_of_mem _ List.mem_cons_self, fun _ => Nat.zero_le _, .inr ⟨hw, ?_, [k + 3], ?_, ?_⟩⟩
        · simp only [Step.seg]; omega
        · rw [h2]; exact .single _
        · simp only [Step.seg, List.mem_singleton]; omega
      · have m0 : k + 5 ∈ b.succ (k + 4) := by
          have : b.succ (k + 4) = _ := L.switch
          rw [this]
          exact List.mem_cons_self
        have m1 : k + 6 ∈ b.succ (k + 4) := L.into
        have m2 : k + 6 + t.size ∈ b.succ (k + 5) := by
          have : b.succ (k + 5) = _ := L.head rfl
          rw [this]
          exact List.mem_cons_self
        refine passed_fork (s := ⟨k + 4, 0⟩) (t1 := ⟨k + 6 + t.size, 0⟩) (t2 := ⟨k + 6, nb⟩) (p1 := hi) (p2 := lb)
          (by dsimp only; omega) (by dsimp only; omega) (by dsimp only; omega) ⟨_, path_three m0 m2, ?_⟩
          ⟨_, path_two m1, ?_⟩ (dom_reach (B.dom ⟨by omega, hl.2⟩)) hw (fun _ => Nat.zero_le _)
          (by simp [Prog.expected]) (by simp [Prog.expected])
        · simp only [List.mem_cons, List.not_mem_nil, or_false]; omega
        · simp only [List.mem_cons, List.not_mem_nil, or_false]; omega

theorem Prog.plug_fin : ∀ p : Prog, p.plug .fin = p
  | .fin => rfl
  | .act _ r => by rw [Prog.plug, r.plug_fin]
  | .bind _ _ r => by rw [Prog.plug, r.plug_fin]
  | .call _ r => by rw [Prog.plug, r.plug_fin]
  | .ite _ _ _ _ _ _ r => by rw [Prog.plug, r.plug_fin]
  | .only _ _ _ _ r => by rw [Prog.plug, r.plug_fin]
  | .mtch _ _ _ _ _ r => by rw [Prog.plug, r.plug_fin]
  | .whl _ _ _ _ _ _ _ r => by rw [Prog.plug, r.plug_fin]
  | .frl _ _ _ _ _ _ _ _ _ r => by rw [Prog.plug, r.plug_fin]

theorem Prog.close_passes (p : Prog) {k n : Nat} (sp : Nat) (hs : Slice b k (p.code k n .ret)) :
    Passes b .fin (p.finAt k n) (p.close k n sp) := by
  intro l hl hn hw
  have hk : l.block = (p.finAt k n).block := by
    simp only [In, Prog.size, Prog.shape, Shape.size] at hl
    omega
  have hs' := Prog.plug_slice (s := .fin) p k n .ret (by rw [p.plug_fin]; exact hs)
  have hd : b[(p.finAt k n).block]? = some ⟨(p.finAt k n).idx + 1, .ret, false⟩ := hs' 0 _ rfl
  unfold Within at hw
  rw [hk, stmts_of (d := ⟨(p.finAt k n).idx + 1, .ret, false⟩) hd] at hw
  exact ⟨_, List.mem_cons_self, passed_same hk (hn hk) hw⟩

/-- **C132 (programs).** The check accepts the steps of every program, however the entries of its branches are ordered. -/
theorem C132_programs (p : Prog) (sp : Nat) {fuel : Nat} (hfu : fuel ≠ 0)
    {order : List (Loc × Nat) → List (Loc × Nat)} (ho : ∀ l, (order l).Perm l) :
    ∃ f locals, compute (.ofBody p.body fuel order) (p.source sp) = .steps f locals ∧ validate p.body f = .ok () := by
  obtain ⟨f, locals, h1, h2, _⟩ := C102_programs p sp hfu ho
  refine ⟨f, locals, h1, ?_⟩
  obtain ⟨s, g, hr, hf⟩ := run_of_steps (mapper_proper p.body) h1
  have W := body_whole p
  rw [C132_before (body_valid p) hr hf]
  have hmem : ∀ x : Step, x ∈ p.expected 0 0 ++ p.close 0 0 sp ↔ ∃ g ∈ f.segs, (g.from, g.to, g.span) = x := by
    intro x
    have : x ∈ p.expected 0 0 ++ p.close 0 0 sp ↔ x ∈ f.segs.map (fun g => (g.from, g.to, g.span)) := by
      rw [h2]
      rfl
    rw [this, List.mem_map]
  constructor
  · intro sg hsg
    rcases List.mem_append.1 ((hmem _).2 ⟨sg, hsg, rfl⟩) with hx | hx
    · exact p.befores W 0 0 .ret [] (by intro _ _ h; cases h) (body_place p) (body_slice p) _ hx
    · simp only [Prog.close, List.mem_singleton, Prod.mk.injEq] at hx
      obtain ⟨h3, h4, _⟩ := hx
      rw [h3, h4]
      exact .inl ⟨rfl, Nat.le_succ _⟩
  · intro l hl
    obtain ⟨hl1, hl2, hl3⟩ := hl
    have hlt : l.block < p.body.length := by
      unfold Body.keep at hl2
      cases hx : p.body[l.block]? with
      | none => rw [hx] at hl2; exact absurd hl2 (by simp)
      | some d => exact (List.getElem?_eq_some_iff.1 hx).1
    rw [body_length] at hlt
    have hpl := Prog.passes (s := .fin) W p 0 0 [] (by rw [p.plug_fin]; exact body_place p)
      (by rw [p.plug_fin]; exact body_slice p) (p.close_passes sp (body_slice p))
    rw [p.plug_fin] at hpl
    obtain ⟨x, hx, hp⟩ := hpl l ⟨Nat.zero_le _, by dsimp only; omega⟩ (fun _ => Nat.zero_le _) hl3
    obtain ⟨sg, hsg, rfl⟩ := (hmem x).1 hx
    exact ⟨sg, hsg, hp⟩

/-! ## With an early return -/

theorem Prog.plug_expected (s : Prog) : ∀ (p : Prog) (k n : Nat),
    (p.plug s).expected k n = p.expected k n ++ s.expected (p.finAt k n).block (p.finAt k n).idx
  | .fin, _, _ => rfl
  | .act _ r, k, n => by simp [Prog.plug, Prog.expected, Prog.finAt, Prog.plug_expected s r]
  | .bind _ _ r, k, n => by simp [Prog.plug, Prog.expected, Prog.finAt, Prog.plug_expected s r]
  | .call _ r, k, n => by simp [Prog.plug, Prog.expected, Prog.finAt, Prog.plug_expected s r]
  | .ite _ _ _ _ _ _ r, k, n => by simp [Prog.plug, Prog.expected, Prog.finAt, Prog.plug_expected s r]
  | .only _ _ _ _ r, k, n => by simp [Prog.plug, Prog.expected, Prog.finAt, Prog.plug_expected s r]
  | .mtch _ _ _ _ _ r, k, n => by simp [Prog.plug, Prog.expected, Prog.finAt, Prog.plug_expected s r]
  | .whl _ _ _ _ _ _ _ r, k, n => by simp [Prog.plug, Prog.expected, Prog.finAt, Prog.plug_expected s r]
  | .frl _ _ _ _ _ _ _ _ _ r, k, n => by simp [Prog.plug, Prog.expected, Prog.finAt, Prog.plug_expected s r]

mutual
/-- The steps of a program end in its blocks. -/
theorem Prog.expected_in : ∀ (p : Prog) (k n : Nat), ∀ x ∈ p.expected k n, In k (k + p.size) x.2.1.block
  | .fin, k, n => by
    intro x hx
    simp [Prog.expected] at hx
  | .act sp r, k, n => by
    intro x hx
    have hp := r.size_pos
    rw [Prog.expected, List.mem_cons] at hx
    rcases hx with rfl | hx
    · exact ⟨Nat.le_refl _, by dsimp only; exact Nat.lt_add_of_pos_right hp⟩
    · exact r.expected_in k (n + 1) x hx
  | .bind sp vs r, k, n => by
    intro x hx
    have hp := r.size_pos
    rw [Prog.expected, List.mem_cons] at hx
    rcases hx with rfl | hx
    · exact ⟨Nat.le_refl _, by dsimp only; exact Nat.lt_add_of_pos_right hp⟩
    · exact r.expected_in k (n + 1) x hx
  | .call sp r, k, n => by
    intro x hx
    have hp := r.size_pos
    have he : k + (Prog.call sp r).size = k + 1 + r.size := by
      simp only [Prog.size, Prog.shape, Shape.size]; omega
    rw [he]
    rw [Prog.expected, List.mem_cons] at hx
    rcases hx with rfl | hx
    · exact ⟨by dsimp only; omega, by dsimp only; omega⟩
    · have := r.expected_in (k + 1) 0 x hx
      unfold In at *
      omega
  | .ite sp lt le hi t e r, k, n => by
    intro x hx
    have hp := r.size_pos
    have hpt := t.size_pos
    have hpe := e.size_pos
    have he : k + (Prog.ite sp lt le hi t e r).size = k + 1 + e.size + t.size + r.size := by
      simp only [Prog.size, Prog.shape, Shape.size, Limbs.size, Bool.toNat_false]; omega
    rw [he]
    simp only [Prog.expected, List.mem_cons, List.mem_append] at hx
    rcases hx with rfl | rfl | rfl | hx | hx | hx
    · exact ⟨by dsimp only; omega, by dsimp only; omega⟩
    · exact ⟨by dsimp only; omega, by dsimp only; omega⟩
    · exact ⟨by dsimp only; omega, by dsimp only; omega⟩
    · have := t.expected_in _ _ x hx
      unfold In at *
      omega
    · have := e.expected_in _ _ x hx
      unfold In at *
      omega
    · have := r.expected_in _ _ x hx
      unfold In at *
      omega
  | .only sp lt hi t r, k, n => by
    intro x hx
    have hp := r.size_pos
    have hpt := t.size_pos
    have he : k + (Prog.only sp lt hi t r).size = k + 1 + 1 + t.size + r.size := by
      simp only [Prog.size, Prog.shape, Shape.size, Limbs.size, Bool.toNat_false]; omega
    rw [he]
    simp only [Prog.expected, List.mem_cons, List.mem_append] at hx
    rcases hx with rfl | rfl | rfl | hx | hx
    · exact ⟨by dsimp only; omega, by dsimp only; omega⟩
    · exact ⟨by dsimp only; omega, by dsimp only; omega⟩
    · exact ⟨by dsimp only; omega, by dsimp only; omega⟩
    · have := t.expected_in _ _ x hx
      unfold In at *
      omega
    · have := r.expected_in _ _ x hx
      unfold In at *
      omega
  | .mtch sp ds i f as r, k, n => by
    intro x hx
    have hp := r.size_pos
    have hpf := f.size_pos
    have he : k + (Prog.mtch sp ds i f as r).size = k + 1 + 1 + f.size + as.size + r.size := by
      simp only [Prog.size, Prog.shape, Shape.size, Limbs.size, Bool.toNat_true, Arms.size]; omega
    rw [he]
    simp only [Prog.expected, List.mem_cons, List.mem_append, List.map_cons, List.mem_map] at hx
    rcases hx with rfl | (rfl | ⟨y, hy, rfl⟩) | (rfl | hx) | hx | hx
    · exact ⟨by dsimp only; omega, by dsimp only; omega⟩
    · exact ⟨by dsimp only; omega, by dsimp only; omega⟩
    · have := as.entries_in _ y hy
      unfold In at *
      dsimp only
      omega
    · exact ⟨by dsimp only; omega, by dsimp only; omega⟩
    · have := f.expected_in _ _ x hx
      unfold In at *
      omega
    · have := as.expected_in _ x hx
      unfold In at *
      omega
    · have := r.expected_in _ _ x hx
      unfold In at *
      omega
  | .whl sp sc lt hi sb c t r, k, n => by
    intro x hx
    have hp := r.size_pos
    have hpt := t.size_pos
    have he : k + (Prog.whl sp sc lt hi sb c t r).size = k + 3 + c + t.size + r.size := by
      simp only [Prog.size, Prog.shape, Shape.size, Bool.toNat_false]; omega
    rw [he]
    simp only [Prog.expected, List.mem_cons, List.mem_append] at hx
    rcases hx with rfl | rfl | rfl | hx | rfl | rfl | hx
    · exact ⟨by dsimp only; omega, by dsimp only; omega⟩
    · exact ⟨by dsimp only; omega, by dsimp only; omega⟩
    · exact ⟨by dsimp only; omega, by dsimp only; omega⟩
    · have := t.expected_in _ _ x hx
      unfold In at *
      omega
    · exact ⟨by dsimp only; omega, by dsimp only; omega⟩
    · exact ⟨by dsimp only; omega, by dsimp only; omega⟩
    · have := r.expected_in _ _ x hx
      unfold In at *
      omega
  | .frl sp sa sc hi sn lb li nb t r, k, n => by
    intro x hx
    have hp := r.size_pos
    have hpt := t.size_pos
    have he : k + (Prog.frl sp sa sc hi sn lb li nb t r).size = k + 6 + t.size + r.size := by
      simp only [Prog.size, Prog.shape, Shape.size, Bool.toNat_true]; omega
    rw [he]
    simp only [Prog.expected, List.mem_cons, List.mem_append] at hx
    rcases hx with rfl | rfl | rfl | rfl | rfl | rfl | hx | rfl | hx
    · exact ⟨by dsimp only; omega, by dsimp only; omega⟩
    · exact ⟨by dsimp only; omega, by dsimp only; omega⟩
    · exact ⟨by dsimp only; omega, by dsimp only; omega⟩
    · exact ⟨by dsimp only; omega, by dsimp only; omega⟩
    · exact ⟨by dsimp only; omega, by dsimp only; omega⟩
    · exact ⟨by dsimp only; omega, by dsimp only; omega⟩
    · have := t.expected_in _ _ x hx
      unfold In at *
      omega
    · exact ⟨by dsimp only; omega, by dsimp only; omega⟩
    · have := r.expected_in _ _ x hx
      unfold In at *
      omega
theorem Arms.expected_in : ∀ (as : Arms) (k : Nat), ∀ x ∈ (as.expected k).flatten, In k (k + as.size) x.2.1.block
  | .last i f, k => by
    intro x hx
    have hp := f.size_pos
    have he : (Arms.last i f).size = f.size := by
      simp only [Arms.size, Arms.limbs, Limbs.size, Bool.toNat_false, Prog.size]; omega
    rw [he]
    simp only [Arms.expected, List.flatten_cons, List.flatten_nil, List.append_nil, List.mem_cons] at hx
    rcases hx with rfl | hx
    · exact ⟨by dsimp only; omega, by dsimp only; omega⟩
    · exact f.expected_in _ _ x hx
  | .cons i f as, k => by
    intro x hx
    have hp := f.size_pos
    have he : k + (Arms.cons i f as).size = k + 1 + f.size + as.size := by
      simp only [Arms.size, Arms.limbs, Limbs.size, Bool.toNat_true, Prog.size]; omega
    rw [he]
    simp only [Arms.expected, List.flatten_cons, List.mem_append, List.mem_cons] at hx
    rcases hx with (rfl | hx) | hx
    · exact ⟨by dsimp only; omega, by dsimp only; omega⟩
    · have := f.expected_in _ _ x hx
      unfold In at *
      omega
    · have := as.expected_in _ x hx
      unfold In at *
      omega
end


/-- What the check makes of the steps of a function with an early return. -/
theorem Early.passes (x : Early) (sp : Nat) :
    Passes x.body x.last x.cond (x.shown ++ [(⟨x.ret, 0⟩, ⟨x.ret, 1⟩, sp)]) := by
  intro l hl hn hw
  have P := x.place_last
  obtain ⟨hd, _⟩ := slice_ite x.slice
  have hpe := (Prog.act 0 x.q).size_pos
  rw [show x.last = .ite x.sp x.lt 0 0 x.t (.act 0 x.q) .fin from rfl] at P hl
  rw [Prog.shape] at P
  have F := P.forked
  by_cases h : l.block = x.cond.block
  · unfold Within at hw
    rw [h, stmts_of hd] at hw
    exact ⟨_, List.mem_cons_self, passed_same h (hn h) hw⟩
  · have m0 : x.cond.block + 1 ∈ x.body.succ x.cond.block :=
      F.enter (i := 0) (h := x.cond.block + 1) (hd := false) (f := (Prog.act 0 x.q).shape) rfl
    have m1 : x.cond.block + 1 + (Prog.act 0 x.q).size ∈ x.body.succ x.cond.block :=
      F.enter (i := 1) (h := x.cond.block + 1 + (Prog.act 0 x.q).size) (hd := false) (f := x.t.shape) rfl
    refine passed_fork (s := ⟨x.cond.block, x.cond.idx + 1⟩) (t1 := ⟨x.cond.block + 1, 0⟩)
      (t2 := ⟨x.cond.block + 1 + (Prog.act 0 x.q).size, 0⟩) (p1 := x.hi) (p2 := x.lt)
      (by dsimp only; omega) (by dsimp only; omega) (by dsimp only; omega) ⟨_, path_two m0, ?_⟩ ⟨_, path_two m1, ?_⟩
      (dom_reach (P.region.dom hl)) hw (fun e => absurd e h) ?_ ?_
    · simp only [List.mem_cons, List.not_mem_nil, or_false]; omega
    · simp only [List.mem_cons, List.not_mem_nil, or_false]; omega
    · exact List.mem_cons_of_mem _ List.mem_cons_self
    · exact List.mem_cons_of_mem _ (List.mem_cons_of_mem _ List.mem_cons_self)

theorem Early.befores (x : Early) (sp : Nat) :
    ∀ y ∈ x.pre.expected 0 0 ++ (x.shown ++ [(⟨x.ret, 0⟩, ⟨x.ret, 1⟩, sp)]), Before x.body y.1 y.2.1 := by
  have W := body_whole (x.pre.plug x.last)
  have hb := (x.pre.plug x.last).befores W 0 0 .ret [] (by intro _ _ h; cases h) (body_place _) (body_slice _)
  rw [Prog.plug_expected] at hb
  have hlast : ∀ y ∈ x.last.expected x.cond.block x.cond.idx, Before x.body y.1 y.2.1 :=
    fun y hy => hb y (List.mem_append_right _ hy)
  rw [show x.last = .ite x.sp x.lt 0 0 x.t (.act 0 x.q) .fin from rfl, Prog.expected] at hlast
  intro y hy
  simp only [Early.shown, List.mem_append, List.mem_cons, List.not_mem_nil, or_false] at hy
  rcases hy with hy | (rfl | rfl | rfl | hy) | rfl
  · exact hb y (List.mem_append_left _ hy)
  · exact .inl ⟨rfl, Nat.le_succ _⟩
  · exact hlast (_, _, 0) (List.mem_cons_of_mem _ List.mem_cons_self)
  · exact hlast (_, _, x.lt) (List.mem_cons_of_mem _ (List.mem_cons_of_mem _ List.mem_cons_self))
  · exact hlast y (List.mem_cons_of_mem _ (List.mem_cons_of_mem _ (List.mem_cons_of_mem _ (List.mem_append_left _ hy))))
  · exact .inl ⟨rfl, Nat.le_succ _⟩


theorem Early.apart (x : Early) {l y : Nat} (hl : In (x.cond.block + 1) x.then l) (h : Reach x.body.succ l y) :
    In (x.cond.block + 1) x.then y ∨ y = x.ret := by
  have P := x.place_last
  rw [show x.last = .ite x.sp x.lt 0 0 x.t (.act 0 x.q) .fin from rfl, Prog.shape] at P
  have hp0 : ((Limbs.cons false (Prog.act 0 x.q).shape (.cons false x.t.shape .nil)).parts (x.cond.block + 1))[0]? =
      some (x.cond.block + 1, false, (Prog.act 0 x.q).shape) := rfl
  have hj : x.cond.block + 1 + (Limbs.cons false (Prog.act 0 x.q).shape (.cons false x.t.shape .nil)).size = x.ret := by
    simp only [Limbs.size, Bool.toNat_false, Early.ret, Early.then, Prog.size, Prog.shape]; omega
  have A := P.limb hp0
  rw [hj] at A
  have hs : x.body.succ x.ret = [] := by
    have := Shape.last P.fits
    rw [← hj]
    rwa [show x.cond.block + (Shape.fork (Limbs.cons false (Prog.act 0 x.q).shape (.cons false x.t.shape .nil))
      Prog.fin.shape).size - 1 = x.cond.block + 1 +
        (Limbs.cons false (Prog.act 0 x.q).shape (.cons false x.t.shape .nil)).size from by
      simp only [Shape.size, Prog.shape]; omega] at this
  induction h with
  | refl => exact .inl hl
  | @tail u v _ hv ih =>
    rcases ih with ih | rfl
    · rcases Shape.edges A.fits ih hv with h | ⟨_, h⟩
      · exact .inl ⟨by have := h.1; simp only [Bool.toNat_false] at this; omega, h.2⟩
      · exact .inr (List.mem_singleton.1 h)
    · rw [hs] at hv
      cases hv

/-- There is something behind the `if`. -/
theorem Early.behind (x : Early) : Location x.body ⟨x.cond.block + 1, 1⟩ := by
  have P := x.place_last
  obtain ⟨_, hse, _⟩ := slice_ite x.slice
  rw [show x.last = .ite x.sp x.lt 0 0 x.t (.act 0 x.q) .fin from rfl, Prog.shape] at P
  have m0 : x.cond.block + 1 ∈ x.body.succ x.cond.block :=
    P.forked.enter (i := 0) (h := x.cond.block + 1) (hd := false) (f := (Prog.act 0 x.q).shape) rfl
  have hr : ∀ y, Reach x.body.succ 0 y → Reach x.body.rawSucc 0 y := by
    intro y hy
    induction hy with
    | refl => exact .refl
    | tail _ h ih => exact ih.tail (List.mem_filter.1 h).1
  refine ⟨hr _ (P.region.root.reach.tail m0), ?_, ?_⟩
  · have := (List.mem_filter.1 m0).2
    rw [Bool.and_eq_true] at this
    exact this.1
  · obtain ⟨d, hd, hn⟩ := head_of (p := x.q) (n := 1) (by intro _ _ h; cases h) hse
    unfold Within
    dsimp only
    rw [stmts_of hd]
    exact hn

/-- **C132 (early return).** The check accepts the steps of every function with an early `return` after which nothing
branches, although what follows the `if` (and there is something, if only the unit value) is on none of them. -/
theorem C132_early (x : Early) (hq : x.q.forks = 0) (sp : Nat) {fuel : Nat} (hfu : fuel ≠ 0)
    {order : List (Loc × Nat) → List (Loc × Nat)} (ho : ∀ l, (order l).Perm l) :
    ∃ f locals, compute (.ofBody x.body fuel order) (x.source sp) = .steps f locals ∧ validate x.body f = .ok () ∧
      Location x.body ⟨x.cond.block + 1, 1⟩ ∧ ∀ l : Loc, In (x.cond.block + 1) x.then l.block → (l.block = x.cond.block + 1 → 1 ≤ l.idx) →
        ∀ g ∈ f.segs, ¬ OnStep x.body g l := by
  obtain ⟨f, locals, h1, h2, _⟩ := C84_programs x hq sp hfu ho
  have W := body_whole (x.pre.plug x.last)
  have hmem : ∀ y : Step, y ∈ x.pre.expected 0 0 ++ (x.shown ++ [(⟨x.ret, 0⟩, ⟨x.ret, 1⟩, sp)]) ↔
      ∃ g ∈ f.segs, (g.from, g.to, g.span) = y := by
    intro y
    rw [← h2, List.mem_map]
  refine ⟨f, locals, h1, ?_, x.behind, ?_⟩
  · obtain ⟨s, g, hr, hf⟩ := run_of_steps (mapper_proper x.body) h1
    rw [C132_before (b := x.body) (body_valid (x.pre.plug x.last)) hr hf]
    refine ⟨fun sg hsg => x.befores sp _ ((hmem _).2 ⟨sg, hsg, rfl⟩), ?_⟩
    intro l ⟨hl1, hl2, hl3⟩
    have hlt : l.block < x.body.length := by
      unfold Body.keep at hl2
      cases hx : x.body[l.block]? with
      | none => rw [hx] at hl2; exact absurd hl2 (by simp)
      | some d => exact (List.getElem?_eq_some_iff.1 hx).1
    unfold Early.body at hlt
    rw [body_length] at hlt
    obtain ⟨y, hy, hp⟩ := Prog.passes W x.pre 0 0 [] (body_place _) (body_slice _) (x.passes sp) l
      ⟨Nat.zero_le _, by dsimp only; omega⟩ (fun _ => Nat.zero_le _) hl3
    obtain ⟨sg, hsg, rfl⟩ := (hmem y).1 hy
    exact ⟨sg, hsg, hp⟩
  · intro l hl hi g hg ⟨hp, hr⟩
    have hto := x.apart hl hr
    have hpt := x.t.size_pos
    have hre : x.ret = x.then + x.t.size := rfl
    have hfa : x.cond.block + 1 = 0 + x.pre.size := Prog.finAt_block x.pre 0 0
    have hm := (hmem _).2 ⟨g, hg, rfl⟩
    have hlk := hl.1
    have hlt := hl.2
    have hin : x.cond.block + 1 < x.then := by omega
    unfold In at hto
    simp only [Early.shown, List.mem_append, List.mem_cons, List.not_mem_nil, or_false, Prod.mk.injEq] at hm
    rcases hm with hm | (⟨_, hm, _⟩ | ⟨hm0, hm, _⟩ | ⟨_, hm, _⟩ | hm) | ⟨hm0, hm, _⟩
    · have := x.pre.expected_in 0 0 _ hm
      unfold In at this
      dsimp only at this
      omega
    · rw [hm] at hto
      dsimp only at hto
      omega
    · obtain ⟨hp1, hp2⟩ := hp
      rw [hm, hm0] at hp2
      dsimp only at hp2
      rcases hp2 with ⟨h3, h4⟩ | ⟨_, _, w, hw, hnw⟩
      · have := hi h3
        omega
      · have P := x.place_last
        rw [show x.last = .ite x.sp x.lt 0 0 x.t (.act 0 x.q) .fin from rfl, Prog.shape] at P
        have A := P.limb (i := 0) (h' := x.cond.block + 1) (hd := false) (f := (Prog.act 0 x.q).shape) rfl
        refine hnw (Flow.leave (B := fun z => ¬ In (x.cond.block + 1) x.then z) ?_ hw (fun h => by have := h.1; omega)
          (fun h => h hl))
        intro p q hp hq hnq
        exact A.region.inn p q hq (Classical.not_not.1 hnq) hp
    · rw [hm] at hto
      dsimp only at hto
      omega
    · have := x.t.expected_in _ _ _ hm
      unfold In at this
      dsimp only at this
      omega
    · obtain ⟨hp1, hp2⟩ := hp
      rw [hm, hm0] at hp2
      dsimp only at hp2
      rcases hp2 with ⟨h3, h4⟩ | ⟨_, h3, _⟩
      · omega
      · exact h3 rfl

/-- A program with every construct, and one with a loop before and a call after the early return. -/
example : ∃ f locals, compute (.ofBody Example.large.body 1 id) (Example.large.source 99) = .steps f locals ∧
    validate Example.large.body f = .ok () :=
  C132_programs Example.large 99 (fuel := 1) (order := id) (by omega) (fun _ => .refl _)

example : ∃ f locals, compute (.ofBody
      (Early.mk (.call 1 (.whl 2 3 4 5 6 0 (.act 7 .fin) .fin)) 8 9 10 (.act 14 .fin) (.call 15 (.bind 16 [0] .fin))).body 1 id)
      ((Early.mk (.call 1 (.whl 2 3 4 5 6 0 (.act 7 .fin) .fin)) 8 9 10 (.act 14 .fin)
        (.call 15 (.bind 16 [0] .fin))).source 99) = .steps f locals ∧
    validate (Early.mk (.call 1 (.whl 2 3 4 5 6 0 (.act 7 .fin) .fin)) 8 9 10 (.act 14 .fin)
      (.call 15 (.bind 16 [0] .fin))).body f = .ok () ∧
    ∀ g ∈ f.segs, ¬ OnStep (Early.mk (.call 1 (.whl 2 3 4 5 6 0 (.act 7 .fin) .fin)) 8 9 10 (.act 14 .fin)
      (.call 15 (.bind 16 [0] .fin))).body g ⟨7, 0⟩ := by
  obtain ⟨f, locals, h1, h2, _, h3⟩ := C132_early (Early.mk (.call 1 (.whl 2 3 4 5 6 0 (.act 7 .fin) .fin)) 8 9 10
    (.act 14 .fin) (.call 15 (.bind 16 [0] .fin))) rfl 99 (fuel := 1) (by omega) (order := id) (fun _ => .refl _)
  exact ⟨f, locals, h1, h2, h3 ⟨7, 0⟩ (by unfold In; decide) (by decide)⟩

end Verif.Walk
