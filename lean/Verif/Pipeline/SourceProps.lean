import Verif.Pipeline.Source
/-!
# C109: what statements and loops show, and that the assumptions can be met by every program
-/
namespace Verif.Pipeline

open Verif.Cfg Verif.Segments Verif.Steps Verif.Permissions Verif.HirSteps
open Verif.Facts.Spec (WillUse Analysed Accepted Unborrowed)
open Verif.Walk (before beforeRun beforeCalls)

/-! ## Statements and loops -/

section

variable {uses sets : Loc → Bool}

/-- **C109 (a statement).** The value of a variable stops being of use at a statement exactly if the statement uses it
and it is not of use afterwards; it starts being of use exactly if the statement sets the variable without using it and
it is of use afterwards. -/
theorem C109_statement (l : Loc) (a : Bool) :
    (before uses sets l a = true ∧ a = false ↔ uses l = true ∧ a = false) ∧
    (before uses sets l a = false ∧ a = true ↔ uses l = false ∧ sets l = true ∧ a = true) := by
  unfold before
  cases uses l <;> cases sets l <;> cases a <;> simp

/-- The variable is not set in these blocks. -/
def Kept (sets : Loc → Bool) (k m : Nat) : Prop := ∀ l : Loc, k ≤ l.block → l.block < k + m → sets l = false

theorem before_kept {l : Loc} (h : sets l = false) : before uses sets l true = true := by
  rw [before, h]; simp

theorem run_kept {k : Nat} (h : ∀ n, sets ⟨k, n⟩ = false) : ∀ c n, beforeRun uses sets k n c true = true
  | 0, _ => rfl
  | c + 1, n => by rw [beforeRun, run_kept h c]; exact before_kept (h n)

theorem calls_kept : ∀ (c k m : Nat), Kept sets k m → c ≤ m → beforeCalls uses sets k c true = true
  | 0, _, _, _, _ => rfl
  | c + 1, k, m, h, hc => by
    rw [beforeCalls, calls_kept c (k + 1) (m - 1) (fun l h1 h2 => h l (by omega) (by omega)) (by omega)]
    exact before_kept (h _ (Nat.le_refl _) (by dsimp only; omega))

theorem Kept.at {k m : Nat} (h : Kept sets k m) {l : Loc} (h1 : k ≤ l.block) (h2 : l.block < k + m) :
    ∀ {a : Bool}, a = true → before uses sets l a = true := by
  rintro _ rfl
  exact before_kept (h l h1 h2)

theorem Kept.run {k m : Nat} (h : Kept sets k m) {j n c : Nat} (h1 : k ≤ j) (h2 : j < k + m) :
    ∀ {a : Bool}, a = true → beforeRun uses sets j n c a = true := by
  rintro _ rfl
  exact run_kept (fun n => h ⟨j, n⟩ h1 h2) c n

theorem or_left {a a' : Bool} (h : a = true) : (a || a') = true := by rw [h]; rfl

theorem or_right {a a' : Bool} (h : a' = true) : (a || a') = true := by rw [h, Bool.or_true]

theorem Kept.calls {k m : Nat} (h : Kept sets k m) {j c : Nat} (h1 : k ≤ j) (h2 : j + c ≤ k + m) :
    ∀ {a : Bool}, a = true → beforeCalls uses sets j c a = true := by
  rintro _ rfl
  exact calls_kept c j c (fun l h3 h4 => h l (by omega) (by omega)) (Nat.le_refl _)

theorem Kept.sub {k m j m' : Nat} (h : Kept sets k m) (h1 : k ≤ j) (h2 : j + m' ≤ k + m) : Kept sets j m' :=
  fun l h3 h4 => h l (by omega) (by omega)

open Verif.Walk (Arms Shape Limbs)

theorem size_ite (sp lt le hi : Nat) (t e r : Walk.Prog) :
    (Walk.Prog.ite sp lt le hi t e r).size = 1 + e.size + t.size + r.size := by
  simp only [Walk.Prog.size, Walk.Prog.shape, Shape.size, Limbs.size, Bool.toNat_false]; omega

theorem size_only (sp lt hi : Nat) (t r : Walk.Prog) : (Walk.Prog.only sp lt hi t r).size = 2 + t.size + r.size := by
  simp only [Walk.Prog.size, Walk.Prog.shape, Shape.size, Limbs.size, Bool.toNat_false]; omega

theorem size_mtch (sp ds : Nat) (i) (f : Walk.Prog) (as : Walk.Arms) (r : Walk.Prog) :
    (Walk.Prog.mtch sp ds i f as r).size = 2 + f.size + as.size + r.size := by
  simp only [Walk.Prog.size, Walk.Arms.size, Walk.Prog.shape, Shape.size, Limbs.size, Bool.toNat_true]; omega

theorem size_whl (sp sc lt hi sb c : Nat) (t r : Walk.Prog) :
    (Walk.Prog.whl sp sc lt hi sb c t r).size = 3 + c + t.size + r.size := by
  simp only [Walk.Prog.size, Walk.Prog.shape, Shape.size, Bool.toNat_false]; omega

theorem size_frl (sp sa sc hi sn lb li nb : Nat) (t r : Walk.Prog) :
    (Walk.Prog.frl sp sa sc hi sn lb li nb t r).size = 6 + t.size + r.size := by
  simp only [Walk.Prog.size, Walk.Prog.shape, Shape.size, Bool.toNat_true]; omega

theorem size_call (sp : Nat) (r : Walk.Prog) : (Walk.Prog.call sp r).size = 1 + r.size := by
  simp only [Walk.Prog.size, Walk.Prog.shape, Shape.size]; omega

theorem size_last (i) (f : Walk.Prog) : (Walk.Arms.last i f).size = f.size := by
  simp only [Walk.Arms.size, Walk.Prog.size, Walk.Arms.limbs, Limbs.size, Bool.toNat_false]; omega

theorem size_cons (i) (f : Walk.Prog) (as : Walk.Arms) : (Walk.Arms.cons i f as).size = 1 + f.size + as.size := by
  simp only [Walk.Arms.size, Walk.Prog.size, Walk.Arms.limbs, Limbs.size, Bool.toNat_true]

/-- If the value is of use after a program that does not set the variable, it is of use before it. -/
theorem live_kept : ∀ (p : Walk.Prog) (k n : Nat), Kept sets k p.size → ∀ {a : Bool}, a = true →
    p.live uses sets k n a = true
  | .fin, k, n, h, a, ha => by
    have : Walk.Prog.fin.size = 1 := rfl
    exact h.at (Nat.le_refl _) (by dsimp only; omega) (h.at (Nat.le_refl _) (by dsimp only; omega) ha)
  | .act sp r, k, n, h, a, ha => by
    have hp : 0 < (Walk.Prog.act sp r).size := Walk.Prog.size_pos _
    exact h.at (Nat.le_refl _) (by dsimp only; omega) (live_kept r k (n + 1) h ha)
  | .bind sp vs r, k, n, h, a, ha => by
    have hp : 0 < (Walk.Prog.bind sp vs r).size := Walk.Prog.size_pos _
    exact h.at (Nat.le_refl _) (by dsimp only; omega) (live_kept r k (n + 1) h ha)
  | .call sp r, k, n, h, a, ha => by
    rw [size_call] at h
    exact h.at (Nat.le_refl _) (by dsimp only; omega) (live_kept r (k + 1) 0 (h.sub (by omega) (by omega)) ha)
  | .ite sp lt le hi t e r, k, n, h, a, ha => by
    rw [size_ite] at h
    have hr := live_kept r _ 0 (h.sub (j := k + 1 + e.size + t.size) (by omega) (by omega)) ha
    exact h.at (Nat.le_refl _) (by dsimp only; omega) (h.at (Nat.le_refl _) (by dsimp only; omega)
      (or_left (live_kept e _ 0 (h.sub (by omega) (by omega)) hr)))
  | .only sp lt hi t r, k, n, h, a, ha => by
    rw [size_only] at h
    have hr := live_kept r _ 0 (h.sub (j := k + 1 + 1 + t.size) (by omega) (by omega)) ha
    exact h.at (Nat.le_refl _) (by dsimp only; omega) (h.at (Nat.le_refl _) (by dsimp only; omega)
      (or_left (h.at (by dsimp only; omega) (by dsimp only; omega) (h.at (by dsimp only; omega) (by dsimp only; omega) hr))))
  | .mtch sp ds i f as r, k, n, h, a, ha => by
    rw [size_mtch] at h
    have hr := live_kept r _ 0 (h.sub (j := k + 1 + 1 + f.size + as.size) (by omega) (by omega)) ha
    have hpf := Walk.Prog.size_pos f
    exact h.at (Nat.le_refl _) (by dsimp only; omega) (h.run (by omega) (by omega) (h.at (Nat.le_refl _) (by dsimp only; omega)
      (or_left (h.at (by dsimp only; omega) (by dsimp only; omega) (or_left (h.run (by omega) (by omega)
        (live_kept f _ _ (h.sub (by omega) (by omega)) hr)))))))
  | .whl sp sc lt hi sb c t r, k, n, h, a, ha => by
    rw [size_whl] at h
    have hr := live_kept r _ 1 (h.sub (j := k + 3 + c + t.size) (by omega) (by omega)) ha
    have hpr := Walk.Prog.size_pos r
    exact h.at (by dsimp only; omega) (by dsimp only; omega) (h.at (by dsimp only; omega) (by dsimp only; omega)
      (h.calls (by omega) (by omega) (h.at (by dsimp only; omega) (by dsimp only; omega)
        (h.at (by dsimp only; omega) (by dsimp only; omega) (or_left (h.at (by dsimp only; omega) (by dsimp only; omega) hr))))))
  | .frl sp sa sc hi sn lb li nb t r, k, n, h, a, ha => by
    rw [size_frl] at h
    have hr := live_kept r _ 1 (h.sub (j := k + 6 + t.size) (by omega) (by omega)) ha
    have hpr := Walk.Prog.size_pos r
    exact h.at (by dsimp only; omega) (by dsimp only; omega) (h.at (by dsimp only; omega) (by dsimp only; omega)
      (h.at (by dsimp only; omega) (by dsimp only; omega) (h.at (by dsimp only; omega) (by dsimp only; omega)
      (h.at (by dsimp only; omega) (by dsimp only; omega) (h.at (by dsimp only; omega) (by dsimp only; omega)
      (h.at (by dsimp only; omega) (by dsimp only; omega) (h.at (by dsimp only; omega) (by dsimp only; omega)
      (or_left (h.at (by dsimp only; omega) (by dsimp only; omega) (or_left
        (h.at (by dsimp only; omega) (by dsimp only; omega) hr)))))))))))

theorem arms_kept : ∀ (as : Walk.Arms) (k : Nat), Kept sets k as.size → ∀ {j : Bool}, j = true →
    as.live uses sets k j = true ∧ as.lives uses sets k j = true ∧ ∀ y ∈ as.inside uses sets k j, y.2 = true
  | .last i f, k, h, j, hj => by
    rw [size_last] at h
    have hp := Walk.Prog.size_pos f
    have hf := live_kept (uses := uses) f k i.nb h hj
    refine ⟨h.run (by omega) (by omega) hf, h.run (by omega) (by omega) hf, ?_⟩
    intro y hy
    rw [Walk.Arms.inside, List.mem_singleton] at hy
    rw [hy]
    exact hf
  | .cons i f as, k, h, j, hj => by
    rw [size_cons] at h
    have hp := Walk.Prog.size_pos f
    have hf := live_kept (uses := uses) f (k + 1) i.nb (h.sub (by omega) (by omega)) hj
    obtain ⟨_, _, h3⟩ := arms_kept as (k + 1 + f.size) (h.sub (by omega) (by omega)) hj
    have h1 : (Walk.Arms.cons i f as).live uses sets k j = true :=
      h.at (by dsimp only; omega) (by dsimp only; omega) (or_left (h.run (by omega) (by omega) hf))
    refine ⟨h1, or_left h1, ?_⟩
    intro y hy
    rw [Walk.Arms.inside] at hy
    rcases List.mem_cons.1 hy with rfl | hy
    · exact hf
    · exact h3 y hy

/-- At the start of a step and at its end. -/
def Through (e : Walk.Told) : Prop := e.2.1 = true ∧ e.2.2 = true

mutual
/-- If the value is of use after a program that does not set the variable, it is of use at all of its steps. -/
theorem told_kept : ∀ (p : Walk.Prog) (k n : Nat), Kept sets k p.size → ∀ {a : Bool}, a = true →
    ∀ e ∈ p.told uses sets k n a, Through e
  | .fin, _, _, _, _, _, e, he => by simp [Walk.Prog.told] at he
  | .act sp r, k, n, h, a, ha, e, he => by
    rcases List.mem_cons.1 he with rfl | he
    · exact ⟨live_kept (.act sp r) k n h ha, live_kept r k (n + 1) h ha⟩
    · exact told_kept r k (n + 1) h ha e he
  | .bind sp vs r, k, n, h, a, ha, e, he => by
    rcases List.mem_cons.1 he with rfl | he
    · exact ⟨live_kept (.bind sp vs r) k n h ha, live_kept r k (n + 1) h ha⟩
    · exact told_kept r k (n + 1) h ha e he
  | .call sp r, k, n, h, a, ha, e, he => by
    have hs := h
    rw [size_call] at h
    have hr : Kept sets (k + 1) r.size := h.sub (by omega) (by omega)
    rcases List.mem_cons.1 he with rfl | he
    · exact ⟨live_kept (.call sp r) k n hs ha, live_kept r (k + 1) 0 hr ha⟩
    · exact told_kept r (k + 1) 0 hr ha e he
  | .ite sp lt le hi t e r, k, n, h, a, ha, s, hs => by
    have hw := h
    rw [size_ite] at h
    have hr : Kept sets (k + 1 + e.size + t.size) r.size := h.sub (by omega) (by omega)
    have ht : Kept sets (k + 1 + e.size) t.size := h.sub (by omega) (by omega)
    have he : Kept sets (k + 1) e.size := h.sub (by omega) (by omega)
    have hj := live_kept (uses := uses) r _ 0 hr ha
    have h1 := h.at (uses := uses) (l := ⟨k, n + 1⟩) (by dsimp only; omega) (by dsimp only; omega)
      (or_left (a' := t.live uses sets (k + 1 + e.size) 0 (r.live uses sets (k + 1 + e.size + t.size) 0 a))
        (live_kept (uses := uses) e _ 0 he hj))
    simp only [Walk.Prog.told, List.mem_cons, List.mem_append] at hs
    rcases hs with rfl | rfl | rfl | hs | hs | hs
    · exact ⟨live_kept (.ite sp lt le hi t e r) k n hw ha, h1⟩
    · exact ⟨h1, live_kept e _ 0 he hj⟩
    · exact ⟨h1, live_kept t _ 0 ht hj⟩
    · exact told_kept t _ _ ht hj s hs
    · exact told_kept e _ _ he hj s hs
    · exact told_kept r _ _ hr ha s hs
  | .only sp lt hi t r, k, n, h, a, ha, s, hs => by
    have hw := h
    rw [size_only] at h
    have hr : Kept sets (k + 1 + 1 + t.size) r.size := h.sub (by omega) (by omega)
    have ht : Kept sets (k + 1 + 1) t.size := h.sub (by omega) (by omega)
    have hj := live_kept (uses := uses) r _ 0 hr ha
    have he := h.at (uses := uses) (l := ⟨k + 1, 0⟩) (by dsimp only; omega) (by dsimp only; omega) (h.at (uses := uses) (l := ⟨k + 1, 1⟩) (by dsimp only; omega) (by dsimp only; omega) hj)
    have h1 := h.at (uses := uses) (l := ⟨k, n + 1⟩) (by dsimp only; omega) (by dsimp only; omega)
      (or_left (a' := t.live uses sets (k + 1 + 1) 0 (r.live uses sets (k + 1 + 1 + t.size) 0 a)) he)
    simp only [Walk.Prog.told, List.mem_cons, List.mem_append] at hs
    rcases hs with rfl | rfl | rfl | hs | hs
    · exact ⟨live_kept (.only sp lt hi t r) k n hw ha, h1⟩
    · exact ⟨h1, he⟩
    · exact ⟨h1, live_kept t _ 0 ht hj⟩
    · exact told_kept t _ _ ht hj s hs
    · exact told_kept r _ _ hr ha s hs
  | .mtch sp ds i f as r, k, n, h, a, ha, s, hs => by
    have hw := h
    rw [size_mtch] at h
    have hpf := Walk.Prog.size_pos f
    have hr : Kept sets (k + 1 + 1 + f.size + as.size) r.size := h.sub (by omega) (by omega)
    have hf : Kept sets (k + 1 + 1) f.size := h.sub (by omega) (by omega)
    have has : Kept sets (k + 1 + 1 + f.size) as.size := h.sub (by omega) (by omega)
    have hj := live_kept (uses := uses) r _ 0 hr ha
    have hfl := live_kept (uses := uses) f _ i.nb hf hj
    obtain ⟨a1, a2, a3⟩ := arms_kept (uses := uses) as _ has hj
    have h1 := h.run (uses := uses) (j := k) (n := n + 1) (c := ds) (by omega) (by omega)
      (h.at (uses := uses) (l := ⟨k, n + 1 + ds⟩) (by dsimp only; omega) (by dsimp only; omega)
        (or_right (a := before uses sets ⟨k + 1, 0⟩ (beforeRun uses sets (k + 1 + 1) 0 i.nb
          (f.live uses sets (k + 1 + 1) i.nb (r.live uses sets (k + 1 + 1 + f.size + as.size) 0 a)) ||
          as.live uses sets (k + 1 + 1 + f.size) (r.live uses sets (k + 1 + 1 + f.size + as.size) 0 a))) a2))
    simp only [Walk.Prog.told, List.mem_cons, List.mem_append, List.map_cons] at hs
    rcases hs with rfl | (rfl | hs) | (rfl | hs) | hs | hs
    · exact ⟨live_kept (.mtch sp ds i f as r) k n hw ha, h1⟩
    · exact ⟨h1, hfl⟩
    · obtain ⟨y, hy, rfl⟩ := List.mem_map.1 hs
      exact ⟨h1, a3 y hy⟩
    · exact ⟨hfl, hfl⟩
    · exact told_kept f _ _ hf hj s hs
    · exact arms_told_kept as _ has hj s hs
    · exact told_kept r _ _ hr ha s hs
  | .whl sp sc lt hi sb c t r, k, n, h, a, ha, s, hs => by
    have hw := h
    rw [size_whl] at h
    have hpr := Walk.Prog.size_pos r
    have hr : Kept sets (k + 3 + c + t.size) r.size := h.sub (by omega) (by omega)
    have ht : Kept sets (k + 3 + c) t.size := h.sub (by omega) (by omega)
    have hrl := live_kept (uses := uses) r _ 1 hr ha
    have ho := h.at (uses := uses) (l := ⟨k + 3 + c + t.size, 0⟩) (by dsimp only; omega) (by dsimp only; omega) hrl
    have hh := h.at (uses := uses) (l := ⟨k + 1, 0⟩) (by dsimp only; omega) (by dsimp only; omega)
      (h.calls (uses := uses) (j := k + 2) (c := c) (by omega) (by omega)
        (h.at (uses := uses) (l := ⟨k + 2 + c, 0⟩) (by dsimp only; omega) (by dsimp only; omega) (h.at (uses := uses) (l := ⟨k + 2 + c, 1⟩) (by dsimp only; omega) (by dsimp only; omega)
          (or_left (a' := t.live uses sets (k + 3 + c) 0 false) ho))))
    have hi' := live_kept (uses := uses) t _ 0 ht hh
    have h1 := fun a' => h.at (uses := uses) (l := ⟨k + 2 + c, 1⟩) (by dsimp only; omega) (by dsimp only; omega) (or_left (a' := a') ho)
    simp only [Walk.Prog.told, List.mem_cons, List.mem_append] at hs
    rcases hs with rfl | rfl | rfl | hs | rfl | rfl | hs
    · exact ⟨live_kept (.whl sp sc lt hi sb c t r) k n hw ha, h1 _⟩
    · exact ⟨h1 _, ho⟩
    · exact ⟨h1 _, hi'⟩
    · exact told_kept t _ _ ht hh s hs
    · exact ⟨ho, ho⟩
    · exact ⟨ho, hrl⟩
    · exact told_kept r _ _ hr ha s hs
  | .frl sp sa sc hi sn lb li nb t r, k, n, h, a, ha, s, hs => by
    have hw := h
    rw [size_frl] at h
    have hpr := Walk.Prog.size_pos r
    have hr : Kept sets (k + 6 + t.size) r.size := h.sub (by omega) (by omega)
    have ht : Kept sets (k + 6) t.size := h.sub (by omega) (by omega)
    have hrl := live_kept (uses := uses) r _ 1 hr ha
    have ho := h.at (uses := uses) (l := ⟨k + 6 + t.size, 0⟩) (by dsimp only; omega) (by dsimp only; omega) hrl
    have h1 := fun a' => h.at (uses := uses) (l := ⟨k + 4, 0⟩) (by dsimp only; omega) (by dsimp only; omega) (h.at (uses := uses) (l := ⟨k + 4, 1⟩) (by dsimp only; omega) (by dsimp only; omega)
      (or_left (a' := a') (h.at (uses := uses) (l := ⟨k + 5, 0⟩) (by dsimp only; omega) (by dsimp only; omega) (or_left (a' := a') ho))))
    have hq := fun a' => h.at (uses := uses) (l := ⟨k + 3, 0⟩) (by dsimp only; omega) (by dsimp only; omega) (h.at (uses := uses) (l := ⟨k + 3, 1⟩) (by dsimp only; omega) (by dsimp only; omega) (h1 a'))
    have hh := fun a' => h.at (uses := uses) (l := ⟨k + 2, 0⟩) (by dsimp only; omega) (by dsimp only; omega) (hq a')
    have htl := fun a' => live_kept (uses := uses) t _ nb ht (hh a')
    simp only [Walk.Prog.told, List.mem_cons, List.mem_append] at hs
    rcases hs with rfl | rfl | rfl | rfl | rfl | rfl | hs | rfl | hs
    · exact ⟨live_kept (.frl sp sa sc hi sn lb li nb t r) k n hw ha, hq _⟩
    · exact ⟨hq _, h1 _⟩
    · exact ⟨h1 _, ho⟩
    · exact ⟨h1 _, htl _⟩
    · exact ⟨ho, ho⟩
    · exact ⟨htl _, htl _⟩
    · exact told_kept t _ _ ht (hh _) s hs
    · exact ⟨ho, hrl⟩
    · exact told_kept r _ _ hr ha s hs
theorem arms_told_kept : ∀ (as : Walk.Arms) (k : Nat), Kept sets k as.size → ∀ {j : Bool}, j = true →
    ∀ e ∈ as.told uses sets k j, Through e
  | .last i f, k, h, j, hj, e, he => by
    rw [size_last] at h
    have hf := live_kept (uses := uses) f k i.nb h hj
    rcases List.mem_cons.1 he with rfl | he
    · exact ⟨hf, hf⟩
    · exact told_kept f k i.nb h hj e he
  | .cons i f as, k, h, j, hj, e, he => by
    rw [size_cons] at h
    have hkf : Kept sets (k + 1) f.size := h.sub (by omega) (by omega)
    have hf := live_kept (uses := uses) f (k + 1) i.nb hkf hj
    simp only [Walk.Arms.told, List.mem_append, List.mem_cons] at he
    rcases he with (rfl | he) | he
    · exact ⟨hf, hf⟩
    · exact told_kept f _ i.nb hkf hj e he
    · exact arms_told_kept as _ (h.sub (by omega) (by omega)) hj e he
end

theorem Kept.dead {k m : Nat} (h : Kept sets k m) {l : Loc} {a : Bool} (hb : before uses sets l a = false)
    (h1 : k ≤ l.block) (h2 : l.block < k + m) : a = false := by
  rw [before, h l h1 h2] at hb
  simpa using (Bool.or_eq_false_iff.1 hb).2

theorem Kept.deadRun {k m : Nat} (h : Kept sets k m) {j : Nat} (h1 : k ≤ j) (h2 : j < k + m) {a : Bool} :
    ∀ {c n : Nat}, beforeRun uses sets j n c a = false → a = false
  | 0, _, hb => hb
  | c + 1, n, hb => by
    rw [beforeRun] at hb
    exact Kept.deadRun h h1 h2 (h.dead hb h1 h2)

theorem Kept.deadCalls {k m : Nat} (h : Kept sets k m) {a : Bool} :
    ∀ {c j : Nat}, k ≤ j → j + c ≤ k + m → beforeCalls uses sets j c a = false → a = false
  | 0, _, _, _, hb => hb
  | c + 1, j, h1, h2, hb => by
    rw [beforeCalls] at hb
    exact Kept.deadCalls h (by omega) (by omega) (h.dead hb h1 (by dsimp only; omega))

/-- At neither end of a step. -/
def Never (e : Walk.Told) : Prop := e.2.1 = false ∧ e.2.2 = false

mutual
/-- If the value is not of use before a program that does not set the variable, it is not of use at any of its
steps. -/
theorem told_dead : ∀ (p : Walk.Prog) (k n : Nat) (a : Bool), Kept sets k p.size → p.live uses sets k n a = false →
    a = false ∧ ∀ e ∈ p.told uses sets k n a, Never e
  | .fin, k, n, a, h, hl => by
    have : Walk.Prog.fin.size = 1 := rfl
    exact ⟨h.dead (h.dead hl (by dsimp only; omega) (by dsimp only; omega)) (by dsimp only; omega) (by dsimp only; omega), by simp [Walk.Prog.told]⟩
  | .act sp r, k, n, a, h, hl => by
    have hp : 0 < (Walk.Prog.act sp r).size := Walk.Prog.size_pos _
    have h1 := h.dead hl (by dsimp only; omega) (by dsimp only; omega)
    obtain ⟨h2, h3⟩ := told_dead r k (n + 1) a h h1
    refine ⟨h2, fun e he => ?_⟩
    rcases List.mem_cons.1 he with rfl | he
    · exact ⟨hl, h1⟩
    · exact h3 e he
  | .bind sp vs r, k, n, a, h, hl => by
    have hp : 0 < (Walk.Prog.bind sp vs r).size := Walk.Prog.size_pos _
    have h1 := h.dead hl (by dsimp only; omega) (by dsimp only; omega)
    obtain ⟨h2, h3⟩ := told_dead r k (n + 1) a h h1
    refine ⟨h2, fun e he => ?_⟩
    rcases List.mem_cons.1 he with rfl | he
    · exact ⟨hl, h1⟩
    · exact h3 e he
  | .call sp r, k, n, a, h, hl => by
    rw [size_call] at h
    have h1 := h.dead hl (by dsimp only; omega) (by dsimp only; omega)
    obtain ⟨h2, h3⟩ := told_dead r (k + 1) 0 a (h.sub (by omega) (by omega)) h1
    refine ⟨h2, fun e he => ?_⟩
    rcases List.mem_cons.1 he with rfl | he
    · exact ⟨hl, h1⟩
    · exact h3 e he
  | .ite sp lt le hi t e r, k, n, a, h, hl => by
    rw [size_ite] at h
    have h1 := h.dead hl (by dsimp only; omega) (by dsimp only; omega)
    obtain ⟨he, ht⟩ := Bool.or_eq_false_iff.1 (h.dead h1 (by dsimp only; omega) (by dsimp only; omega))
    obtain ⟨hj, e1⟩ := told_dead e _ _ _ (h.sub (by omega) (by omega)) he
    obtain ⟨_, t1⟩ := told_dead t _ _ _ (h.sub (by omega) (by omega)) ht
    obtain ⟨ha, r1⟩ := told_dead r _ _ _ (h.sub (by omega) (by omega)) hj
    refine ⟨ha, fun s hs => ?_⟩
    simp only [Walk.Prog.told, List.mem_cons, List.mem_append] at hs
    rcases hs with rfl | rfl | rfl | hs | hs | hs
    · exact ⟨hl, h1⟩
    · exact ⟨h1, he⟩
    · exact ⟨h1, ht⟩
    · exact t1 s hs
    · exact e1 s hs
    · exact r1 s hs
  | .only sp lt hi t r, k, n, a, h, hl => by
    rw [size_only] at h
    have h1 := h.dead hl (by dsimp only; omega) (by dsimp only; omega)
    obtain ⟨he, ht⟩ := Bool.or_eq_false_iff.1 (h.dead h1 (by dsimp only; omega) (by dsimp only; omega))
    obtain ⟨hj, t1⟩ := told_dead t _ _ _ (h.sub (by omega) (by omega)) ht
    obtain ⟨ha, r1⟩ := told_dead r _ _ _ (h.sub (by omega) (by omega)) hj
    refine ⟨ha, fun s hs => ?_⟩
    simp only [Walk.Prog.told, List.mem_cons, List.mem_append] at hs
    rcases hs with rfl | rfl | rfl | hs | hs
    · exact ⟨hl, h1⟩
    · exact ⟨h1, he⟩
    · exact ⟨h1, ht⟩
    · exact t1 s hs
    · exact r1 s hs
  | .mtch sp ds i f as r, k, n, a, h, hl => by
    rw [size_mtch] at h
    have hpf := Walk.Prog.size_pos f
    have h1 := h.dead hl (by dsimp only; omega) (by dsimp only; omega)
    obtain ⟨h2, has⟩ := Bool.or_eq_false_iff.1 (h.dead (h.deadRun (by omega) (by omega) h1) (by dsimp only; omega) (by dsimp only; omega))
    have hf := h.deadRun (by omega) (by omega) (Bool.or_eq_false_iff.1 (h.dead h2 (by dsimp only; omega) (by dsimp only; omega))).1
    obtain ⟨hj, f1⟩ := told_dead f _ _ _ (h.sub (by omega) (by omega)) hf
    obtain ⟨a1, a2⟩ := arms_dead as _ _ (h.sub (by omega) (by omega)) has
    obtain ⟨ha, r1⟩ := told_dead r _ _ _ (h.sub (by omega) (by omega)) hj
    refine ⟨ha, fun s hs => ?_⟩
    simp only [Walk.Prog.told, List.mem_cons, List.mem_append, List.map_cons] at hs
    rcases hs with rfl | (rfl | hs) | (rfl | hs) | hs | hs
    · exact ⟨hl, h1⟩
    · exact ⟨h1, hf⟩
    · obtain ⟨y, hy, rfl⟩ := List.mem_map.1 hs
      exact ⟨h1, a1 y hy⟩
    · exact ⟨hf, hf⟩
    · exact f1 s hs
    · exact a2 s hs
    · exact r1 s hs
  | .whl sp sc lt hi sb c t r, k, n, a, h, hl => by
    rw [size_whl] at h
    have hpr := Walk.Prog.size_pos r
    have hh := h.dead hl (by dsimp only; omega) (by dsimp only; omega)
    have h1 := h.dead (h.deadCalls (by omega) (by omega) (h.dead hh (by dsimp only; omega) (by dsimp only; omega))) (by dsimp only; omega) (by dsimp only; omega)
    obtain ⟨ho, ht⟩ := Bool.or_eq_false_iff.1 (h.dead h1 (by dsimp only; omega) (by dsimp only; omega))
    have hrl := h.dead ho (by dsimp only; omega) (by dsimp only; omega)
    obtain ⟨_, t1⟩ := told_dead t _ _ _ (h.sub (by omega) (by omega)) ht
    obtain ⟨ha, r1⟩ := told_dead r _ _ _ (h.sub (by omega) (by omega)) hrl
    refine ⟨ha, fun s hs => ?_⟩
    simp only [Walk.Prog.told, hh, List.mem_cons, List.mem_append] at hs
    rcases hs with rfl | rfl | rfl | hs | rfl | rfl | hs
    · exact ⟨hl, h1⟩
    · exact ⟨h1, ho⟩
    · exact ⟨h1, ht⟩
    · exact t1 s hs
    · exact ⟨ho, ho⟩
    · exact ⟨ho, hrl⟩
    · exact r1 s hs
  | .frl sp sa sc hi sn lb li nb t r, k, n, a, h, hl => by
    rw [size_frl] at h
    have hpr := Walk.Prog.size_pos r
    have hpt := Walk.Prog.size_pos t
    have hh := h.dead (h.dead (h.dead hl (by dsimp only; omega) (by dsimp only; omega)) (by dsimp only; omega) (by dsimp only; omega)) (by dsimp only; omega) (by dsimp only; omega)
    have hq := h.dead hh (by dsimp only; omega) (by dsimp only; omega)
    have h1 := h.dead (h.dead hq (by dsimp only; omega) (by dsimp only; omega)) (by dsimp only; omega) (by dsimp only; omega)
    obtain ⟨h2, hi'⟩ := Bool.or_eq_false_iff.1 (h.dead (h.dead h1 (by dsimp only; omega) (by dsimp only; omega)) (by dsimp only; omega) (by dsimp only; omega))
    obtain ⟨ho, _⟩ := Bool.or_eq_false_iff.1 (h.dead h2 (by dsimp only; omega) (by dsimp only; omega))
    have hrl := h.dead ho (by dsimp only; omega) (by dsimp only; omega)
    have htl := h.deadRun (by omega) (by omega) hi'
    obtain ⟨_, t1⟩ := told_dead t _ _ _ (h.sub (by omega) (by omega)) htl
    obtain ⟨ha, r1⟩ := told_dead r _ _ _ (h.sub (by omega) (by omega)) hrl
    refine ⟨ha, fun s hs => ?_⟩
    simp only [Walk.Prog.told, hh, List.mem_cons, List.mem_append] at hs
    rcases hs with rfl | rfl | rfl | rfl | rfl | rfl | hs | rfl | hs
    · exact ⟨hl, hq⟩
    · exact ⟨hq, h1⟩
    · exact ⟨h1, ho⟩
    · exact ⟨h1, htl⟩
    · exact ⟨ho, ho⟩
    · exact ⟨htl, htl⟩
    · exact t1 s hs
    · exact ⟨ho, hrl⟩
    · exact r1 s hs
theorem arms_dead : ∀ (as : Walk.Arms) (k : Nat) (j : Bool), Kept sets k as.size → as.lives uses sets k j = false →
    (∀ y ∈ as.inside uses sets k j, y.2 = false) ∧ ∀ e ∈ as.told uses sets k j, Never e
  | .last i f, k, j, h, hl => by
    rw [size_last] at h
    have hp := Walk.Prog.size_pos f
    have hf := h.deadRun (by omega) (by omega) hl
    obtain ⟨_, f1⟩ := told_dead f _ _ _ h hf
    refine ⟨?_, fun e he => ?_⟩
    · intro y hy
      rw [Walk.Arms.inside, List.mem_singleton] at hy
      rw [hy]
      exact hf
    · rcases List.mem_cons.1 he with rfl | he
      · exact ⟨hf, hf⟩
      · exact f1 e he
  | .cons i f as, k, j, h, hl => by
    rw [size_cons] at h
    have hp := Walk.Prog.size_pos f
    obtain ⟨h1, has⟩ := Bool.or_eq_false_iff.1 hl
    have hf := h.deadRun (by omega) (by omega) (Bool.or_eq_false_iff.1 (h.dead h1 (by dsimp only; omega) (by dsimp only; omega))).1
    obtain ⟨_, f1⟩ := told_dead f _ _ _ (h.sub (by omega) (by omega)) hf
    obtain ⟨a1, a2⟩ := arms_dead as _ _ (h.sub (by omega) (by omega)) has
    refine ⟨?_, fun e he => ?_⟩
    · intro y hy
      rw [Walk.Arms.inside] at hy
      rcases List.mem_cons.1 hy with rfl | hy
      · exact hf
      · exact a1 y hy
    · simp only [Walk.Arms.told, List.mem_append, List.mem_cons] at he
      rcases he with (rfl | he) | he
      · exact ⟨hf, hf⟩
      · exact f1 e he
      · exact a2 e he
end

/-- A step at whose ends the value is of use or not alike. -/
def Even (e : Walk.Told) : Prop := e.2.1 = e.2.2

theorem loop_even (t : Walk.Prog) (k n : Nat) (h : Kept sets k t.size) (head : Bool)
    (hh : head = false → t.live uses sets k n head = false) : ∀ e ∈ t.told uses sets k n head, Even e := by
  intro e he
  cases ha : head with
  | true =>
    obtain ⟨h1, h2⟩ := told_kept t k n h ha e he
    exact h1.trans h2.symm
  | false =>
    obtain ⟨h1, h2⟩ := (told_dead t k n head h (hh ha)).2 e he
    exact h1.trans h2.symm

mutual
/-- The loops of a program: their first block (where the condition is evaluated again), the number of their blocks and
the steps of their bodies. -/
def loopsOf : Walk.Prog → Nat → Nat → List (Nat × Nat × List HirSteps.Step)
  | .fin, _, _ => []
  | .act _ r, k, n => loopsOf r k (n + 1)
  | .bind _ _ r, k, n => loopsOf r k (n + 1)
  | .call _ r, k, _ => loopsOf r (k + 1) 0
  | .ite _ _ _ _ t e r, k, _ =>
    loopsOf t (k + 1 + e.size) 0 ++ (loopsOf e (k + 1) 0 ++ loopsOf r (k + 1 + e.size + t.size) 0)
  | .only _ _ _ t r, k, _ => loopsOf t (k + 1 + 1) 0 ++ loopsOf r (k + 1 + 1 + t.size) 0
  | .mtch _ _ i f as r, k, _ =>
    loopsOf f (k + 1 + 1) i.nb ++ (loopsOfArms as (k + 1 + 1 + f.size) ++ loopsOf r (k + 1 + 1 + f.size + as.size) 0)
  | .whl _ _ _ _ _ c t r, k, _ =>
    (k + 1, 2 + c + t.size, t.expected (k + 3 + c) 0) ::
      (loopsOf t (k + 3 + c) 0 ++ loopsOf r (k + 3 + c + t.size) 1)
  | .frl _ _ _ _ _ _ _ nb t r, k, _ =>
    (k + 2, 4 + t.size, t.expected (k + 6) nb) :: (loopsOf t (k + 6) nb ++ loopsOf r (k + 6 + t.size) 1)
def loopsOfArms : Walk.Arms → Nat → List (Nat × Nat × List HirSteps.Step)
  | .last i f, k => loopsOf f k i.nb
  | .cons i f as, k => loopsOf f (k + 1) i.nb ++ loopsOfArms as (k + 1 + f.size)
end

/-- The steps are in the list, and the value is of use at both of their ends or at none. -/
def Quiet (T : List Walk.Told) (ss : List HirSteps.Step) : Prop := ∀ s ∈ ss, ∃ e ∈ T, e.1 = s ∧ Even e

theorem Quiet.mono {T T' : List Walk.Told} {ss : List HirSteps.Step} (h : Quiet T ss) (hs : ∀ e ∈ T, e ∈ T') : Quiet T' ss := by
  intro s hm
  obtain ⟨e, h1, h2⟩ := h s hm
  exact ⟨e, hs e h1, h2⟩

theorem quiet_body (t : Walk.Prog) (k n : Nat) (head : Bool) (h : ∀ e ∈ t.told uses sets k n head, Even e) :
    Quiet (t.told uses sets k n head) (t.expected k n) := by
  intro s hs
  rw [← Walk.Prog.told_expected uses sets t k n head] at hs
  obtain ⟨e, he, rfl⟩ := List.mem_map.1 hs
  exact ⟨e, he, rfl, h e he⟩

mutual
theorem loops_quiet : ∀ (p : Walk.Prog) (k n : Nat) (a : Bool), ∀ L ∈ loopsOf p k n, Kept sets L.1 L.2.1 →
    Quiet (p.told uses sets k n a) L.2.2
  | .fin, _, _, _, L, hL, _ => by simp [loopsOf] at hL
  | .act sp r, k, n, a, L, hL, h => by
    exact (loops_quiet r k (n + 1) a L hL h).mono fun e he => by
      rw [Walk.Prog.told]
      exact List.mem_cons_of_mem _ he
  | .bind sp vs r, k, n, a, L, hL, h => by
    exact (loops_quiet r k (n + 1) a L hL h).mono fun e he => by
      rw [Walk.Prog.told]
      exact List.mem_cons_of_mem _ he
  | .call sp r, k, n, a, L, hL, h => by
    exact (loops_quiet r (k + 1) 0 a L hL h).mono fun e he => by
      rw [Walk.Prog.told]
      exact List.mem_cons_of_mem _ he
  | .ite sp lt le hi t e r, k, n, a, L, hL, h => by
    simp only [loopsOf, List.mem_append] at hL
    rcases hL with hL | hL | hL
    · exact (loops_quiet t _ _ _ L hL h).mono fun x hx => by
        simp only [Walk.Prog.told, List.mem_cons, List.mem_append]
        exact .inr (.inr (.inr (.inl hx)))
    · exact (loops_quiet e _ _ _ L hL h).mono fun x hx => by
        simp only [Walk.Prog.told, List.mem_cons, List.mem_append]
        exact .inr (.inr (.inr (.inr (.inl hx))))
    · exact (loops_quiet r _ _ _ L hL h).mono fun x hx => by
        simp only [Walk.Prog.told, List.mem_cons, List.mem_append]
        exact .inr (.inr (.inr (.inr (.inr hx))))
  | .only sp lt hi t r, k, n, a, L, hL, h => by
    simp only [loopsOf, List.mem_append] at hL
    rcases hL with hL | hL
    · exact (loops_quiet t _ _ _ L hL h).mono fun x hx => by
        simp only [Walk.Prog.told, List.mem_cons, List.mem_append]
        exact .inr (.inr (.inr (.inl hx)))
    · exact (loops_quiet r _ _ _ L hL h).mono fun x hx => by
        simp only [Walk.Prog.told, List.mem_cons, List.mem_append]
        exact .inr (.inr (.inr (.inr hx)))
  | .mtch sp ds i f as r, k, n, a, L, hL, h => by
    simp only [loopsOf, List.mem_append] at hL
    rcases hL with hL | hL | hL
    · exact (loops_quiet f _ _ _ L hL h).mono fun x hx => by
        simp only [Walk.Prog.told, List.mem_cons, List.mem_append]
        exact .inr (.inr (.inl (.inr hx)))
    · exact (loops_quiet_arms as _ _ L hL h).mono fun x hx => by
        simp only [Walk.Prog.told, List.mem_cons, List.mem_append]
        exact .inr (.inr (.inr (.inl hx)))
    · exact (loops_quiet r _ _ _ L hL h).mono fun x hx => by
        simp only [Walk.Prog.told, List.mem_cons, List.mem_append]
        exact .inr (.inr (.inr (.inr hx)))
  | .whl sp sc lt hi sb c t r, k, n, a, L, hL, h => by
    simp only [loopsOf, List.mem_cons, List.mem_append] at hL
    rcases hL with rfl | hL | hL
    · dsimp only at h ⊢
      have hs : Kept sets (k + 3 + c) t.size := h.sub (by omega) (by omega)
      refine (quiet_body t (k + 3 + c) 0 _ (loop_even t _ _ hs _ fun hh => ?_)).mono fun x hx => by
        simp only [Walk.Prog.told, List.mem_cons, List.mem_append]
        exact .inr (.inr (.inr (.inl hx)))
      have h1 := h.dead (h.dead (h.deadCalls (by omega) (by omega) (h.dead hh (by dsimp only; omega) (by dsimp only; omega))) (by dsimp only; omega) (by dsimp only; omega)) (by dsimp only; omega) (by dsimp only; omega)
      rw [hh]
      exact (Bool.or_eq_false_iff.1 h1).2
    · exact (loops_quiet t _ _ _ L hL h).mono fun x hx => by
        simp only [Walk.Prog.told, List.mem_cons, List.mem_append]
        exact .inr (.inr (.inr (.inl hx)))
    · exact (loops_quiet r _ _ _ L hL h).mono fun x hx => by
        simp only [Walk.Prog.told, List.mem_cons, List.mem_append]
        exact .inr (.inr (.inr (.inr (.inr (.inr hx)))))
  | .frl sp sa sc hi sn lb li nb t r, k, n, a, L, hL, h => by
    have hpt := Walk.Prog.size_pos t
    simp only [loopsOf, List.mem_cons, List.mem_append] at hL
    rcases hL with rfl | hL | hL
    · dsimp only at h ⊢
      have hs : Kept sets (k + 6) t.size := h.sub (by omega) (by omega)
      refine (quiet_body t (k + 6) nb _ (loop_even t _ _ hs _ fun hh => ?_)).mono fun x hx => by
        simp only [Walk.Prog.told, List.mem_cons, List.mem_append]
        exact .inr (.inr (.inr (.inr (.inr (.inr (.inl hx))))))
      have h1 := h.dead (h.dead (h.dead (h.dead (h.dead hh (by dsimp only; omega) (by dsimp only; omega)) (by dsimp only; omega) (by dsimp only; omega)) (by dsimp only; omega) (by dsimp only; omega)) (by dsimp only; omega) (by dsimp only; omega)) (by dsimp only; omega) (by dsimp only; omega)
      rw [hh]
      exact h.deadRun (by omega) (by omega) (Bool.or_eq_false_iff.1 h1).2
    · exact (loops_quiet t _ _ _ L hL h).mono fun x hx => by
        simp only [Walk.Prog.told, List.mem_cons, List.mem_append]
        exact .inr (.inr (.inr (.inr (.inr (.inr (.inl hx))))))
    · exact (loops_quiet r _ _ _ L hL h).mono fun x hx => by
        simp only [Walk.Prog.told, List.mem_cons, List.mem_append]
        exact .inr (.inr (.inr (.inr (.inr (.inr (.inr (.inr hx)))))))
theorem loops_quiet_arms : ∀ (as : Walk.Arms) (k : Nat) (j : Bool), ∀ L ∈ loopsOfArms as k, Kept sets L.1 L.2.1 →
    Quiet (as.told uses sets k j) L.2.2
  | .last i f, k, j, L, hL, h => by
    exact (loops_quiet f _ _ j L hL h).mono fun e he => by
      rw [Walk.Arms.told]
      exact List.mem_cons_of_mem _ he
  | .cons i f as, k, j, L, hL, h => by
    simp only [loopsOfArms, List.mem_append] at hL
    rcases hL with hL | hL
    · exact (loops_quiet f _ _ j L hL h).mono fun x hx => by
        simp only [Walk.Arms.told, List.mem_cons, List.mem_append]
        exact .inl (.inr hx)
    · exact (loops_quiet_arms as _ j L hL h).mono fun x hx => by
        simp only [Walk.Arms.told, List.mem_cons, List.mem_append]
        exact .inr hx
end

/-- **C109 (loops).** A variable that is never borrowed and that a loop does not set keeps its permissions over every
step of the body of the loop. -/
theorem C109_loop {c : Ctxt} {i : Facts.Input} {used defined : Nat → Nat → Prop} {x : Place} {path : Nat}
    (p : Walk.Prog) (sp : Nat) {fuel : Nat} (hfu : fuel ≠ 0)
    {ord : List (Loc × Nat) → List (Loc × Nat)} (hord : ∀ l, (ord l).Perm l) {f : Frozen}
    {locals : List (Nat × List Nat)} (h : compute (.ofBody p.body fuel ord) (p.source sp) = .steps f locals)
    (ht : Tracked c p.body i used defined x path) (hrest : Rests p i path) (hf : Flow p.body i)
    (hm : Mentions p.body used defined (i.varOf path) uses sets) {first count : Nat} {ss : List HirSteps.Step}
    (hL : (first, count, ss) ∈ loopsOf p 0 0)
    (hk : ∀ l : Loc, first ≤ l.block → l.block < first + count → sets l = false) :
    ∀ s ∈ ss, s ∈ f.segs.map (fun s => (s.from, s.to, s.span)) ∧
      (c.data s.1 x).permissions = (c.data s.2.1 x).permissions := by
  obtain ⟨h1, h2, _⟩ := C109_steps p sp hfu hord h ht hrest hf hm
  intro s hs
  obtain ⟨e, he, rfl, hev⟩ := loops_quiet (uses := uses) p 0 0 false _ hL hk s hs
  have he' : e ∈ toldAll uses sets p sp := List.mem_append_left _ he
  refine ⟨by rw [h1]; exact List.mem_map.2 ⟨e, he', rfl⟩, ?_⟩
  obtain ⟨e1, e2⟩ := h2 e he'
  rw [e1, e2, show e.2.1 = e.2.2 from hev]

end

end Verif.Pipeline
