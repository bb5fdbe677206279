import Verif.Pipeline.Value
import Verif.Pipeline.SourceProps
import Verif.Pipeline.Ways
/-!
# C108: every run is a way

While a run goes through the control flow, the way stays at the last location that a step has reached (`At`); when the
run arrives at the end of a step, the way takes it.
-/
namespace Verif.Pipeline

open Verif.Cfg Verif.Segments Verif.Steps Verif.Permissions Verif.HirSteps
open Verif.HirSteps.Prog (Slice Slice.left Slice.right Slice.tail)

/-- The next statement. -/
def up (l : Loc) : Loc := ⟨l.block, l.idx + 1⟩

/-- Both are at a location. -/
def Both (l a z : Loc) : Prop := a = l ∧ z = l

/-- The way is at `o`; the run is among the first `nb` statements of a block. -/
def Into (o : Loc) (k nb : Nat) (a z : Loc) : Prop := a = o ∧ z.block = k ∧ z.idx < nb

mutual
/-- The way is at `a` while the run is at `z`. -/
def AtProg : Walk.Prog → Nat → Nat → Loc → Loc → Prop
  | .fin, k, n, a, z => Both ⟨k, n⟩ a z
  | .act _ r, k, n, a, z => Both ⟨k, n⟩ a z ∨ AtProg r k (n + 1) a z
  | .bind _ _ r, k, n, a, z => Both ⟨k, n⟩ a z ∨ AtProg r k (n + 1) a z
  | .call _ r, k, n, a, z => Both ⟨k, n⟩ a z ∨ AtProg r (k + 1) 0 a z
  | .ite _ _ _ _ t e r, k, n, a, z =>
    Both ⟨k, n⟩ a z ∨ Both ⟨k, n + 1⟩ a z ∨
    (AtProg e (k + 1) 0 a z ∨ (a = e.finAt (k + 1) 0 ∧ z = up a)) ∨
    (AtProg t (k + 1 + e.size) 0 a z ∨ (a = t.finAt (k + 1 + e.size) 0 ∧ z = up a)) ∨
    AtProg r (k + 1 + e.size + t.size) 0 a z
  | .only _ _ _ t r, k, n, a, z =>
    Both ⟨k, n⟩ a z ∨ Both ⟨k, n + 1⟩ a z ∨ Both ⟨k + 1, 0⟩ a z ∨ (a = ⟨k + 1, 0⟩ ∧ z = ⟨k + 1, 1⟩) ∨
    (AtProg t (k + 1 + 1) 0 a z ∨ (a = t.finAt (k + 1 + 1) 0 ∧ z = up a)) ∨
    AtProg r (k + 1 + 1 + t.size) 0 a z
  | .mtch _ ds i f as r, k, n, a, z =>
    Both ⟨k, n⟩ a z ∨ (a = ⟨k, n + 1⟩ ∧ z.block = k ∧ n + 1 ≤ z.idx ∧ z.idx ≤ n + 1 + ds) ∨
    (a = ⟨k, n + 1⟩ ∧ z = ⟨k + 1, 0⟩) ∨ Into ⟨k, n + 1⟩ (k + 1 + 1) i.nb a z ∨
    (AtProg f (k + 1 + 1) i.nb a z ∨ (a = f.finAt (k + 1 + 1) i.nb ∧ z = up a)) ∨
    AtArms as (k + 1 + 1 + f.size) ⟨k, n + 1⟩ a z ∨
    AtProg r (k + 1 + 1 + f.size + as.size) 0 a z
  | .whl _ _ _ _ _ c t r, k, n, a, z =>
    Both ⟨k, n⟩ a z ∨ (a = ⟨k, n⟩ ∧ z.idx = 0 ∧ k + 1 ≤ z.block ∧ z.block ≤ k + 2 + c) ∨ Both ⟨k + 2 + c, 1⟩ a z ∨
    (AtProg t (k + 3 + c) 0 a z ∨ (a = t.finAt (k + 3 + c) 0 ∧ z = up a)) ∨
    Both ⟨k + 3 + c + t.size, 0⟩ a z ∨ AtProg r (k + 3 + c + t.size) 1 a z
  | .frl _ _ _ _ _ _ _ nb t r, k, n, a, z =>
    Both ⟨k, n⟩ a z ∨ (a = ⟨k, n⟩ ∧ z = ⟨k + 1, 0⟩) ∨ (a = ⟨k, n⟩ ∧ z = ⟨k + 1, 1⟩) ∨ (a = ⟨k, n⟩ ∧ z = ⟨k + 2, 0⟩) ∨
    Both ⟨k + 3, 0⟩ a z ∨ (a = ⟨k + 3, 0⟩ ∧ z = ⟨k + 3, 1⟩) ∨
    Both ⟨k + 4, 0⟩ a z ∨ (a = ⟨k + 4, 0⟩ ∧ z = ⟨k + 4, 1⟩) ∨ (a = ⟨k + 4, 0⟩ ∧ z = ⟨k + 5, 0⟩) ∨
    Into ⟨k + 4, 0⟩ (k + 6) nb a z ∨
    (AtProg t (k + 6) nb a z ∨ (a = t.finAt (k + 6) nb ∧ z = up a)) ∨ (a = t.finAt (k + 6) nb ∧ z = ⟨k + 2, 0⟩) ∨
    Both ⟨k + 6 + t.size, 0⟩ a z ∨ AtProg r (k + 6 + t.size) 1 a z
/-- The same in the arms of a `match` that branches at `o`. -/
def AtArms : Walk.Arms → Nat → Loc → Loc → Loc → Prop
  | .last i f, k, o, a, z => Into o k i.nb a z ∨ AtProg f k i.nb a z ∨ (a = f.finAt k i.nb ∧ z = up a)
  | .cons i f as, k, o, a, z => (a = o ∧ z = ⟨k, 0⟩) ∨ Into o (k + 1) i.nb a z ∨
      (AtProg f (k + 1) i.nb a z ∨ (a = f.finAt (k + 1) i.nb ∧ z = up a)) ∨ AtArms as (k + 1 + f.size) o a z
end

/-- How the way goes on when the run arrives at `z'`: it stays, takes a step that ends there, or goes from the end of an
arm to where the program goes on. -/
def Link (E : List Step) (M : List (Loc × Loc)) (z' a a' : Loc) : Prop :=
  a = a' ∨ (∃ sp, (a, a', sp) ∈ E ∧ a' = z') ∨ (a, a') ∈ M

theorem Link.mono {E E' : List Step} {M M' : List (Loc × Loc)} {z' a a' : Loc} (h : Link E M z' a a')
    (hE : ∀ s ∈ E, s ∈ E') (hM : ∀ m ∈ M, m ∈ M') : Link E' M' z' a a' := by
  rcases h with h | ⟨sp, h1, h2⟩ | h
  · exact .inl h
  · exact .inr (.inl ⟨sp, hE _ h1, h2⟩)
  · exact .inr (.inr (hM _ h))

theorem Link.step {E : List Step} {M : List (Loc × Loc)} {a z' : Loc} {sp : Nat} (h : (a, z', sp) ∈ E) :
    Link E M z' a z' := .inr (.inl ⟨sp, h, rfl⟩)

/-- The start is both. -/
theorem at_start : ∀ (p : Walk.Prog) (k n : Nat), AtProg p k n ⟨k, n⟩ ⟨k, n⟩
  | .fin, _, _ => ⟨rfl, rfl⟩
  | .act _ _, _, _ => .inl ⟨rfl, rfl⟩
  | .bind _ _ _, _, _ => .inl ⟨rfl, rfl⟩
  | .call _ _, _, _ => .inl ⟨rfl, rfl⟩
  | .ite _ _ _ _ _ _ _, _, _ => .inl ⟨rfl, rfl⟩
  | .only _ _ _ _ _, _, _ => .inl ⟨rfl, rfl⟩
  | .mtch _ _ _ _ _ _, _, _ => .inl ⟨rfl, rfl⟩
  | .whl _ _ _ _ _ _ _ _, _, _ => .inl ⟨rfl, rfl⟩
  | .frl _ _ _ _ _ _ _ _ _ _, _, _ => .inl ⟨rfl, rfl⟩

section

variable {b : Body}

/-- Entering an arm that begins with `nb` bindings. -/
theorem enter (f : Walk.Prog) {E : List Step} {M : List (Loc × Loc)} {o : Loc} {k nb sp : Nat}
    (h : (o, ⟨k, nb⟩, sp) ∈ E) :
    ∃ a', (Into o k nb a' ⟨k, 0⟩ ∨ AtProg f k nb a' ⟨k, 0⟩) ∧ Link E M ⟨k, 0⟩ o a' := by
  cases nb with
  | zero => exact ⟨⟨k, 0⟩, .inr (at_start f k 0), .step h⟩
  | succ m => exact ⟨o, .inl ⟨rfl, rfl, Nat.zero_lt_succ _⟩, .inl rfl⟩

/-- The bindings at the beginning of an arm. -/
theorem into_next (f : Walk.Prog) {E : List Step} {M : List (Loc × Loc)} {o a z z' : Loc} {k nb sp : Nat} {last : Term}
    (hs : Slice b k (f.code k nb last)) (h : (o, ⟨k, nb⟩, sp) ∈ E) (ha : Into o k nb a z) (hn : Next b z z') :
    ∃ a', (Into o k nb a' z' ∨ AtProg f k nb a' z') ∧ Link E M z' a a' := by
  obtain ⟨rfl, h1, h2⟩ := ha
  obtain ⟨d, h3, h4⟩ := first_block f k nb last hs
  obtain ⟨bl, n⟩ := z
  dsimp only at h1 h2
  subst h1
  rw [next_stmt h3 (by omega)] at hn
  subst hn
  by_cases he : n + 1 = nb
  · subst he
    exact ⟨_, .inr (at_start f bl (n + 1)), .step h⟩
  · exact ⟨a, .inl ⟨rfl, rfl, by dsimp only; omega⟩, .inl rfl⟩

theorem start_arms : ∀ (as : Walk.Arms) (k : Nat) (o : Loc) {E : List Step} {M : List (Loc × Loc)},
    (∀ y ∈ as.entries k, (o, y.1, y.2) ∈ E) → ∀ u ∈ as.starts k, ∃ a', AtArms as k o a' ⟨u, 0⟩ ∧ Link E M ⟨u, 0⟩ o a'
  | .last i f, k, o, E, M, hE, u, hu => by
    rw [Walk.Arms.starts, List.mem_singleton] at hu
    subst hu
    obtain ⟨a', h1, h2⟩ := enter f (M := M) (hE _ (by rw [Walk.Arms.entries]; exact List.mem_singleton.2 rfl))
    exact ⟨a', h1.imp_right .inl, h2⟩
  | .cons i f as, k, o, E, M, hE, u, hu => by
    rw [Walk.Arms.starts] at hu
    rcases List.mem_cons.1 hu with rfl | hu
    · exact ⟨o, .inl ⟨rfl, rfl⟩, .inl rfl⟩
    · obtain ⟨a', h1, h2⟩ := start_arms as (k + 1 + f.size) o (M := M) (fun y hy => hE y (by
        rw [Walk.Arms.entries]; exact List.mem_cons_of_mem _ hy)) u hu
      exact ⟨a', .inr (.inr (.inr h1)), h2⟩

theorem first_start : ∀ (as : Walk.Arms) (k : Nat), k ∈ as.starts k
  | .last _ _, _ => List.mem_singleton.2 rfl
  | .cons _ _ _, _ => List.mem_cons_self

/-- From the end of an arm the run jumps. -/
theorem fin_next (p : Walk.Prog) {k n j : Nat} (hs : Slice b k (p.code k n (.goto j))) {a z z' : Loc}
    (ha : a = p.finAt k n ∧ z = up a) (hn : Next b z z') : z' = ⟨j, 0⟩ := by
  obtain ⟨rfl, rfl⟩ := ha
  have h1 := Walk.fin_block p k n _ hs
  rw [up, next_term h1] at hn
  obtain ⟨u, hu, rfl⟩ := hn
  simp only [Term.targets, List.mem_singleton] at hu
  rw [hu]

/-- Either the way goes on in the program, or the run is at the end of the program and the way, too. -/
def GoesOn (p : Walk.Prog) (k n : Nat) (a z' : Loc) : Prop :=
  (∃ a', AtProg p k n a' z' ∧ Link (p.expected k n) (p.merges k n) z' a a') ∨ (a = p.finAt k n ∧ z' = up a)

/-- The way goes on in a part of the program. -/
theorem GoesOn.part {p : Walk.Prog} {k n : Nat} {a z' : Loc} (h : GoesOn p k n a z') {R : Loc → Loc → Prop}
    {E : List Step} {M : List (Loc × Loc)} (hE : ∀ s ∈ p.expected k n, s ∈ E) (hM : ∀ m ∈ p.merges k n, m ∈ M)
    (hR : ∀ a', (AtProg p k n a' z' ∨ (a' = p.finAt k n ∧ z' = up a')) → R a' z') :
    ∃ a', R a' z' ∧ Link E M z' a a' := by
  rcases h with ⟨a', h1, h2⟩ | h
  · exact ⟨a', hR a' (.inl h1), h2.mono hE hM⟩
  · exact ⟨a, hR a (.inr h), .inl rfl⟩

/-- The way goes on in the rest of the program. -/
theorem GoesOn.rest {p q : Walk.Prog} {k n k' n' : Nat} {a z' : Loc} (h : GoesOn p k n a z')
    (hE : ∀ s ∈ p.expected k n, s ∈ q.expected k' n') (hM : ∀ m ∈ p.merges k n, m ∈ q.merges k' n')
    (hR : ∀ a', AtProg p k n a' z' → AtProg q k' n' a' z') (hf : q.finAt k' n' = p.finAt k n) : GoesOn q k' n' a z' := by
  rcases h with ⟨a', h1, h2⟩ | h
  · exact .inl ⟨a', hR a' h1, h2.mono hE hM⟩
  · exact .inr (by rw [hf]; exact h)

mutual
/-- While the run goes through a program, the way follows it. -/
theorem prog_next {b : Body} : ∀ (p : Walk.Prog) (k n : Nat) (last : Term), Slice b k (p.code k n last) → ∀ {a z z' : Loc},
    AtProg p k n a z → Next b z z' → GoesOn p k n a z'
  | .fin, k, n, last, hs, a, z, z', ha, hn => by
    obtain ⟨rfl, rfl⟩ := ha
    rw [next_stmt (Slice.tail hs).1 (Nat.lt_succ_self _)] at hn
    exact .inr ⟨rfl, hn⟩
  | .act sp r, k, n, last, hs, a, z, z', ha, hn => by
    rcases ha with ⟨rfl, rfl⟩ | ha
    · obtain ⟨d, h1, h2⟩ := first_block r k (n + 1) last hs
      rw [next_stmt h1 (by omega)] at hn
      subst hn
      exact .inl ⟨_, .inr (at_start r k (n + 1)), .step (List.mem_cons_self)⟩
    · exact (prog_next r k (n + 1) last hs ha hn).rest (fun s hs => List.mem_cons_of_mem _ hs) (fun m hm => hm)
        (fun _ h => .inr h) rfl
  | .bind sp vs r, k, n, last, hs, a, z, z', ha, hn => by
    rcases ha with ⟨rfl, rfl⟩ | ha
    · obtain ⟨d, h1, h2⟩ := first_block r k (n + 1) last hs
      rw [next_stmt h1 (by omega)] at hn
      subst hn
      exact .inl ⟨_, .inr (at_start r k (n + 1)), .step (List.mem_cons_self)⟩
    · exact (prog_next r k (n + 1) last hs ha hn).rest (fun s hs => List.mem_cons_of_mem _ hs) (fun m hm => hm)
        (fun _ h => .inr h) rfl
  | .call sp r, k, n, last, hs, a, z, z', ha, hn => by
    obtain ⟨h1, h2⟩ := Slice.tail hs
    rcases ha with ⟨rfl, rfl⟩ | ha
    · rw [next_term h1] at hn
      obtain ⟨u, hu, rfl⟩ := hn
      simp only [Term.targets, List.mem_singleton] at hu
      subst hu
      exact .inl ⟨_, .inr (at_start r (k + 1) 0), .step (List.mem_cons_self)⟩
    · exact (prog_next r (k + 1) 0 last h2 ha hn).rest (fun s hs => List.mem_cons_of_mem _ hs) (fun m hm => hm)
        (fun _ h => .inr h) rfl
  | .ite sp lt le hi t e r, k, n, last, hs, a, z, z', ha, hn => by
    obtain ⟨h1, h2, h3, h4⟩ := Walk.slice_ite hs
    rcases ha with ⟨rfl, rfl⟩ | ⟨rfl, rfl⟩ | (ha | ha) | (ha | ha) | ha
    · rw [next_stmt h1 (Nat.lt_succ_self _)] at hn
      subst hn
      exact .inl ⟨_, .inr (.inl ⟨rfl, rfl⟩), .step (sp := sp) (by simp [Walk.Prog.expected])⟩
    · rw [next_term h1] at hn
      obtain ⟨u, hu, rfl⟩ := hn
      simp only [Term.targets, List.mem_cons, List.not_mem_nil, or_false] at hu
      rcases hu with rfl | rfl
      · exact .inl ⟨_, .inr (.inr (.inl (.inl (at_start e _ _)))), .step (sp := le) (by simp [Walk.Prog.expected])⟩
      · exact .inl ⟨_, .inr (.inr (.inr (.inl (.inl (at_start t _ _))))), .step (sp := lt) (by simp [Walk.Prog.expected])⟩
    · exact .inl ((prog_next e _ _ _ h2 ha hn).part
        (fun s hs => by simp only [Walk.Prog.expected, List.mem_cons, List.mem_append]; simp only [hs, or_true, true_or])
        (fun m hm => by simp only [Walk.Prog.merges, List.mem_cons, List.mem_append]; simp only [hm, or_true, true_or])
        (fun _ h => .inr (.inr (.inl h))))
    · obtain rfl := fin_next e h2 ha hn
      obtain ⟨rfl, rfl⟩ := ha
      exact .inl ⟨_, .inr (.inr (.inr (.inr (at_start r _ _)))), .inr (.inr (by simp [Walk.Prog.merges]))⟩
    · exact .inl ((prog_next t _ _ _ h3 ha hn).part
        (fun s hs => by simp only [Walk.Prog.expected, List.mem_cons, List.mem_append]; simp only [hs, or_true, true_or])
        (fun m hm => by simp only [Walk.Prog.merges, List.mem_cons, List.mem_append]; simp only [hm, or_true, true_or])
        (fun _ h => .inr (.inr (.inr (.inl h)))))
    · obtain rfl := fin_next t h3 ha hn
      obtain ⟨rfl, rfl⟩ := ha
      exact .inl ⟨_, .inr (.inr (.inr (.inr (at_start r _ _)))), .inr (.inr (by simp [Walk.Prog.merges]))⟩
    · exact (prog_next r _ _ _ h4 ha hn).rest
        (fun s hs => by simp only [Walk.Prog.expected, List.mem_cons, List.mem_append]; simp only [hs, or_true, true_or])
        (fun m hm => by simp only [Walk.Prog.merges, List.mem_cons, List.mem_append]; simp only [hm, or_true, true_or])
        (fun _ h => .inr (.inr (.inr (.inr h)))) rfl
  | .only sp lt hi t r, k, n, last, hs, a, z, z', ha, hn => by
    obtain ⟨h1, h2, h3, h4⟩ := Walk.slice_only hs
    rcases ha with ⟨rfl, rfl⟩ | ⟨rfl, rfl⟩ | ⟨rfl, rfl⟩ | ⟨rfl, rfl⟩ | (ha | ha) | ha
    · rw [next_stmt h1 (Nat.lt_succ_self _)] at hn
      subst hn
      exact .inl ⟨_, .inr (.inl ⟨rfl, rfl⟩), .step (sp := sp) (by simp [Walk.Prog.expected])⟩
    · rw [next_term h1] at hn
      obtain ⟨u, hu, rfl⟩ := hn
      simp only [Term.targets, List.mem_cons, List.not_mem_nil, or_false] at hu
      rcases hu with rfl | rfl
      · exact .inl ⟨_, .inr (.inr (.inl ⟨rfl, rfl⟩)), .step (sp := hi) (by simp [Walk.Prog.expected])⟩
      · exact .inl ⟨_, .inr (.inr (.inr (.inr (.inl (.inl (at_start t _ _)))))), .step (sp := lt) (by simp [Walk.Prog.expected])⟩
    · rw [next_stmt h2 (Nat.lt_succ_self _)] at hn
      subst hn
      exact .inl ⟨_, .inr (.inr (.inr (.inl ⟨rfl, rfl⟩))), .inl rfl⟩
    · rw [next_term h2] at hn
      obtain ⟨u, hu, rfl⟩ := hn
      simp only [Term.targets, List.mem_singleton] at hu
      subst hu
      exact .inl ⟨_, .inr (.inr (.inr (.inr (.inr (at_start r _ _))))), .inr (.inr (by simp [Walk.Prog.merges]))⟩
    · exact .inl ((prog_next t _ _ _ h3 ha hn).part
        (fun s hs => by simp only [Walk.Prog.expected, List.mem_cons, List.mem_append]; simp only [hs, or_true, true_or])
        (fun m hm => by simp only [Walk.Prog.merges, List.mem_cons, List.mem_append]; simp only [hm, or_true, true_or])
        (fun _ h => .inr (.inr (.inr (.inr (.inl h))))))
    · obtain rfl := fin_next t h3 ha hn
      obtain ⟨rfl, rfl⟩ := ha
      exact .inl ⟨_, .inr (.inr (.inr (.inr (.inr (at_start r _ _))))), .inr (.inr (by simp [Walk.Prog.merges]))⟩
    · exact (prog_next r _ _ _ h4 ha hn).rest
        (fun s hs => by simp only [Walk.Prog.expected, List.mem_cons, List.mem_append]; simp only [hs, or_true, true_or])
        (fun m hm => by simp only [Walk.Prog.merges, List.mem_cons, List.mem_append]; simp only [hm, or_true, true_or])
        (fun _ h => .inr (.inr (.inr (.inr (.inr h))))) rfl
  | .mtch sp ds i f as r, k, n, last, hs, a, z, z', ha, hn => by
    obtain ⟨h1, h2, h3, h4, h5⟩ := Walk.slice_mtch hs
    have hE : ∀ y ∈ as.entries (k + 1 + 1 + f.size),
        ((⟨k, n + 1⟩, y.1, y.2) : Step) ∈ (Walk.Prog.mtch sp ds i f as r).expected k n := by
      intro y hy
      simp only [Walk.Prog.expected, List.mem_cons, List.mem_append, List.map_cons, List.mem_map]
      exact .inr (.inl (.inr ⟨y, hy, rfl⟩))
    have hF : ((⟨k, n + 1⟩, ⟨k + 1 + 1, i.nb⟩, i.pat) : Step) ∈ (Walk.Prog.mtch sp ds i f as r).expected k n := by
      simp [Walk.Prog.expected]
    have arms : ∀ u ∈ as.starts (k + 1 + 1 + f.size), GoesOn (.mtch sp ds i f as r) k n ⟨k, n + 1⟩ ⟨u, 0⟩ := by
      intro u hu
      obtain ⟨a', e1, e2⟩ := start_arms as _ ⟨k, n + 1⟩ (M := (Walk.Prog.mtch sp ds i f as r).merges k n) hE u hu
      exact .inl ⟨a', .inr (.inr (.inr (.inr (.inr (.inl e1))))), e2⟩
    rcases ha with ⟨rfl, rfl⟩ | ⟨rfl, e1, e2, e3⟩ | ⟨rfl, rfl⟩ | ha | (ha | ha) | ha | ha
    · rw [next_stmt h1 (by dsimp only; omega)] at hn
      subst hn
      exact .inl ⟨_, .inr (.inl ⟨rfl, rfl, by dsimp only; omega, by dsimp only; omega⟩),
        .step (sp := sp) (by simp [Walk.Prog.expected])⟩
    · obtain ⟨bl, m⟩ := z
      dsimp only at e1 e2 e3
      subst e1
      by_cases he : m = n + 1 + ds
      · subst he
        rw [next_term h1] at hn
        obtain ⟨u, hu, rfl⟩ := hn
        simp only [Term.targets, List.mem_cons] at hu
        rcases hu with rfl | hu
        · exact .inl ⟨_, .inr (.inr (.inl ⟨rfl, rfl⟩)), .inl rfl⟩
        · exact arms u hu
      · rw [next_stmt h1 (by dsimp only; omega)] at hn
        subst hn
        exact .inl ⟨_, .inr (.inl ⟨rfl, rfl, by dsimp only; omega, by dsimp only; omega⟩), .inl rfl⟩
    · rw [next_term h2] at hn
      obtain ⟨u, hu, rfl⟩ := hn
      simp only [Term.targets, List.mem_cons, List.not_mem_nil, or_false] at hu
      rcases hu with rfl | rfl
      · obtain ⟨a', e1, e2⟩ := enter f (M := (Walk.Prog.mtch sp ds i f as r).merges k n) hF
        rcases e1 with e1 | e1
        · exact .inl ⟨a', .inr (.inr (.inr (.inl e1))), e2⟩
        · exact .inl ⟨a', .inr (.inr (.inr (.inr (.inl (.inl e1))))), e2⟩
      · exact arms _ (first_start as _)
    · obtain ⟨a', e1, e2⟩ := into_next f (M := (Walk.Prog.mtch sp ds i f as r).merges k n) h3 hF ha hn
      rcases e1 with e1 | e1
      · exact .inl ⟨a', .inr (.inr (.inr (.inl e1))), e2⟩
      · exact .inl ⟨a', .inr (.inr (.inr (.inr (.inl (.inl e1))))), e2⟩
    · exact .inl ((prog_next f _ _ _ h3 ha hn).part
        (fun s hs => by simp only [Walk.Prog.expected, List.mem_cons, List.mem_append]; simp only [hs, or_true, true_or])
        (fun m hm => by simp only [Walk.Prog.merges, List.mem_cons, List.mem_append]; simp only [hm, or_true, true_or])
        (fun _ h => .inr (.inr (.inr (.inr (.inl h))))))
    · obtain rfl := fin_next f h3 ha hn
      obtain ⟨rfl, rfl⟩ := ha
      exact .inl ⟨_, .inr (.inr (.inr (.inr (.inr (.inr (at_start r _ _)))))), .inr (.inr (by simp [Walk.Prog.merges]))⟩
    · rcases arms_next as _ _ h4 ha hn hE (fun s hs => by
        simp only [Walk.Prog.expected, List.mem_cons, List.mem_append]; simp only [hs, or_true, true_or])
        (M := (Walk.Prog.mtch sp ds i f as r).merges k n) (fun m hm => by
          simp only [Walk.Prog.merges, List.mem_cons, List.mem_append]; simp only [hm, or_true, true_or]) with
        ⟨a', e1, e2⟩ | ⟨e1, e2⟩
      · exact .inl ⟨a', .inr (.inr (.inr (.inr (.inr (.inl e1))))), e2⟩
      · subst e1
        exact .inl ⟨_, .inr (.inr (.inr (.inr (.inr (.inr (at_start r _ _)))))), .inr (.inr e2)⟩
    · exact (prog_next r _ _ _ h5 ha hn).rest
        (fun s hs => by simp only [Walk.Prog.expected, List.mem_cons, List.mem_append]; simp only [hs, or_true, true_or])
        (fun m hm => by simp only [Walk.Prog.merges, List.mem_cons, List.mem_append]; simp only [hm, or_true, true_or])
        (fun _ h => .inr (.inr (.inr (.inr (.inr (.inr h)))))) rfl
  | .whl sp sc lt hi sb c t r, k, n, last, hs, a, z, z', ha, hn => by
    obtain ⟨h1, h2, h3, h4, h5, h6⟩ := Walk.slice_whl hs
    obtain ⟨dr, r1, r2⟩ := first_block r _ _ _ h6
    rcases ha with ⟨rfl, rfl⟩ | ⟨rfl, e1, e2, e3⟩ | ⟨rfl, rfl⟩ | (ha | ha) | ⟨rfl, rfl⟩ | ha
    · rw [next_term h1] at hn
      obtain ⟨u, hu, rfl⟩ := hn
      simp only [Term.targets, List.mem_singleton] at hu
      subst hu
      exact .inl ⟨_, .inr (.inl ⟨rfl, rfl, Nat.le_refl _, by dsimp only; omega⟩), .inl rfl⟩
    · obtain ⟨bl, m⟩ := z
      dsimp only at e1 e2 e3
      subst e1
      by_cases g1 : bl = k + 1
      · subst g1
        rw [next_term h2] at hn
        obtain ⟨u, hu, rfl⟩ := hn
        simp only [Term.targets, List.mem_singleton] at hu
        subst hu
        exact .inl ⟨_, .inr (.inl ⟨rfl, rfl, by dsimp only; omega, by dsimp only; omega⟩), .inl rfl⟩
      by_cases g2 : bl = k + 2 + c
      · subst g2
        rw [next_stmt h4 (Nat.lt_succ_self _)] at hn
        subst hn
        exact .inl ⟨_, .inr (.inr (.inl ⟨rfl, rfl⟩)), .step (sp := sc) (by simp [Walk.Prog.expected])⟩
      · have := h3 (bl - (k + 2)) (by omega)
        rw [show k + 2 + (bl - (k + 2)) = bl by omega] at this
        rw [next_term this] at hn
        obtain ⟨u, hu, rfl⟩ := hn
        simp only [Term.targets, List.mem_singleton] at hu
        subst hu
        exact .inl ⟨_, .inr (.inl ⟨rfl, rfl, by dsimp only; omega, by dsimp only; omega⟩), .inl rfl⟩
    · rw [next_term h4] at hn
      obtain ⟨u, hu, rfl⟩ := hn
      simp only [Term.targets, List.mem_cons, List.not_mem_nil, or_false] at hu
      rcases hu with rfl | rfl
      · exact .inl ⟨_, .inr (.inr (.inr (.inr (.inl ⟨rfl, rfl⟩)))), .step (sp := hi) (by simp [Walk.Prog.expected])⟩
      · exact .inl ⟨_, .inr (.inr (.inr (.inl (.inl (at_start t _ _))))), .step (sp := lt) (by simp [Walk.Prog.expected])⟩
    · exact .inl ((prog_next t _ _ _ h5 ha hn).part
        (fun s hs => by simp only [Walk.Prog.expected, List.mem_cons, List.mem_append]; simp only [hs, or_true, true_or])
        (fun m hm => by simp only [Walk.Prog.merges, List.mem_cons, List.mem_append]; simp only [hm, or_true, true_or])
        (fun _ h => .inr (.inr (.inr (.inl h)))))
    · obtain rfl := fin_next t h5 ha hn
      obtain ⟨rfl, rfl⟩ := ha
      exact .inl ⟨_, .inr (.inl ⟨rfl, rfl, Nat.le_refl _, by dsimp only; omega⟩), .inr (.inr (by simp [Walk.Prog.merges]))⟩
    · rw [next_stmt r1 (by omega)] at hn
      subst hn
      exact .inl ⟨_, .inr (.inr (.inr (.inr (.inr (at_start r _ _))))), .step (sp := sp) (by simp [Walk.Prog.expected])⟩
    · exact (prog_next r _ _ _ h6 ha hn).rest
        (fun s hs => by simp only [Walk.Prog.expected, List.mem_cons, List.mem_append]; simp only [hs, or_true, true_or])
        (fun m hm => by simp only [Walk.Prog.merges, List.mem_cons, List.mem_append]; simp only [hm, or_true, true_or])
        (fun _ h => .inr (.inr (.inr (.inr (.inr h))))) rfl
  | .frl sp sa sc hi sn lb li nb t r, k, n, last, hs, a, z, z', ha, hn => by
    obtain ⟨h1, h2, h3, h4, h5, h6, h7, h8⟩ := Walk.slice_frl hs
    obtain ⟨dr, r1, r2⟩ := first_block r _ _ _ h8
    have hF : ((⟨k + 4, 0⟩, ⟨k + 6, nb⟩, lb) : Step) ∈ (Walk.Prog.frl sp sa sc hi sn lb li nb t r).expected k n := by
      simp [Walk.Prog.expected]
    have body : GoesOn (.frl sp sa sc hi sn lb li nb t r) k n ⟨k + 4, 0⟩ ⟨k + 6, 0⟩ := by
      obtain ⟨a', e1, e2⟩ := enter t (M := (Walk.Prog.frl sp sa sc hi sn lb li nb t r).merges k n) hF
      rcases e1 with e1 | e1
      · exact .inl ⟨a', .inr (.inr (.inr (.inr (.inr (.inr (.inr (.inr (.inr (.inl e1))))))))), e2⟩
      · exact .inl ⟨a', .inr (.inr (.inr (.inr (.inr (.inr (.inr (.inr (.inr (.inr (.inl (.inl e1))))))))))), e2⟩
    rcases ha with ⟨rfl, rfl⟩ | ⟨rfl, rfl⟩ | ⟨rfl, rfl⟩ | ⟨rfl, rfl⟩ | ⟨rfl, rfl⟩ | ⟨rfl, rfl⟩ | ⟨rfl, rfl⟩ | ⟨rfl, rfl⟩ |
      ⟨rfl, rfl⟩ | ha | (ha | ha) | ⟨rfl, rfl⟩ | ⟨rfl, rfl⟩ | ha
    · rw [next_term h1] at hn
      obtain ⟨u, hu, rfl⟩ := hn
      simp only [Term.targets, List.mem_singleton] at hu
      subst hu
      exact .inl ⟨_, .inr (.inl ⟨rfl, rfl⟩), .inl rfl⟩
    · rw [next_stmt h2 (Nat.lt_succ_self _)] at hn
      subst hn
      exact .inl ⟨_, .inr (.inr (.inl ⟨rfl, rfl⟩)), .inl rfl⟩
    · rw [next_term h2] at hn
      obtain ⟨u, hu, rfl⟩ := hn
      simp only [Term.targets, List.mem_singleton] at hu
      subst hu
      exact .inl ⟨_, .inr (.inr (.inr (.inl ⟨rfl, rfl⟩))), .inl rfl⟩
    · rw [next_term h3] at hn
      obtain ⟨u, hu, rfl⟩ := hn
      simp only [Term.targets, List.mem_singleton] at hu
      subst hu
      exact .inl ⟨_, .inr (.inr (.inr (.inr (.inl ⟨rfl, rfl⟩)))), .step (sp := sa) (by simp [Walk.Prog.expected])⟩
    · rw [next_stmt h4 (Nat.lt_succ_self _)] at hn
      subst hn
      exact .inl ⟨_, .inr (.inr (.inr (.inr (.inr (.inl ⟨rfl, rfl⟩))))), .inl rfl⟩
    · rw [next_term h4] at hn
      obtain ⟨u, hu, rfl⟩ := hn
      simp only [Term.targets, List.mem_singleton] at hu
      subst hu
      exact .inl ⟨_, .inr (.inr (.inr (.inr (.inr (.inr (.inl ⟨rfl, rfl⟩)))))), .step (sp := sc) (by simp [Walk.Prog.expected])⟩
    · rw [next_stmt h5 (Nat.lt_succ_self _)] at hn
      subst hn
      exact .inl ⟨_, .inr (.inr (.inr (.inr (.inr (.inr (.inr (.inl ⟨rfl, rfl⟩))))))), .inl rfl⟩
    · rw [next_term h5] at hn
      obtain ⟨u, hu, rfl⟩ := hn
      simp only [Term.targets, List.mem_cons, List.not_mem_nil, or_false] at hu
      rcases hu with rfl | rfl
      · exact .inl ⟨_, .inr (.inr (.inr (.inr (.inr (.inr (.inr (.inr (.inl ⟨rfl, rfl⟩)))))))), .inl rfl⟩
      · exact body
    · rw [next_term h6] at hn
      obtain ⟨u, hu, rfl⟩ := hn
      simp only [Term.targets, List.mem_cons, List.not_mem_nil, or_false] at hu
      rcases hu with rfl | rfl
      · exact .inl ⟨_, .inr (.inr (.inr (.inr (.inr (.inr (.inr (.inr (.inr (.inr (.inr (.inr (.inl ⟨rfl, rfl⟩)))))))))))),
          .step (sp := hi) (by simp [Walk.Prog.expected])⟩
      · exact body
    · obtain ⟨a', e1, e2⟩ := into_next t (M := (Walk.Prog.frl sp sa sc hi sn lb li nb t r).merges k n) h7 hF ha hn
      rcases e1 with e1 | e1
      · exact .inl ⟨a', .inr (.inr (.inr (.inr (.inr (.inr (.inr (.inr (.inr (.inl e1))))))))), e2⟩
      · exact .inl ⟨a', .inr (.inr (.inr (.inr (.inr (.inr (.inr (.inr (.inr (.inr (.inl (.inl e1))))))))))), e2⟩
    · exact .inl ((prog_next t _ _ _ h7 ha hn).part
        (fun s hs => by simp only [Walk.Prog.expected, List.mem_cons, List.mem_append]; simp only [hs, or_true, true_or])
        (fun m hm => by simp only [Walk.Prog.merges, List.mem_cons, List.mem_append]; simp only [hm, or_true, true_or])
        (fun _ h => .inr (.inr (.inr (.inr (.inr (.inr (.inr (.inr (.inr (.inr (.inl h))))))))))))
    · obtain rfl := fin_next t h7 ha hn
      obtain ⟨rfl, rfl⟩ := ha
      exact .inl ⟨_, .inr (.inr (.inr (.inr (.inr (.inr (.inr (.inr (.inr (.inr (.inr (.inl ⟨rfl, rfl⟩))))))))))), .inl rfl⟩
    · rw [next_term h3] at hn
      obtain ⟨u, hu, rfl⟩ := hn
      simp only [Term.targets, List.mem_singleton] at hu
      subst hu
      exact .inl ⟨_, .inr (.inr (.inr (.inr (.inl ⟨rfl, rfl⟩)))), .inr (.inr (by simp [Walk.Prog.merges]))⟩
    · rw [next_stmt r1 (by omega)] at hn
      subst hn
      exact .inl ⟨_, .inr (.inr (.inr (.inr (.inr (.inr (.inr (.inr (.inr (.inr (.inr (.inr (.inr (at_start r _ _))))))))))))),
        .step (sp := sp) (by simp [Walk.Prog.expected])⟩
    · exact (prog_next r _ _ _ h8 ha hn).rest
        (fun s hs => by simp only [Walk.Prog.expected, List.mem_cons, List.mem_append]; simp only [hs, or_true, true_or])
        (fun m hm => by simp only [Walk.Prog.merges, List.mem_cons, List.mem_append]; simp only [hm, or_true, true_or])
        (fun _ h => .inr (.inr (.inr (.inr (.inr (.inr (.inr (.inr (.inr (.inr (.inr (.inr (.inr h))))))))))))) rfl
theorem arms_next {b : Body} : ∀ (as : Walk.Arms) (k j : Nat), Slice b k (as.code k j) → ∀ {o a z z' : Loc},
    AtArms as k o a z → Next b z z' → ∀ {E : List Step}, (∀ y ∈ as.entries k, (o, y.1, y.2) ∈ E) →
    (∀ s ∈ (as.expected k).flatten, s ∈ E) → ∀ {M : List (Loc × Loc)}, (∀ m ∈ as.merges k j, m ∈ M) →
    (∃ a', AtArms as k o a' z' ∧ Link E M z' a a') ∨ (z' = ⟨j, 0⟩ ∧ (a, z') ∈ M)
  | .last i f, k, j, hs, o, a, z, z', ha, hn, E, hE, hX, M, hM => by
    have hs := Walk.slice_last hs
    have hF := hE _ (by rw [Walk.Arms.entries]; exact List.mem_singleton.2 rfl)
    rcases ha with ha | ha | ha
    · obtain ⟨a', e1, e2⟩ := into_next f (M := M) hs hF ha hn
      exact .inl ⟨a', e1.imp_right .inl, e2⟩
    · exact .inl ((prog_next f _ _ _ hs ha hn).part
        (fun s hs => hX s (by simp [Walk.Arms.expected, hs]))
        (fun m hm => hM m (by rw [Walk.Arms.merges]; exact List.mem_cons_of_mem _ hm)) (fun _ h => .inr h))
    · obtain rfl := fin_next f hs ha hn
      obtain ⟨rfl, rfl⟩ := ha
      exact .inr ⟨rfl, hM _ (by rw [Walk.Arms.merges]; exact List.mem_cons_self)⟩
  | .cons i f as, k, j, hs, o, a, z, z', ha, hn, E, hE, hX, M, hM => by
    obtain ⟨h1, h2, h3⟩ := Walk.slice_cons hs
    have hF := hE _ (by rw [Walk.Arms.entries]; exact List.mem_cons_self)
    have hE' : ∀ y ∈ as.entries (k + 1 + f.size), (o, y.1, y.2) ∈ E := fun y hy =>
      hE y (by rw [Walk.Arms.entries]; exact List.mem_cons_of_mem _ hy)
    rcases ha with ⟨rfl, rfl⟩ | ha | (ha | ha) | ha
    · rw [next_term h1] at hn
      obtain ⟨u, hu, rfl⟩ := hn
      simp only [Term.targets, List.mem_cons, List.not_mem_nil, or_false] at hu
      rcases hu with rfl | rfl
      · obtain ⟨a', e1, e2⟩ := enter f (M := M) hF
        rcases e1 with e1 | e1
        · exact .inl ⟨a', .inr (.inl e1), e2⟩
        · exact .inl ⟨a', .inr (.inr (.inl (.inl e1))), e2⟩
      · obtain ⟨a', e1, e2⟩ := start_arms as _ a (M := M) hE' _ (first_start as _)
        exact .inl ⟨a', .inr (.inr (.inr e1)), e2⟩
    · obtain ⟨a', e1, e2⟩ := into_next f (M := M) h2 hF ha hn
      rcases e1 with e1 | e1
      · exact .inl ⟨a', .inr (.inl e1), e2⟩
      · exact .inl ⟨a', .inr (.inr (.inl (.inl e1))), e2⟩
    · exact .inl ((prog_next f _ _ _ h2 ha hn).part
        (fun s hs => hX s (by simp [Walk.Arms.expected, hs]))
        (fun m hm => hM m (by simp [Walk.Arms.merges, hm])) (fun _ h => .inr (.inr (.inl h))))
    · obtain rfl := fin_next f h2 ha hn
      obtain ⟨rfl, rfl⟩ := ha
      exact .inr ⟨rfl, hM _ (by rw [Walk.Arms.merges]; exact List.mem_cons_self)⟩
    · rcases arms_next as _ _ h3 ha hn hE' (fun s hs => hX s (by
        rw [Walk.Arms.expected, List.flatten_cons]; exact List.mem_append_right _ hs)) (M := M)
        (fun m hm => hM m (by simp [Walk.Arms.merges, hm])) with ⟨a', e1, e2⟩ | h
      · exact .inl ⟨a', .inr (.inr (.inr e1)), e2⟩
      · exact .inr h
end

/-! ## At the ends of steps the way has caught up with the run -/

mutual
/-- Where the steps of a program begin and end. -/
def EndsProg : Walk.Prog → Nat → Nat → Loc → Prop
  | .fin, k, n, z => z = ⟨k, n⟩
  | .act _ r, k, n, z => z = ⟨k, n⟩ ∨ EndsProg r k (n + 1) z
  | .bind _ _ r, k, n, z => z = ⟨k, n⟩ ∨ EndsProg r k (n + 1) z
  | .call _ r, k, n, z => z = ⟨k, n⟩ ∨ EndsProg r (k + 1) 0 z
  | .ite _ _ _ _ t e r, k, n, z => z = ⟨k, n⟩ ∨ z = ⟨k, n + 1⟩ ∨ EndsProg e (k + 1) 0 z ∨
    EndsProg t (k + 1 + e.size) 0 z ∨ EndsProg r (k + 1 + e.size + t.size) 0 z
  | .only _ _ _ t r, k, n, z => z = ⟨k, n⟩ ∨ z = ⟨k, n + 1⟩ ∨ z = ⟨k + 1, 0⟩ ∨
    EndsProg t (k + 1 + 1) 0 z ∨ EndsProg r (k + 1 + 1 + t.size) 0 z
  | .mtch _ _ i f as r, k, n, z => z = ⟨k, n⟩ ∨ z = ⟨k, n + 1⟩ ∨ EndsProg f (k + 1 + 1) i.nb z ∨
    EndsArms as (k + 1 + 1 + f.size) z ∨ EndsProg r (k + 1 + 1 + f.size + as.size) 0 z
  | .whl _ _ _ _ _ c t r, k, n, z => z = ⟨k, n⟩ ∨ z = ⟨k + 2 + c, 1⟩ ∨ z = ⟨k + 3 + c + t.size, 0⟩ ∨
    EndsProg t (k + 3 + c) 0 z ∨ EndsProg r (k + 3 + c + t.size) 1 z
  | .frl _ _ _ _ _ _ _ nb t r, k, n, z => z = ⟨k, n⟩ ∨ z = ⟨k + 3, 0⟩ ∨ z = ⟨k + 4, 0⟩ ∨ z = ⟨k + 6 + t.size, 0⟩ ∨
    EndsProg t (k + 6) nb z ∨ EndsProg r (k + 6 + t.size) 1 z
def EndsArms : Walk.Arms → Nat → Loc → Prop
  | .last i f, k, z => EndsProg f k i.nb z
  | .cons i f as, k, z => EndsProg f (k + 1) i.nb z ∨ EndsArms as (k + 1 + f.size) z
end

theorem ends_start : ∀ (p : Walk.Prog) (k n : Nat), EndsProg p k n ⟨k, n⟩
  | .fin, _, _ => rfl
  | .act _ _, _, _ => .inl rfl
  | .bind _ _ _, _, _ => .inl rfl
  | .call _ _, _, _ => .inl rfl
  | .ite _ _ _ _ _ _ _, _, _ => .inl rfl
  | .only _ _ _ _ _, _, _ => .inl rfl
  | .mtch _ _ _ _ _ _, _, _ => .inl rfl
  | .whl _ _ _ _ _ _ _ _, _, _ => .inl rfl
  | .frl _ _ _ _ _ _ _ _ _ _, _, _ => .inl rfl

theorem ends_entries : ∀ (as : Walk.Arms) (k : Nat), ∀ y ∈ as.entries k, EndsArms as k y.1
  | .last i f, k, y, hy => by
    rw [Walk.Arms.entries, List.mem_singleton] at hy
    rw [hy]
    exact ends_start f k i.nb
  | .cons i f as, k, y, hy => by
    rw [Walk.Arms.entries] at hy
    rcases List.mem_cons.1 hy with rfl | hy
    · exact .inl (ends_start f _ i.nb)
    · exact .inr (ends_entries as _ y hy)

theorem ends_fin : ∀ (p : Walk.Prog) (k n : Nat), EndsProg p k n (p.finAt k n)
  | .fin, _, _ => rfl
  | .act _ r, k, n => .inr (ends_fin r _ _)
  | .bind _ _ r, _, _ => .inr (ends_fin r _ _)
  | .call _ r, _, _ => .inr (ends_fin r _ _)
  | .ite _ _ _ _ _ _ r, _, _ => .inr (.inr (.inr (.inr (ends_fin r _ _))))
  | .only _ _ _ _ r, _, _ => .inr (.inr (.inr (.inr (ends_fin r _ _))))
  | .mtch _ _ _ _ _ r, _, _ => .inr (.inr (.inr (.inr (ends_fin r _ _))))
  | .whl _ _ _ _ _ _ _ r, _, _ => .inr (.inr (.inr (.inr (ends_fin r _ _))))
  | .frl _ _ _ _ _ _ _ _ _ r, _, _ => .inr (.inr (.inr (.inr (.inr (ends_fin r _ _)))))

mutual
theorem expected_ends : ∀ (p : Walk.Prog) (k n : Nat), ∀ s ∈ p.expected k n, EndsProg p k n s.1 ∧ EndsProg p k n s.2.1
  | .fin, _, _, s, hs => by simp [Walk.Prog.expected] at hs
  | .act sp r, k, n, s, hs => by
    rcases List.mem_cons.1 hs with rfl | hs
    · exact ⟨.inl rfl, .inr (ends_start r _ _)⟩
    · obtain ⟨h1, h2⟩ := expected_ends r k (n + 1) s hs
      exact ⟨.inr h1, .inr h2⟩
  | .bind sp vs r, k, n, s, hs => by
    rcases List.mem_cons.1 hs with rfl | hs
    · exact ⟨.inl rfl, .inr (ends_start r _ _)⟩
    · obtain ⟨h1, h2⟩ := expected_ends r k (n + 1) s hs
      exact ⟨.inr h1, .inr h2⟩
  | .call sp r, k, n, s, hs => by
    rcases List.mem_cons.1 hs with rfl | hs
    · exact ⟨.inl rfl, .inr (ends_start r _ _)⟩
    · obtain ⟨h1, h2⟩ := expected_ends r (k + 1) 0 s hs
      exact ⟨.inr h1, .inr h2⟩
  | .ite sp lt le hi t e r, k, n, s, hs => by
    simp only [Walk.Prog.expected, List.mem_cons, List.mem_append] at hs
    rcases hs with rfl | rfl | rfl | hs | hs | hs
    · exact ⟨.inl rfl, .inr (.inl rfl)⟩
    · exact ⟨.inr (.inl rfl), .inr (.inr (.inl (ends_start e _ _)))⟩
    · exact ⟨.inr (.inl rfl), .inr (.inr (.inr (.inl (ends_start t _ _))))⟩
    · exact (expected_ends t _ _ s hs).imp (fun h => .inr (.inr (.inr (.inl h)))) (fun h => .inr (.inr (.inr (.inl h))))
    · exact (expected_ends e _ _ s hs).imp (fun h => .inr (.inr (.inl h))) (fun h => .inr (.inr (.inl h)))
    · exact (expected_ends r _ _ s hs).imp (fun h => .inr (.inr (.inr (.inr h)))) (fun h => .inr (.inr (.inr (.inr h))))
  | .only sp lt hi t r, k, n, s, hs => by
    simp only [Walk.Prog.expected, List.mem_cons, List.mem_append] at hs
    rcases hs with rfl | rfl | rfl | hs | hs
    · exact ⟨.inl rfl, .inr (.inl rfl)⟩
    · exact ⟨.inr (.inl rfl), .inr (.inr (.inl rfl))⟩
    · exact ⟨.inr (.inl rfl), .inr (.inr (.inr (.inl (ends_start t _ _))))⟩
    · exact (expected_ends t _ _ s hs).imp (fun h => .inr (.inr (.inr (.inl h)))) (fun h => .inr (.inr (.inr (.inl h))))
    · exact (expected_ends r _ _ s hs).imp (fun h => .inr (.inr (.inr (.inr h)))) (fun h => .inr (.inr (.inr (.inr h))))
  | .mtch sp ds i f as r, k, n, s, hs => by
    simp only [Walk.Prog.expected, List.mem_cons, List.mem_append, List.map_cons] at hs
    rcases hs with rfl | (rfl | hs) | (rfl | hs) | hs | hs
    · exact ⟨.inl rfl, .inr (.inl rfl)⟩
    · exact ⟨.inr (.inl rfl), .inr (.inr (.inl (ends_start f _ _)))⟩
    · obtain ⟨y, hy, rfl⟩ := List.mem_map.1 hs
      exact ⟨.inr (.inl rfl), .inr (.inr (.inr (.inl (ends_entries as _ y hy))))⟩
    · exact ⟨.inr (.inr (.inl (ends_start f _ _))), .inr (.inr (.inl (ends_start f _ _)))⟩
    · exact (expected_ends f _ _ s hs).imp (fun h => .inr (.inr (.inl h))) (fun h => .inr (.inr (.inl h)))
    · exact (arms_ends as _ s hs).imp (fun h => .inr (.inr (.inr (.inl h)))) (fun h => .inr (.inr (.inr (.inl h))))
    · exact (expected_ends r _ _ s hs).imp (fun h => .inr (.inr (.inr (.inr h)))) (fun h => .inr (.inr (.inr (.inr h))))
  | .whl sp sc lt hi sb c t r, k, n, s, hs => by
    simp only [Walk.Prog.expected, List.mem_cons, List.mem_append] at hs
    rcases hs with rfl | rfl | rfl | hs | rfl | rfl | hs
    · exact ⟨.inl rfl, .inr (.inl rfl)⟩
    · exact ⟨.inr (.inl rfl), .inr (.inr (.inl rfl))⟩
    · exact ⟨.inr (.inl rfl), .inr (.inr (.inr (.inl (ends_start t _ _))))⟩
    · exact (expected_ends t _ _ s hs).imp (fun h => .inr (.inr (.inr (.inl h)))) (fun h => .inr (.inr (.inr (.inl h))))
    · exact ⟨.inr (.inr (.inl rfl)), .inr (.inr (.inl rfl))⟩
    · exact ⟨.inr (.inr (.inl rfl)), .inr (.inr (.inr (.inr (ends_start r _ _))))⟩
    · exact (expected_ends r _ _ s hs).imp (fun h => .inr (.inr (.inr (.inr h)))) (fun h => .inr (.inr (.inr (.inr h))))
  | .frl sp sa sc hi sn lb li nb t r, k, n, s, hs => by
    simp only [Walk.Prog.expected, List.mem_cons, List.mem_append] at hs
    rcases hs with rfl | rfl | rfl | rfl | rfl | rfl | hs | rfl | hs
    · exact ⟨.inl rfl, .inr (.inl rfl)⟩
    · exact ⟨.inr (.inl rfl), .inr (.inr (.inl rfl))⟩
    · exact ⟨.inr (.inr (.inl rfl)), .inr (.inr (.inr (.inl rfl)))⟩
    · exact ⟨.inr (.inr (.inl rfl)), .inr (.inr (.inr (.inr (.inl (ends_start t _ _)))))⟩
    · exact ⟨.inr (.inr (.inr (.inl rfl))), .inr (.inr (.inr (.inl rfl)))⟩
    · exact ⟨.inr (.inr (.inr (.inr (.inl (ends_start t _ _))))), .inr (.inr (.inr (.inr (.inl (ends_start t _ _)))))⟩
    · exact (expected_ends t _ _ s hs).imp (fun h => .inr (.inr (.inr (.inr (.inl h)))))
        (fun h => .inr (.inr (.inr (.inr (.inl h)))))
    · exact ⟨.inr (.inr (.inr (.inl rfl))), .inr (.inr (.inr (.inr (.inr (ends_start r _ _)))))⟩
    · exact (expected_ends r _ _ s hs).imp (fun h => .inr (.inr (.inr (.inr (.inr h)))))
        (fun h => .inr (.inr (.inr (.inr (.inr h)))))
theorem arms_ends : ∀ (as : Walk.Arms) (k : Nat), ∀ s ∈ (as.expected k).flatten, EndsArms as k s.1 ∧ EndsArms as k s.2.1
  | .last i f, k, s, hs => by
    simp only [Walk.Arms.expected, List.flatten_cons, List.flatten_nil, List.append_nil, List.mem_cons] at hs
    rcases hs with rfl | hs
    · exact ⟨ends_start f _ _, ends_start f _ _⟩
    · exact expected_ends f _ _ s hs
  | .cons i f as, k, s, hs => by
    simp only [Walk.Arms.expected, List.flatten_cons, List.cons_append, List.mem_cons, List.mem_append] at hs
    rcases hs with rfl | hs | hs
    · exact ⟨.inl (ends_start f _ _), .inl (ends_start f _ _)⟩
    · exact (expected_ends f _ _ s hs).imp .inl .inl
    · exact (arms_ends as _ s hs).imp .inr .inr
end

/-- The location is in the program, and not behind its end. -/
structure Within (p : Walk.Prog) (k n : Nat) (z : Loc) : Prop where
  lo : k ≤ z.block
  hi : z.block < k + p.size
  first : z.block = k → n ≤ z.idx
  last : z.block = (p.finAt k n).block → z.idx ≤ (p.finAt k n).idx

theorem fin_within : ∀ (p : Walk.Prog) (k n : Nat), k ≤ (p.finAt k n).block ∧ (p.finAt k n).block < k + p.size ∧
    ((p.finAt k n).block = k → n ≤ (p.finAt k n).idx)
  | .fin, k, n => ⟨Nat.le_refl _, by have : Walk.Prog.fin.size = 1 := rfl; show k < _; omega, fun _ => Nat.le_refl _⟩
  | .act sp r, k, n => by
    obtain ⟨h1, h2, h3⟩ := fin_within r k (n + 1)
    have : (Walk.Prog.act sp r).size = r.size := rfl
    simp only [Walk.Prog.finAt]
    omega
  | .bind sp vs r, k, n => by
    obtain ⟨h1, h2, h3⟩ := fin_within r k (n + 1)
    have : (Walk.Prog.bind sp vs r).size = r.size := rfl
    simp only [Walk.Prog.finAt]
    omega
  | .call sp r, k, n => by
    obtain ⟨h1, h2, h3⟩ := fin_within r (k + 1) 0
    simp only [Walk.Prog.finAt, size_call]
    omega
  | .ite sp lt le hi t e r, k, n => by
    obtain ⟨h1, h2, h3⟩ := fin_within r (k + 1 + e.size + t.size) 0
    simp only [Walk.Prog.finAt, size_ite]
    omega
  | .only sp lt hi t r, k, n => by
    obtain ⟨h1, h2, h3⟩ := fin_within r (k + 1 + 1 + t.size) 0
    simp only [Walk.Prog.finAt, size_only]
    omega
  | .mtch sp ds i f as r, k, n => by
    obtain ⟨h1, h2, h3⟩ := fin_within r (k + 1 + 1 + f.size + as.size) 0
    simp only [Walk.Prog.finAt, size_mtch]
    omega
  | .whl sp sc lt hi sb c t r, k, n => by
    obtain ⟨h1, h2, h3⟩ := fin_within r (k + 3 + c + t.size) 1
    simp only [Walk.Prog.finAt, size_whl]
    omega
  | .frl sp sa sc hi sn lb li nb t r, k, n => by
    obtain ⟨h1, h2, h3⟩ := fin_within r (k + 6 + t.size) 1
    simp only [Walk.Prog.finAt, size_frl]
    omega

mutual
theorem ends_within : ∀ (p : Walk.Prog) (k n : Nat) {z : Loc}, EndsProg p k n z → Within p k n z
  | .fin, k, n, z, h => by
    have : Walk.Prog.fin.size = 1 := rfl
    simp only [EndsProg] at h
    subst h
    exact ⟨Nat.le_refl _, by dsimp only; omega, fun _ => Nat.le_refl _, fun _ => Nat.le_refl _⟩
  | .act sp r, k, n, z, h => by
    have f := fin_within r k (n + 1)
    have hs : (Walk.Prog.act sp r).size = r.size := rfl
    rcases h with rfl | h
    · constructor <;> (try simp only [Walk.Prog.finAt]) <;> omega
    · obtain ⟨w1, w2, w3, w4⟩ := ends_within r k (n + 1) h
      constructor <;> (try simp only [Walk.Prog.finAt]) <;> omega
  | .bind sp vs r, k, n, z, h => by
    have f := fin_within r k (n + 1)
    have hs : (Walk.Prog.bind sp vs r).size = r.size := rfl
    rcases h with rfl | h
    · constructor <;> (try simp only [Walk.Prog.finAt]) <;> omega
    · obtain ⟨w1, w2, w3, w4⟩ := ends_within r k (n + 1) h
      constructor <;> (try simp only [Walk.Prog.finAt]) <;> omega
  | .call sp r, k, n, z, h => by
    have f := fin_within r (k + 1) 0
    rcases h with rfl | h
    · constructor <;> (try simp only [Walk.Prog.finAt, size_call]) <;> omega
    · obtain ⟨w1, w2, w3, w4⟩ := ends_within r (k + 1) 0 h
      constructor <;> (try simp only [Walk.Prog.finAt, size_call]) <;> omega
  | .ite sp lt le hi t e r, k, n, z, h => by
    have f := fin_within r (k + 1 + e.size + t.size) 0
    rcases h with rfl | rfl | h | h | h
    · constructor <;> (try simp only [Walk.Prog.finAt, size_ite]) <;> omega
    · constructor <;> (try simp only [Walk.Prog.finAt, size_ite]) <;> omega
    · obtain ⟨w1, w2, w3, w4⟩ := ends_within e _ _ h
      constructor <;> (try simp only [Walk.Prog.finAt, size_ite]) <;> omega
    · obtain ⟨w1, w2, w3, w4⟩ := ends_within t _ _ h
      constructor <;> (try simp only [Walk.Prog.finAt, size_ite]) <;> omega
    · obtain ⟨w1, w2, w3, w4⟩ := ends_within r _ _ h
      constructor <;> (try simp only [Walk.Prog.finAt, size_ite]) <;> omega
  | .only sp lt hi t r, k, n, z, h => by
    have f := fin_within r (k + 1 + 1 + t.size) 0
    rcases h with rfl | rfl | rfl | h | h
    · constructor <;> (try simp only [Walk.Prog.finAt, size_only]) <;> omega
    · constructor <;> (try simp only [Walk.Prog.finAt, size_only]) <;> omega
    · constructor <;> (try simp only [Walk.Prog.finAt, size_only]) <;> omega
    · obtain ⟨w1, w2, w3, w4⟩ := ends_within t _ _ h
      constructor <;> (try simp only [Walk.Prog.finAt, size_only]) <;> omega
    · obtain ⟨w1, w2, w3, w4⟩ := ends_within r _ _ h
      constructor <;> (try simp only [Walk.Prog.finAt, size_only]) <;> omega
  | .mtch sp ds i f as r, k, n, z, h => by
    have g := fin_within r (k + 1 + 1 + f.size + as.size) 0
    rcases h with rfl | rfl | h | h | h
    · constructor <;> (try simp only [Walk.Prog.finAt, size_mtch]) <;> omega
    · constructor <;> (try simp only [Walk.Prog.finAt, size_mtch]) <;> omega
    · obtain ⟨w1, w2, w3, w4⟩ := ends_within f _ _ h
      constructor <;> (try simp only [Walk.Prog.finAt, size_mtch]) <;> omega
    · obtain ⟨w1, w2⟩ := ends_arms as _ h
      constructor <;> (try simp only [Walk.Prog.finAt, size_mtch]) <;> omega
    · obtain ⟨w1, w2, w3, w4⟩ := ends_within r _ _ h
      constructor <;> (try simp only [Walk.Prog.finAt, size_mtch]) <;> omega
  | .whl sp sc lt hi sb c t r, k, n, z, h => by
    have f := fin_within r (k + 3 + c + t.size) 1
    rcases h with rfl | rfl | rfl | h | h
    · constructor <;> (try simp only [Walk.Prog.finAt, size_whl]) <;> omega
    · constructor <;> (try simp only [Walk.Prog.finAt, size_whl]) <;> omega
    · constructor <;> (try simp only [Walk.Prog.finAt, size_whl]) <;> omega
    · obtain ⟨w1, w2, w3, w4⟩ := ends_within t _ _ h
      constructor <;> (try simp only [Walk.Prog.finAt, size_whl]) <;> omega
    · obtain ⟨w1, w2, w3, w4⟩ := ends_within r _ _ h
      constructor <;> (try simp only [Walk.Prog.finAt, size_whl]) <;> omega
  | .frl sp sa sc hi sn lb li nb t r, k, n, z, h => by
    have f := fin_within r (k + 6 + t.size) 1
    rcases h with rfl | rfl | rfl | rfl | h | h
    · constructor <;> (try simp only [Walk.Prog.finAt, size_frl]) <;> omega
    · constructor <;> (try simp only [Walk.Prog.finAt, size_frl]) <;> omega
    · constructor <;> (try simp only [Walk.Prog.finAt, size_frl]) <;> omega
    · constructor <;> (try simp only [Walk.Prog.finAt, size_frl]) <;> omega
    · obtain ⟨w1, w2, w3, w4⟩ := ends_within t _ _ h
      constructor <;> (try simp only [Walk.Prog.finAt, size_frl]) <;> omega
    · obtain ⟨w1, w2, w3, w4⟩ := ends_within r _ _ h
      constructor <;> (try simp only [Walk.Prog.finAt, size_frl]) <;> omega
theorem ends_arms : ∀ (as : Walk.Arms) (k : Nat) {z : Loc}, EndsArms as k z → k ≤ z.block ∧ z.block < k + as.size
  | .last i f, k, z, h => by
    obtain ⟨w1, w2, w3, w4⟩ := ends_within f _ _ h
    rw [size_last]
    exact ⟨w1, w2⟩
  | .cons i f as, k, z, h => by
    rw [size_cons]
    rcases h with h | h
    · obtain ⟨w1, w2, w3, w4⟩ := ends_within f _ _ h
      omega
    · obtain ⟨w1, w2⟩ := ends_arms as _ h
      omega
end

mutual
theorem at_within : ∀ (p : Walk.Prog) (k n : Nat) {a z : Loc}, AtProg p k n a z → Within p k n z
  | .fin, k, n, a, z, h => by
    obtain ⟨rfl, rfl⟩ := h
    exact ends_within .fin _ _ rfl
  | .act sp r, k, n, a, z, h => by
    have f := fin_within r k (n + 1)
    have hs : (Walk.Prog.act sp r).size = r.size := rfl
    rcases h with ⟨rfl, rfl⟩ | h
    · exact ends_within (.act sp r) _ _ (ends_start _ _ _)
    · obtain ⟨w1, w2, w3, w4⟩ := at_within r k (n + 1) h
      constructor <;> (try simp only [Walk.Prog.finAt]) <;> omega
  | .bind sp vs r, k, n, a, z, h => by
    have f := fin_within r k (n + 1)
    have hs : (Walk.Prog.bind sp vs r).size = r.size := rfl
    rcases h with ⟨rfl, rfl⟩ | h
    · exact ends_within (.bind sp vs r) _ _ (ends_start _ _ _)
    · obtain ⟨w1, w2, w3, w4⟩ := at_within r k (n + 1) h
      constructor <;> (try simp only [Walk.Prog.finAt]) <;> omega
  | .call sp r, k, n, a, z, h => by
    have f := fin_within r (k + 1) 0
    rcases h with ⟨rfl, rfl⟩ | h
    · exact ends_within (.call sp r) _ _ (ends_start _ _ _)
    · obtain ⟨w1, w2, w3, w4⟩ := at_within r (k + 1) 0 h
      constructor <;> (try simp only [Walk.Prog.finAt, size_call]) <;> omega
  | .ite sp lt le hi t e r, k, n, a, z, h => by
    have f := fin_within r (k + 1 + e.size + t.size) 0
    have ft := fin_within t (k + 1 + e.size) 0
    have fe := fin_within e (k + 1) 0
    rcases h with ⟨rfl, rfl⟩ | ⟨rfl, rfl⟩ | (h | ⟨rfl, rfl⟩) | (h | ⟨rfl, rfl⟩) | h
    · exact ends_within (.ite sp lt le hi t e r) _ _ (ends_start _ _ _)
    · exact ends_within (.ite sp lt le hi t e r) _ _ (.inr (.inl rfl))
    · obtain ⟨w1, w2, w3, w4⟩ := at_within e _ _ h
      constructor <;> (try simp only [Walk.Prog.finAt, size_ite]) <;> omega
    · constructor <;> (try simp only [Walk.Prog.finAt, size_ite, up]) <;> omega
    · obtain ⟨w1, w2, w3, w4⟩ := at_within t _ _ h
      constructor <;> (try simp only [Walk.Prog.finAt, size_ite]) <;> omega
    · constructor <;> (try simp only [Walk.Prog.finAt, size_ite, up]) <;> omega
    · obtain ⟨w1, w2, w3, w4⟩ := at_within r _ _ h
      constructor <;> (try simp only [Walk.Prog.finAt, size_ite]) <;> omega
  | .only sp lt hi t r, k, n, a, z, h => by
    have f := fin_within r (k + 1 + 1 + t.size) 0
    have ft := fin_within t (k + 1 + 1) 0
    rcases h with ⟨rfl, rfl⟩ | ⟨rfl, rfl⟩ | ⟨rfl, rfl⟩ | ⟨rfl, rfl⟩ | (h | ⟨rfl, rfl⟩) | h
    · exact ends_within (.only sp lt hi t r) _ _ (ends_start _ _ _)
    · exact ends_within (.only sp lt hi t r) _ _ (.inr (.inl rfl))
    · constructor <;> (try simp only [Walk.Prog.finAt, size_only]) <;> omega
    · constructor <;> (try simp only [Walk.Prog.finAt, size_only]) <;> omega
    · obtain ⟨w1, w2, w3, w4⟩ := at_within t _ _ h
      constructor <;> (try simp only [Walk.Prog.finAt, size_only]) <;> omega
    · constructor <;> (try simp only [Walk.Prog.finAt, size_only, up]) <;> omega
    · obtain ⟨w1, w2, w3, w4⟩ := at_within r _ _ h
      constructor <;> (try simp only [Walk.Prog.finAt, size_only]) <;> omega
  | .mtch sp ds i f as r, k, n, a, z, h => by
    have g := fin_within r (k + 1 + 1 + f.size + as.size) 0
    have ff := fin_within f (k + 1 + 1) i.nb
    have hp := Walk.Prog.size_pos f
    rcases h with ⟨rfl, rfl⟩ | ⟨rfl, e1, e2, e3⟩ | ⟨rfl, rfl⟩ | ⟨rfl, e1, e2⟩ | (h | ⟨rfl, rfl⟩) | h | h
    · exact ends_within (.mtch sp ds i f as r) _ _ (ends_start _ _ _)
    · constructor <;> (try simp only [Walk.Prog.finAt, size_mtch]) <;> omega
    · constructor <;> (try simp only [Walk.Prog.finAt, size_mtch]) <;> omega
    · constructor <;> (try simp only [Walk.Prog.finAt, size_mtch]) <;> omega
    · obtain ⟨w1, w2, w3, w4⟩ := at_within f _ _ h
      constructor <;> (try simp only [Walk.Prog.finAt, size_mtch]) <;> omega
    · constructor <;> (try simp only [Walk.Prog.finAt, size_mtch, up]) <;> omega
    · obtain ⟨w1, w2⟩ := at_arms as _ h
      constructor <;> (try simp only [Walk.Prog.finAt, size_mtch]) <;> omega
    · obtain ⟨w1, w2, w3, w4⟩ := at_within r _ _ h
      constructor <;> (try simp only [Walk.Prog.finAt, size_mtch]) <;> omega
  | .whl sp sc lt hi sb c t r, k, n, a, z, h => by
    have f := fin_within r (k + 3 + c + t.size) 1
    have ft := fin_within t (k + 3 + c) 0
    rcases h with ⟨rfl, rfl⟩ | ⟨rfl, e1, e2, e3⟩ | ⟨rfl, rfl⟩ | (h | ⟨rfl, rfl⟩) | ⟨rfl, rfl⟩ | h
    · exact ends_within (.whl sp sc lt hi sb c t r) _ _ (ends_start _ _ _)
    · constructor <;> (try simp only [Walk.Prog.finAt, size_whl]) <;> omega
    · constructor <;> (try simp only [Walk.Prog.finAt, size_whl]) <;> omega
    · obtain ⟨w1, w2, w3, w4⟩ := at_within t _ _ h
      constructor <;> (try simp only [Walk.Prog.finAt, size_whl]) <;> omega
    · constructor <;> (try simp only [Walk.Prog.finAt, size_whl, up]) <;> omega
    · constructor <;> (try simp only [Walk.Prog.finAt, size_whl]) <;> omega
    · obtain ⟨w1, w2, w3, w4⟩ := at_within r _ _ h
      constructor <;> (try simp only [Walk.Prog.finAt, size_whl]) <;> omega
  | .frl sp sa sc hi sn lb li nb t r, k, n, a, z, h => by
    have f := fin_within r (k + 6 + t.size) 1
    have ft := fin_within t (k + 6) nb
    have hp := Walk.Prog.size_pos t
    rcases h with ⟨rfl, rfl⟩ | ⟨rfl, rfl⟩ | ⟨rfl, rfl⟩ | ⟨rfl, rfl⟩ | ⟨rfl, rfl⟩ | ⟨rfl, rfl⟩ | ⟨rfl, rfl⟩ | ⟨rfl, rfl⟩ |
      ⟨rfl, rfl⟩ | ⟨rfl, e1, e2⟩ | (h | ⟨rfl, rfl⟩) | ⟨rfl, rfl⟩ | ⟨rfl, rfl⟩ | h
    · exact ends_within (.frl sp sa sc hi sn lb li nb t r) _ _ (ends_start _ _ _)
    · constructor <;> (try simp only [Walk.Prog.finAt, size_frl]) <;> omega
    · constructor <;> (try simp only [Walk.Prog.finAt, size_frl]) <;> omega
    · constructor <;> (try simp only [Walk.Prog.finAt, size_frl]) <;> omega
    · constructor <;> (try simp only [Walk.Prog.finAt, size_frl]) <;> omega
    · constructor <;> (try simp only [Walk.Prog.finAt, size_frl]) <;> omega
    · constructor <;> (try simp only [Walk.Prog.finAt, size_frl]) <;> omega
    · constructor <;> (try simp only [Walk.Prog.finAt, size_frl]) <;> omega
    · constructor <;> (try simp only [Walk.Prog.finAt, size_frl]) <;> omega
    · constructor <;> (try simp only [Walk.Prog.finAt, size_frl]) <;> omega
    · obtain ⟨w1, w2, w3, w4⟩ := at_within t _ _ h
      constructor <;> (try simp only [Walk.Prog.finAt, size_frl]) <;> omega
    · constructor <;> (try simp only [Walk.Prog.finAt, size_frl, up]) <;> omega
    · constructor <;> (try simp only [Walk.Prog.finAt, size_frl]) <;> omega
    · constructor <;> (try simp only [Walk.Prog.finAt, size_frl]) <;> omega
    · obtain ⟨w1, w2, w3, w4⟩ := at_within r _ _ h
      constructor <;> (try simp only [Walk.Prog.finAt, size_frl]) <;> omega
theorem at_arms : ∀ (as : Walk.Arms) (k : Nat) {o a z : Loc}, AtArms as k o a z → k ≤ z.block ∧ z.block < k + as.size
  | .last i f, k, o, a, z, h => by
    have ff := fin_within f k i.nb
    have hp := Walk.Prog.size_pos f
    rw [size_last]
    rcases h with ⟨rfl, e1, e2⟩ | h | ⟨rfl, rfl⟩
    · omega
    · obtain ⟨w1, w2, w3, w4⟩ := at_within f _ _ h
      omega
    · simp only [up]
      omega
  | .cons i f as, k, o, a, z, h => by
    have ff := fin_within f (k + 1) i.nb
    have hp := Walk.Prog.size_pos f
    rw [size_cons]
    rcases h with ⟨rfl, rfl⟩ | ⟨rfl, e1, e2⟩ | (h | ⟨rfl, rfl⟩) | h
    · dsimp only
      omega
    · omega
    · obtain ⟨w1, w2, w3, w4⟩ := at_within f _ _ h
      omega
    · simp only [up]
      omega
    · obtain ⟨w1, w2⟩ := at_arms as _ h
      omega
end

/-- Locations with different coordinates are different. -/
theorem ne_loc {z : Loc} {k n : Nat} (h : z = ⟨k, n⟩) : z.block = k ∧ z.idx = n := by rw [h]; exact ⟨rfl, rfl⟩

theorem ne_up {a z : Loc} (h : z = up a) : z.block = a.block ∧ z.idx = a.idx + 1 := by rw [h]; exact ⟨rfl, rfl⟩

mutual
/-- When the run is where a step begins or ends, the way is there, too. -/
theorem settled : ∀ (p : Walk.Prog) (k n : Nat) {a z : Loc}, AtProg p k n a z → EndsProg p k n z → a = z
  | .fin, k, n, a, z, h, _ => h.1.trans h.2.symm
  | .act sp r, k, n, a, z, h, he => by
    rcases h with h | h
    · exact h.1.trans h.2.symm
    · obtain ⟨w1, w2, w3, w4⟩ := at_within r _ _ h
      rcases he with he | he
      · have := ne_loc he
        omega
      · exact settled r _ _ h he
  | .bind sp vs r, k, n, a, z, h, he => by
    rcases h with h | h
    · exact h.1.trans h.2.symm
    · obtain ⟨w1, w2, w3, w4⟩ := at_within r _ _ h
      rcases he with he | he
      · have := ne_loc he
        omega
      · exact settled r _ _ h he
  | .call sp r, k, n, a, z, h, he => by
    rcases h with h | h
    · exact h.1.trans h.2.symm
    · obtain ⟨w1, w2, w3, w4⟩ := at_within r _ _ h
      rcases he with he | he
      · have := ne_loc he
        omega
      · exact settled r _ _ h he
  | .ite sp lt le hi t e r, k, n, a, z, h, he => by
    have fe := fin_within e (k + 1) 0
    have ft := fin_within t (k + 1 + e.size) 0
    rcases h with h | h | (h | ⟨rfl, h⟩) | (h | ⟨rfl, h⟩) | h
    · exact h.1.trans h.2.symm
    · exact h.1.trans h.2.symm
    · have w := at_within e _ _ h
      rcases he with he | he | he | he | he
      · have := w.1; have := ne_loc he; omega
      · have := w.1; have := ne_loc he; omega
      · exact settled e _ _ h he
      · have := w.2; have := (ends_within t _ _ he).1; omega
      · have := w.2; have := (ends_within r _ _ he).1; omega
    · have w := ne_up h
      rcases he with he | he | he | he | he
      · have := ne_loc he; omega
      · have := ne_loc he; omega
      · have := (ends_within e _ _ he).4; omega
      · have := (ends_within t _ _ he).1; omega
      · have := (ends_within r _ _ he).1; omega
    · have w := at_within t _ _ h
      rcases he with he | he | he | he | he
      · have := w.1; have := ne_loc he; omega
      · have := w.1; have := ne_loc he; omega
      · have := w.1; have := (ends_within e _ _ he).2; omega
      · exact settled t _ _ h he
      · have := w.2; have := (ends_within r _ _ he).1; omega
    · have w := ne_up h
      rcases he with he | he | he | he | he
      · have := ne_loc he; omega
      · have := ne_loc he; omega
      · have := (ends_within e _ _ he).2; omega
      · have := (ends_within t _ _ he).4; omega
      · have := (ends_within r _ _ he).1; omega
    · have w := at_within r _ _ h
      rcases he with he | he | he | he | he
      · have := w.1; have := ne_loc he; omega
      · have := w.1; have := ne_loc he; omega
      · have := w.1; have := (ends_within e _ _ he).2; omega
      · have := w.1; have := (ends_within t _ _ he).2; omega
      · exact settled r _ _ h he
  | .only sp lt hi t r, k, n, a, z, h, he => by
    have ft := fin_within t (k + 1 + 1) 0
    rcases h with h | h | h | ⟨rfl, h⟩ | (h | ⟨rfl, h⟩) | h
    · exact h.1.trans h.2.symm
    · exact h.1.trans h.2.symm
    · exact h.1.trans h.2.symm
    · have w := ne_loc h
      rcases he with he | he | he | he | he
      · have := ne_loc he; omega
      · have := ne_loc he; omega
      · have := ne_loc he; omega
      · have := (ends_within t _ _ he).1; omega
      · have := (ends_within r _ _ he).1; omega
    · have w := at_within t _ _ h
      rcases he with he | he | he | he | he
      · have := w.1; have := ne_loc he; omega
      · have := w.1; have := ne_loc he; omega
      · have := w.1; have := ne_loc he; omega
      · exact settled t _ _ h he
      · have := w.2; have := (ends_within r _ _ he).1; omega
    · have w := ne_up h
      rcases he with he | he | he | he | he
      · have := ne_loc he; omega
      · have := ne_loc he; omega
      · have := ne_loc he; omega
      · have := (ends_within t _ _ he).4; omega
      · have := (ends_within r _ _ he).1; omega
    · have w := at_within r _ _ h
      rcases he with he | he | he | he | he
      · have := w.1; have := ne_loc he; omega
      · have := w.1; have := ne_loc he; omega
      · have := w.1; have := ne_loc he; omega
      · have := w.1; have := (ends_within t _ _ he).2; omega
      · exact settled r _ _ h he
  | .mtch sp ds i f as r, k, n, a, z, h, he => by
    have ff := fin_within f (k + 1 + 1) i.nb
    have hp := Walk.Prog.size_pos f
    have hb : (k ≤ z.block ∧ z.block ≤ k + 1 ∧ (z.block = k → z ≠ ⟨k, n⟩ ∧ z ≠ ⟨k, n + 1⟩)) ∨
        (z.block = k + 1 + 1 ∧ z.idx < i.nb) → False := by
      intro hc
      rcases he with he | he | he | he | he
      · rcases hc with ⟨_, _, h3⟩ | h3
        · exact (h3 (ne_loc he).1).1 he
        · have := ne_loc he; omega
      · rcases hc with ⟨_, _, h3⟩ | h3
        · exact (h3 (ne_loc he).1).2 he
        · have := ne_loc he; omega
      · have := (ends_within f _ _ he).1; have := (ends_within f _ _ he).3; omega
      · have := ends_arms as _ he; omega
      · have := (ends_within r _ _ he).1; omega
    rcases h with h | ⟨rfl, e1, e2, e3⟩ | ⟨rfl, h⟩ | ⟨rfl, e1, e2⟩ | (h | ⟨rfl, h⟩) | h | h
    · exact h.1.trans h.2.symm
    · by_cases hz : z.idx = n + 1
      · obtain ⟨zb, zi⟩ := z
        dsimp only at e1 hz
        rw [e1, hz]
      · refine (hb (.inl ⟨by omega, by omega, fun _ => ⟨fun hc => ?_, fun hc => ?_⟩⟩)).elim
        · have := ne_loc hc; omega
        · have := ne_loc hc; omega
    · have w := ne_loc h
      exact (hb (.inl ⟨by omega, by omega, fun hc => by omega⟩)).elim
    · exact (hb (.inr ⟨e1, e2⟩)).elim
    · have w := at_within f _ _ h
      rcases he with he | he | he | he | he
      · have := w.1; have := ne_loc he; omega
      · have := w.1; have := ne_loc he; omega
      · exact settled f _ _ h he
      · have := w.2; have := ends_arms as _ he; omega
      · have := w.2; have := (ends_within r _ _ he).1; omega
    · have w := ne_up h
      rcases he with he | he | he | he | he
      · have := ne_loc he; omega
      · have := ne_loc he; omega
      · have := (ends_within f _ _ he).4; omega
      · have := ends_arms as _ he; omega
      · have := (ends_within r _ _ he).1; omega
    · have w := at_arms as _ h
      rcases he with he | he | he | he | he
      · have := ne_loc he; omega
      · have := ne_loc he; omega
      · have := (ends_within f _ _ he).2; omega
      · exact arms_settled as _ h he
      · have := (ends_within r _ _ he).1; omega
    · have w := at_within r _ _ h
      rcases he with he | he | he | he | he
      · have := w.1; have := ne_loc he; omega
      · have := w.1; have := ne_loc he; omega
      · have := w.1; have := (ends_within f _ _ he).2; omega
      · have := w.1; have := ends_arms as _ he; omega
      · exact settled r _ _ h he
  | .whl sp sc lt hi sb c t r, k, n, a, z, h, he => by
    have ft := fin_within t (k + 3 + c) 0
    rcases h with h | ⟨rfl, e1, e2, e3⟩ | h | (h | ⟨rfl, h⟩) | h | h
    · exact h.1.trans h.2.symm
    · rcases he with he | he | he | he | he
      · have := ne_loc he; omega
      · have := ne_loc he; omega
      · have := ne_loc he; omega
      · have := (ends_within t _ _ he).1; omega
      · have := (ends_within r _ _ he).1; omega
    · exact h.1.trans h.2.symm
    · have w := at_within t _ _ h
      rcases he with he | he | he | he | he
      · have := w.1; have := ne_loc he; omega
      · have := w.1; have := ne_loc he; omega
      · have := w.2; have := ne_loc he; omega
      · exact settled t _ _ h he
      · have := w.2; have := (ends_within r _ _ he).1; omega
    · have w := ne_up h
      rcases he with he | he | he | he | he
      · have := ne_loc he; omega
      · have := ne_loc he; omega
      · have := ne_loc he; omega
      · have := (ends_within t _ _ he).4; omega
      · have := (ends_within r _ _ he).1; omega
    · exact h.1.trans h.2.symm
    · have w := at_within r _ _ h
      rcases he with he | he | he | he | he
      · have := w.1; have := ne_loc he; omega
      · have := w.1; have := ne_loc he; omega
      · have := w.3; have := ne_loc he; omega
      · have := w.1; have := (ends_within t _ _ he).2; omega
      · exact settled r _ _ h he
  | .frl sp sa sc hi sn lb li nb t r, k, n, a, z, h, he => by
    have ft := fin_within t (k + 6) nb
    have hp := Walk.Prog.size_pos t
    have hb : (z.block = k + 1 ∨ z.block = k + 2 ∨ z = ⟨k + 3, 1⟩ ∨ z = ⟨k + 4, 1⟩ ∨ z.block = k + 5 ∨
        (z.block = k + 6 ∧ z.idx < nb) ∨ (z.block = (t.finAt (k + 6) nb).block ∧ z.idx = (t.finAt (k + 6) nb).idx + 1)) →
        False := by
      intro hc
      have hc' : z.block = k + 1 ∨ z.block = k + 2 ∨ (z.block = k + 3 ∧ z.idx = 1) ∨ (z.block = k + 4 ∧ z.idx = 1) ∨
          z.block = k + 5 ∨ (z.block = k + 6 ∧ z.idx < nb) ∨
          (z.block = (t.finAt (k + 6) nb).block ∧ z.idx = (t.finAt (k + 6) nb).idx + 1) := by
        rcases hc with hc | hc | hc | hc | hc
        · exact .inl hc
        · exact .inr (.inl hc)
        · exact .inr (.inr (.inl (ne_loc hc)))
        · exact .inr (.inr (.inr (.inl (ne_loc hc))))
        · exact .inr (.inr (.inr (.inr hc)))
      rcases he with he | he | he | he | he | he
      · have := ne_loc he; omega
      · have := ne_loc he; omega
      · have := ne_loc he; omega
      · have := ne_loc he; omega
      · obtain ⟨w1, w2, w3, w4⟩ := ends_within t _ _ he; omega
      · have := (ends_within r _ _ he).1; omega
    rcases h with h | ⟨_, h⟩ | ⟨_, h⟩ | ⟨_, h⟩ | h | ⟨_, h⟩ | h | ⟨_, h⟩ | ⟨_, h⟩ | ⟨_, h⟩ | (h | ⟨rfl, h⟩) | ⟨_, h⟩ | h | h
    · exact h.1.trans h.2.symm
    · exact (hb (.inl (ne_loc h).1)).elim
    · exact (hb (.inl (ne_loc h).1)).elim
    · exact (hb (.inr (.inl (ne_loc h).1))).elim
    · exact h.1.trans h.2.symm
    · exact (hb (.inr (.inr (.inl h)))).elim
    · exact h.1.trans h.2.symm
    · exact (hb (.inr (.inr (.inr (.inl h))))).elim
    · exact (hb (.inr (.inr (.inr (.inr (.inl (ne_loc h).1)))))).elim
    · exact (hb (.inr (.inr (.inr (.inr (.inr (.inl h))))))).elim
    · have w := at_within t _ _ h
      rcases he with he | he | he | he | he | he
      · have := w.1; have := ne_loc he; omega
      · have := w.1; have := ne_loc he; omega
      · have := w.1; have := ne_loc he; omega
      · have := w.2; have := ne_loc he; omega
      · exact settled t _ _ h he
      · have := w.2; have := (ends_within r _ _ he).1; omega
    · exact (hb (.inr (.inr (.inr (.inr (.inr (.inr (ne_up h)))))))).elim
    · exact (hb (.inr (.inl (ne_loc h).1))).elim
    · exact h.1.trans h.2.symm
    · have w := at_within r _ _ h
      rcases he with he | he | he | he | he | he
      · have := w.1; have := ne_loc he; omega
      · have := w.1; have := ne_loc he; omega
      · have := w.1; have := ne_loc he; omega
      · have := w.3; have := ne_loc he; omega
      · have := w.1; have := (ends_within t _ _ he).2; omega
      · exact settled r _ _ h he
theorem arms_settled : ∀ (as : Walk.Arms) (k : Nat) {o a z : Loc}, AtArms as k o a z → EndsArms as k z → a = z
  | .last i f, k, o, a, z, h, he => by
    rcases h with ⟨_, e1, e2⟩ | h | ⟨rfl, h⟩
    · obtain ⟨w1, w2, w3, w4⟩ := ends_within f _ _ he
      omega
    · exact settled f _ _ h he
    · have := ne_up h
      have := (ends_within f _ _ he).4
      omega
  | .cons i f as, k, o, a, z, h, he => by
    have ff := fin_within f (k + 1) i.nb
    have hp := Walk.Prog.size_pos f
    rcases h with ⟨_, h⟩ | ⟨_, e1, e2⟩ | (h | ⟨rfl, h⟩) | h
    · have w := ne_loc h
      rcases he with he | he
      · have := (ends_within f _ _ he).1; omega
      · have := ends_arms as _ he; omega
    · rcases he with he | he
      · have := (ends_within f _ _ he).3; omega
      · have := ends_arms as _ he; omega
    · rcases he with he | he
      · exact settled f _ _ h he
      · have := (at_within f _ _ h).2; have := ends_arms as _ he; omega
    · have w := ne_up h
      rcases he with he | he
      · have := (ends_within f _ _ he).4; omega
      · have := ends_arms as _ he; omega
    · rcases he with he | he
      · have := (ends_within f _ _ he).2; have := at_arms as _ h; omega
      · exact arms_settled as _ h he
end

/-- A run through the control flow from `o`, with the locations that it comes to. -/
inductive Run (b : Body) (o : Loc) : List Loc → Loc → Prop
  | nil : Run b o [] o
  | next {w z z'} : Run b o w z → Next b z z' → Run b o (w ++ [z']) z'

/-- Nothing comes after the end of the program. -/
theorem no_next (p : Walk.Prog) {z z' : Loc} (hz : z = up (p.finAt 0 0)) (hn : Next p.body z z') : False := by
  subst hz
  have h := Walk.fin_block p 0 0 .ret (Walk.body_slice p)
  rw [up, next_term h] at hn
  obtain ⟨u, hu, _⟩ := hn
  simp [Term.targets] at hu

/-- Every run is followed by a way, whose steps end at locations of the run, in the same order. -/
theorem run_trail (p : Walk.Prog) (sp : Nat) {f : Frozen}
    (hs : f.segs.map (fun g => (g.from, g.to, g.span)) =
        p.expected 0 0 ++ [(p.finAt 0 0, ⟨(p.finAt 0 0).block, (p.finAt 0 0).idx + 1⟩, sp)])
    {w : List Loc} {z : Loc} (h : Run p.body startLoc w z) :
    ∃ ss a, Trail f (p.merges 0 0) startLoc ss a ∧ (AtProg p 0 0 a z ∨ (a = z ∧ z = up (p.finAt 0 0))) ∧
      (ss.map (·.to)).Sublist w := by
  have hseg : ∀ {x : Step}, x ∈ p.expected 0 0 ++ [(p.finAt 0 0, up (p.finAt 0 0), sp)] →
      ∃ g ∈ f.segs, g.from = x.1 ∧ g.to = x.2.1 := by
    intro x hx
    have hx' : x ∈ f.segs.map (fun g => (g.from, g.to, g.span)) := by rw [hs]; exact hx
    obtain ⟨g, hg, rfl⟩ := List.mem_map.1 hx'
    exact ⟨g, hg, rfl, rfl⟩
  induction h with
  | nil => exact ⟨[], startLoc, .nil, .inl (at_start p 0 0), .slnil⟩
  | @next w z z' hr hn ih =>
    obtain ⟨ss, a, h1, h2, h3⟩ := ih
    have took : ∀ {x : Step}, x ∈ p.expected 0 0 ++ [(p.finAt 0 0, up (p.finAt 0 0), sp)] → x.1 = a → x.2.1 = z' →
        ∃ ss', Trail f (p.merges 0 0) startLoc ss' z' ∧ (ss'.map (·.to)).Sublist (w ++ [z']) := by
      intro x hx e1 e2
      obtain ⟨g, hg, e3, e4⟩ := hseg hx
      rw [e2] at e4
      refine ⟨ss ++ [g], ?_, ?_⟩
      · rw [← e4]
        exact .step h1 hg (e3.trans e1)
      · rw [List.map_append, ← e4]
        exact List.Sublist.append h3 (List.Sublist.refl _)
    rcases h2 with h2 | ⟨_, h2⟩
    · rcases prog_next p 0 0 .ret (Walk.body_slice p) h2 hn with ⟨a', h4, h5⟩ | ⟨h4, h5⟩
      · rcases h5 with rfl | ⟨s, h5, h6⟩ | h5
        · exact ⟨ss, a, h1, .inl h4, h3.trans (List.sublist_append_left _ _)⟩
        · subst h6
          obtain ⟨ss', h7, h8⟩ := took (List.mem_append_left _ h5) rfl rfl
          exact ⟨ss', a', h7, .inl h4, h8⟩
        · exact ⟨ss, a', .merge h1 h5, .inl h4, h3.trans (List.sublist_append_left _ _)⟩
      · obtain ⟨ss', h7, h8⟩ := took (List.mem_append_right _ (List.mem_singleton.2 rfl)) h4.symm (by
          rw [h5, h4])
        exact ⟨ss', z', h7, .inr ⟨rfl, by rw [h5, h4]⟩, h8⟩
    · exact (no_next p h2 hn).elim

/-- Where the run is at the beginning or at the end of a step, the way has come to the same location. -/
theorem run_settled (p : Walk.Prog) (sp : Nat) {f : Frozen}
    (hs : f.segs.map (fun g => (g.from, g.to, g.span)) =
        p.expected 0 0 ++ [(p.finAt 0 0, ⟨(p.finAt 0 0).block, (p.finAt 0 0).idx + 1⟩, sp)])
    {w : List Loc} {z : Loc} (h : Run p.body startLoc w z) (hz : ∃ g ∈ f.segs, z = g.from ∨ z = g.to) :
    ∃ ss, Trail f (p.merges 0 0) startLoc ss z ∧ (ss.map (·.to)).Sublist w := by
  obtain ⟨ss, a, h1, h2, h3⟩ := run_trail p sp hs h
  rcases h2 with h2 | ⟨rfl, _⟩
  · have he : EndsProg p 0 0 z := by
      obtain ⟨g, hg, hz⟩ := hz
      have hx : (g.from, g.to, g.span) ∈ f.segs.map (fun g => (g.from, g.to, g.span)) := List.mem_map.2 ⟨g, hg, rfl⟩
      rw [hs] at hx
      rcases List.mem_append.1 hx with hx | hx
      · have := expected_ends p 0 0 _ hx
        rcases hz with rfl | rfl
        · exact this.1
        · exact this.2
      · rw [List.mem_singleton] at hx
        have e1 : g.from = p.finAt 0 0 := congrArg (fun x : Step => x.1) hx
        have e2 : g.to = up (p.finAt 0 0) := congrArg (fun x : Step => x.2.1) hx
        rcases hz with rfl | rfl
        · rw [e1]
          exact ends_fin p 0 0
        · have := (at_within p 0 0 h2).last
          have := ne_up e2
          omega
    rw [settled p 0 0 h2 he] at h1
    exact ⟨ss, h1, h3⟩
  · exact ⟨ss, h1, h3⟩

/-- **C108 (every run).** However the program runs, when it is where some step begins or ends, the permissions of a
visible variable that is never borrowed and whose changes are on different lines are what the last row says among the
rows of steps that the run has gone over; if there is none, what the row at the opening brace says; and none at all if
this row is missing too. -/
theorem C108_runs (p : Walk.Prog) (sp : Nat) {fuel : Nat} (hfu : fuel ≠ 0)
    {ord : List (Loc × Nat) → List (Loc × Nat)} (hord : ∀ l, (ord l).Perm l) {c : Ctxt} (hst : c.start = startLoc)
    {order : Tables → Tables} (ho : ∀ m, (order m).Perm m) {src : List Char} {visible : Place → Bool} {f : Frozen}
    {locals : List (Nat × List Nat)} {ds : List Display}
    (h : compute (.ofBody p.body fuel ord) (p.source sp) = .steps f locals)
    (hd : finalizeBody c f locals order src none visible .changes = some ds)
    {i : Facts.Input} {used defined : Nat → Nat → Prop} {x : Place} {path : Nat} (hx : x ∈ c.places)
    (hv : visible x = true) (ht : Tracked c p.body i used defined x path) (hrest : Rests p i path) (hf : Flow p.body i)
    (hq : Silent p used defined (i.varOf path))
    (hu : ∀ (k : Nat) (s : Seg), f.segs[k]? = some s → Changes c x s → Alone c src f x k (lineOf src (c.endOf s.span)))
    {w : List Loc} {z : Loc} (hr : Run p.body startLoc w z) (hz : ∃ g ∈ f.segs, z = g.from ∨ z = g.to) :
    ∃ ss, Trail f (p.merges 0 0) startLoc ss z ∧ (ss.map (·.to)).Sublist w ∧
      ((∃ pre g post d, ss = pre ++ g :: post ∧ Shown src ds (lineOf src (c.endOf g.span)) x d ∧
          Says d (c.data g.from x).permissions (c.data z x).permissions ∧ ∀ y ∈ post, ¬ Changes c x y) ∨
        ((∀ y ∈ ss, ¬ Changes c x y) ∧ ((∃ d, Shown src ds (lineOf src c.brace) x d ∧
              Says d ⟨false, false, false⟩ (c.data z x).permissions) ∨
            (c.data z x).permissions = ⟨false, false, false⟩))) := by
  obtain ⟨f', locals', ds', e1, e2, e3, hshow⟩ := C103_page p sp hfu hord c ho src none visible
  rw [h] at e1
  cases e1
  obtain ⟨ss, h1, h2⟩ := run_settled p sp e3 hr hz
  exact ⟨ss, h1, h2, (C108_told p sp hfu hord hst ho h hd hx hv ht hrest hf hq hu).1 ss z h1⟩

end

end Verif.Pipeline
