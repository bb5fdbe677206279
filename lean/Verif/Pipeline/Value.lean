import Verif.Pipeline.Living
import Verif.Walk.Value
import Verif.Walk.Merges
/-!
# C109: where the value of a variable is of use, in the control flow and in the source
-/
namespace Verif.Pipeline

open Verif.Cfg Verif.Segments Verif.HirSteps
open Verif.HirSteps.Prog (Slice Slice.left Slice.right Slice.tail)
open Verif.Walk (before beforeRun beforeCalls)

/-- From the location a use is reached in at most so many moves, before a new value is given. -/
inductive Wanted (b : Body) (uses sets : Loc → Bool) : Nat → Loc → Prop
  | use {m l} : Inside b l → uses l = true → Wanted b uses sets m l
  | later {m l l'} : Inside b l → sets l = false → Next b l l' → Wanted b uses sets m l' → Wanted b uses sets (m + 1) l

section

variable {b : Body} {uses sets : Loc → Bool}

/-- `a` is true if the value is wanted at `l`, as far as `N` moves can tell. -/
def Bounds (b : Body) (uses sets : Loc → Bool) (N : Nat) (l : Loc) (a : Bool) : Prop :=
  ∀ m, m ≤ N → Wanted b uses sets m l → a = true

/-- If `a` is true the value is wanted at `l`. -/
def Grants (b : Body) (uses sets : Loc → Bool) (l : Loc) (a : Bool) : Prop := a = true → ∃ m, Wanted b uses sets m l

theorem Bounds.mono {N M : Nat} {l : Loc} {a : Bool} (h : Bounds b uses sets N l a) (hm : M ≤ N) :
    Bounds b uses sets M l a := fun m hm' => h m (Nat.le_trans hm' hm)

theorem Bounds.or_left {N : Nat} {l : Loc} {a a' : Bool} (h : Bounds b uses sets N l a) :
    Bounds b uses sets N l (a || a') := fun m hm hw => by rw [h m hm hw, Bool.true_or]

theorem Bounds.or_right {N : Nat} {l : Loc} {a a' : Bool} (h : Bounds b uses sets N l a') :
    Bounds b uses sets N l (a || a') := fun m hm hw => by rw [h m hm hw, Bool.or_true]

/-- One location further back allows one move more. -/
theorem Bounds.before {N : Nat} {l : Loc} {a : Bool} (h : ∀ l', Next b l l' → Bounds b uses sets N l' a) :
    Bounds b uses sets (N + 1) l (before uses sets l a) := by
  intro m hm hw
  cases hw with
  | use _ hu => rw [Walk.before, hu, Bool.true_or]
  | later _ hs hn hw => rw [Walk.before, hs, h _ hn _ (by omega) hw]; simp

theorem Bounds.before' {N : Nat} {l : Loc} {a : Bool} (h : ∀ l', Next b l l' → Bounds b uses sets N l' a) :
    Bounds b uses sets N l (Walk.before uses sets l a) := (Bounds.before h).mono (Nat.le_succ N)

theorem Grants.before {l : Loc} {a : Bool} (hl : Inside b l) (h : a = true → ∃ l', Next b l l' ∧ ∃ m, Wanted b uses sets m l') :
    Grants b uses sets l (Walk.before uses sets l a) := by
  intro ht
  rw [Walk.before, Bool.or_eq_true, Bool.and_eq_true, Bool.not_eq_true'] at ht
  rcases ht with ht | ⟨h1, h2⟩
  · exact ⟨0, .use hl ht⟩
  · obtain ⟨l', hn, m, hw⟩ := h h2
    exact ⟨m + 1, .later hl h1 hn hw⟩

/-! ## The locations of a block -/

theorem next_stmt {k n : Nat} {d : Cfg.Block} (hd : b[k]? = some d) (hn : n < d.stmts) (l : Loc) :
    Next b ⟨k, n⟩ l ↔ l = ⟨k, n + 1⟩ := by
  constructor
  · rintro ⟨d', h1, h2⟩
    rw [hd] at h1
    cases h1
    rcases h2 with ⟨_, rfl⟩ | ⟨h2, _⟩
    · rfl
    · exact absurd h2 (Nat.ne_of_lt hn)
  · rintro rfl
    exact ⟨d, hd, .inl ⟨hn, rfl⟩⟩

theorem next_term {k n : Nat} {t : Term} {cl : Bool} (hd : b[k]? = some ⟨n, t, cl⟩) (l : Loc) :
    Next b ⟨k, n⟩ l ↔ ∃ u ∈ t.targets, l = ⟨u, 0⟩ := by
  constructor
  · rintro ⟨d', h1, h2⟩
    rw [hd] at h1
    cases h1
    rcases h2 with ⟨h2, _⟩ | ⟨_, h2⟩
    · exact absurd h2 (Nat.lt_irrefl _)
    · exact h2
  · intro h
    exact ⟨_, hd, .inr ⟨rfl, h⟩⟩

theorem stmt_bounds {k n N : Nat} {d : Cfg.Block} (hd : b[k]? = some d) (hn : n < d.stmts) {a : Bool}
    (h : Bounds b uses sets N ⟨k, n + 1⟩ a) : Bounds b uses sets N ⟨k, n⟩ (before uses sets ⟨k, n⟩ a) :=
  Bounds.before' fun l' hl => by rw [(next_stmt hd hn l').1 hl]; exact h

theorem stmt_grants {k n : Nat} {d : Cfg.Block} (hd : b[k]? = some d) (hn : n < d.stmts) {a : Bool}
    (h : Grants b uses sets ⟨k, n + 1⟩ a) : Grants b uses sets ⟨k, n⟩ (before uses sets ⟨k, n⟩ a) :=
  Grants.before ⟨d, hd, Nat.le_of_lt hn⟩ fun ha => ⟨_, (next_stmt hd hn _).2 rfl, h ha⟩

theorem run_bounds {k N : Nat} {d : Cfg.Block} (hd : b[k]? = some d) {a : Bool} : ∀ (c n : Nat), n + c ≤ d.stmts →
    Bounds b uses sets N ⟨k, n + c⟩ a → Bounds b uses sets N ⟨k, n⟩ (beforeRun uses sets k n c a)
  | 0, _, _, h => h
  | c + 1, n, hn, h => stmt_bounds hd (by omega) (run_bounds hd c (n + 1) (by omega) (by
      rw [show n + 1 + c = n + (c + 1) by omega]; exact h))

theorem run_grants {k : Nat} {d : Cfg.Block} (hd : b[k]? = some d) {a : Bool} : ∀ (c n : Nat), n + c ≤ d.stmts →
    Grants b uses sets ⟨k, n + c⟩ a → Grants b uses sets ⟨k, n⟩ (beforeRun uses sets k n c a)
  | 0, _, _, h => h
  | c + 1, n, hn, h => stmt_grants hd (by omega) (run_grants hd c (n + 1) (by omega) (by
      rw [show n + 1 + c = n + (c + 1) by omega]; exact h))

theorem term_bounds {k n N : Nat} {t : Term} {cl : Bool} (hd : b[k]? = some ⟨n, t, cl⟩) {a : Bool}
    (h : ∀ u ∈ t.targets, Bounds b uses sets N ⟨u, 0⟩ a) :
    Bounds b uses sets (N + 1) ⟨k, n⟩ (before uses sets ⟨k, n⟩ a) :=
  Bounds.before fun l' hl => by
    obtain ⟨u, hu, rfl⟩ := (next_term hd l').1 hl
    exact h u hu

theorem term_grants {k n : Nat} {t : Term} {cl : Bool} (hd : b[k]? = some ⟨n, t, cl⟩) {a : Bool}
    (h : a = true → ∃ u ∈ t.targets, ∃ m, Wanted b uses sets m ⟨u, 0⟩) :
    Grants b uses sets ⟨k, n⟩ (before uses sets ⟨k, n⟩ a) :=
  Grants.before ⟨_, hd, Nat.le_refl _⟩ fun ha => by
    obtain ⟨u, hu, hw⟩ := h ha
    exact ⟨_, (next_term hd _).2 ⟨u, hu, rfl⟩, hw⟩

theorem jump_bounds {k n N u : Nat} {t : Term} {cl : Bool} (hd : b[k]? = some ⟨n, t, cl⟩) (ht : t.targets = [u]) {a : Bool}
    (h : Bounds b uses sets N ⟨u, 0⟩ a) : Bounds b uses sets N ⟨k, n⟩ (before uses sets ⟨k, n⟩ a) :=
  (term_bounds hd (by rw [ht]; intro v hv; rw [List.mem_singleton] at hv; rw [hv]; exact h)).mono (Nat.le_succ N)

theorem jump_grants {k n u : Nat} {t : Term} {cl : Bool} (hd : b[k]? = some ⟨n, t, cl⟩) (ht : t.targets = [u]) {a : Bool}
    (h : Grants b uses sets ⟨u, 0⟩ a) : Grants b uses sets ⟨k, n⟩ (before uses sets ⟨k, n⟩ a) :=
  term_grants hd fun ha => ⟨u, by rw [ht]; exact List.mem_singleton.2 rfl, h ha⟩

theorem calls_bounds {N : Nat} {a : Bool} : ∀ (c k : Nat), (∀ i < c, b[k + i]? = some ⟨0, .other [k + i + 1], false⟩) →
    Bounds b uses sets N ⟨k + c, 0⟩ a → Bounds b uses sets N ⟨k, 0⟩ (beforeCalls uses sets k c a)
  | 0, _, _, h => h
  | c + 1, k, hc, h => by
    refine jump_bounds (hc 0 (Nat.succ_pos c)) rfl (calls_bounds c (k + 1) (fun i hi => ?_) ?_)
    · have := hc (i + 1) (by omega)
      rw [show k + (i + 1) = k + 1 + i by omega] at this
      exact this
    · rw [show k + 1 + c = k + (c + 1) by omega]
      exact h

theorem calls_grants {a : Bool} : ∀ (c k : Nat), (∀ i < c, b[k + i]? = some ⟨0, .other [k + i + 1], false⟩) →
    Grants b uses sets ⟨k + c, 0⟩ a → Grants b uses sets ⟨k, 0⟩ (beforeCalls uses sets k c a)
  | 0, _, _, h => h
  | c + 1, k, hc, h => by
    refine jump_grants (hc 0 (Nat.succ_pos c)) rfl (calls_grants c (k + 1) (fun i hi => ?_) ?_)
    · have := hc (i + 1) (by omega)
      rw [show k + (i + 1) = k + 1 + i by omega] at this
      exact this
    · rw [show k + 1 + c = k + (c + 1) by omega]
      exact h

/-- The statements that are already in the first block of a program are there. -/
theorem first_block : ∀ (p : Walk.Prog) (k n : Nat) (last : Term), Slice b k (p.code k n last) →
    ∃ d, b[k]? = some d ∧ n ≤ d.stmts
  | .fin, k, n, last, h => ⟨_, (Slice.tail h).1, Nat.le_succ n⟩
  | .act _ r, k, n, last, h => by
    obtain ⟨d, h1, h2⟩ := first_block r k (n + 1) last h
    exact ⟨d, h1, by omega⟩
  | .bind _ _ r, k, n, last, h => by
    obtain ⟨d, h1, h2⟩ := first_block r k (n + 1) last h
    exact ⟨d, h1, by omega⟩
  | .call _ r, k, n, last, h => ⟨_, (Slice.tail h).1, Nat.le_refl n⟩
  | .ite _ _ _ _ t e r, k, n, last, h => ⟨_, (Walk.slice_ite h).1, Nat.le_succ n⟩
  | .only _ _ _ t r, k, n, last, h => ⟨_, (Walk.slice_only h).1, Nat.le_succ n⟩
  | .mtch _ ds _ f as r, k, n, last, h => ⟨_, (Walk.slice_mtch h).1, by dsimp only; omega⟩
  | .whl _ _ _ _ _ c t r, k, n, last, h => ⟨_, (Walk.slice_whl h).1, Nat.le_refl n⟩
  | .frl _ _ _ _ _ _ _ _ t r, k, n, last, h => ⟨_, (Walk.slice_frl h).1, Nat.le_refl n⟩

/-- The variables of a pattern are assigned before the body of its arm. -/
theorem binds_bounds {N : Nat} (p : Walk.Prog) (k n : Nat) (last : Term) (h : Slice b k (p.code k n last)) {a : Bool}
    (ha : Bounds b uses sets N ⟨k, n⟩ a) : Bounds b uses sets N ⟨k, 0⟩ (beforeRun uses sets k 0 n a) := by
  obtain ⟨d, h1, h2⟩ := first_block p k n last h
  exact run_bounds h1 n 0 (by omega) (by rw [Nat.zero_add]; exact ha)

theorem binds_grants (p : Walk.Prog) (k n : Nat) (last : Term) (h : Slice b k (p.code k n last)) {a : Bool}
    (ha : Grants b uses sets ⟨k, n⟩ a) : Grants b uses sets ⟨k, 0⟩ (beforeRun uses sets k 0 n a) := by
  obtain ⟨d, h1, h2⟩ := first_block p k n last h
  exact run_grants h1 n 0 (by omega) (by rw [Nat.zero_add]; exact ha)

/-! ## Programs -/

/-- Where a loop begins: if one round more is told from one round less, every number of rounds is told from none. -/
theorem loop_bounds {l : Loc} {f : Bool → Bool} (N : Nat)
    (hf : ∀ M a, M < N → Bounds b uses sets M l a → Bounds b uses sets (M + 1) l (f a))
    (h0 : Bounds b uses sets 0 l (f false)) : Bounds b uses sets N l (f false) := by
  cases hv : f false with
  | true => exact fun _ _ _ => rfl
  | false =>
    rw [hv] at h0
    induction N with
    | zero => exact h0
    | succ N ih =>
      have := hf N false (Nat.lt_succ_self N) (ih fun M a hM => hf M a (Nat.lt_succ_of_lt hM))
      rw [hv] at this
      exact this

theorem Bounds.zero {l : Loc} {a : Bool} : Bounds b uses sets 0 l (Walk.before uses sets l a) := by
  intro m hm hw
  cases hw with
  | use _ hu => rw [Walk.before, hu, Bool.true_or]
  | later => omega

mutual
theorem live_bounds : ∀ (N : Nat) (p : Walk.Prog) (k n : Nat) (last : Term) (a : Bool), Slice b k (p.code k n last) →
    (∀ u ∈ last.targets, Bounds b uses sets N ⟨u, 0⟩ a) → Bounds b uses sets N ⟨k, n⟩ (p.live uses sets k n a)
  | N, .fin, k, n, last, a, h, ha => by
    have hd := (Slice.tail h).1
    rw [Walk.Prog.live]
    exact stmt_bounds hd (Nat.lt_succ_self n) ((term_bounds hd ha).mono (Nat.le_succ N))
  | N, .act _ r, k, n, last, a, h, ha => by
    obtain ⟨d, h1, h2⟩ := first_block r k (n + 1) last h
    rw [Walk.Prog.live]
    exact stmt_bounds h1 h2 (live_bounds N r k (n + 1) last a h ha)
  | N, .bind _ _ r, k, n, last, a, h, ha => by
    obtain ⟨d, h1, h2⟩ := first_block r k (n + 1) last h
    rw [Walk.Prog.live]
    exact stmt_bounds h1 h2 (live_bounds N r k (n + 1) last a h ha)
  | N, .call _ r, k, n, last, a, h, ha => by
    rw [Walk.Prog.live]
    exact jump_bounds (Slice.tail h).1 rfl (live_bounds N r (k + 1) 0 last a (Slice.tail h).2 ha)
  | N, .ite _ _ _ _ t e r, k, n, last, a, h, ha => by
    obtain ⟨h1, h2, h3, h4⟩ := Walk.slice_ite h
    have hr := live_bounds N r _ _ last a h4 ha
    have hg : ∀ u ∈ (Term.goto (k + 1 + e.size + t.size)).targets, Bounds b uses sets N ⟨u, 0⟩
        (r.live uses sets (k + 1 + e.size + t.size) 0 a) := by
      intro u hu
      rw [List.mem_singleton.1 hu]
      exact hr
    rw [Walk.Prog.live]
    refine stmt_bounds h1 (Nat.lt_succ_self n) ((term_bounds h1 ?_).mono (Nat.le_succ N))
    intro u hu
    simp only [Term.targets, List.mem_cons, List.not_mem_nil, or_false] at hu
    rcases hu with rfl | rfl
    · exact (live_bounds N e _ _ _ _ h2 hg).or_left
    · exact (live_bounds N t _ _ _ _ h3 hg).or_right
  | N, .only _ _ _ t r, k, n, last, a, h, ha => by
    obtain ⟨h1, h2, h3, h4⟩ := Walk.slice_only h
    have hr := live_bounds N r _ _ last a h4 ha
    have hg : ∀ u ∈ (Term.goto (k + 1 + 1 + t.size)).targets, Bounds b uses sets N ⟨u, 0⟩
        (r.live uses sets (k + 1 + 1 + t.size) 0 a) := by
      intro u hu
      rw [List.mem_singleton.1 hu]
      exact hr
    rw [Walk.Prog.live]
    refine stmt_bounds h1 (Nat.lt_succ_self n) ((term_bounds h1 ?_).mono (Nat.le_succ N))
    intro u hu
    simp only [Term.targets, List.mem_cons, List.not_mem_nil, or_false] at hu
    rcases hu with rfl | rfl
    · exact (stmt_bounds h2 (Nat.lt_succ_self 0) ((term_bounds h2 hg).mono (Nat.le_succ N))).or_left
    · exact (live_bounds N t _ _ _ _ h3 hg).or_right
  | N, .mtch _ ds i f as r, k, n, last, a, h, ha => by
    obtain ⟨h1, h2, h3, h4, h5⟩ := Walk.slice_mtch h
    have hr := live_bounds N r _ _ last a h5 ha
    have hg : ∀ u ∈ (Term.goto (k + 1 + 1 + f.size + as.size)).targets, Bounds b uses sets N ⟨u, 0⟩
        (r.live uses sets (k + 1 + 1 + f.size + as.size) 0 a) := by
      intro u hu
      rw [List.mem_singleton.1 hu]
      exact hr
    have hf := binds_bounds f _ _ _ h3 (live_bounds N f _ _ _ _ h3 hg)
    obtain ⟨ha1, ha2⟩ := arms_bounds N as _ _ _ h4 hr
    rw [Walk.Prog.live]
    refine stmt_bounds h1 (by dsimp only; omega) (run_bounds h1 ds (n + 1) (Nat.le_refl _) ((term_bounds h1 ?_).mono (Nat.le_succ N)))
    intro u hu
    simp only [Term.targets, List.mem_cons] at hu
    rcases hu with rfl | hu
    · refine Bounds.or_left ((term_bounds h2 ?_).mono (Nat.le_succ N))
      intro u hu
      simp only [Term.targets, List.mem_cons, List.not_mem_nil, or_false] at hu
      rcases hu with rfl | rfl
      · exact hf.or_left
      · exact ha1.or_right
    · exact (ha2 u hu).or_right
  | N, .whl _ _ _ _ _ c t r, k, n, last, a, h, ha => by
    obtain ⟨h1, h2, h3, h4, h5, h6⟩ := Walk.slice_whl h
    obtain ⟨dr, hdr, hr1⟩ := first_block r _ _ last h6
    rw [Walk.Prog.live]
    refine jump_bounds h1 rfl ?_
    refine loop_bounds (f := fun z => before uses sets ⟨k + 1, 0⟩ (beforeCalls uses sets (k + 2) c
      (before uses sets ⟨k + 2 + c, 0⟩ (before uses sets ⟨k + 2 + c, 1⟩
        (before uses sets ⟨k + 3 + c + t.size, 0⟩ (r.live uses sets (k + 3 + c + t.size) 1 a) ||
          t.live uses sets (k + 3 + c) 0 z))))) N ?_ Bounds.zero
    intro M z hM hz
    refine jump_bounds h2 rfl (calls_bounds c _ h3 (stmt_bounds h4 Nat.zero_lt_one (term_bounds h4 ?_)))
    intro u hu
    simp only [Term.targets, List.mem_cons, List.not_mem_nil, or_false] at hu
    rcases hu with rfl | rfl
    · refine Bounds.or_left ?_
      exact stmt_bounds hdr hr1 (live_bounds M r _ _ last a h6 fun u hu => (ha u hu).mono (Nat.le_of_lt hM))
    · refine Bounds.or_right (live_bounds M t _ _ _ z h5 fun u hu => ?_)
      rw [List.mem_singleton.1 hu]
      exact hz
  | N, .frl _ _ _ _ _ _ _ nb t r, k, n, last, a, h, ha => by
    obtain ⟨h1, h2, h3, h4, h5, h6, h7, h8⟩ := Walk.slice_frl h
    obtain ⟨dr, hdr, hr1⟩ := first_block r _ _ last h8
    rw [Walk.Prog.live]
    refine jump_bounds h1 rfl (stmt_bounds h2 Nat.zero_lt_one (jump_bounds h2 rfl ?_))
    refine loop_bounds (f := fun z => before uses sets ⟨k + 2, 0⟩
      (before uses sets ⟨k + 3, 0⟩ (before uses sets ⟨k + 3, 1⟩ (before uses sets ⟨k + 4, 0⟩
        (before uses sets ⟨k + 4, 1⟩ (before uses sets ⟨k + 5, 0⟩
          (before uses sets ⟨k + 6 + t.size, 0⟩ (r.live uses sets (k + 6 + t.size) 1 a) ||
            beforeRun uses sets (k + 6) 0 nb (t.live uses sets (k + 6) nb z)) ||
          beforeRun uses sets (k + 6) 0 nb (t.live uses sets (k + 6) nb z))))))) N ?_ Bounds.zero
    intro M z hM hz
    have ho : Bounds b uses sets M ⟨k + 6 + t.size, 0⟩
        (before uses sets ⟨k + 6 + t.size, 0⟩ (r.live uses sets (k + 6 + t.size) 1 a)) :=
      stmt_bounds hdr hr1 (live_bounds M r _ _ last a h8 fun u hu => (ha u hu).mono (Nat.le_of_lt hM))
    have hi := binds_bounds t _ _ _ h7 (live_bounds M t _ _ _ z h7 fun u hu => by
      rw [List.mem_singleton.1 hu]
      exact hz)
    refine jump_bounds h3 rfl (stmt_bounds h4 Nat.zero_lt_one (jump_bounds h4 rfl (stmt_bounds h5 Nat.zero_lt_one
      (term_bounds h5 ?_))))
    intro u hu
    simp only [Term.targets, List.mem_cons, List.not_mem_nil, or_false] at hu
    rcases hu with rfl | rfl
    · refine Bounds.or_left ((term_bounds h6 ?_).mono (Nat.le_succ M))
      intro u hu
      simp only [Term.targets, List.mem_cons, List.not_mem_nil, or_false] at hu
      rcases hu with rfl | rfl
      · exact ho.or_left
      · exact hi.or_right
    · exact hi.or_right
theorem arms_bounds : ∀ (N : Nat) (as : Walk.Arms) (k j : Nat) (a : Bool), Slice b k (as.code k j) →
    Bounds b uses sets N ⟨j, 0⟩ a → Bounds b uses sets N ⟨k, 0⟩ (as.live uses sets k a) ∧
      ∀ u ∈ as.starts k, Bounds b uses sets N ⟨u, 0⟩ (as.lives uses sets k a)
  | N, .last i f, k, j, a, h, ha => by
    have hg : ∀ u ∈ (Term.goto j).targets, Bounds b uses sets N ⟨u, 0⟩ a := by
      intro u hu
      rw [List.mem_singleton.1 hu]
      exact ha
    have hf := binds_bounds f _ _ _ h (live_bounds N f _ _ _ _ h hg)
    refine ⟨by rw [Walk.Arms.live]; exact hf, fun u hu => ?_⟩
    rw [Walk.Arms.lives, List.mem_singleton.1 hu]
    exact hf
  | N, .cons i f as, k, j, a, h, ha => by
    obtain ⟨h1, h2, h3⟩ := Walk.slice_cons h
    have hg : ∀ u ∈ (Term.goto j).targets, Bounds b uses sets N ⟨u, 0⟩ a := by
      intro u hu
      rw [List.mem_singleton.1 hu]
      exact ha
    have hf := binds_bounds f _ _ _ h2 (live_bounds N f _ _ _ _ h2 hg)
    obtain ⟨ha1, ha2⟩ := arms_bounds N as _ _ _ h3 ha
    have hk : Bounds b uses sets N ⟨k, 0⟩ (before uses sets ⟨k, 0⟩
        (beforeRun uses sets (k + 1) 0 i.nb (f.live uses sets (k + 1) i.nb a) || as.live uses sets (k + 1 + f.size) a)) := by
      refine (term_bounds h1 ?_).mono (Nat.le_succ N)
      intro u hu
      simp only [Term.targets, List.mem_cons, List.not_mem_nil, or_false] at hu
      rcases hu with rfl | rfl
      · exact hf.or_left
      · exact ha1.or_right
    refine ⟨by rw [Walk.Arms.live]; exact hk, fun u hu => ?_⟩
    rw [Walk.Arms.lives]
    simp only [Walk.Arms.starts, List.mem_cons] at hu
    rcases hu with rfl | hu
    · exact hk.or_left
    · exact (ha2 u hu).or_right
end

mutual
theorem live_grants : ∀ (p : Walk.Prog) (k n : Nat) (last : Term) (a : Bool), Slice b k (p.code k n last) →
    (a = true → ∃ u ∈ last.targets, ∃ m, Wanted b uses sets m ⟨u, 0⟩) → Grants b uses sets ⟨k, n⟩ (p.live uses sets k n a)
  | .fin, k, n, last, a, h, ha => by
    have hd := (Slice.tail h).1
    rw [Walk.Prog.live]
    exact stmt_grants hd (Nat.lt_succ_self n) (term_grants hd ha)
  | .act _ r, k, n, last, a, h, ha => by
    obtain ⟨d, h1, h2⟩ := first_block r k (n + 1) last h
    rw [Walk.Prog.live]
    exact stmt_grants h1 h2 (live_grants r k (n + 1) last a h ha)
  | .bind _ _ r, k, n, last, a, h, ha => by
    obtain ⟨d, h1, h2⟩ := first_block r k (n + 1) last h
    rw [Walk.Prog.live]
    exact stmt_grants h1 h2 (live_grants r k (n + 1) last a h ha)
  | .call _ r, k, n, last, a, h, ha => by
    rw [Walk.Prog.live]
    exact jump_grants (Slice.tail h).1 rfl (live_grants r (k + 1) 0 last a (Slice.tail h).2 ha)
  | .ite _ _ _ _ t e r, k, n, last, a, h, ha => by
    obtain ⟨h1, h2, h3, h4⟩ := Walk.slice_ite h
    have hr := live_grants r _ _ last a h4 ha
    rw [Walk.Prog.live]
    refine stmt_grants h1 (Nat.lt_succ_self n) (term_grants h1 ?_)
    intro hor
    rcases Bool.or_eq_true_iff.1 hor with hh | hh
    · exact ⟨_, by simp [Term.targets], live_grants e _ _ _ _ h2 (fun hj => ⟨_, List.mem_singleton.2 rfl, hr hj⟩) hh⟩
    · exact ⟨_, by simp [Term.targets], live_grants t _ _ _ _ h3 (fun hj => ⟨_, List.mem_singleton.2 rfl, hr hj⟩) hh⟩
  | .only _ _ _ t r, k, n, last, a, h, ha => by
    obtain ⟨h1, h2, h3, h4⟩ := Walk.slice_only h
    have hr := live_grants r _ _ last a h4 ha
    rw [Walk.Prog.live]
    refine stmt_grants h1 (Nat.lt_succ_self n) (term_grants h1 ?_)
    intro hor
    rcases Bool.or_eq_true_iff.1 hor with hh | hh
    · exact ⟨k + 1, by simp [Term.targets], stmt_grants h2 Nat.zero_lt_one (jump_grants h2 rfl hr) hh⟩
    · exact ⟨_, by simp [Term.targets], live_grants t _ _ _ _ h3 (fun hj => ⟨_, List.mem_singleton.2 rfl, hr hj⟩) hh⟩
  | .mtch _ ds i f as r, k, n, last, a, h, ha => by
    obtain ⟨h1, h2, h3, h4, h5⟩ := Walk.slice_mtch h
    have hr := live_grants r _ _ last a h5 ha
    have hf := binds_grants f _ _ _ h3 (live_grants f _ _ _ _ h3 fun hj => ⟨_, List.mem_singleton.2 rfl, hr hj⟩)
    obtain ⟨ha1, ha2⟩ := arms_grants as _ _ _ h4 hr
    rw [Walk.Prog.live]
    refine stmt_grants h1 (by dsimp only; omega) (run_grants h1 ds (n + 1) (Nat.le_refl _) (term_grants h1 ?_))
    intro hor
    rcases Bool.or_eq_true_iff.1 hor with hh | hh
    · refine ⟨k + 1, by simp [Term.targets], term_grants h2 ?_ hh⟩
      intro hor
      rcases Bool.or_eq_true_iff.1 hor with hh | hh
      · exact ⟨_, by simp [Term.targets], hf hh⟩
      · exact ⟨_, by simp [Term.targets], ha1 hh⟩
    · obtain ⟨u, hu, hw⟩ := ha2 hh
      exact ⟨u, List.mem_cons_of_mem _ hu, hw⟩
  | .whl _ _ _ _ _ c t r, k, n, last, a, h, ha => by
    obtain ⟨h1, h2, h3, h4, h5, h6⟩ := Walk.slice_whl h
    obtain ⟨dr, hdr, hr1⟩ := first_block r _ _ last h6
    rw [Walk.Prog.live]
    refine jump_grants h1 rfl (jump_grants h2 rfl (calls_grants c _ h3 (stmt_grants h4 Nat.zero_lt_one (term_grants h4 ?_))))
    intro hor
    rcases Bool.or_eq_true_iff.1 hor with hh | hh
    · exact ⟨_, by simp [Term.targets], stmt_grants hdr hr1 (live_grants r _ _ last a h6 ha) hh⟩
    · exact ⟨_, by simp [Term.targets], live_grants t _ _ _ _ h5 (fun hj => by cases hj) hh⟩
  | .frl _ _ _ _ _ _ _ nb t r, k, n, last, a, h, ha => by
    obtain ⟨h1, h2, h3, h4, h5, h6, h7, h8⟩ := Walk.slice_frl h
    obtain ⟨dr, hdr, hr1⟩ := first_block r _ _ last h8
    have hi := binds_grants (uses := uses) (sets := sets) t _ _ _ h7 (live_grants t _ _ _ false h7 fun hj => by cases hj)
    rw [Walk.Prog.live]
    refine jump_grants h1 rfl (stmt_grants h2 Nat.zero_lt_one (jump_grants h2 rfl (jump_grants h3 rfl
      (stmt_grants h4 Nat.zero_lt_one (jump_grants h4 rfl (stmt_grants h5 Nat.zero_lt_one (term_grants h5 ?_)))))))
    intro hor
    rcases Bool.or_eq_true_iff.1 hor with hh | hh
    · refine ⟨k + 5, by simp [Term.targets], term_grants h6 ?_ hh⟩
      intro hor
      rcases Bool.or_eq_true_iff.1 hor with hh | hh
      · exact ⟨_, by simp [Term.targets], stmt_grants hdr hr1 (live_grants r _ _ last a h8 ha) hh⟩
      · exact ⟨_, by simp [Term.targets], hi hh⟩
    · exact ⟨_, by simp [Term.targets], hi hh⟩
theorem arms_grants : ∀ (as : Walk.Arms) (k j : Nat) (a : Bool), Slice b k (as.code k j) →
    Grants b uses sets ⟨j, 0⟩ a → Grants b uses sets ⟨k, 0⟩ (as.live uses sets k a) ∧
      (as.lives uses sets k a = true → ∃ u ∈ as.starts k, ∃ m, Wanted b uses sets m ⟨u, 0⟩)
  | .last i f, k, j, a, h, ha => by
    have hf := binds_grants f _ _ _ h (live_grants f _ _ _ _ h fun hj => ⟨_, List.mem_singleton.2 rfl, ha hj⟩)
    refine ⟨by rw [Walk.Arms.live]; exact hf, fun hh => ?_⟩
    rw [Walk.Arms.lives] at hh
    exact ⟨k, List.mem_singleton.2 rfl, hf hh⟩
  | .cons i f as, k, j, a, h, ha => by
    obtain ⟨h1, h2, h3⟩ := Walk.slice_cons h
    have hf := binds_grants f _ _ _ h2 (live_grants f _ _ _ _ h2 fun hj => ⟨_, List.mem_singleton.2 rfl, ha hj⟩)
    obtain ⟨ha1, ha2⟩ := arms_grants as _ _ _ h3 ha
    have hk : Grants b uses sets ⟨k, 0⟩ (before uses sets ⟨k, 0⟩
        (beforeRun uses sets (k + 1) 0 i.nb (f.live uses sets (k + 1) i.nb a) || as.live uses sets (k + 1 + f.size) a)) := by
      refine term_grants h1 ?_
      intro hor
      rcases Bool.or_eq_true_iff.1 hor with hh | hh
      · exact ⟨_, by simp [Term.targets], hf hh⟩
      · exact ⟨_, by simp [Term.targets], ha1 hh⟩
    refine ⟨by rw [Walk.Arms.live]; exact hk, fun hh => ?_⟩
    rw [Walk.Arms.lives] at hh
    rcases Bool.or_eq_true_iff.1 hh with hh | hh
    · exact ⟨k, List.mem_cons_self, hk hh⟩
    · obtain ⟨u, hu, hw⟩ := ha2 hh
      exact ⟨u, List.mem_cons_of_mem _ hu, hw⟩
end

/-! ## Exactly -/

/-- `a` says whether the value is of use at `l`. -/
def Exact (b : Body) (uses sets : Loc → Bool) (l : Loc) (a : Bool) : Prop := (∃ m, Wanted b uses sets m l) ↔ a = true

/-- `a` says whether the value is of use at one of the targets. -/
def Leaves (b : Body) (uses sets : Loc → Bool) (t : Term) (a : Bool) : Prop :=
  (∃ u ∈ t.targets, ∃ m, Wanted b uses sets m ⟨u, 0⟩) ↔ a = true

theorem Exact.iff {l : Loc} {a : Bool} (h : Exact b uses sets l a) : (∃ m, Wanted b uses sets m l) ↔ a = true := h

theorem exact_iff {l : Loc} {a : Bool} :
    Exact b uses sets l a ↔ (∀ N, Bounds b uses sets N l a) ∧ Grants b uses sets l a :=
  ⟨fun h => ⟨fun _ m _ hw => h.1 ⟨m, hw⟩, h.2⟩, fun h => ⟨fun ⟨m, hw⟩ => h.1 m m (Nat.le_refl m) hw, h.2⟩⟩

theorem Leaves.bounds {t : Term} {a : Bool} (h : Leaves b uses sets t a) (N : Nat) :
    ∀ u ∈ t.targets, Bounds b uses sets N ⟨u, 0⟩ a := fun u hu m _ hw => h.1 ⟨u, hu, m, hw⟩

theorem leaves_one {t : Term} {u : Nat} (ht : t.targets = [u]) {a : Bool} (h : Exact b uses sets ⟨u, 0⟩ a) :
    Leaves b uses sets t a := by
  unfold Leaves
  rw [ht]
  simp only [List.mem_singleton, exists_eq_left]
  exact h

theorem leaves_two {t : Term} {u v : Nat} (ht : t.targets = [u, v]) {a a' : Bool} (h : Exact b uses sets ⟨u, 0⟩ a)
    (h' : Exact b uses sets ⟨v, 0⟩ a') : Leaves b uses sets t (a || a') := by
  unfold Leaves
  rw [ht, Bool.or_eq_true, ← h.iff, ← h'.iff]
  simp only [List.mem_cons, List.not_mem_nil, or_false, exists_eq_or_imp, exists_eq_left]

theorem leaves_more {t : Term} {u : Nat} {us : List Nat} (ht : t.targets = u :: us) {a a' : Bool}
    (h : Exact b uses sets ⟨u, 0⟩ a) (h' : (∃ v ∈ us, ∃ m, Wanted b uses sets m ⟨v, 0⟩) ↔ a' = true) :
    Leaves b uses sets t (a || a') := by
  unfold Leaves
  rw [ht, Bool.or_eq_true, ← h.iff, ← h']
  simp only [List.mem_cons, exists_eq_or_imp]

theorem stmt_exact {k n : Nat} {d : Cfg.Block} (hd : b[k]? = some d) (hn : n < d.stmts) {a : Bool}
    (h : Exact b uses sets ⟨k, n + 1⟩ a) : Exact b uses sets ⟨k, n⟩ (before uses sets ⟨k, n⟩ a) :=
  exact_iff.2 ⟨fun N => stmt_bounds hd hn ((exact_iff.1 h).1 N), stmt_grants hd hn (exact_iff.1 h).2⟩

theorem term_exact {k n : Nat} {t : Term} {cl : Bool} (hd : b[k]? = some ⟨n, t, cl⟩) {a : Bool}
    (h : Leaves b uses sets t a) : Exact b uses sets ⟨k, n⟩ (before uses sets ⟨k, n⟩ a) :=
  exact_iff.2 ⟨fun N => (term_bounds hd (h.bounds N)).mono (Nat.le_succ N), term_grants hd h.2⟩

theorem run_exact {k : Nat} {d : Cfg.Block} (hd : b[k]? = some d) {a : Bool} {c n : Nat} (hc : n + c ≤ d.stmts)
    (h : Exact b uses sets ⟨k, n + c⟩ a) : Exact b uses sets ⟨k, n⟩ (beforeRun uses sets k n c a) :=
  exact_iff.2 ⟨fun N => run_bounds hd c n hc ((exact_iff.1 h).1 N), run_grants hd c n hc (exact_iff.1 h).2⟩

theorem binds_exact (p : Walk.Prog) (k n : Nat) (last : Term) (h : Slice b k (p.code k n last)) {a : Bool}
    (ha : Exact b uses sets ⟨k, n⟩ a) : Exact b uses sets ⟨k, 0⟩ (beforeRun uses sets k 0 n a) :=
  exact_iff.2 ⟨fun N => binds_bounds p k n last h ((exact_iff.1 ha).1 N), binds_grants p k n last h (exact_iff.1 ha).2⟩

theorem live_exact (p : Walk.Prog) (k n : Nat) (last : Term) (a : Bool) (h : Slice b k (p.code k n last))
    (ha : Leaves b uses sets last a) : Exact b uses sets ⟨k, n⟩ (p.live uses sets k n a) :=
  exact_iff.2 ⟨fun N => live_bounds N p k n last a h (ha.bounds N), live_grants p k n last a h ha.2⟩

theorem arms_exact (as : Walk.Arms) (k j : Nat) (a : Bool) (h : Slice b k (as.code k j))
    (ha : Exact b uses sets ⟨j, 0⟩ a) : Exact b uses sets ⟨k, 0⟩ (as.live uses sets k a) ∧
      ((∃ u ∈ as.starts k, ∃ m, Wanted b uses sets m ⟨u, 0⟩) ↔ as.lives uses sets k a = true) := by
  obtain ⟨h1, h2⟩ := exact_iff.1 ha
  refine ⟨exact_iff.2 ⟨fun N => (arms_bounds N as k j a h (h1 N)).1, (arms_grants as k j a h h2).1⟩, ?_, (arms_grants as k j a h h2).2⟩
  rintro ⟨u, hu, m, hw⟩
  exact (arms_bounds m as k j a h (h1 m)).2 u hu m (Nat.le_refl m) hw

/-- The head of a `while` loop. -/
theorem head_exact {sp sc lt hi sb c : Nat} {t r : Walk.Prog} {k n : Nat} {last : Term} {a : Bool}
    (h : Slice b k ((Walk.Prog.whl sp sc lt hi sb c t r).code k n last)) (ha : Leaves b uses sets last a) :
    Exact b uses sets ⟨k + 1, 0⟩ (before uses sets ⟨k + 1, 0⟩ (beforeCalls uses sets (k + 2) c
      (before uses sets ⟨k + 2 + c, 0⟩ (before uses sets ⟨k + 2 + c, 1⟩
        (before uses sets ⟨k + 3 + c + t.size, 0⟩ (r.live uses sets (k + 3 + c + t.size) 1 a) ||
          t.live uses sets (k + 3 + c) 0 false))))) := by
  obtain ⟨h1, h2, h3, h4, h5, h6⟩ := Walk.slice_whl h
  obtain ⟨dr, hdr, hr1⟩ := first_block r _ _ last h6
  obtain ⟨ho1, ho2⟩ := exact_iff.1 (stmt_exact hdr hr1 (live_exact r _ _ last a h6 ha))
  refine exact_iff.2 ⟨fun N => loop_bounds (f := fun z => before uses sets ⟨k + 1, 0⟩ (beforeCalls uses sets (k + 2) c
      (before uses sets ⟨k + 2 + c, 0⟩ (before uses sets ⟨k + 2 + c, 1⟩
        (before uses sets ⟨k + 3 + c + t.size, 0⟩ (r.live uses sets (k + 3 + c + t.size) 1 a) ||
          t.live uses sets (k + 3 + c) 0 z))))) N ?_ Bounds.zero, ?_⟩
  · intro M z hM hz
    refine jump_bounds h2 rfl (calls_bounds c _ h3 (stmt_bounds h4 Nat.zero_lt_one (term_bounds h4 ?_)))
    intro u hu
    simp only [Term.targets, List.mem_cons, List.not_mem_nil, or_false] at hu
    rcases hu with rfl | rfl
    · exact (ho1 M).or_left
    · refine Bounds.or_right (live_bounds M t _ _ _ z h5 fun u hu => ?_)
      rw [List.mem_singleton.1 hu]
      exact hz
  · refine jump_grants h2 rfl (calls_grants c _ h3 (stmt_grants h4 Nat.zero_lt_one (term_grants h4 ?_)))
    intro hor
    rcases Bool.or_eq_true_iff.1 hor with hh | hh
    · exact ⟨_, by simp [Term.targets], ho2 hh⟩
    · exact ⟨_, by simp [Term.targets], live_grants t _ _ _ _ h5 (fun hj => by cases hj) hh⟩

/-- The head of a `for` loop. -/
theorem next_exact {sp sa sc hi sn lb li nb : Nat} {t r : Walk.Prog} {k n : Nat} {last : Term} {a : Bool}
    (h : Slice b k ((Walk.Prog.frl sp sa sc hi sn lb li nb t r).code k n last)) (ha : Leaves b uses sets last a) :
    Exact b uses sets ⟨k + 2, 0⟩ (before uses sets ⟨k + 2, 0⟩
      (before uses sets ⟨k + 3, 0⟩ (before uses sets ⟨k + 3, 1⟩ (before uses sets ⟨k + 4, 0⟩
        (before uses sets ⟨k + 4, 1⟩ (before uses sets ⟨k + 5, 0⟩
          (before uses sets ⟨k + 6 + t.size, 0⟩ (r.live uses sets (k + 6 + t.size) 1 a) ||
            beforeRun uses sets (k + 6) 0 nb (t.live uses sets (k + 6) nb false)) ||
          beforeRun uses sets (k + 6) 0 nb (t.live uses sets (k + 6) nb false))))))) := by
  obtain ⟨h1, h2, h3, h4, h5, h6, h7, h8⟩ := Walk.slice_frl h
  obtain ⟨dr, hdr, hr1⟩ := first_block r _ _ last h8
  obtain ⟨ho1, ho2⟩ := exact_iff.1 (stmt_exact hdr hr1 (live_exact r _ _ last a h8 ha))
  refine exact_iff.2 ⟨fun N => loop_bounds (f := fun z => before uses sets ⟨k + 2, 0⟩
      (before uses sets ⟨k + 3, 0⟩ (before uses sets ⟨k + 3, 1⟩ (before uses sets ⟨k + 4, 0⟩
        (before uses sets ⟨k + 4, 1⟩ (before uses sets ⟨k + 5, 0⟩
          (before uses sets ⟨k + 6 + t.size, 0⟩ (r.live uses sets (k + 6 + t.size) 1 a) ||
            beforeRun uses sets (k + 6) 0 nb (t.live uses sets (k + 6) nb z)) ||
          beforeRun uses sets (k + 6) 0 nb (t.live uses sets (k + 6) nb z))))))) N ?_ Bounds.zero, ?_⟩
  · intro M z hM hz
    have hi := binds_bounds t _ _ _ h7 (live_bounds M t _ _ _ z h7 fun u hu => by
      rw [List.mem_singleton.1 hu]
      exact hz)
    refine jump_bounds h3 rfl (stmt_bounds h4 Nat.zero_lt_one (jump_bounds h4 rfl (stmt_bounds h5 Nat.zero_lt_one
      (term_bounds h5 ?_))))
    intro u hu
    simp only [Term.targets, List.mem_cons, List.not_mem_nil, or_false] at hu
    rcases hu with rfl | rfl
    · refine Bounds.or_left ((term_bounds h6 ?_).mono (Nat.le_succ M))
      intro u hu
      simp only [Term.targets, List.mem_cons, List.not_mem_nil, or_false] at hu
      rcases hu with rfl | rfl
      · exact (ho1 M).or_left
      · exact hi.or_right
    · exact hi.or_right
  · have hi := binds_grants (uses := uses) (sets := sets) t _ _ _ h7 (live_grants t _ _ _ false h7 fun hj => by cases hj)
    refine jump_grants h3 rfl (stmt_grants h4 Nat.zero_lt_one (jump_grants h4 rfl (stmt_grants h5 Nat.zero_lt_one
      (term_grants h5 ?_))))
    intro hor
    rcases Bool.or_eq_true_iff.1 hor with hh | hh
    · refine ⟨k + 5, by simp [Term.targets], term_grants h6 ?_ hh⟩
      intro hor
      rcases Bool.or_eq_true_iff.1 hor with hh | hh
      · exact ⟨_, by simp [Term.targets], ho2 hh⟩
      · exact ⟨_, by simp [Term.targets], hi hh⟩
    · exact ⟨_, by simp [Term.targets], hi hh⟩

theorem inside_exact : ∀ (as : Walk.Arms) (k j : Nat) (a : Bool), Slice b k (as.code k j) →
    Exact b uses sets ⟨j, 0⟩ a → ∀ y ∈ as.inside uses sets k a, Exact b uses sets y.1.1 y.2
  | .last i f, k, j, a, h, ha, y, hy => by
    rw [Walk.Arms.inside, List.mem_singleton] at hy
    rw [hy]
    exact live_exact f _ _ _ _ h (leaves_one (t := .goto j) rfl ha)
  | .cons i f as, k, j, a, h, ha, y, hy => by
    obtain ⟨h1, h2, h3⟩ := Walk.slice_cons h
    rw [Walk.Arms.inside] at hy
    rcases List.mem_cons.1 hy with rfl | hy
    · exact live_exact f _ _ _ _ h2 (leaves_one (t := .goto j) rfl ha)
    · exact inside_exact as _ _ _ h3 ha y hy

/-- What is told of a step is so. -/
def Honest (b : Body) (uses sets : Loc → Bool) (e : Walk.Told) : Prop :=
  Exact b uses sets e.1.1 e.2.1 ∧ Exact b uses sets e.1.2.1 e.2.2

mutual
theorem told_honest : ∀ (p : Walk.Prog) (k n : Nat) (last : Term) (a : Bool), Slice b k (p.code k n last) →
    Leaves b uses sets last a → ∀ e ∈ p.told uses sets k n a, Honest b uses sets e
  | .fin, k, n, last, a, h, ha, e, he => by simp [Walk.Prog.told] at he
  | .act sp r, k, n, last, a, h, ha, e, he => by
    have hp := live_exact (.act sp r) k n last a h ha
    have hr := live_exact r k (n + 1) last a h ha
    rw [Walk.Prog.told] at he
    rcases List.mem_cons.1 he with rfl | he
    · exact ⟨hp, hr⟩
    · exact told_honest r k (n + 1) last a h ha e he
  | .bind sp vs r, k, n, last, a, h, ha, e, he => by
    have hp := live_exact (.bind sp vs r) k n last a h ha
    have hr := live_exact r k (n + 1) last a h ha
    rw [Walk.Prog.told] at he
    rcases List.mem_cons.1 he with rfl | he
    · exact ⟨hp, hr⟩
    · exact told_honest r k (n + 1) last a h ha e he
  | .call sp r, k, n, last, a, h, ha, e, he => by
    have hp := live_exact (.call sp r) k n last a h ha
    have hr := live_exact r (k + 1) 0 last a (Slice.tail h).2 ha
    rw [Walk.Prog.told] at he
    rcases List.mem_cons.1 he with rfl | he
    · exact ⟨hp, hr⟩
    · exact told_honest r (k + 1) 0 last a (Slice.tail h).2 ha e he
  | .ite sp lt le hi t el r, k, n, last, a, h, ha, e, he => by
    have hp := live_exact (.ite sp lt le hi t el r) k n last a h ha
    obtain ⟨h1, h2, h3, h4⟩ := Walk.slice_ite h
    have hr := live_exact r _ _ last a h4 ha
    have hg := leaves_one (t := .goto (k + 1 + el.size + t.size)) rfl hr
    have hel := live_exact el _ _ _ _ h2 hg
    have htl := live_exact t _ _ _ _ h3 hg
    have hs := term_exact h1 (leaves_two rfl hel htl)
    rw [Walk.Prog.told] at he
    simp only [List.mem_cons, List.mem_append] at he
    rcases he with rfl | rfl | rfl | he | he | he
    · exact ⟨hp, hs⟩
    · exact ⟨hs, hel⟩
    · exact ⟨hs, htl⟩
    · exact told_honest t _ _ _ _ h3 hg e he
    · exact told_honest el _ _ _ _ h2 hg e he
    · exact told_honest r _ _ _ _ h4 ha e he
  | .only sp lt hi t r, k, n, last, a, h, ha, e, he => by
    have hp := live_exact (.only sp lt hi t r) k n last a h ha
    obtain ⟨h1, h2, h3, h4⟩ := Walk.slice_only h
    have hr := live_exact r _ _ last a h4 ha
    have hg := leaves_one (t := .goto (k + 1 + 1 + t.size)) rfl hr
    have hel := stmt_exact h2 Nat.zero_lt_one (term_exact h2 hg)
    have htl := live_exact t _ _ _ _ h3 hg
    have hs := term_exact h1 (leaves_two rfl hel htl)
    rw [Walk.Prog.told] at he
    simp only [List.mem_cons, List.mem_append] at he
    rcases he with rfl | rfl | rfl | he | he
    · exact ⟨hp, hs⟩
    · exact ⟨hs, hel⟩
    · exact ⟨hs, htl⟩
    · exact told_honest t _ _ _ _ h3 hg e he
    · exact told_honest r _ _ _ _ h4 ha e he
  | .mtch sp ds i f as r, k, n, last, a, h, ha, e, he => by
    have hp := live_exact (.mtch sp ds i f as r) k n last a h ha
    obtain ⟨h1, h2, h3, h4, h5⟩ := Walk.slice_mtch h
    have hr := live_exact r _ _ last a h5 ha
    have hg := leaves_one (t := .goto (k + 1 + 1 + f.size + as.size)) rfl hr
    have hfl := live_exact f _ _ _ _ h3 hg
    obtain ⟨ha1, ha2⟩ := arms_exact as _ _ _ h4 hr
    have hk := term_exact h2 (leaves_two rfl (binds_exact f _ _ _ h3 hfl) ha1)
    have hs := run_exact h1 (c := ds) (n := n + 1) (Nat.le_refl _) (term_exact h1 (leaves_more rfl hk ha2))
    have hins := inside_exact as _ _ _ h4 hr
    rw [Walk.Prog.told] at he
    simp only [List.mem_cons, List.mem_append, List.map_cons] at he
    rcases he with rfl | (rfl | he) | (rfl | he) | he | he
    · exact ⟨hp, hs⟩
    · exact ⟨hs, hfl⟩
    · obtain ⟨y, hy, rfl⟩ := List.mem_map.1 he
      exact ⟨hs, hins y hy⟩
    · exact ⟨hfl, hfl⟩
    · exact told_honest f _ _ _ _ h3 hg e he
    · exact arms_honest as _ _ _ h4 hr e he
    · exact told_honest r _ _ _ _ h5 ha e he
  | .whl sp sc lt hi sb c t r, k, n, last, a, h, ha, e, he => by
    have hp := live_exact (.whl sp sc lt hi sb c t r) k n last a h ha
    obtain ⟨h1, h2, h3, h4, h5, h6⟩ := Walk.slice_whl h
    obtain ⟨dr, hdr, hr1⟩ := first_block r _ _ last h6
    have hr := live_exact r _ _ last a h6 ha
    have ho := stmt_exact hdr hr1 hr
    have hh : Exact b uses sets ⟨k + 1, 0⟩ (before uses sets ⟨k + 1, 0⟩ (beforeCalls uses sets (k + 2) c
        (before uses sets ⟨k + 2 + c, 0⟩ (before uses sets ⟨k + 2 + c, 1⟩
          (before uses sets ⟨k + 3 + c + t.size, 0⟩ (r.live uses sets (k + 3 + c + t.size) 1 a) ||
            t.live uses sets (k + 3 + c) 0 false))))) := head_exact h ha
    have hg := leaves_one (t := .goto (k + 1)) rfl hh
    have hi' := live_exact t _ _ _ _ h5 hg
    have hs := term_exact h4 (leaves_two rfl ho hi')
    rw [Walk.Prog.told] at he
    simp only [List.mem_cons, List.mem_append] at he
    rcases he with rfl | rfl | rfl | he | rfl | rfl | he
    · exact ⟨hp, hs⟩
    · exact ⟨hs, ho⟩
    · exact ⟨hs, hi'⟩
    · exact told_honest t _ _ _ _ h5 hg e he
    · exact ⟨ho, ho⟩
    · exact ⟨ho, hr⟩
    · exact told_honest r _ _ _ _ h6 ha e he
  | .frl sp sa sc hi sn lb li nb t r, k, n, last, a, h, ha, e, he => by
    have hp := live_exact (.frl sp sa sc hi sn lb li nb t r) k n last a h ha
    obtain ⟨h1, h2, h3, h4, h5, h6, h7, h8⟩ := Walk.slice_frl h
    obtain ⟨dr, hdr, hr1⟩ := first_block r _ _ last h8
    have hr := live_exact r _ _ last a h8 ha
    have ho := stmt_exact hdr hr1 hr
    have hh := next_exact h ha
    have hg := leaves_one (t := .goto (k + 2)) rfl hh
    have htl := live_exact t _ _ _ _ h7 hg
    have hi' := binds_exact t _ _ _ h7 htl
    have hs := stmt_exact h5 Nat.zero_lt_one (term_exact h5 (leaves_two rfl (term_exact h6 (leaves_two rfl ho hi')) hi'))
    have hq := stmt_exact h4 Nat.zero_lt_one (term_exact h4 (leaves_one rfl hs))
    rw [Walk.Prog.told] at he
    simp only [List.mem_cons, List.mem_append] at he
    rcases he with rfl | rfl | rfl | rfl | rfl | rfl | he | rfl | he
    · exact ⟨hp, hq⟩
    · exact ⟨hq, hs⟩
    · exact ⟨hs, ho⟩
    · exact ⟨hs, htl⟩
    · exact ⟨ho, ho⟩
    · exact ⟨htl, htl⟩
    · exact told_honest t _ _ _ _ h7 hg e he
    · exact ⟨ho, hr⟩
    · exact told_honest r _ _ _ _ h8 ha e he
theorem arms_honest : ∀ (as : Walk.Arms) (k j : Nat) (a : Bool), Slice b k (as.code k j) →
    Exact b uses sets ⟨j, 0⟩ a → ∀ e ∈ as.told uses sets k a, Honest b uses sets e
  | .last i f, k, j, a, h, ha, e, he => by
    have hg := leaves_one (t := .goto j) rfl ha
    have hf := live_exact f _ _ _ _ h hg
    rw [Walk.Arms.told] at he
    rcases List.mem_cons.1 he with rfl | he
    · exact ⟨hf, hf⟩
    · exact told_honest f _ _ _ _ h hg e he
  | .cons i f as, k, j, a, h, ha, e, he => by
    obtain ⟨h1, h2, h3⟩ := Walk.slice_cons h
    have hg := leaves_one (t := .goto j) rfl ha
    have hf := live_exact f _ _ _ _ h2 hg
    rw [Walk.Arms.told] at he
    simp only [List.mem_cons, List.mem_append] at he
    rcases he with (rfl | he) | he
    · exact ⟨hf, hf⟩
    · exact told_honest f _ _ _ _ h2 hg e he
    · exact arms_honest as _ _ _ h3 ha e he
end

end

end Verif.Pipeline
