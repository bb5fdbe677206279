import Verif.Walk.Course
/-!
# Every program has the walk one expects: the statements
-/
namespace Verif.Walk

open Verif.Cfg Verif.Segments Verif.Graph Verif.HirSteps
open Verif.HirSteps.Prog (Slice Slice.left Slice.right Slice.tail next_inside)

/-! ## The first block -/

theorem Prog.head : ∀ (p : Prog) (k n : Nat) (last : Term), (∀ r i, last ≠ .falseEdge r i) →
    ∃ d : Cfg.Block, (p.code k n last)[0]? = some d ∧ n ≤ d.stmts ∧ ∀ r i, d.term ≠ .falseEdge r i
  | .fin, k, n, last, hl => ⟨_, rfl, Nat.le_succ n, hl⟩
  | .act _ r, k, n, last, hl => by
    obtain ⟨d, h1, h2, h3⟩ := Prog.head r k (n + 1) last hl
    exact ⟨d, h1, by omega, h3⟩
  | .bind _ _ r, k, n, last, hl => by
    obtain ⟨d, h1, h2, h3⟩ := Prog.head r k (n + 1) last hl
    exact ⟨d, h1, by omega, h3⟩
  | .call _ r, k, n, last, _ => ⟨_, rfl, Nat.le_refl n, by intro r i h; cases h⟩
  | .ite _ _ _ _ t e r, k, n, last, _ => ⟨_, rfl, Nat.le_succ n, by intro r i h; cases h⟩
  | .only _ _ _ t r, k, n, last, _ => ⟨_, rfl, Nat.le_succ n, by intro r i h; cases h⟩
  | .mtch _ _ _ f as r, k, n, last, _ => ⟨_, rfl, by dsimp only; omega, by intro r i h; cases h⟩
  | .whl _ _ _ _ _ c t r, k, n, last, _ => ⟨_, rfl, Nat.le_refl n, by intro r i h; cases h⟩
  | .frl _ _ _ _ _ _ _ _ t r, k, n, last, _ => ⟨_, rfl, Nat.le_refl n, by intro r i h; cases h⟩

section
variable {b : Body}

theorem head_of {p : Prog} {k n : Nat} {last : Term} (hl : ∀ r i, last ≠ .falseEdge r i)
    (h : Slice b k (p.code k n last)) : ∃ d, b[k]? = some d ∧ n ≤ d.stmts := by
  obtain ⟨d, h1, h2, _⟩ := p.head k n last hl
  exact ⟨d, h 0 d h1, h2⟩

theorem real_of {p : Prog} {k n : Nat} {last : Term} (hl : ∀ r i, last ≠ .falseEdge r i)
    (h : Slice b k (p.code k n last)) : ¬ EndsInFalseEdge b k := by
  obtain ⟨d, h1, _, h3⟩ := p.head k n last hl
  rintro ⟨r, i, h4⟩
  have h5 : b[k]? = some d := h 0 d h1
  rw [term_of h5] at h4
  exact h3 r i h4

theorem stmts_of {k : Nat} {d : Cfg.Block} (h : b[k]? = some d) : b.mapper.stmts k = d.stmts := by
  show (match b[k]? with | some d => d.stmts | none => 0) = d.stmts
  rw [h]

theorem next_block {k n v : Nat} {d : Cfg.Block} (hk : b[k]? = some d) (hn : d.stmts ≤ n) (hs : b.succ k = [v]) :
    b.locationSuccessor ⟨k, n⟩ = some ⟨v, 0⟩ := by
  unfold Body.locationSuccessor
  dsimp only
  rw [hk]
  dsimp only
  rw [if_neg (by omega), hs]

theorem after_next {fuel : Nat} {order : List (Loc × Nat) → List (Loc × Nat)} {e : Option Loc} {l l' : Loc}
    {sp lo hi : Nat} (h : b.locationSuccessor l = some l') :
    after (Env.ofBody b fuel order).next ⟨e, some l, sp, lo, hi⟩ = some l' := by
  show some ((b.locationSuccessor l).getD l) = some l'
  rw [h]
  rfl

/-- Where the arm ends is not before what is in front of it. -/
theorem free {phi : Option Loc} {y i : Nat}
    (h : ∀ p, phi = some p → p.block ≠ y ∧ ¬ Dominates b.succ p.block y) : ∀ p, phi = some p → ¬ Earlier b p ⟨y, i⟩ := by
  intro p hp
  obtain ⟨h1, h2⟩ := h p hp
  rintro (hq | hq)
  · exact h1 hq.1
  · exact h2 hq.2

end

/-! ## The entries of the arms -/

theorem setSpan_new {l : Loc} {s : Nat} : ∀ {m : List (Loc × Nat)}, (∀ x ∈ m, x.1 ≠ l) → setSpan m l s = m ++ [(l, s)]
  | [], _ => rfl
  | (k, t) :: r, h => by
    have h1 : k ≠ l := h (k, t) List.mem_cons_self
    rw [setSpan, if_neg h1, setSpan_new fun x hx => h x (List.mem_cons_of_mem _ hx)]
    rfl

theorem Arms.entries_fold : ∀ (as : Arms) (k : Nat) (m : List (Loc × Nat)), (∀ x ∈ m, x.1.block < k) →
    (as.arms k).foldl (fun m a => setEntry m a.body.node.entry a.pat.hi) m = m ++ as.entries k
  | .last i f, k, m, h => by
    show setSpan m ⟨k, i.nb⟩ i.pat = _
    rw [setSpan_new]
    · rfl
    · intro x hx he
      have := h _ hx
      rw [he] at this
      dsimp only at this
      omega
  | .cons i f as, k, m, h => by
    have hp := f.size_pos
    rw [Arms.arms, List.foldl_cons]
    show (as.arms (k + 1 + f.size)).foldl _ (setSpan m ⟨k + 1, i.nb⟩ i.pat) = _
    rw [setSpan_new, Arms.entries_fold as, Arms.entries, List.append_assoc]
    · rfl
    · intro x hx
      rcases List.mem_append.1 hx with hx | hx
      · have := h x hx
        omega
      · rw [List.mem_singleton] at hx
        subst hx
        dsimp only
        omega
    · intro x hx he
      have := h _ hx
      rw [he] at this
      dsimp only at this
      omega

theorem Arms.entries_eq (as : Arms) (k : Nat) : armEntries (as.arms k) = as.entries k :=
  Arms.entries_fold as k [] (by simp)

/-- The parts and the entries belong together. -/
theorem Arms.entry : ∀ (as : Arms) (k : Nat) {i h : Nat} {hd : Bool} {g : Shape},
    (as.limbs.parts k)[i]? = some (h, hd, g) → ∃ l s, (as.entries k)[i]? = some (l, s) ∧ l.block = h + hd.toNat
  | .last inf f, k, i, h, hd, g, hi => by
    match i with
    | 0 =>
      cases hi
      exact ⟨_, _, rfl, rfl⟩
    | i + 1 => cases hi
  | .cons inf f as, k, i, h, hd, g, hi => by
    match i with
    | 0 =>
      cases hi
      exact ⟨_, _, rfl, rfl⟩
    | i + 1 => exact Arms.entry as _ hi

theorem Arms.lengths : ∀ (as : Arms) (k : Nat), (as.entries k).length = (as.limbs.parts k).length ∧
    (as.arms k).length = (as.limbs.parts k).length ∧ (as.expected k).length = (as.limbs.parts k).length ∧
    (as.joins k).length = (as.limbs.parts k).length
  | .last _ _, _ => ⟨rfl, rfl, rfl, rfl⟩
  | .cons i f as, k => by
    obtain ⟨h1, h2, h3, h4⟩ := Arms.lengths as (k + 1 + f.size)
    simp only [Arms.entries, Arms.arms, Arms.expected, Arms.joins, Arms.limbs, Limbs.parts, List.length_cons,
      Bool.toNat_true]
    exact ⟨by rw [h1], by rw [h2], by rw [h3], by rw [h4]⟩

theorem deedArms_length (E : Env) : ∀ as : List Arm, (deedArms E as).length = as.length
  | [] => by simp [deedArms]
  | a :: r => by simp [deedArms, deedArms_length E r]

theorem deedArms_get (E : Env) : ∀ (as : List Arm) (i : Nat), (deedArms E as)[i]? = (as[i]?).map (deedArm E)
  | [], i => by simp [deedArms]
  | a :: r, 0 => by simp [deedArms]
  | a :: r, i + 1 => by simp [deedArms, deedArms_get E r]

theorem two_limbs {e t : Shape} {k : Nat} {P : Nat → Nat → Bool → Shape → Prop} (h0 : P 0 k false e)
    (h1 : P 1 (k + e.size) false t) : ∀ (i h : Nat) (hd : Bool) (g : Shape),
    ((Limbs.cons false e (.cons false t .nil)).parts k)[i]? = some (h, hd, g) → P i h hd g := by
  intro i h hd g hi
  match i with
  | 0 =>
    cases hi
    exact h0
  | 1 =>
    cases hi
    exact h1
  | i + 2 => cases hi

/-! ## Further facts about a place -/

section
variable {b : Body} {ret : Nat} (W : Whole b ret)
include W

/-- The join neither lies in an arm nor dominates anything there. -/
theorem Place.join_not {as : Limbs} {r : Shape} {k : Nat} {xs : List Nat} (P : Place b.succ (.fork as r) k xs)
    (hreal : ¬ EndsInFalseEdge b (k + 1 + as.size)) {i h : Nat} {hd : Bool} {f : Shape}
    (hp : (as.parts (k + 1))[i]? = some (h, hd, f)) {y : Nat} (hy : In h (h + hd.toNat + f.size) y) :
    k + 1 + as.size ≠ y ∧ ¬ Dominates b.succ (k + 1 + as.size) y := by
  have hb := Limbs.bounds hp
  have hr := r.pos
  have he : k + (Shape.fork as r).size = k + 1 + as.size + r.size := by simp only [Shape.size]; omega
  refine ⟨by have := hy.2; omega, (P.fork W hreal).not_dom ?_ ((P.forked.along hp hy).mono fun z hz => ?_)⟩
  · rw [he]
    unfold In
    omega
  · unfold In at hz
    omega

omit W in
/-- The block in front of the switch of a loop dominates it. -/
theorem Place.step_dom {succ : Nat → List Nat} {c : Nat} {hd : Bool} {t r : Shape} {k : Nat} {xs : List Nat}
    (P : Place succ (.loop c hd t r) k xs) : Dominates succ (k + 1 + c) (k + 2 + c) := by
  have L := P.looped
  have hR := P.region
  have hlt := L.lt
  have hp := r.pos
  have hout := P.outside
  have hA := P.after
  have he : k + (Shape.loop c hd t r).size = k + 3 + c + hd.toNat + t.size + r.size := by
    simp only [Shape.size]; omega
  rw [he] at hR hout
  refine ⟨hR.reach0 ⟨by omega, by omega⟩, fun l hl => ?_⟩
  by_cases h0 : k + 2 + c = 0
  · omega
  · refine Flow.enter (A := fun y => y = k + 2 + c) (K := fun _ => True)
      (fun _ _ _ _ => trivial) ?_ hl trivial (by omega) rfl
    intro u v _ hu hv hn
    by_cases hin : In k (k + 3 + c + hd.toNat + t.size + r.size) u
    · by_cases hx : In k (k + 3 + c + hd.toNat + t.size) u
      · have := L.edges hx hv
        unfold In at *
        omega
      · rcases Shape.edges hA.fits (u := u) (v := v) (by unfold In at *; omega) hv with hv' | ⟨_, hv'⟩
        · unfold In at hv'
          omega
        · refine absurd ?_ (hout v hv')
          unfold In
          omega
    · have := hR.inn u v hv (by unfold In; omega) hin
      omega

/-- As `fork_goes`, with a name for the join. -/
theorem fork_goes' {as : Limbs} {r : Shape} {k j : Nat} {xs : List Nat} (P : Place b.succ (.fork as r) k xs)
    (hj : k + 1 + as.size = j) (hreal : ¬ EndsInFalseEdge b j) (hsw : Switches b k) {l : Loc} (hl : l.block = k)
    {f : Spanner} (start : Nat → Loc) (span : Nat → Nat)
    (hf : ∀ (i h : Nat) (hd : Bool) (g : Shape), (as.parts (k + 1))[i]? = some (h, hd, g) →
      f ⟨h, 0⟩ = (start i, span i) ∧ In h (h + hd.toNat + g.size) (start i).block)
    (pick : List Nat) (hn : pick.Nodup) (hpick : ∀ q ∈ pick, q < (as.parts (k + 1)).length)
    {arms : List (List Deed)} (ws : List (List Step)) (bss : List (List Fork)) (h1 : pick.length = arms.length)
    (h2 : ws.length = arms.length) (h3 : bss.length = arms.length)
    (harms : ∀ (i : Nat) (d : List Deed) (q : Nat) (w : List Step) (bs : List Fork) (h : Nat) (hd : Bool) (g : Shape), arms[i]? = some d →
      pick[i]? = some q → ws[i]? = some w → bss[i]? = some bs → (as.parts (k + 1))[q]? = some (h, hd, g) →
      ∃ c', Goes b (In h (h + hd.toNat + g.size)) (some ⟨j, 0⟩) (start q) d w bs c')
    {R : Nat → Prop} {phi : Option Loc} (hR : R j) {ds : List Deed} {w : List Step}
    {bs : List Fork} {c' : Loc} (hrest : Goes b R phi ⟨j, 0⟩ ds w bs c') :
    Goes b R phi l (.fork l f arms :: ds)
      ((List.range (as.parts (k + 1)).length).map (fun i => (l, start i, span i)) ++ (ws.flatten ++ w))
      ((⟨k, b.mapper.stmts k⟩, ⟨j, 0⟩, (List.range (as.parts (k + 1)).length).map (fun i => (l, start i, span i))) ::
        (bss.flatten ++ bs)) c' := by
  subst hj
  exact fork_goes W P hreal hsw hl hf hn hpick h1 h2 h3 harms hR hrest

end

/-! ## The arms of a `match` -/

/-- What is known about the walks along the arms. -/
def ArmsGo (b : Body) (E : Env) (as : Arms) (k j : Nat) : Prop :=
  ∀ (i : Nat) (a : Arm) (w : List Step) (bs : List Fork) (l : Loc) (sp h : Nat) (hd : Bool) (g : Shape),
    (as.arms k)[i]? = some a → (as.expected k)[i]? = some w → (as.joins k)[i]? = some bs →
    (as.entries k)[i]? = some (l, sp) → (as.limbs.parts k)[i]? = some (h, hd, g) →
    ∃ c', Goes b (In h (h + hd.toNat + g.size)) (some ⟨j, 0⟩) l (deedArm E a) w bs c'

theorem arm_goes {b : Body} {E : Env} {R : Nat → Prop} {j k nb : Nat} {i : ArmInfo} {e : Loc} {s : List Stmt}
    {w : List Step} {bs : List Fork} {c : Loc} (hR : R k) (hj : j ≠ k ∧ ¬ Dominates b.succ j k)
    (g : Goes b R (some ⟨j, 0⟩) ⟨k, nb⟩ (deedStmts E s) w bs c) :
    Goes b R (some ⟨j, 0⟩) ⟨k, nb⟩ (deedArm E (armOf i ⟨k, nb⟩ e s)) ((⟨k, nb⟩, ⟨k, nb⟩, i.lo) :: w) bs c := by
  have hd : deedArm E (armOf i ⟨k, nb⟩ e s) = .step ⟨k, nb⟩ i.lo :: deedStmts E s := by
    simp [armOf, braces, deedArm, deedArmOf, Expr.node, deedExpr, deedParts, deedPart, deedBlock]
  rw [hd]
  refine .step hR (.inl ⟨rfl, Nat.le_refl _⟩) (.inl ⟨rfl, Nat.le_refl _⟩) (free ?_) g
  intro p hp
  cases hp
  exact hj

theorem ArmsGo.last {b : Body} {E : Env} {i : ArmInfo} {f : Prog} {k j : Nat} (hj : j ≠ k ∧ ¬ Dominates b.succ j k)
    {c : Loc} (g : Goes b (In k (k + f.size)) (some ⟨j, 0⟩) ⟨k, i.nb⟩ (deedStmts E (f.stmts k i.nb)) (f.expected k i.nb)
      (f.joins k i.nb) c) : ArmsGo b E (.last i f) k j := by
  have hp := f.size_pos
  intro q a w bs l sp h hd g' h1 h2 h3 h4 h5
  match q with
  | 0 =>
    cases h1
    cases h2
    cases h3
    cases h4
    cases h5
    exact ⟨c, arm_goes (R := In k (k + f.size)) ⟨Nat.le_refl _, by omega⟩ hj g⟩
  | q + 1 => cases h1

theorem ArmsGo.cons {b : Body} {E : Env} {i : ArmInfo} {f : Prog} {as : Arms} {k j : Nat}
    (hj : j ≠ k + 1 ∧ ¬ Dominates b.succ j (k + 1))
    {c : Loc} (g : Goes b (In k (k + 1 + f.size)) (some ⟨j, 0⟩) ⟨k + 1, i.nb⟩ (deedStmts E (f.stmts (k + 1) i.nb))
      (f.expected (k + 1) i.nb) (f.joins (k + 1) i.nb) c) (ha : ArmsGo b E as (k + 1 + f.size) j) :
    ArmsGo b E (.cons i f as) k j := by
  have hp := f.size_pos
  intro q a w bs l sp h hd g' h1 h2 h3 h4 h5
  match q with
  | 0 =>
    cases h1
    cases h2
    cases h3
    cases h4
    cases h5
    exact ⟨c, arm_goes (R := In k (k + 1 + f.size)) ⟨Nat.le_succ _, by omega⟩ hj g⟩
  | q + 1 =>
    rw [Arms.arms] at h1
    rw [Arms.expected] at h2
    rw [Arms.joins] at h3
    rw [Arms.entries] at h4
    rw [Arms.limbs, Limbs.parts] at h5
    exact ha q a w bs l sp h hd g' h1 h2 h3 h4 h5

/-- A list as the values at its positions. -/
theorem range_map {α β : Type} (xs : List α) (d : α) (f : α → β) :
    (List.range xs.length).map (fun i => f ((xs[i]?).getD d)) = xs.map f := by
  apply List.ext_getElem?
  intro i
  rw [List.getElem?_map, List.getElem?_map]
  by_cases h : i < xs.length
  · rw [List.getElem?_range h, Option.map_some, List.getElem?_eq_getElem h]
    rfl
  · rw [List.getElem?_eq_none (l := xs) (by omega), List.getElem?_eq_none (by simpa using h)]
    rfl

/-- The walk through a `match`. -/
theorem match_goes {b : Body} {ret : Nat} (W : Whole b ret) {fuel : Nat} {order : List (Loc × Nat) → List (Loc × Nat)}
    (ho : ∀ l, (order l).Perm l) {as : Arms} {r : Shape} {k j : Nat} {xs : List Nat}
    (P : Place b.succ (.fork as.limbs r) k xs) (hj : k + 1 + as.size = j) (hreal : ¬ EndsInFalseEdge b j)
    (hsw : Switches b k) {l : Loc} (hl : l.block = k) (ha : ArmsGo b (.ofBody b fuel order) as (k + 1) j)
    {R : Nat → Prop} {phi : Option Loc} (hR : R j) {ds : List Deed} {w : List Step} {bs : List Fork} {c' : Loc}
    (hrest : Goes b R phi ⟨j, 0⟩ ds w bs c') :
    Goes b R phi l (.fork l ((Env.ofBody b fuel order).spanner (armEntries (as.arms (k + 1))) 0)
        (deedArms (.ofBody b fuel order) (as.arms (k + 1))) :: ds)
      ((as.entries (k + 1)).map (fun e => (l, e.1, e.2)) ++ ((as.expected (k + 1)).flatten ++ w))
      ((⟨k, b.mapper.stmts k⟩, ⟨j, 0⟩, (as.entries (k + 1)).map (fun e => (l, e.1, e.2))) ::
        ((as.joins (k + 1)).flatten ++ bs)) c' := by
  obtain ⟨l1, l2, l3, l4⟩ := as.lengths (k + 1)
  have hen : ∀ x ∈ as.entries (k + 1), ∃ (i h : Nat) (hd : Bool) (f : Shape),
      (as.limbs.parts (k + 1))[i]? = some (h, hd, f) ∧ (as.entries (k + 1))[i]? = some x ∧
        In h (h + hd.toNat + f.size) x.1.block := by
    intro x hx
    obtain ⟨i, hi⟩ := List.mem_iff_getElem?.1 hx
    have hlt := (List.getElem?_eq_some_iff.1 hi).1
    rw [l1] at hlt
    obtain ⟨⟨h, hd, g⟩, hp⟩ : ∃ y, (as.limbs.parts (k + 1))[i]? = some y := ⟨_, List.getElem?_eq_getElem hlt⟩
    obtain ⟨l', s, h1, h2⟩ := as.entry (k + 1) hp
    rw [hi] at h1
    cases h1
    have := g.pos
    exact ⟨i, h, hd, g, hp, hi, by rw [h2]; unfold In; omega⟩
  have hr : (List.range (as.limbs.parts (k + 1)).length).map (fun i =>
      (l, (((as.entries (k + 1))[i]?).getD (⟨0, 0⟩, 0)).1, (((as.entries (k + 1))[i]?).getD (⟨0, 0⟩, 0)).2)) =
      (as.entries (k + 1)).map (fun e => (l, e.1, e.2)) := by
    rw [← l1]
    exact range_map (as.entries (k + 1)) (⟨0, 0⟩, 0) (fun e => (l, e.1, e.2))
  rw [← hr]
  refine fork_goes' W P hj hreal hsw hl (fun i => (((as.entries (k + 1))[i]?).getD (⟨0, 0⟩, 0)).1)
    (fun i => (((as.entries (k + 1))[i]?).getD (⟨0, 0⟩, 0)).2) ?_ (List.range (as.limbs.parts (k + 1)).length)
    List.nodup_range (fun q hq => List.mem_range.1 hq) _ _ ?_ ?_ ?_ ?_ hR hrest
  · intro i h hd g hp
    obtain ⟨l', s, h1, h2⟩ := as.entry (k + 1) hp
    have hg := g.pos
    have hin : In h (h + hd.toNat + g.size) l'.block := by rw [h2]; unfold In; omega
    rw [h1, Option.getD_some]
    refine ⟨?_, hin⟩
    rw [Arms.entries_eq]
    refine fork_hit W ho P (hj ▸ hreal) (fun x hx => ?_) hp (List.mem_of_getElem? h1) hin fun x hx hx' => ?_
    · obtain ⟨i', h', hd', f', q1, _, q2⟩ := hen x hx
      exact ⟨i', h', hd', f', q1, q2⟩
    · obtain ⟨i', h', hd', f', q1, q2, q3⟩ := hen x hx
      by_cases hi : i = i'
      · subst hi
        rw [h1] at q2
        exact (Option.some.inj q2).symm
      · exact absurd hx' (Forked.disjoint q1 hp hi q3)
  · rw [List.length_range, deedArms_length, l2]
  · rw [deedArms_length, l2, l3]
  · rw [deedArms_length, l2, l4]
  · intro i d q w' bs' h hd g h1 h2 h3 h4 h5
    have hlt : i < (List.range (as.limbs.parts (k + 1)).length).length := (List.getElem?_eq_some_iff.1 h2).1
    rw [List.length_range] at hlt
    rw [List.getElem?_range hlt] at h2
    cases h2
    rw [deedArms_get] at h1
    cases hx : (as.arms (k + 1))[i]? with
    | none => rw [hx] at h1; cases h1
    | some a =>
      rw [hx] at h1
      cases h1
      obtain ⟨l', s, q1, q2⟩ := as.entry (k + 1) h5
      have := ha i a w' bs' l' s h hd g hx h3 h4 q1 h5
      rw [q1]
      exact this

/-! ## The statements -/

theorem deedAfter_none {E : Env} {e : Option Loc} {a c d : Nat} : deedAfter E ⟨e, none, a, c, d⟩ = [] := rfl

theorem deedAfter_some {b : Body} {fuel : Nat} {order : List (Loc × Nat) → List (Loc × Nat)} {e : Option Loc} {l l' : Loc}
    {sp lo hi : Nat} (h : b.locationSuccessor l = some l') :
    deedAfter (.ofBody b fuel order) ⟨e, some l, sp, lo, hi⟩ = [.step l' sp] := by
  unfold deedAfter
  rw [after_next h]

theorem Place.plain {succ : Nat → List Nat} {t : Shape} {k : Nat} {xs : List Nat} (h : Place succ t k xs) :
    Place succ (t.plug .fin) k xs := by
  rw [Shape.plug_fin]
  exact h

theorem In.plain {t : Prog} {k y : Nat} (h : In k (k + (t.shape.plug .fin).size) y) : In k (k + t.size) y := by
  rwa [Shape.plug_fin] at h

mutual
theorem Prog.goes {b : Body} {ret : Nat} (hb : Fine b) (W : Whole b ret) (fuel : Nat)
    {order : List (Loc × Nat) → List (Loc × Nat)} (ho : ∀ l, (order l).Perm l) : ∀ (p : Prog) (k n : Nat) (last : Term)
    (s : Shape) (xs : List Nat) (R : Nat → Prop) (phi : Option Loc), (∀ r i, last ≠ .falseEdge r i) →
    Place b.succ (p.shape.plug s) k xs → Slice b k (p.code k n last) →
    (∀ y, In k (k + (p.shape.plug s).size) y → R y) →
    (∀ y, In k (k + (p.shape.plug s).size) y → ∀ q, phi = some q → q.block ≠ y ∧ ¬ Dominates b.succ q.block y) →
    Goes b R phi ⟨k, n⟩ (deedStmts (.ofBody b fuel order) (p.stmts k n)) (p.expected k n) (p.joins k n) (p.finAt k n)
  | .fin, k, n, last, s, xs, R, phi, hl, P, hs, hR, hphi => by
    simp only [Prog.stmts, deedStmts]
    exact .done
  | .act sp r, k, n, last, s, xs, R, phi, hl, P, hs, hR, hphi => by
    obtain ⟨d, hd, hn⟩ := head_of (p := r) (n := n + 1) hl hs
    have hk : In k (k + ((Prog.act sp r).shape.plug s).size) k := ⟨Nat.le_refl _, by have := ((Prog.act sp r).shape.plug s).pos; omega⟩
    have hnext := next_inside hd (n := n) (by omega)
    have := Prog.goes hb W fuel ho r k (n + 1) last s xs R phi hl P hs hR hphi
    simp only [Prog.stmts, deedStmts, deedStmt, deedExpr, deedParts, one, deedAfter_some hnext, List.nil_append,
      List.cons_append]
    exact .step (hR k hk) (.inl ⟨rfl, Nat.le_succ n⟩) (.inl ⟨rfl, Nat.le_succ n⟩) (free (hphi k hk)) this
  | .bind sp vs r, k, n, last, s, xs, R, phi, hl, P, hs, hR, hphi => by
    obtain ⟨d, hd, hn⟩ := head_of (p := r) (n := n + 1) hl hs
    have hk : In k (k + ((Prog.bind sp vs r).shape.plug s).size) k := ⟨Nat.le_refl _, by have := ((Prog.bind sp vs r).shape.plug s).pos; omega⟩
    have hnext := next_inside hd (n := n) (by omega)
    have := Prog.goes hb W fuel ho r k (n + 1) last s xs R phi hl P hs hR hphi
    simp only [Prog.stmts, deedStmts, deedStmt, deedOpt, deedOptBlock, deedExpr, deedParts, one, deedAfter_some hnext,
      List.nil_append, List.cons_append]
    exact .step (hR k hk) (.inl ⟨rfl, Nat.le_succ n⟩) (.inl ⟨rfl, Nat.le_succ n⟩) (free (hphi k hk)) this
  | .call sp r, k, n, last, s, xs, R, phi, hl, P, hs, hR, hphi => by
    obtain ⟨hd, hr⟩ := Slice.tail hs
    have hp := (r.shape.plug s).pos
    have he : k + ((Prog.call sp r).shape.plug s).size = k + 1 + (r.shape.plug s).size := by simp only [Prog.size, Prog.shape, Shape.plug, Shape.size]; omega
    rw [he] at hR hphi
    have hk : In k (k + 1 + (r.shape.plug s).size) (k + 1) := ⟨by omega, by omega⟩
    have hin : ∀ y, In (k + 1) (k + 1 + (r.shape.plug s).size) y → In k (k + 1 + (r.shape.plug s).size) y := fun y hy => by unfold In at *; omega
    have hf := P.fits
    rw [Prog.shape, Shape.plug, Shape.Fits] at hf
    have hnext := next_block hd (Nat.le_refl n) hf.1
    have hdom : Dominates b.succ k (k + 1) := P.region.dom (by
      show In k (k + ((Prog.call sp r).shape.plug s).size) (k + 1)
      rw [he]
      exact hk)
    have hpd : PostDominates b.succ b.returns k (k + 1) := straight_pdom W (m := 1) (fun i hi => by
      have : i = 0 := by omega
      subst this
      exact hf.1) (P.region.reach0 ⟨Nat.le_refl _, by have := ((Prog.call sp r).shape.plug s).pos; omega⟩)
    have := Prog.goes hb W fuel ho r (k + 1) 0 last s xs R phi hl P.line hr (fun y hy => hR y (hin y hy))
      (fun y hy => hphi y (hin y hy))
    simp only [Prog.stmts, deedStmts, deedStmt, deedExpr, deedParts, one, deedAfter_some hnext, List.nil_append,
      List.cons_append]
    exact .step (hR _ hk) (.inr ⟨by dsimp only; omega, hdom⟩) (.inr ⟨by dsimp only; omega, hpd⟩) (free (hphi _ hk)) this
  | .ite sp lt le hi t e r, k, n, last, s, xs, R, phi, hl, P, hs, hR, hphi => by
    obtain ⟨hd, hse, hst, hsr⟩ := slice_ite hs
    have hp := (r.shape.plug s).pos
    have hpt := t.size_pos
    have hpe := e.size_pos
    have hj : k + 1 + (Limbs.cons false e.shape (.cons false t.shape .nil)).size = k + 1 + e.size + t.size := by
      simp only [Limbs.size, Bool.toNat_false, Prog.size]; omega
    have he : k + ((Prog.ite sp lt le hi t e r).shape.plug s).size = k + 1 + e.size + t.size + (r.shape.plug s).size := by
      simp only [Prog.size, Prog.shape, Shape.plug, Shape.size, Limbs.size, Bool.toNat_false]; omega
    rw [he] at hR hphi
    rw [Prog.shape, Shape.plug] at P
    have hreal : ¬ EndsInFalseEdge b (k + 1 + e.size + t.size) := real_of hl hsr
    have hreal' := hj.symm ▸ hreal
    have hk : In k (k + 1 + e.size + t.size + (r.shape.plug s).size) k := ⟨by omega, by omega⟩
    have hin : ∀ y, In (k + 1 + e.size + t.size) (k + 1 + e.size + t.size + (r.shape.plug s).size) y →
        In k (k + 1 + e.size + t.size + (r.shape.plug s).size) y := fun y hy => by unfold In at *; omega
    have hp0 : ((Limbs.cons false e.shape (.cons false t.shape .nil)).parts (k + 1))[0]? = some (k + 1, false, e.shape) :=
      rfl
    have hp1 : ((Limbs.cons false e.shape (.cons false t.shape .nil)).parts (k + 1))[1]? =
      some (k + 1 + e.size, false, t.shape) := rfl
    have hnext := next_inside hd (n := n) (Nat.lt_succ_self n)
    have PE := P.limb hp0
    have PT := P.limb hp1
    rw [hj] at PE PT
    have PR := P.join
    rw [hj] at PR
    have N0 := fun y hy => P.join_not W hreal' hp0 (y := y) hy
    have N1 := fun y hy => P.join_not W hreal' hp1 (y := y) hy
    rw [hj] at N0 N1
    have gt := Prog.goes hb W fuel ho t (k + 1 + e.size) 0 _ .fin _ (In (k + 1 + e.size) (k + 1 + e.size + t.size))
      (some ⟨k + 1 + e.size + t.size, 0⟩) (by intro _ _ h; cases h) (.plain (PT)) hst (fun y hy => In.plain hy) (fun y hy q hq => by
        cases hq; exact N1 y (In.plain hy))
    have ge := Prog.goes hb W fuel ho e (k + 1) 0 _ .fin _ (In (k + 1) (k + 1 + e.size))
      (some ⟨k + 1 + e.size + t.size, 0⟩) (by intro _ _ h; cases h) (.plain (PE)) hse (fun y hy => In.plain hy) (fun y hy q hq => by
        cases hq; exact N0 y (In.plain hy))
    have gr := Prog.goes hb W fuel ho r (k + 1 + e.size + t.size) 0 last s xs R phi hl PR hsr (fun y hy => hR y (hin y hy))
      (fun y hy => hphi y (hin y hy))
    have hne : ∀ x ∈ [((⟨k + 1 + e.size, 0⟩ : Loc), lt)], x.1 ≠ ⟨k + 1, 0⟩ := by
      intro x hx h
      rw [List.mem_singleton] at hx
      subst hx
      have := congrArg Loc.block h
      dsimp only at this
      omega
    have hen : setSpan (setSpan [] ⟨k + 1 + e.size, 0⟩ lt) ⟨k + 1, 0⟩ le =
        [(⟨k + 1 + e.size, 0⟩, lt), (⟨k + 1, 0⟩, le)] := setSpan_new hne
    have hents : ∀ x ∈ [((⟨k + 1 + e.size, 0⟩ : Loc), lt), (⟨k + 1, 0⟩, le)], ∃ (i h : Nat) (hd : Bool) (f : Shape),
        ((Limbs.cons false e.shape (.cons false t.shape .nil)).parts (k + 1))[i]? = some (h, hd, f) ∧
          In h (h + hd.toNat + f.size) x.1.block := by
      intro x hx
      simp only [List.mem_cons, List.not_mem_nil, or_false] at hx
      rcases hx with rfl | rfl
      · exact ⟨1, _, _, _, hp1, Nat.le_refl _, Nat.lt_add_of_pos_right hpt⟩
      · exact ⟨0, _, _, _, hp0, Nat.le_refl _, Nat.lt_add_of_pos_right hpe⟩
    have f0 : (Env.ofBody b fuel order).spanner [(⟨k + 1 + e.size, 0⟩, lt), (⟨k + 1, 0⟩, le)] hi ⟨k + 1, 0⟩ =
        (⟨k + 1, 0⟩, le) := by
      refine fork_hit W ho P hreal' hents hp0 (by simp) ⟨Nat.le_refl _, Nat.lt_add_of_pos_right hpe⟩ ?_
      intro x hx h
      simp only [List.mem_cons, List.not_mem_nil, or_false] at hx
      rcases hx with rfl | rfl
      · simp only [In, Bool.toNat_false] at h
        have := h.2
        simp only [Prog.size] at this
        omega
      · rfl
    have f1 : (Env.ofBody b fuel order).spanner [(⟨k + 1 + e.size, 0⟩, lt), (⟨k + 1, 0⟩, le)] hi ⟨k + 1 + e.size, 0⟩ =
        (⟨k + 1 + e.size, 0⟩, lt) := by
      refine fork_hit W ho P hreal' hents hp1 (by simp) ⟨Nat.le_refl _, Nat.lt_add_of_pos_right hpt⟩ ?_
      intro x hx h
      simp only [List.mem_cons, List.not_mem_nil, or_false] at hx
      rcases hx with rfl | rfl
      · rfl
      · have := h.1
        dsimp only at this
        omega
    have G := fork_goes' W P hj hreal ⟨_, term_of hd⟩ (l := ⟨k, n + 1⟩) rfl
      (fun i => if i = 0 then ⟨k + 1, 0⟩ else ⟨k + 1 + e.size, 0⟩) (fun i => if i = 0 then le else lt)
      (two_limbs ⟨f0, Nat.le_refl _, Nat.lt_add_of_pos_right hpe⟩ ⟨f1, Nat.le_refl _, Nat.lt_add_of_pos_right hpt⟩)
      [1, 0] (by simp) (by simp [Limbs.parts])
      (arms := [deedStmts (.ofBody b fuel order) (t.stmts (k + 1 + e.size) 0),
        deedStmts (.ofBody b fuel order) (e.stmts (k + 1) 0)])
      [t.expected (k + 1 + e.size) 0, e.expected (k + 1) 0] [t.joins (k + 1 + e.size) 0, e.joins (k + 1) 0] rfl rfl rfl
      (by
        intro i d q w bs h hd' g h1 h2 h3 h4 h5
        match i with
        | 0 =>
          cases h1
          cases h2
          cases h3
          cases h4
          cases h5
          exact ⟨_, gt⟩
        | 1 =>
          cases h1
          cases h2
          cases h3
          cases h4
          cases h5
          exact ⟨_, ge⟩
        | i + 2 => cases h1) (hR _ (hin _ ⟨Nat.le_refl _, by omega⟩)) gr
    simp only [Prog.stmts, deedStmts, deedStmt, deedExpr, deedParts, deedPart, deedBlock, deedFork, deedElse, Expr.node,
      one, after_next hnext, deedAfter_none, ifEntries, setEntry, braces, Option.map_some, Option.some_or, deedIf,
      reduceCtorEq, if_false, List.append_nil, List.nil_append, List.cons_append, hen]
    refine .step (hR k hk) (.inl ⟨rfl, Nat.le_succ n⟩) (.inl ⟨rfl, Nat.le_succ n⟩) (free (hphi k hk)) ?_
    rw [stmts_of hd] at G
    simp only [Prog.joins, Prog.finAt]
    have hr : ∀ g : Nat → Step, (List.range 2).map g = [g 0, g 1] := fun _ => rfl
    simpa only [Limbs.parts, List.length_cons, List.length_nil, Nat.zero_add, Nat.reduceAdd, hr, if_true, Nat.one_ne_zero,
      if_false, List.flatten_cons, List.flatten_nil, List.append_nil, List.append_assoc, List.cons_append,
      List.nil_append] using G
  | .only sp lt hi t r, k, n, last, s, xs, R, phi, hl, P, hs, hR, hphi => by
    obtain ⟨hd, hse, hst, hsr⟩ := slice_only hs
    have hp := (r.shape.plug s).pos
    have hpt := t.size_pos
    have hj : k + 1 + (Limbs.cons false .fin (.cons false t.shape .nil)).size = k + 1 + 1 + t.size := by
      simp only [Limbs.size, Shape.size, Bool.toNat_false, Prog.size]; omega
    have he : k + ((Prog.only sp lt hi t r).shape.plug s).size = k + 1 + 1 + t.size + (r.shape.plug s).size := by
      simp only [Prog.size, Prog.shape, Shape.plug, Shape.size, Limbs.size, Bool.toNat_false]; omega
    rw [he] at hR hphi
    rw [Prog.shape, Shape.plug] at P
    have hreal : ¬ EndsInFalseEdge b (k + 1 + 1 + t.size) := real_of hl hsr
    have hreal' := hj.symm ▸ hreal
    have hk : In k (k + 1 + 1 + t.size + (r.shape.plug s).size) k := ⟨by omega, by omega⟩
    have hin : ∀ y, In (k + 1 + 1 + t.size) (k + 1 + 1 + t.size + (r.shape.plug s).size) y →
        In k (k + 1 + 1 + t.size + (r.shape.plug s).size) y := fun y hy => by unfold In at *; omega
    have hp0 : ((Limbs.cons false .fin (.cons false t.shape .nil)).parts (k + 1))[0]? = some (k + 1, false, .fin) := rfl
    have hp1 : ((Limbs.cons false .fin (.cons false t.shape .nil)).parts (k + 1))[1]? =
      some (k + 1 + 1, false, t.shape) := rfl
    have hnext := next_inside hd (n := n) (Nat.lt_succ_self n)
    have PT := P.limb hp1
    rw [hj] at PT
    have PR := P.join
    rw [hj] at PR
    have N1 := fun y hy => P.join_not W hreal' hp1 (y := y) hy
    rw [hj] at N1
    have gt := Prog.goes hb W fuel ho t (k + 1 + 1) 0 _ .fin _ (In (k + 1 + 1) (k + 1 + 1 + t.size))
      (some ⟨k + 1 + 1 + t.size, 0⟩) (by intro _ _ h; cases h) (.plain (PT)) hst (fun y hy => In.plain hy) (fun y hy q hq => by
        cases hq; exact N1 y (In.plain hy))
    have gr := Prog.goes hb W fuel ho r (k + 1 + 1 + t.size) 0 last s xs R phi hl PR hsr (fun y hy => hR y (hin y hy))
      (fun y hy => hphi y (hin y hy))
    have hen : setSpan [] ⟨k + 1 + 1, 0⟩ lt = [(⟨k + 1 + 1, 0⟩, lt)] := rfl
    have f0 : (Env.ofBody b fuel order).spanner [(⟨k + 1 + 1, 0⟩, lt)] hi ⟨k + 1, 0⟩ = (⟨k + 1, 0⟩, hi) := by
      refine fork_miss W ho P hreal' hp0 ?_
      intro x hx
      rw [List.mem_singleton] at hx
      subst hx
      exact ⟨1, _, _, _, by omega, hp1, Nat.le_refl _, Nat.lt_add_of_pos_right hpt⟩
    have f1 : (Env.ofBody b fuel order).spanner [(⟨k + 1 + 1, 0⟩, lt)] hi ⟨k + 1 + 1, 0⟩ = (⟨k + 1 + 1, 0⟩, lt) := by
      refine fork_hit W ho P hreal' ?_ hp1 (by simp) ⟨Nat.le_refl _, Nat.lt_add_of_pos_right hpt⟩ ?_
      · intro x hx
        rw [List.mem_singleton] at hx
        subst hx
        exact ⟨1, _, _, _, hp1, Nat.le_refl _, Nat.lt_add_of_pos_right hpt⟩
      · intro x hx _
        rwa [List.mem_singleton] at hx
    have G := fork_goes' W P hj hreal ⟨_, term_of hd⟩ (l := ⟨k, n + 1⟩) rfl
      (fun i => if i = 0 then ⟨k + 1, 0⟩ else ⟨k + 1 + 1, 0⟩) (fun i => if i = 0 then hi else lt)
      (two_limbs ⟨f0, Nat.le_refl _, Nat.lt_succ_self _⟩ ⟨f1, Nat.le_refl _, Nat.lt_add_of_pos_right hpt⟩)
      [1] (by simp) (by simp [Limbs.parts])
      (arms := [deedStmts (.ofBody b fuel order) (t.stmts (k + 1 + 1) 0)])
      [t.expected (k + 1 + 1) 0] [t.joins (k + 1 + 1) 0] rfl rfl rfl
      (by
        intro i d q w bs h hd' g h1 h2 h3 h4 h5
        match i with
        | 0 =>
          cases h1
          cases h2
          cases h3
          cases h4
          cases h5
          exact ⟨_, gt⟩
        | i + 1 => cases h1) (hR _ (hin _ ⟨Nat.le_refl _, by omega⟩)) gr
    simp only [Prog.stmts, deedStmts, deedStmt, deedExpr, deedParts, deedPart, deedBlock, deedFork, deedElse, Expr.node,
      one, after_next hnext, deedAfter_none, ifEntries, setEntry, braces, Option.map_none, Option.some_or, deedIf,
      reduceCtorEq, if_false, List.append_nil, List.nil_append, List.cons_append, hen]
    refine .step (hR k hk) (.inl ⟨rfl, Nat.le_succ n⟩) (.inl ⟨rfl, Nat.le_succ n⟩) (free (hphi k hk)) ?_
    rw [stmts_of hd] at G
    simp only [Prog.joins, Prog.finAt]
    have hr : ∀ g : Nat → Step, (List.range 2).map g = [g 0, g 1] := fun _ => rfl
    simpa only [Limbs.parts, List.length_cons, List.length_nil, Nat.zero_add, Nat.reduceAdd, hr, if_true, Nat.one_ne_zero,
      if_false, List.flatten_cons, List.flatten_nil, List.append_nil, List.append_assoc, List.cons_append,
      List.nil_append] using G
  | .mtch sp ds i f as r, k, n, last, s, xs, R, phi, hl, P, hs, hR, hphi => by
    obtain ⟨hd, hd1, hsf, hsa, hsr⟩ := slice_mtch hs
    have hp := (r.shape.plug s).pos
    have hpf := f.size_pos
    have hpa := as.size_pos
    have hj : k + 1 + (Limbs.cons true f.shape as.limbs).size = k + 1 + 1 + f.size + as.size := by
      simp only [Limbs.size, Bool.toNat_true, Prog.size, Arms.size]; omega
    have he : k + ((Prog.mtch sp ds i f as r).shape.plug s).size = k + 1 + 1 + f.size + as.size + (r.shape.plug s).size := by
      simp only [Prog.size, Arms.size, Prog.shape, Shape.plug, Shape.size, Limbs.size, Bool.toNat_true]; omega
    rw [he] at hR hphi
    rw [Prog.shape, Shape.plug] at P
    have hreal : ¬ EndsInFalseEdge b (k + 1 + 1 + f.size + as.size) := real_of hl hsr
    have hreal' := hj.symm ▸ hreal
    have hk : In k (k + 1 + 1 + f.size + as.size + (r.shape.plug s).size) k := ⟨by omega, by omega⟩
    have hin : ∀ y, In (k + 1 + 1 + f.size + as.size) (k + 1 + 1 + f.size + as.size + (r.shape.plug s).size) y →
        In k (k + 1 + 1 + f.size + as.size + (r.shape.plug s).size) y := fun y hy => by unfold In at *; omega
    have hnext := next_inside hd (n := n) (by dsimp only; omega)
    have hp0 : ((Limbs.cons true f.shape as.limbs).parts (k + 1))[0]? = some (k + 1, true, f.shape) := rfl
    have PF := P.limb hp0
    rw [hj] at PF
    have PR := P.join
    rw [hj] at PR
    have N0 := fun y hy => P.join_not W hreal' hp0 (y := y) hy
    rw [hj] at N0
    have gf := Prog.goes hb W fuel ho f (k + 1 + 1) i.nb _ .fin _ (In (k + 1) (k + 1 + 1 + f.size))
      (some ⟨k + 1 + 1 + f.size + as.size, 0⟩) (by intro _ _ h; cases h) (.plain (PF)) hsf
      (fun y hy => by have hy := In.plain hy; unfold In at *; omega)
      (fun y hy q hq => by
        have hy := In.plain hy
        cases hq
        exact N0 y ⟨by have := hy.1; omega, hy.2⟩)
    have ga := Arms.goes hb W fuel ho as (k + 1 + 1 + f.size) (k + 1 + 1 + f.size + as.size) hsa
      (fun q h hd g hpt => by
        have := P.limb (i := q + 1) (h' := h) (hd := hd) (f := g) hpt
        rw [hj] at this
        exact this)
      (fun q h hd g hpt y hy => by
        have := P.join_not W hreal' (i := q + 1) (h := h) (hd := hd) (f := g) hpt hy
        rw [hj] at this
        exact this)
    have gA : ArmsGo b (.ofBody b fuel order) (.cons i f as) (k + 1) (k + 1 + 1 + f.size + as.size) :=
      .cons (N0 _ ⟨Nat.le_succ _, Nat.lt_add_of_pos_right hpf⟩) gf ga
    have gr := Prog.goes hb W fuel ho r (k + 1 + 1 + f.size + as.size) 0 last s xs R phi hl PR hsr (fun y hy => hR y (hin y hy))
      (fun y hy => hphi y (hin y hy))
    have G := match_goes W ho (as := .cons i f as) P hj hreal ⟨_, term_of hd⟩ (l := ⟨k, n + 1⟩) rfl gA
      (hR _ (hin _ ⟨Nat.le_refl _, by omega⟩)) gr
    rw [stmts_of hd] at G
    simp only [Prog.stmts, deedStmts, deedStmt, deedExpr, deedParts, deedFork, Expr.node, one, after_next hnext,
      deedAfter_none, Option.some_or, Bool.false_and, Bool.false_eq_true, if_false, List.append_nil, List.nil_append,
      List.cons_append]
    refine .step (hR k hk) (.inl ⟨rfl, Nat.le_succ n⟩) (.inl ⟨rfl, Nat.le_succ n⟩) (free (hphi k hk)) ?_
    simp only [Prog.joins, Prog.finAt]
    simpa only [Arms.entries, Arms.expected, Arms.joins, Arms.arms, List.flatten_cons, List.append_assoc] using G
  | .whl sp sc lt hi sb c t r, k, n, last, s, xs, R, phi, hl, P, hs, hR, hphi => by
    obtain ⟨hd0, hd1, hdc, hda, hst, hsr⟩ := slice_whl hs
    have hp := (r.shape.plug s).pos
    have hpt := t.size_pos
    have he : k + ((Prog.whl sp sc lt hi sb c t r).shape.plug s).size = k + 3 + c + t.size + (r.shape.plug s).size := by
      simp only [Prog.size, Prog.shape, Shape.plug, Shape.size, Bool.toNat_false]; omega
    rw [he] at hR hphi
    rw [Prog.shape, Shape.plug] at P
    have L := P.looped
    have hreal : ¬ EndsInFalseEdge b (k + 3 + c + t.size) := real_of hl hsr
    have hhead : false = true → EndsInFalseEdge b (k + 3 + c) := by simp
    have ha : In k (k + 3 + c + t.size + (r.shape.plug s).size) (k + 2 + c) := ⟨by omega, by omega⟩
    have hx : In k (k + 3 + c + t.size + (r.shape.plug s).size) (k + 3 + c + t.size) := ⟨by omega, by omega⟩
    have hin : ∀ y, In (k + 3 + c + t.size) (k + 3 + c + t.size + (r.shape.plug s).size) y →
        In k (k + 3 + c + t.size + (r.shape.plug s).size) y := fun y hy => by unfold In at *; omega
    have hnext := next_inside hda (n := 0) (by dsimp only; omega)
    obtain ⟨dx, hdx, hnx⟩ := head_of (p := r) (n := 1) hl hsr
    have hnextx := next_inside hdx (n := 0) (by omega)
    have hdom : Dominates b.succ k (k + 2 + c) := P.region.dom (by
      show In k (k + ((Prog.whl sp sc lt hi sb c t r).shape.plug s).size) (k + 2 + c)
      rw [he]
      exact ha)
    have hpd : PostDominates b.succ b.returns k (k + 2 + c) := by
      have := straight_pdom W (k := k) (m := 2 + c) (fun i hi => L.line i (by omega)) (P.region.reach0
        ⟨Nat.le_refl _, by have := (Shape.loop c false t.shape (r.shape.plug s)).pos; omega⟩)
      rwa [← Nat.add_assoc] at this
    have gt := Prog.goes hb W fuel ho t (k + 3 + c) 0 _ .fin _ (In (k + 3 + c) (k + 3 + c + t.size))
      (some ⟨k + 3 + c + t.size, 0⟩) (by intro _ _ h; cases h) (.plain (P.body)) hst
      (fun y hy => In.plain hy) (fun y hy q hq => by
        have hy := In.plain hy
        cases hq
        exact ⟨by have := hy.2; dsimp only; omega, (P.apart W hreal hhead hy).1⟩)
    have gr := Prog.goes hb W fuel ho r (k + 3 + c + t.size) 1 last s xs R phi hl P.after hsr (fun y hy => hR y (hin y hy))
      (fun y hy => hphi y (hin y hy))
    have gr' := Goes.step (c := ⟨k + 3 + c + t.size, 0⟩) (l := ⟨k + 3 + c + t.size, 1⟩) (sp := sp) (hR _ hx) (.inl ⟨rfl, Nat.zero_le 1⟩)
      (.inl ⟨rfl, Nat.zero_le 1⟩) (free (hphi _ hx)) gr
    have hne : ∀ x ∈ [((⟨k + 3 + c, 0⟩ : Loc), lt)], x.1 ≠ ⟨k + 3 + c + t.size, 0⟩ := by
      intro x hx h
      rw [List.mem_singleton] at hx
      subst hx
      have := congrArg Loc.block h
      dsimp only at this
      omega
    have hen : setSpan (setSpan [] ⟨k + 3 + c, 0⟩ lt) ⟨k + 3 + c + t.size, 0⟩ hi =
        [(⟨k + 3 + c, 0⟩, lt), (⟨k + 3 + c + t.size, 0⟩, hi)] := setSpan_new hne
    obtain ⟨f1, f2⟩ := loop_spans W ho P hreal hhead (fuel := fuel) (order := order) (d := hi) (nb := 0) (s1 := hi)
      (s2 := lt) (en := [(⟨k + 3 + c, 0⟩, lt), (⟨k + 3 + c + t.size, 0⟩, hi)]) (by
        intro x
        simp only [List.mem_cons, List.not_mem_nil, or_false]
        exact or_comm)
    have G := (loop_goes W P hreal hhead ⟨_, term_of hda⟩ (l := ⟨k + 2 + c, 1⟩) rfl f1 f2
      (d1 := [.step ⟨k + 3 + c + t.size, 1⟩ sb]) (.clip rfl (.inl ⟨rfl, Nat.zero_le 1⟩) (.inl ⟨rfl, Nat.zero_le 1⟩)
        (.inl ⟨rfl, Nat.zero_le 1⟩) rfl .done) gt (hR _ hx) gr').2
    rw [stmts_of hda] at G
    simp only [Prog.stmts, deedStmts, deedStmt, deedExpr, deedParts, deedPart, deedBlock, deedFork, Expr.node, one,
      after_next hnext, deedAfter_some hnextx, setEntry, braces, Option.some_or, deedIf, reduceCtorEq, if_false,
      List.append_nil, List.nil_append, List.cons_append, hen]
    refine .step (hR _ ha) (.inr ⟨by dsimp only; omega, hdom⟩) (.inr ⟨by dsimp only; omega, hpd⟩) (free (hphi _ ha)) ?_
    simp only [Prog.joins, Prog.finAt]
    exact G
  | .frl sp sa sc hi sn lb li nb t r, k, n, last, s, xs, R, phi, hl, P, hs, hR, hphi => by
    obtain ⟨hd0, hd1, hd2, hd3, hda, hd5, hst, hsr⟩ := slice_frl hs
    have hp := (r.shape.plug s).pos
    have hpt := t.size_pos
    have he : k + ((Prog.frl sp sa sc hi sn lb li nb t r).shape.plug s).size = k + 6 + t.size + (r.shape.plug s).size := by
      simp only [Prog.size, Prog.shape, Shape.plug, Shape.size, Bool.toNat_true]; omega
    rw [he] at hR hphi
    rw [Prog.shape, Shape.plug, Shape.plug] at P
    have hfit := P.fits
    rw [Shape.Fits] at hfit
    have Q := P.line
    have L := Q.looped
    have hreal : ¬ EndsInFalseEdge b (k + 6 + t.size) := real_of hl hsr
    have hhead : true = true → EndsInFalseEdge b (k + 5) := fun _ => ⟨_, _, term_of hd5⟩
    have h3 : In k (k + 6 + t.size + (r.shape.plug s).size) (k + 3) := ⟨by omega, by omega⟩
    have h4 : In k (k + 6 + t.size + (r.shape.plug s).size) (k + 4) := ⟨by omega, by omega⟩
    have hx : In k (k + 6 + t.size + (r.shape.plug s).size) (k + 6 + t.size) := ⟨by omega, by omega⟩
    have hin : ∀ y, In (k + 6 + t.size) (k + 6 + t.size + (r.shape.plug s).size) y →
        In k (k + 6 + t.size + (r.shape.plug s).size) y := fun y hy => by unfold In at *; omega
    have hnext0 : b.locationSuccessor ⟨k, n⟩ = some ⟨k + 1, 0⟩ := next_block hd0 (Nat.le_refl n) hfit.1
    have hnext3 : b.locationSuccessor ⟨k + 3, 1⟩ = some ⟨k + 4, 0⟩ := next_block hd3 (Nat.le_refl 1) (L.line 2 (by omega))
    obtain ⟨dx, hdx, hnx⟩ := head_of (p := r) (n := 1) hl hsr
    have hnextx := next_inside hdx (n := 0) (by omega)
    have hps : (Env.ofBody b fuel order).producedSwitch ⟨some ⟨k, n⟩, some ⟨k, n⟩, 0, 0, 0⟩ = false := by
      have : (Env.ofBody b fuel order).exitOf ⟨some ⟨k, n⟩, some ⟨k, n⟩, 0, 0, 0⟩ = some ⟨k + 1, 0⟩ := after_next hnext0
      unfold Env.producedSwitch
      rw [this]
      show b.mapper.isSwitch (k + 1) = false
      cases h : b.mapper.isSwitch (k + 1) with
      | false => rfl
      | true =>
        obtain ⟨ts, h⟩ := isSwitch_iff.1 h
        rw [term_of hd1] at h
        cases h
    have hreach : Reach b.succ 0 k := P.region.reach0
      ⟨Nat.le_refl _, by have := (Shape.line (.loop 1 true t.shape (r.shape.plug s))).pos; omega⟩
    have hdom : Dominates b.succ k (k + 3) := P.region.dom (by
      show In k (k + ((Prog.frl sp sa sc hi sn lb li nb t r).shape.plug s).size) (k + 3)
      rw [he]
      exact h3)
    have hpd : PostDominates b.succ b.returns k (k + 3) := straight_pdom W (k := k) (m := 3) (fun i hi => by
      match i with
      | 0 => exact hfit.1
      | 1 => exact L.line 0 (by omega)
      | 2 => exact L.line 1 (by omega)
      | i + 3 => omega) hreach
    have hdom3 : Dominates b.succ (k + 3) (k + 4) := Q.step_dom
    have hpd3 : PostDominates b.succ b.returns (k + 3) (k + 4) := straight_pdom W (k := k + 3) (m := 1) (fun i hi => by
      match i with
      | 0 => exact L.line 2 (by omega)
      | i + 1 => omega) hdom.1
    have N := fun y (hy : In (k + 6) (k + 6 + t.size) y) => (Q.apart W hreal hhead hy).1
    have N' : ∀ y, In (k + 6) (k + 6 + t.size) y → ∀ q, some (⟨k + 6 + t.size, 0⟩ : Loc) = some q →
        q.block ≠ y ∧ ¬ Dominates b.succ q.block y := by
      intro y hy q hq
      cases hq
      exact ⟨by have := hy.2; dsimp only; omega, N y hy⟩
    have h6 : In (k + 6) (k + 6 + t.size) (k + 6) := ⟨Nat.le_refl _, by omega⟩
    have gt := Prog.goes hb W fuel ho t (k + 6) nb _ .fin _ (In (k + 6) (k + 6 + t.size))
      (some ⟨k + 6 + t.size, 0⟩) (by intro _ _ h; cases h) (.plain (Q.body)) hst
      (fun y hy => In.plain hy) (fun y hy => N' y (In.plain hy))
    have gt' := Goes.step (c := ⟨k + 6, nb⟩) (l := ⟨k + 6, nb⟩) (sp := li) h6 (.inl ⟨rfl, Nat.le_refl nb⟩)
      (.inl ⟨rfl, Nat.le_refl nb⟩) (free (N' _ h6)) gt
    have gr := Prog.goes hb W fuel ho r (k + 6 + t.size) 1 last s xs R phi hl Q.after hsr (fun y hy => hR y (hin y hy))
      (fun y hy => hphi y (hin y hy))
    have gr' := Goes.step (c := ⟨k + 6 + t.size, 0⟩) (l := ⟨k + 6 + t.size, 1⟩) (sp := sp) (hR _ hx) (.inl ⟨rfl, Nat.zero_le 1⟩)
      (.inl ⟨rfl, Nat.zero_le 1⟩) (free (hphi _ hx)) gr
    have hne : ∀ x ∈ [((⟨k + 6 + t.size, 0⟩ : Loc), hi)], x.1 ≠ ⟨k + 6, nb⟩ := by
      intro x hx h
      rw [List.mem_singleton] at hx
      subst hx
      have := congrArg Loc.block h
      dsimp only at this
      omega
    have hen : setSpan (setSpan [] ⟨k + 6 + t.size, 0⟩ hi) ⟨k + 6, nb⟩ lb =
        [(⟨k + 6 + t.size, 0⟩, hi), (⟨k + 6, nb⟩, lb)] := setSpan_new hne
    obtain ⟨f1, f2⟩ := loop_spans W ho Q hreal hhead (fuel := fuel) (order := order) (d := 0) (nb := nb) (s1 := hi)
      (s2 := lb) (en := [(⟨k + 6 + t.size, 0⟩, hi), (⟨k + 6, nb⟩, lb)]) (by
        intro x
        simp only [List.mem_cons, List.not_mem_nil, or_false]
        exact Iff.rfl)
    have G := (loop_goes W Q hreal hhead ⟨_, term_of hda⟩ (l := ⟨k + 4, 0⟩) rfl f1 f2
      (d1 := [.step ⟨k + 6 + t.size, 0⟩ sn]) (.clip rfl (.inl ⟨rfl, Nat.le_refl 0⟩) (.inl ⟨rfl, Nat.le_refl 0⟩)
        (.inl ⟨rfl, Nat.le_refl 0⟩) rfl .done) gt' (hR _ hx) gr').1
    rw [show b.mapper.stmts (k + 1 + 2 + 1) = 1 from stmts_of hda] at G
    simp only [Prog.stmts, deedStmts, deedStmt, deedExpr, deedParts, deedPart, deedBlock, deedFork, deedArms, deedArm,
      deedArmOf, Arm.body, Expr.node, one, after_next hnext3, deedAfter_some hnextx, setEntry, braces, Option.some_or,
      Option.isSome_none, Bool.false_eq_true, hps, Bool.not_false, List.length_cons, List.length_nil, Nat.zero_add,
      decide_true, Bool.and_self, if_true, if_false, List.flatten_cons, List.flatten_nil, List.append_nil,
      List.nil_append, List.cons_append, hen]
    refine .step (hR _ h3) (.inr ⟨by dsimp only; omega, hdom⟩) (.inr ⟨by dsimp only; omega, hpd⟩) (free (hphi _ h3)) ?_
    refine .step (hR _ h4) (.inr ⟨by dsimp only; omega, hdom3⟩) (.inr ⟨by dsimp only; omega, hpd3⟩) (free (hphi _ h4)) ?_
    simp only [Prog.joins, Prog.finAt]
    exact G
theorem Arms.goes {b : Body} {ret : Nat} (hb : Fine b) (W : Whole b ret) (fuel : Nat)
    {order : List (Loc × Nat) → List (Loc × Nat)} (ho : ∀ l, (order l).Perm l) : ∀ (as : Arms) (k j : Nat),
    Slice b k (as.code k j) →
    (∀ (i h : Nat) (hd : Bool) (g : Shape), (as.limbs.parts k)[i]? = some (h, hd, g) →
      Place b.succ g (h + hd.toNat) [j]) →
    (∀ (i h : Nat) (hd : Bool) (g : Shape), (as.limbs.parts k)[i]? = some (h, hd, g) →
      ∀ y, In h (h + hd.toNat + g.size) y → j ≠ y ∧ ¬ Dominates b.succ j y) →
    ArmsGo b (.ofBody b fuel order) as k j
  | .last i f, k, j, hs, hP, hN => by
    have hp := f.size_pos
    have N := hN 0 k false f.shape rfl
    exact .last (N k ⟨Nat.le_refl _, Nat.lt_add_of_pos_right hp⟩) (Prog.goes hb W fuel ho f k i.nb _ .fin _ _ (some ⟨j, 0⟩)
      (by intro _ _ h; cases h) (.plain (hP 0 k false f.shape rfl)) (slice_last hs)
      (fun y hy => In.plain hy) (fun y hy q hq => by
        have hy := In.plain hy
        cases hq; exact N y hy))
  | .cons i f as, k, j, hs, hP, hN => by
    have hp := f.size_pos
    obtain ⟨_, hsf, hsa⟩ := slice_cons hs
    have N := hN 0 k true f.shape rfl
    exact .cons (N (k + 1) ⟨Nat.le_succ _, Nat.lt_add_of_pos_right hp⟩) (Prog.goes hb W fuel ho f (k + 1) i.nb _ .fin _ _
      (some ⟨j, 0⟩) (by intro _ _ h; cases h) (.plain (hP 0 k true f.shape rfl)) hsf
      (fun y hy => by have hy := In.plain hy; unfold In at *; omega)
      (fun y hy q hq => by
        have hy := In.plain hy
        cases hq
        exact N y ⟨by have := hy.1; omega, hy.2⟩))
      (Arms.goes hb W fuel ho as (k + 1 + f.size) j hsa (fun q h hd g hpt => hP (q + 1) h hd g hpt)
        (fun q h hd g hpt => hN (q + 1) h hd g hpt))
end

end Verif.Walk
