import Verif.Walk.Blocks
import Verif.Walk.Builder
import Verif.HirSteps.ProgramProps
/-!
# Every program has the walk one expects
-/
namespace Verif.Walk

open Verif.Cfg Verif.Segments Verif.Graph Verif.HirSteps
open Verif.HirSteps.Prog (Slice Slice.left Slice.right Slice.tail next_inside)

/-! ## Further dominators -/

section
variable {succ : Nat → List Nat}

/-- An arm, with its head, is entered at its first block. -/
theorem Place.arm_inn {as : Limbs} {r : Shape} {k : Nat} {xs : List Nat} (P : Place succ (.fork as r) k xs)
    {i h : Nat} {hd : Bool} {f : Shape} (hpt : (as.parts (k + 1))[i]? = some (h, hd, f)) {u v : Nat} (hv : v ∈ succ u)
    (h1 : In h (h + hd.toNat + f.size) v) (h2 : ¬ In h (h + hd.toNat + f.size) u) : v = h := by
  have F := P.forked
  have hf := P.fits
  rw [Shape.Fits] at hf
  obtain ⟨_, _, _, f3⟩ := hf
  have hp := r.pos
  have hb := Limbs.bounds hpt
  have he : k + (Shape.fork as r).size = k + 1 + as.size + r.size := by simp only [Shape.size]; omega
  have hR := P.region
  have hout := P.outside
  rw [he] at hR hout
  have same : ∀ {i2 : Nat} {hd2 : Bool} {f2 : Shape}, (as.parts (k + 1))[i2]? = some (v, hd2, f2) → v = h := by
    intro i2 hd2 f2 hp2
    have hpf2 := f2.pos
    by_cases hne : i2 = i
    · subst hne
      rw [hpt] at hp2
      simp only [Option.some.injEq, Prod.mk.injEq] at hp2
      exact hp2.1.symm
    · exact absurd ⟨Nat.le_refl _, by omega⟩ (Forked.disjoint hpt hp2 hne h1)
  by_cases hu0 : In k (k + 1 + as.size + r.size) u
  · by_cases hu : u = k
    · subst hu
      obtain ⟨i2, hd2, f2, hi2⟩ := F.target hv
      exact same hi2
    · by_cases hu2 : u < k + 1 + as.size
      · obtain ⟨i2, h2', hd2, f2, hp2, e1, e2⟩ := Limbs.cover (as := as) (k := k + 1) (y := u)
          (by have := hu0.1; omega) hu2
        obtain ⟨q1, q2⟩ := Limbs.fits F.limbs hp2
        have hne : i2 ≠ i := by
          rintro rfl
          rw [hpt] at hp2
          simp only [Option.some.injEq, Prod.mk.injEq] at hp2
          obtain ⟨rfl, rfl, rfl⟩ := hp2
          exact h2 ⟨e1, e2⟩
        by_cases hin : h2' + hd2.toNat ≤ u
        · rcases Shape.edges q1 ⟨hin, e2⟩ hv with hv' | ⟨_, hv'⟩
          · exact absurd ⟨by have := hv'.1; omega, hv'.2⟩ (Forked.disjoint hpt hp2 hne h1)
          · rw [List.mem_singleton] at hv'
            have := h1.2
            omega
        · cases hd2 with
          | false => exact absurd e1 (by simpa using hin)
          | true =>
            have hu' : u = h2' := by simp only [Bool.toNat_true] at hin; omega
            subst hu'
            rcases (q2 rfl).2 v hv with hv' | ⟨_, hd3, f3, hv'⟩
            · have hpf2 := f2.pos
              exact absurd (by rw [hv']; exact ⟨by omega, by simp only [Bool.toNat_true]; omega⟩)
                (Forked.disjoint hpt hp2 hne h1)
            · exact same hv'
      · rcases Shape.edges f3 (u := u) (v := v) (by unfold In at *; omega) hv with hv' | ⟨_, hv'⟩
        · unfold In at *
          omega
        · refine absurd ?_ (hout v hv')
          unfold In at *
          omega
  · have := hR.inn u v hv (by unfold In at *; omega) hu0
    unfold In at *
    omega

/-- The first block of an arm dominates it. -/
theorem Place.arm_dom {as : Limbs} {r : Shape} {k : Nat} {xs : List Nat} (P : Place succ (.fork as r) k xs)
    {i h : Nat} {hd : Bool} {f : Shape} (hpt : (as.parts (k + 1))[i]? = some (h, hd, f)) {y : Nat}
    (hy : In h (h + hd.toNat + f.size) y) : Dominates succ h y := by
  have hb := Limbs.bounds hpt
  have he : k + (Shape.fork as r).size = k + 1 + as.size + r.size := by simp only [Shape.size]; omega
  refine ⟨P.region.reach0 (by rw [he]; unfold In at *; omega), fun l hl => ?_⟩
  refine Flow.leave (B := fun z => ¬ In h (h + hd.toNat + f.size) z) ?_ hl ?_ (fun hn => hn hy)
  · intro p q hp hq hnq
    exact P.arm_inn hpt hq (Classical.not_not.1 hnq) hp
  · unfold In
    omega

/-- The head of the arm that leaves a loop dominates what comes after the loop. -/
theorem Place.head_dom {c : Nat} {t r : Shape} {k : Nat} {xs : List Nat} (P : Place succ (.loop c true t r) k xs) :
    Dominates succ (k + 3 + c) (k + 3 + c + 1 + t.size) := by
  have L := P.looped
  have hR := P.region
  have hlt := L.lt
  have hp := r.pos
  have he : k + (Shape.loop c true t r).size = k + 3 + c + 1 + t.size + r.size := by
    simp only [Shape.size, Bool.toNat_true]; omega
  rw [he] at hR
  simp only [Bool.toNat_true] at hlt L
  refine ⟨hR.reach0 ⟨by omega, by omega⟩, fun l hl => ?_⟩
  refine Flow.enter (A := In (k + 3 + c + 1 + t.size) (k + 3 + c + 1 + t.size + r.size)) (K := fun _ => True)
    (fun _ _ _ _ => trivial) ?_ hl trivial (by unfold In; omega) ⟨Nat.le_refl _, by omega⟩
  intro u v _ hu hv hn
  by_cases hin : In k (k + 3 + c + 1 + t.size + r.size) u
  · have hx : In k (k + 3 + c + 1 + t.size) u := by unfold In at *; omega
    have hed := L.edges hx hv
    by_cases h3 : u = k + 2 + c
    · rw [h3, L.switch] at hv
      simp only [if_true, List.mem_cons, List.not_mem_nil, or_false] at hv
      unfold In at *
      omega
    · unfold In at *
      omega
  · have := hR.inn u v hv (by unfold In at *; omega) hin
    unfold In at *
    omega

/-- Straight code is post-dominated by its end. -/
theorem straight_pdom {b : Body} {ret : Nat} (W : Whole b ret) {k m : Nat} (h : ∀ i < m, b.succ (k + i) = [k + i + 1])
    (hr : Reach b.succ 0 k) : PostDominates b.succ b.returns k (k + m) := by
  refine W.pdom hr fun l hl => ?_
  by_cases hm : m = 0
  · subst hm
    exact hl.head_mem
  · refine Flow.leave (B := In k (k + m)) ?_ hl ⟨Nat.le_refl _, by omega⟩ ?_
    · intro p q hp hq hnq
      have := h (p - k) (by unfold In at hp; omega)
      rw [show k + (p - k) = p by have := hp.1; omega] at this
      rw [this, List.mem_singleton] at hq
      unfold In at *
      omega
    · intro hin
      have := h (ret - k) (by unfold In at hin; omega)
      rw [show k + (ret - k) = ret by have := hin.1; omega, W.stop] at this
      cases this

end

/-! ## Spans of the arms -/

section
variable {b : Body} {ret : Nat} (W : Whole b ret) {fuel : Nat} {order : List (Loc × Nat) → List (Loc × Nat)}
  (ho : ∀ l, (order l).Perm l)
include W ho

/-- The block of an arm that has exactly one entry. -/
theorem fork_hit {as : Limbs} {r : Shape} {k : Nat} {xs : List Nat} (P : Place b.succ (.fork as r) k xs)
    (hreal : ¬ EndsInFalseEdge b (k + 1 + as.size)) {en : List (Loc × Nat)} {d : Nat}
    (hen : ∀ x ∈ en, ∃ (i h : Nat) (hd : Bool) (f : Shape), (as.parts (k + 1))[i]? = some (h, hd, f) ∧
      In h (h + hd.toNat + f.size) x.1.block)
    {i h : Nat} {hd : Bool} {f : Shape} (hp : (as.parts (k + 1))[i]? = some (h, hd, f)) {l : Loc} {s : Nat}
    (hm : (l, s) ∈ en) (hl : In h (h + hd.toNat + f.size) l.block)
    (hu : ∀ x ∈ en, In h (h + hd.toNat + f.size) x.1.block → x = (l, s)) :
    (Env.ofBody b fuel order).spanner en d ⟨h, 0⟩ = (l, s) := by
  have hpf := f.pos
  refine spanner_hit ho hm ((earlier_ldom W.valid).2 ?_) ?_
  · by_cases hb : h = l.block
    · exact .inl ⟨hb, Nat.zero_le _⟩
    · exact .inr ⟨hb, P.arm_dom hp hl⟩
  · intro x hx hdom
    obtain ⟨i', h', hd', f', hp', hx'⟩ := hen x hx
    by_cases hi : i = i'
    · subst hi
      rw [hp] at hp'
      simp only [Option.some.injEq, Prod.mk.injEq] at hp'
      obtain ⟨rfl, rfl, rfl⟩ := hp'
      exact hu x hx hx'
    · exfalso
      obtain ⟨q1, q2⟩ := P.separate W hreal hp hp' hi (x := h) ⟨Nat.le_refl _, by omega⟩ hx'
      rcases (earlier_ldom W.valid).1 hdom with hq | hq
      · exact q1 hq.1
      · exact q2 hq.2

/-- The block of an arm without an entry. -/
theorem fork_miss {as : Limbs} {r : Shape} {k : Nat} {xs : List Nat} (P : Place b.succ (.fork as r) k xs)
    (hreal : ¬ EndsInFalseEdge b (k + 1 + as.size)) {en : List (Loc × Nat)} {d : Nat}
    {i h : Nat} {hd : Bool} {f : Shape} (hp : (as.parts (k + 1))[i]? = some (h, hd, f))
    (hen : ∀ x ∈ en, ∃ (i' h : Nat) (hd : Bool) (f : Shape), i ≠ i' ∧ (as.parts (k + 1))[i']? = some (h, hd, f) ∧
      In h (h + hd.toNat + f.size) x.1.block) :
    (Env.ofBody b fuel order).spanner en d ⟨h, 0⟩ = (⟨h, 0⟩, d) := by
  have hpf := f.pos
  refine spanner_miss ho fun x hx => not_ldom W.valid ?_
  obtain ⟨i', h', hd', f', hi, hp', hx'⟩ := hen x hx
  obtain ⟨q1, q2⟩ := P.separate W hreal hp hp' hi (x := h) ⟨Nat.le_refl _, by omega⟩ hx'
  rintro (hq | hq)
  · exact q1 hq.1
  · exact q2 hq.2

omit ho in
/-- The walk through a branching construct. -/
theorem fork_goes {as : Limbs} {r : Shape} {k : Nat} {xs : List Nat} (P : Place b.succ (.fork as r) k xs)
    (hreal : ¬ EndsInFalseEdge b (k + 1 + as.size)) (hsw : Switches b k) {l : Loc} (hl : l.block = k) {f : Spanner}
    {start : Nat → Loc} {span : Nat → Nat}
    (hf : ∀ (i h : Nat) (hd : Bool) (g : Shape), (as.parts (k + 1))[i]? = some (h, hd, g) →
      f ⟨h, 0⟩ = (start i, span i) ∧ In h (h + hd.toNat + g.size) (start i).block)
    {pick : List Nat} (hn : pick.Nodup) (hpick : ∀ q ∈ pick, q < (as.parts (k + 1)).length)
    {arms : List (List Deed)} {ws : List (List Step)} {bss : List (List Fork)} (h1 : pick.length = arms.length)
    (h2 : ws.length = arms.length) (h3 : bss.length = arms.length)
    (harms : ∀ (i : Nat) (d : List Deed) (q : Nat) (w : List Step) (bs : List Fork) (h : Nat) (hd : Bool) (g : Shape), arms[i]? = some d →
      pick[i]? = some q → ws[i]? = some w → bss[i]? = some bs → (as.parts (k + 1))[q]? = some (h, hd, g) →
      ∃ c', Goes b (In h (h + hd.toNat + g.size)) (some ⟨k + 1 + as.size, 0⟩) (start q) d w bs c')
    {R : Nat → Prop} {phi : Option Loc} (hR : R (k + 1 + as.size)) {ds : List Deed} {w : List Step}
    {bs : List Fork} {c' : Loc} (hrest : Goes b R phi ⟨k + 1 + as.size, 0⟩ ds w bs c') :
    Goes b R phi l (.fork l f arms :: ds)
      ((List.range (as.parts (k + 1)).length).map (fun i => (l, start i, span i)) ++ (ws.flatten ++ w))
      ((⟨k, b.mapper.stmts k⟩, ⟨k + 1 + as.size, 0⟩,
        (List.range (as.parts (k + 1)).length).map (fun i => (l, start i, span i))) :: (bss.flatten ++ bs)) c' := by
  have F := P.forked
  have hsucc := F.entries
  have hlen : (b.succ k).length = (as.parts (k + 1)).length := by rw [hsucc, List.length_map]
  let S : Nat → Nat → Prop := fun i y => ∃ (h : Nat) (hd : Bool) (g : Shape), (as.parts (k + 1))[i]? = some (h, hd, g) ∧
    In h (h + hd.toNat + g.size) y
  have hall : ∀ i : Nat, ∃ c' : Loc, ∀ (d : List Deed) (q : Nat) (w : List Step) (bs : List Fork), arms[i]? = some d →
      pick[i]? = some q → ws[i]? = some w → bss[i]? = some bs →
      Goes b (S q) (some ⟨k + 1 + as.size, 0⟩) (start q) d w bs c' := by
    intro i
    by_cases hi : i < arms.length
    · have hpi : i < pick.length := by omega
      have hq := hpick _ (List.getElem_mem hpi)
      obtain ⟨⟨h, hd, g⟩, hpt⟩ : ∃ x, (as.parts (k + 1))[pick[i]]? = some x := ⟨_, List.getElem?_eq_getElem hq⟩
      obtain ⟨c', hg⟩ := harms i _ _ _ _ h hd g (List.getElem?_eq_getElem hi) (List.getElem?_eq_getElem hpi)
        (List.getElem?_eq_getElem (by omega)) (List.getElem?_eq_getElem (by omega)) hpt
      refine ⟨c', fun d q w bs e1 e2 e3 e4 => ?_⟩
      rw [List.getElem?_eq_getElem hi] at e1
      rw [List.getElem?_eq_getElem hpi] at e2
      rw [List.getElem?_eq_getElem (by omega)] at e3
      rw [List.getElem?_eq_getElem (by omega)] at e4
      cases e1
      cases e2
      cases e3
      cases e4
      have : S pick[i] = In h (h + hd.toNat + g.size) := by
        funext y
        refine propext ⟨?_, fun hy => ⟨h, hd, g, hpt, hy⟩⟩
        rintro ⟨h', hd', g', hpt', hy⟩
        rw [hpt] at hpt'
        simp only [Option.some.injEq, Prod.mk.injEq] at hpt'
        obtain ⟨rfl, rfl, rfl⟩ := hpt'
        exact hy
      rw [this]
      exact hg
    · refine ⟨l, fun d q w bs e1 => ?_⟩
      rw [List.getElem?_eq_none (by omega)] at e1
      cases e1
  obtain ⟨ends, hends⟩ := Classical.axiomOfChoice hall
  rw [← hlen]
  refine .fork (S := S) (ends := ends) (pick := pick) (by rw [hl]; exact .here hsw) (P.fork W hreal).join hR ?_ ?_ hn
    (by rw [hlen]; exact hpick) h1 h2 h3 (fun i d q w bs e1 e2 e3 e4 => hends i d q w bs e1 e2 e3 e4) hrest
  · intro i p hp
    rw [hsucc, List.getElem?_map] at hp
    cases hx : (as.parts (k + 1))[i]? with
    | none => rw [hx] at hp; cases hp
    | some x =>
      rw [hx] at hp
      obtain ⟨h, hd, g⟩ := x
      simp only [Option.map_some, Option.some.injEq] at hp
      subst hp
      obtain ⟨q1, q2⟩ := hf i h hd g hx
      exact ⟨q1, h, hd, g, hx, q2⟩
  · rintro i i' x y _ _ hne ⟨h, hd, g, hp, hx⟩ ⟨h', hd', g', hp', hy⟩
    exact P.separate W hreal hp hp' hne hx hy

/-- The block that leaves a loop, and the first one of its body. -/
theorem loop_spans {c : Nat} {hd : Bool} {t r : Shape} {k : Nat} {xs : List Nat} (P : Place b.succ (.loop c hd t r) k xs)
    (hreal : ¬ EndsInFalseEdge b (k + 3 + c + hd.toNat + t.size)) (hhead : hd = true → EndsInFalseEdge b (k + 3 + c))
    {en : List (Loc × Nat)} {d nb s1 s2 : Nat}
    (hen : ∀ x, x ∈ en ↔ x = (⟨k + 3 + c + hd.toNat + t.size, 0⟩, s1) ∨ x = (⟨k + 3 + c + hd.toNat, nb⟩, s2)) :
    (∀ p, (b.succ (k + 2 + c))[0]? = some p →
      (Env.ofBody b fuel order).spanner en d ⟨p, 0⟩ = (⟨k + 3 + c + hd.toNat + t.size, 0⟩, s1)) ∧
    (Env.ofBody b fuel order).spanner en d ⟨k + 3 + c + hd.toNat, 0⟩ = (⟨k + 3 + c + hd.toNat, nb⟩, s2) := by
  have L := P.looped
  have hlt := L.lt
  have hs : In (k + 3 + c + hd.toNat) (k + 3 + c + hd.toNat + t.size) (k + 3 + c + hd.toNat) :=
    ⟨Nat.le_refl _, hlt.2⟩
  obtain ⟨a1, a2⟩ := P.apart W hreal hhead hs
  refine ⟨fun p hp => ?_, ?_⟩
  · refine spanner_hit ho ((hen _).2 (.inl rfl)) ((earlier_ldom W.valid).2 ?_) ?_
    · rw [L.switch] at hp
      cases hh : hd with
      | false =>
        rw [hh] at hp
        simp only [Bool.false_eq_true, if_false, List.getElem?_cons_zero, Option.some.injEq] at hp
        exact .inl ⟨hp.symm, Nat.le_refl _⟩
      | true =>
        subst hh
        simp only [if_true, List.getElem?_cons_zero, Option.some.injEq] at hp
        subst hp
        refine .inr ⟨?_, P.head_dom⟩
        show k + 3 + c ≠ k + 3 + c + Bool.toNat true + t.size
        simp only [Bool.toNat_true]
        omega
    · intro x hx hdom
      rcases (hen x).1 hx with h | h
      · exact h
      · exfalso
        subst h
        have hdom := (earlier_ldom W.valid).1 hdom
        rw [L.switch] at hp
        cases hh : hd with
        | false =>
          rw [hh] at hp
          simp only [Bool.false_eq_true, if_false, List.getElem?_cons_zero, Option.some.injEq] at hp
          rcases hdom with hq | hq
          · have := hq.1
            rw [hh] at this
            dsimp only at this
            have := t.pos
            omega
          · refine a1 ?_
            have := hq.2
            rw [hh] at this ⊢
            dsimp only at this
            rw [hp]
            exact this
        | true =>
          subst hh
          simp only [if_true, List.getElem?_cons_zero, Option.some.injEq] at hp
          subst hp
          rcases hdom with hq | hq
          · have := hq.1
            simp only [Bool.toNat_true] at this
            omega
          · have B := P.loop W hreal hhead
            refine B.not_dom (x := k + 3 + c) (y := k + 3 + c + Bool.toNat true) ?_ ((L.body_way hs).mono fun z hz => ?_) hq.2
            · have he : k + (Shape.loop c true t r).size = k + 3 + c + Bool.toNat true + t.size + r.size := by
                simp only [Shape.size]; omega
              rw [he]
              unfold In
              omega
            · simp only [In, Bool.toNat_true] at hz
              omega
  · refine spanner_hit ho ((hen _).2 (.inr rfl)) ((earlier_ldom W.valid).2 (.inl ⟨rfl, Nat.zero_le _⟩)) ?_
    intro x hx hdom
    rcases (hen x).1 hx with h | h
    · exfalso
      subst h
      rcases (earlier_ldom W.valid).1 hdom with hq | hq
      · have := hq.1
        dsimp only at this
        omega
      · exact a2 hq.2
    · exact h

omit ho in
/-- The walk through a loop. -/
theorem loop_goes {c : Nat} {hd : Bool} {t r : Shape} {k : Nat} {xs : List Nat} (P : Place b.succ (.loop c hd t r) k xs)
    (hreal : ¬ EndsInFalseEdge b (k + 3 + c + hd.toNat + t.size)) (hhead : hd = true → EndsInFalseEdge b (k + 3 + c))
    (hsw : Switches b (k + 2 + c)) {l : Loc} (hl : l.block = k + 2 + c) {f : Spanner} {nb s1 s2 : Nat}
    (hf1 : ∀ p, (b.succ (k + 2 + c))[0]? = some p → f ⟨p, 0⟩ = (⟨k + 3 + c + hd.toNat + t.size, 0⟩, s1))
    (hf2 : f ⟨k + 3 + c + hd.toNat, 0⟩ = (⟨k + 3 + c + hd.toNat, nb⟩, s2))
    {d1 d2 : List Deed} {w1 w2 : List Step} {b1 b2 : List Fork} {e1 e2 : Loc}
    (g1 : Goes b (fun y => y = k + 3 + c + hd.toNat + t.size) (some ⟨k + 3 + c + hd.toNat + t.size, 0⟩)
      ⟨k + 3 + c + hd.toNat + t.size, 0⟩ d1 w1 b1 e1)
    (g2 : Goes b (In (k + 3 + c + hd.toNat) (k + 3 + c + hd.toNat + t.size)) (some ⟨k + 3 + c + hd.toNat + t.size, 0⟩)
      ⟨k + 3 + c + hd.toNat, nb⟩ d2 w2 b2 e2)
    {R : Nat → Prop} {phi : Option Loc} (hR : R (k + 3 + c + hd.toNat + t.size)) {ds : List Deed} {w : List Step}
    {bs : List Fork} {c' : Loc} (hrest : Goes b R phi ⟨k + 3 + c + hd.toNat + t.size, 0⟩ ds w bs c') :
    Goes b R phi l (.fork l f [d1, d2] :: ds)
      ((l, ⟨k + 3 + c + hd.toNat + t.size, 0⟩, s1) :: (l, ⟨k + 3 + c + hd.toNat, nb⟩, s2) :: (w1 ++ (w2 ++ w)))
      ((⟨k + 2 + c, b.mapper.stmts (k + 2 + c)⟩, ⟨k + 3 + c + hd.toNat + t.size, 0⟩,
        [(l, ⟨k + 3 + c + hd.toNat + t.size, 0⟩, s1), (l, ⟨k + 3 + c + hd.toNat, nb⟩, s2)]) :: (b1 ++ (b2 ++ bs))) c' ∧
    Goes b R phi l (.fork l f [d2, d1] :: ds)
      ((l, ⟨k + 3 + c + hd.toNat + t.size, 0⟩, s1) :: (l, ⟨k + 3 + c + hd.toNat, nb⟩, s2) :: (w2 ++ (w1 ++ w)))
      ((⟨k + 2 + c, b.mapper.stmts (k + 2 + c)⟩, ⟨k + 3 + c + hd.toNat + t.size, 0⟩,
        [(l, ⟨k + 3 + c + hd.toNat + t.size, 0⟩, s1), (l, ⟨k + 3 + c + hd.toNat, nb⟩, s2)]) :: (b2 ++ (b1 ++ bs))) c' := by
  have L := P.looped
  have hlt := L.lt
  have hlen : (b.succ (k + 2 + c)).length = 2 := by rw [L.switch]; cases hd <;> rfl
  have hsec : (b.succ (k + 2 + c))[1]? = some (k + 3 + c + hd.toNat) := by rw [L.switch]; cases hd <;> rfl
  let S : Nat → Nat → Prop := fun i y => if i = 0 then y = k + 3 + c + hd.toNat + t.size else
    In (k + 3 + c + hd.toNat) (k + 3 + c + hd.toNat + t.size) y
  let start : Nat → Loc := fun i => if i = 0 then ⟨k + 3 + c + hd.toNat + t.size, 0⟩ else ⟨k + 3 + c + hd.toNat, nb⟩
  let span : Nat → Nat := fun i => if i = 0 then s1 else s2
  have hstart : ∀ i p : Nat, (b.succ (k + 2 + c))[i]? = some p → f ⟨p, 0⟩ = (start i, span i) ∧ S i (start i).block := by
    intro i p hp
    match i with
    | 0 => exact ⟨hf1 p hp, rfl⟩
    | 1 =>
      rw [hsec] at hp
      cases hp
      exact ⟨hf2, Nat.le_refl _, hlt.2⟩
    | i + 2 =>
      rw [List.getElem?_eq_none (by omega)] at hp
      cases hp
  have hsep : Separate b (b.succ (k + 2 + c)).length S := by
    intro i i' x y hi hi' hne hx hy
    rw [hlen] at hi hi'
    match i, i' with
    | 0, 0 => omega
    | 1, 1 => omega
    | 0, 1 =>
      have hx : x = k + 3 + c + hd.toNat + t.size := hx
      have hy : In (k + 3 + c + hd.toNat) (k + 3 + c + hd.toNat + t.size) y := hy
      rw [hx]
      exact ⟨by have := hy.2; omega, (P.apart W hreal hhead hy).1⟩
    | 1, 0 =>
      have hy : y = k + 3 + c + hd.toNat + t.size := hy
      have hx : In (k + 3 + c + hd.toNat) (k + 3 + c + hd.toNat + t.size) x := hx
      rw [hy]
      exact ⟨by have := hx.2; omega, (P.apart W hreal hhead hx).2⟩
    | i + 2, _ => omega
    | _, i' + 2 => omega
  have hj := (P.loop W hreal hhead).join
  have ha : Ahead b l.block (k + 2 + c) := by rw [hl]; exact .here hsw
  have hr : (List.range (b.succ (k + 2 + c)).length).map (fun i => (l, start i, span i)) =
      [(l, ⟨k + 3 + c + hd.toNat + t.size, 0⟩, s1), (l, ⟨k + 3 + c + hd.toNat, nb⟩, s2)] := by
    rw [hlen]
    rfl
  refine ⟨?_, ?_⟩
  · have := Goes.fork (phi := phi) (R := R) (l := l) (f := f) (arms := [d1, d2]) (pick := [0, 1]) (ws := [w1, w2])
      (bss := [b1, b2]) (ends := fun i => if i = 0 then e1 else e2) (S := S) ha hj hR hstart hsep (by simp)
      (by rw [hlen]; simp) rfl rfl rfl (by
        intro i d q w' bs' h1 h2 h3 h4
        match i with
        | 0 =>
          cases h1
          cases h2
          cases h3
          cases h4
          exact g1
        | 1 =>
          cases h1
          cases h2
          cases h3
          cases h4
          exact g2
        | i + 2 => cases h1) hrest
    rw [hr] at this
    simpa using this
  · have := Goes.fork (phi := phi) (R := R) (l := l) (f := f) (arms := [d2, d1]) (pick := [1, 0]) (ws := [w2, w1])
      (bss := [b2, b1]) (ends := fun i => if i = 0 then e2 else e1) (S := S) ha hj hR hstart hsep (by simp)
      (by rw [hlen]; simp) rfl rfl rfl (by
        intro i d q w' bs' h1 h2 h3 h4
        match i with
        | 0 =>
          cases h1
          cases h2
          cases h3
          cases h4
          exact g2
        | 1 =>
          cases h1
          cases h2
          cases h3
          cases h4
          exact g1
        | i + 2 => cases h1) hrest
    rw [hr] at this
    simpa using this

end

end Verif.Walk
