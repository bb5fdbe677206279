import Verif.HirSteps.Programs
import Verif.HirSteps.Order
/-!
# C100: what the stepper shows of a program of actions, calls and `if`s
-/
namespace Verif.HirSteps

open Verif.Cfg Verif.Segments Verif.Graph

/-- A stretch that is the end of another one on the same level. -/
inductive Tail (G : Flow) : Flow → Prop
  | refl : Tail G G
  | blk {b r} : Tail G r → Tail G (.blk b r)
  | fork {b t e r} : Tail G r → Tail G (.fork b t e r)

namespace Tail

theorem sub {G L : Flow} (h : Tail G L) : Sub G L := by
  induction h with
  | refl => exact .refl
  | blk _ ih => exact .blk ih
  | fork _ ih => exact .r ih

theorem trans {G H L : Flow} (h1 : Tail G H) (h2 : Tail H L) : Tail G L := by
  induction h2 with
  | refl => exact h1
  | blk _ ih => exact .blk ih
  | fork _ ih => exact .fork ih

theorem spine {G L : Flow} (h : Tail G L) : ∃ pre, L.spine = pre ++ G.spine := by
  induction h with
  | refl => exact ⟨[], rfl⟩
  | @blk b _ _ ih =>
    obtain ⟨pre, h⟩ := ih
    exact ⟨b :: pre, by rw [Flow.spine, h]; rfl⟩
  | @fork b _ _ _ _ ih =>
    obtain ⟨pre, h⟩ := ih
    exact ⟨b :: pre, by rw [Flow.spine, h]; rfl⟩

theorem mem {G L : Flow} (h : Tail G L) {x : Nat} (hx : x ∈ G.spine) : x ∈ L.spine := by
  obtain ⟨pre, h⟩ := h.spine
  rw [h]
  exact List.mem_append_right _ hx

theorem before {G L : Flow} (h : Tail G L) {c l : Loc} (hb : Before G.spine c l) : Before L.spine c l := by
  obtain ⟨pre, h⟩ := h.spine
  obtain ⟨i, j, hi, hj, hij⟩ := hb
  rw [h]
  refine ⟨pre.length + i, pre.length + j, ?_, ?_, by omega⟩
  · rw [List.getElem?_append_right (Nat.le_add_right _ _), Nat.add_sub_cancel_left]
    exact hi
  · rw [List.getElem?_append_right (Nat.le_add_right _ _), Nat.add_sub_cancel_left]
    exact hj

theorem leads {L : Flow} {a : Nat} {t e r : Flow} (h : Tail (.fork a t e r) L) : Leads L a (.fork a t e r) := by
  generalize hG : Flow.fork a t e r = G at h ⊢
  induction h with
  | refl => subst hG; exact .inl ⟨rfl, rfl⟩
  | blk _ ih => exact .inr ih
  | fork _ ih => exact .inr ih

end Tail

theorem Goes.join {m : Mapper} {L : Flow} {ds ds' : List Deed} {c c1 c' : Loc} {w w' : List Step}
    {bs bs' : List (Loc × Loc)} (h : Goes m L c ds w bs c1) (h' : Goes m L c1 ds' w' bs' c') :
    Goes m L c (ds ++ ds') (w ++ w') (bs ++ bs') c' := by
  induction h with
  | done => exact h'
  | step hb _ ih => exact .step hb (ih h')
  | fork flip hl hp hq hj hf hg ht he ha hb hr _ _ ih =>
    have := Goes.fork flip hl hp hq hj hf hg ht he ha hb (ih h')
    simpa using this

/-- If exactly one of the entries is dominated by the target, the branch starts there. -/
theorem spanner_hit {E : Env} (ho : ∀ l, (E.order l).Perm l) {en : List (Loc × Nat)} {d : Nat} {to l : Loc} {s : Nat}
    (hm : (l, s) ∈ en) (hd : E.m.ldom to l = true) (hu : ∀ x ∈ en, E.m.ldom to x.1 = true → x = (l, s)) :
    E.spanner en d to = (l, s) := by
  have hf : (E.order en).find? (fun e => E.m.ldom to e.1) = some (l, s) := by
    cases h : (E.order en).find? (fun e => E.m.ldom to e.1) with
    | none =>
      rw [List.find?_eq_none] at h
      exact absurd hd (h (l, s) ((ho en).symm.subset hm))
    | some x =>
      have hx : E.m.ldom to x.1 = true := List.find?_some (p := fun e : Loc × Nat => E.m.ldom to e.1) h
      rw [hu x ((ho en).subset (List.mem_of_find?_eq_some h)) hx]
  unfold Env.spanner
  rw [hf]

/-- If none of them is, it starts in the target. -/
theorem spanner_miss {E : Env} (ho : ∀ l, (E.order l).Perm l) {en : List (Loc × Nat)} {d : Nat} {to : Loc}
    (hu : ∀ x ∈ en, E.m.ldom to x.1 = false) : E.spanner en d to = (to, d) := by
  have hf : (E.order en).find? (fun e => E.m.ldom to e.1) = none := by
    rw [List.find?_eq_none]
    intro x hx
    rw [hu x ((ho en).subset hx)]
    simp
  unfold Env.spanner
  rw [hf]

namespace Prog

theorem code_targets : ∀ (p : Prog) (k n : Nat) (last : Term) (d : Cfg.Block), d ∈ p.code k n last →
    ∀ x ∈ d.term.targets, x < k + p.size ∨ x ∈ last.targets
  | fin, k, n, last, d, hd, x, hx => by
    simp only [code, List.mem_singleton] at hd
    subst hd
    exact .inr hx
  | act _ r, k, n, last, d, hd, x, hx => code_targets r k (n + 1) last d hd x hx
  | call _ r, k, n, last, d, hd, x, hx => by
    have := size_pos r
    simp only [size]
    rcases List.mem_cons.1 hd with rfl | hd
    · simp only [Term.targets, List.mem_singleton] at hx
      exact .inl (by omega)
    · rcases code_targets r _ _ last d hd x hx with h | h
      · exact .inl (by omega)
      · exact .inr h
  | ask _ _ _ t e r, k, n, last, d, hd, x, hx => by
    have := size_pos r
    have := size_pos t
    have := size_pos e
    simp only [size]
    rcases List.mem_cons.1 hd with rfl | hd
    · simp only [Term.targets, List.mem_cons, List.not_mem_nil, or_false] at hx
      exact .inl (by omega)
    · rcases List.mem_append.1 hd with hd | hd
      · rcases code_targets e _ _ _ d hd x hx with h | h
        · exact .inl (by omega)
        · simp only [Term.targets, List.mem_singleton] at h
          exact .inl (by omega)
      · rcases List.mem_append.1 hd with hd | hd
        · rcases code_targets t _ _ _ d hd x hx with h | h
          · exact .inl (by omega)
          · simp only [Term.targets, List.mem_singleton] at h
            exact .inl (by omega)
        · rcases code_targets r _ _ last d hd x hx with h | h
          · exact .inl (by omega)
          · exact .inr h
  | only _ _ _ t r, k, n, last, d, hd, x, hx => by
    have := size_pos r
    have := size_pos t
    simp only [size]
    rcases List.mem_cons.1 hd with rfl | hd
    · simp only [Term.targets, List.mem_cons, List.not_mem_nil, or_false] at hx
      exact .inl (by omega)
    · rcases List.mem_append.1 hd with hd | hd
      · rw [List.mem_singleton] at hd
        subst hd
        simp only [Term.targets, List.mem_singleton] at hx
        exact .inl (by omega)
      · rcases List.mem_append.1 hd with hd | hd
        · rcases code_targets t _ _ _ d hd x hx with h | h
          · exact .inl (by omega)
          · simp only [Term.targets, List.mem_singleton] at h
            exact .inl (by omega)
        · rcases code_targets r _ _ last d hd x hx with h | h
          · exact .inl (by omega)
          · exact .inr h

theorem body_valid (p : Prog) : Valid p.body where
  targets := by
    rintro a t ⟨d, hd, ht⟩
    rw [body_length]
    rcases code_targets p 0 0 .ret d (List.mem_of_getElem? hd) t ht with h | h
    · omega
    · simp [Term.targets] at h
  cleanup := by
    intro a d t e hd hc
    have := (body_plain p d (List.mem_of_getElem? hd)).1
    rw [this] at hc
    simp at hc
  nonempty := by rw [body_length]; exact size_pos p

theorem next_inside {b : Body} {k n : Nat} {d : Cfg.Block} (hd : b[k]? = some d) (h : n < d.stmts) :
    b.locationSuccessor ⟨k, n⟩ = some ⟨k, n + 1⟩ := by
  unfold Body.locationSuccessor
  dsimp only
  rw [hd]
  dsimp only
  rw [if_pos h]

theorem head_mem (p : Prog) (k : Nat) : k ∈ (p.flow k).spine := first_in (flow_first p k none)

theorem inside {b : Body} {p : Prog} {k n : Nat} {last : Term} (h : Slice b k (p.code k n last)) : k < b.length := by
  obtain ⟨d, hd, _⟩ := code_head p k n last
  exact (List.getElem?_eq_some_iff.1 (h 0 d hd)).1

theorem fin_stmts : ∀ (p : Prog) (k n : Nat) (last : Term), ∃ d, (p.code k n last)[(p.finAt k n).block - k]? = some d ∧
    (p.finAt k n).idx < d.stmts
  | fin, k, n, last => ⟨⟨n + 1, last, false⟩, by simp [code, finAt], Nat.lt_succ_self n⟩
  | act _ r, k, n, last => fin_stmts r k (n + 1) last
  | call _ r, k, n, last => by
    obtain ⟨d, h1, h2⟩ := fin_stmts r (k + 1) 0 last
    have := code_returns.finAt_ge r (k + 1) 0
    refine ⟨d, ?_, h2⟩
    rw [finAt, show (r.finAt (k + 1) 0).block - k = (r.finAt (k + 1) 0).block - (k + 1) + 1 by omega]
    exact h1
  | ask _ _ _ t e r, k, n, last => by
    obtain ⟨d, h1, h2⟩ := fin_stmts r (k + 1 + e.size + t.size) 0 last
    have := code_returns.finAt_ge r (k + 1 + e.size + t.size) 0
    refine ⟨d, ?_, h2⟩
    rw [finAt, show (r.finAt (k + 1 + e.size + t.size) 0).block - k =
      (e.size + (t.size + ((r.finAt (k + 1 + e.size + t.size) 0).block - (k + 1 + e.size + t.size)))) + 1 by omega, code,
      List.getElem?_cons_succ, List.getElem?_append_right (by rw [code_length]; omega), code_length,
      List.getElem?_append_right (by rw [code_length]; omega), code_length, Nat.add_sub_cancel_left,
      Nat.add_sub_cancel_left]
    exact h1
  | only _ _ _ t r, k, n, last => by
    obtain ⟨d, h1, h2⟩ := fin_stmts r (k + 1 + 1 + t.size) 0 last
    have := code_returns.finAt_ge r (k + 1 + 1 + t.size) 0
    refine ⟨d, ?_, h2⟩
    rw [finAt, show (r.finAt (k + 1 + 1 + t.size) 0).block - k =
      (t.size + ((r.finAt (k + 1 + 1 + t.size) 0).block - (k + 1 + 1 + t.size))) + 1 + 1 by omega, code,
      List.getElem?_cons_succ, List.cons_append, List.getElem?_cons_succ, List.nil_append,
      List.getElem?_append_right (by rw [code_length]; omega), code_length, Nat.add_sub_cancel_left]
    exact h1

section
variable {b : Body} {F : Flow} (hv : Valid b) (hF : Structured b F) (hb : ∀ d ∈ b, Plain d) (fuel : Nat)
  {order : List (Loc × Nat) → List (Loc × Nat)} (ho : ∀ l, (order l).Perm l)
include hv hF hb ho

theorem goes : ∀ (p : Prog) (k n : Nat) (last : Term) (L : Flow), Tail (p.flow k) L → Sub L F →
    Slice b k (p.code k n last) →
    Goes b.mapper L ⟨k, n⟩ (deedStmts (.ofBody b fuel order) (p.stmts k n)) (p.expected k n) (p.joins k n)
      (p.finAt k n)
  | fin, k, n, last, L, ht, hL, hs => .done
  | act sp r, k, n, last, L, ht, hL, hs => by
    obtain ⟨d, hd, hn⟩ := code_head r k (n + 1) last
    have hk : b[k]? = some d := hs 0 d hd
    have hnext : after (Env.ofBody b fuel order).next (one k n sp) = some ⟨k, n + 1⟩ := by
      show some ((b.locationSuccessor ⟨k, n⟩).getD _) = _
      rw [next_inside hk (by omega)]
      rfl
    have hkL : k ∈ L.spine := ht.mem (head_mem (act sp r) k)
    obtain ⟨i, hi⟩ := List.mem_iff_getElem?.1 hkL
    have := goes r k (n + 1) last L ht hL hs
    simp only [stmts, deedStmts, deedStmt, deedExpr, deedParts, deedAfter, hnext, List.nil_append, List.cons_append]
    exact .step ⟨i, i, hi, hi, .inr ⟨rfl, Nat.le_succ n⟩⟩ this
  | call sp r, k, n, last, L, ht, hL, hs => by
    obtain ⟨hk, hr⟩ := Slice.tail hs
    have hsucc : b.succ k = [k + 1] := by
      refine succ_all hb hk ?_
      simpa [Term.targets] using inside hr
    have hnext : after (Env.ofBody b fuel order).next (one k n sp) = some ⟨k + 1, 0⟩ := by
      show some ((b.locationSuccessor ⟨k, n⟩).getD _) = _
      unfold Body.locationSuccessor
      dsimp only
      rw [hk]
      dsimp only
      rw [if_neg (Nat.lt_irrefl n), hsucc]
      rfl
    have hb' : Before L.spine ⟨k, n⟩ ⟨k + 1, 0⟩ := by
      refine ht.before ⟨0, ?_⟩
      obtain ⟨i, hi⟩ := List.mem_iff_getElem?.1 (head_mem r (k + 1))
      exact ⟨i + 1, rfl, hi, .inl (Nat.succ_pos i)⟩
    have := goes r (k + 1) 0 last L (.trans (.blk .refl) ht) hL hr
    simp only [stmts, deedStmts, deedStmt, deedExpr, deedParts, deedAfter, hnext, List.nil_append, List.cons_append]
    exact .step hb' this
  | ask sp lt le t e r, k, n, last, L, ht, hL, hs => by
    obtain ⟨hk, hse, hst, hsr⟩ := slice_ask hs
    have hsub : Sub (.fork k (e.flow (k + 1)) (t.flow (k + 1 + e.size)) (r.flow (k + 1 + e.size + t.size))) F :=
      ht.sub.trans hL
    have hsubE : Sub (e.flow (k + 1)) F := (Sub.t .refl).trans hsub
    have hsubT : Sub (t.flow (k + 1 + e.size)) F := (Sub.e .refl).trans hsub
    have hnext : after (Env.ofBody b fuel order).next (one k n sp) = some ⟨k, n + 1⟩ := by
      show some ((b.locationSuccessor ⟨k, n⟩).getD _) = _
      rw [next_inside hk (Nat.lt_succ_self n)]
      rfl
    have hkL : k ∈ L.spine := ht.mem List.mem_cons_self
    obtain ⟨i, hi⟩ := List.mem_iff_getElem?.1 hkL
    have gt := goes t (k + 1 + e.size) 0 _ _ .refl hsubT hst
    have ge := goes e (k + 1) 0 _ _ .refl hsubE hse
    have gr := goes r (k + 1 + e.size + t.size) 0 last L (.trans (.fork .refl) ht) hL hsr
    have hpos := size_pos e
    have hne : ¬ (⟨k + 1 + e.size, 0⟩ : Loc) = ⟨k + 1, 0⟩ := by
      intro h
      have := congrArg Loc.block h
      simp only at this
      omega
    have hstm : b.mapper.stmts k = n + 1 := by
      show (match b[k]? with | some d => d.stmts | none => 0) = n + 1
      rw [hk]
    have hen : setSpan (setSpan [] ⟨k + 1 + e.size, 0⟩ lt) ⟨k + 1, 0⟩ le =
        [(⟨k + 1 + e.size, 0⟩, lt), (⟨k + 1, 0⟩, le)] := by
      simp only [setSpan, if_neg hne]
    have refl : ∀ {G : Flow} {q : Nat}, Sub G F → q ∈ G.spine → b.mapper.ldom ⟨q, 0⟩ ⟨q, 0⟩ = true :=
      fun hG hq => (hF.ldom_before hv hG (.refl hq)).1
    have memE := head_mem e (k + 1)
    have memT := head_mem t (k + 1 + e.size)
    have hTE : b.mapper.ldom ⟨k + 1 + e.size, 0⟩ ⟨k + 1, 0⟩ = false :=
      hF.ldom_apart hv hsub (.inr (.inl ⟨Flow.spine_blocks memT, Flow.spine_blocks memE⟩))
    have hET : b.mapper.ldom ⟨k + 1, 0⟩ ⟨k + 1 + e.size, 0⟩ = false :=
      hF.ldom_apart hv hsub (.inl ⟨Flow.spine_blocks memE, Flow.spine_blocks memT⟩)
    have fE : (Env.ofBody b fuel order).spanner [(⟨k + 1 + e.size, 0⟩, lt), (⟨k + 1, 0⟩, le)] 0 ⟨k + 1, 0⟩ =
        (⟨k + 1, 0⟩, le) := by
      refine spanner_hit ho (by simp) (refl hsubE memE) ?_
      intro x hx hd
      simp only [List.mem_cons, List.not_mem_nil, or_false] at hx
      rcases hx with rfl | rfl
      · exact absurd (show b.mapper.ldom ⟨k + 1, 0⟩ ⟨k + 1 + e.size, 0⟩ = true from hd) (by rw [hET]; simp)
      · rfl
    have fT : (Env.ofBody b fuel order).spanner [(⟨k + 1 + e.size, 0⟩, lt), (⟨k + 1, 0⟩, le)] 0 ⟨k + 1 + e.size, 0⟩ =
        (⟨k + 1 + e.size, 0⟩, lt) := by
      refine spanner_hit ho (by simp) (refl hsubT memT) ?_
      intro x hx hd
      simp only [List.mem_cons, List.not_mem_nil, or_false] at hx
      rcases hx with rfl | rfl
      · rfl
      · exact absurd (show b.mapper.ldom ⟨k + 1 + e.size, 0⟩ ⟨k + 1, 0⟩ = true from hd) (by rw [hTE]; simp)
    have hnone : ∀ (l : Option Loc) (a c d : Nat), deedAfter (.ofBody b fuel order) ⟨l, none, a, c, d⟩ = [] :=
      fun _ _ _ _ => rfl
    simp only [stmts, deedStmts, deedStmt, deedExpr, deedParts, deedPart, deedBlock, deedFork, deedElse, Expr.node, hnext,
      hnone, ifEntries, setEntry, Option.map_some, Option.some_or, deedIf, reduceCtorEq, if_false, List.append_nil,
      List.nil_append, List.cons_append, hen]
    refine .step ⟨i, i, hi, hi, .inr ⟨rfl, Nat.le_succ n⟩⟩ ?_
    simp only [joins]
    rw [← hstm]
    refine .fork true ht.leads (flow_first e _ _) (flow_first t _ _) (flow_first r _ _) fE fT memE memT gt ge gr
  | only sp lt hi t r, k, n, last, L, ht, hL, hs => by
    obtain ⟨hk, hk1, hst, hsr⟩ := slice_only hs
    have hsub : Sub (.fork k (.blk (k + 1) .nil) (t.flow (k + 1 + 1)) (r.flow (k + 1 + 1 + t.size))) F :=
      ht.sub.trans hL
    have hsubT : Sub (t.flow (k + 1 + 1)) F := (Sub.e .refl).trans hsub
    have hnext : after (Env.ofBody b fuel order).next (one k n sp) = some ⟨k, n + 1⟩ := by
      show some ((b.locationSuccessor ⟨k, n⟩).getD _) = _
      rw [next_inside hk (Nat.lt_succ_self n)]
      rfl
    have hkL : k ∈ L.spine := ht.mem List.mem_cons_self
    obtain ⟨i, hi'⟩ := List.mem_iff_getElem?.1 hkL
    have gt := goes t (k + 1 + 1) 0 _ _ .refl hsubT hst
    have gr := goes r (k + 1 + 1 + t.size) 0 last L (.trans (.fork .refl) ht) hL hsr
    have hstm : b.mapper.stmts k = n + 1 := by
      show (match b[k]? with | some d => d.stmts | none => 0) = n + 1
      rw [hk]
    have memT := head_mem t (k + 1 + 1)
    have memE : k + 1 ∈ (Flow.blk (k + 1) .nil).spine := List.mem_cons_self
    have hET : b.mapper.ldom ⟨k + 1, 0⟩ ⟨k + 1 + 1, 0⟩ = false :=
      hF.ldom_apart hv hsub (.inl ⟨Flow.spine_blocks memE, Flow.spine_blocks memT⟩)
    have fE : (Env.ofBody b fuel order).spanner [(⟨k + 1 + 1, 0⟩, lt)] hi ⟨k + 1, 0⟩ = (⟨k + 1, 0⟩, hi) := by
      refine spanner_miss ho ?_
      intro x hx
      rw [List.mem_singleton] at hx
      subst hx
      exact hET
    have fT : (Env.ofBody b fuel order).spanner [(⟨k + 1 + 1, 0⟩, lt)] hi ⟨k + 1 + 1, 0⟩ = (⟨k + 1 + 1, 0⟩, lt) := by
      refine spanner_hit ho (by simp) (hF.ldom_before hv hsubT (.refl memT)).1 ?_
      intro x hx _
      exact List.mem_singleton.1 hx
    have hnone : ∀ (l : Option Loc) (a c d : Nat), deedAfter (.ofBody b fuel order) ⟨l, none, a, c, d⟩ = [] :=
      fun _ _ _ _ => rfl
    simp only [stmts, deedStmts, deedStmt, deedExpr, deedParts, deedPart, deedBlock, deedFork, deedElse, Expr.node, hnext,
      hnone, ifEntries, setEntry, setSpan, Option.map_none, Option.some_or, deedIf, reduceCtorEq, if_false,
      List.append_nil, List.nil_append, List.cons_append]
    refine .step ⟨i, i, hi', hi', .inr ⟨rfl, Nat.le_succ n⟩⟩ ?_
    have hg := Goes.fork (L := L) (l := ⟨k, n + 1⟩) (els := []) true ht.leads rfl (flow_first t _ _) (flow_first r _ _) fE fT
      memE memT gt .done gr
    rw [List.append_nil, List.append_nil, hstm] at hg
    exact hg

end

end Prog

/-! ## The theorems -/

/-- Every program: the steps are one for each statement without a condition, one for each condition and one into
each branch, in the order of the source, and one at the end; the branches are the `if`s, from the switch to the join. -/
theorem C100_programs (p : Prog) (sp : Nat) {fuel : Nat} (hfu : fuel ≠ 0)
    {order : List (Loc × Nat) → List (Loc × Nat)} (ho : ∀ l, (order l).Perm l) :
    ∃ f locals, compute (.ofBody p.body fuel order) (p.source sp) = .steps f locals ∧
      f.segs.map (fun g => (g.from, g.to, g.span)) =
        p.expected 0 0 ++ [(p.finAt 0 0, ⟨(p.finAt 0 0).block, (p.finAt 0 0).idx + 1⟩, sp)] ∧
      f.branches.map (fun x => (x.reachFrom, x.reachTo)) = p.joins 0 0 := by
  have hv := p.body_valid
  have hF := p.body_structured
  have g := Prog.goes hv hF p.body_plain fuel ho p 0 0 .ret _ .refl .refl p.body_slice
  have hlast := Flow.last_spine (Prog.flow_last p 0 0)
  have hnext : p.body.locationSuccessor (p.finAt 0 0) = some ⟨(p.finAt 0 0).block, (p.finAt 0 0).idx + 1⟩ := by
    obtain ⟨d, hd, hn⟩ := Prog.fin_stmts p 0 0 .ret
    rw [Nat.sub_zero] at hd
    exact Prog.next_inside (b := p.body) hd (by omega)
  refine C100_steps hv hF hfu order (p.source sp) (c := ⟨(p.finAt 0 0).block, (p.finAt 0 0).idx + 1⟩) ?_
  have := Goes.join g (Goes.step (sp := sp) (ds := []) (l := ⟨(p.finAt 0 0).block, (p.finAt 0 0).idx + 1⟩) (by
    obtain ⟨i, hi⟩ := List.mem_iff_getElem?.1 hlast
    exact ⟨i, i, hi, hi, .inr ⟨rfl, Nat.le_succ _⟩⟩) .done)
  have hd : deedBody (.ofBody p.body fuel order) (p.source sp) = deedStmts (.ofBody p.body fuel order) (p.stmts 0 0) ++
      [.step ⟨(p.finAt 0 0).block, (p.finAt 0 0).idx + 1⟩ sp] := by
    have ha : deedAfter (.ofBody p.body fuel order) (p.source sp).node =
        [.step ⟨(p.finAt 0 0).block, (p.finAt 0 0).idx + 1⟩ sp] := by
      unfold deedAfter after
      show (match some ((p.body.locationSuccessor (p.finAt 0 0)).getD _) with
        | none => []
        | some l => [Deed.step l sp]) = _
      rw [hnext]
      rfl
    unfold deedBody
    rw [ha]
    simp [Prog.source, deedExpr, deedParts, deedPart, deedBlock]
  rw [List.append_nil] at this
  rw [hd]
  exact this

namespace Prog

/-- The number of `if`s, at any depth. -/
def ifs : Prog → Nat
  | fin => 0
  | act _ r => r.ifs
  | call _ r => r.ifs
  | ask _ _ _ t e r => 1 + t.ifs + e.ifs + r.ifs
  | only _ _ _ t r => 1 + t.ifs + r.ifs

/-- The number of other statements, at any depth. -/
def plain : Prog → Nat
  | fin => 0
  | act _ r => 1 + r.plain
  | call _ r => 1 + r.plain
  | ask _ _ _ t e r => t.plain + e.plain + r.plain
  | only _ _ _ t r => t.plain + r.plain

/-- A statement without a condition occurs in the program, at any depth, with this span. -/
def Says : Prog → Nat → Prop
  | fin, _ => False
  | act sp r, s => s = sp ∨ r.Says s
  | call sp r, s => s = sp ∨ r.Says s
  | ask _ _ _ t e r, s => t.Says s ∨ e.Says s ∨ r.Says s
  | only _ _ _ t r, s => t.Says s ∨ r.Says s

theorem expected_length : ∀ (p : Prog) (k n : Nat), (p.expected k n).length = p.plain + 3 * p.ifs
  | fin, _, _ => rfl
  | act _ r, k, n => by simp only [expected, List.length_cons, expected_length r, plain, ifs]; omega
  | call _ r, k, n => by simp only [expected, List.length_cons, expected_length r, plain, ifs]; omega
  | ask _ _ _ t e r, k, n => by
    simp only [expected, List.length_cons, List.length_append, expected_length t, expected_length e, expected_length r,
      plain, ifs]
    omega
  | only _ _ _ t r, k, n => by
    simp only [expected, List.length_cons, List.length_append, expected_length t, expected_length r, plain, ifs]
    omega

theorem joins_length : ∀ (p : Prog) (k n : Nat), (p.joins k n).length = p.ifs
  | fin, _, _ => rfl
  | act _ r, k, n => joins_length r k (n + 1)
  | call _ r, k, n => joins_length r (k + 1) 0
  | ask _ _ _ t e r, k, n => by
    simp only [joins, List.length_cons, List.length_append, joins_length t, joins_length e, joins_length r, ifs]
    omega
  | only _ _ _ t r, k, n => by
    simp only [joins, List.length_cons, List.length_append, joins_length t, joins_length r, ifs]
    omega

theorem says_expected : ∀ (p : Prog) (k n s : Nat), p.Says s → ∃ x ∈ p.expected k n, x.2.2 = s
  | fin, _, _, _, h => h.elim
  | act sp r, k, n, s, h => by
    rcases h with rfl | h
    · exact ⟨_, List.mem_cons_self, rfl⟩
    · obtain ⟨x, hx, h⟩ := says_expected r k (n + 1) s h
      exact ⟨x, List.mem_cons_of_mem _ hx, h⟩
  | call sp r, k, n, s, h => by
    rcases h with rfl | h
    · exact ⟨_, List.mem_cons_self, rfl⟩
    · obtain ⟨x, hx, h⟩ := says_expected r (k + 1) 0 s h
      exact ⟨x, List.mem_cons_of_mem _ hx, h⟩
  | ask _ _ _ t e r, k, n, s, h => by
    rcases h with h | h | h
    · obtain ⟨x, hx, h⟩ := says_expected t (k + 1 + e.size) 0 s h
      exact ⟨x, by simp only [expected, List.mem_cons, List.mem_append]; exact .inr (.inr (.inr (.inl (.inl hx)))), h⟩
    · obtain ⟨x, hx, h⟩ := says_expected e (k + 1) 0 s h
      exact ⟨x, by simp only [expected, List.mem_cons, List.mem_append]; exact .inr (.inr (.inr (.inl (.inr hx)))), h⟩
    · obtain ⟨x, hx, h⟩ := says_expected r (k + 1 + e.size + t.size) 0 s h
      exact ⟨x, by simp only [expected, List.mem_cons, List.mem_append]; exact .inr (.inr (.inr (.inr hx))), h⟩
  | only _ _ _ t r, k, n, s, h => by
    rcases h with h | h
    · obtain ⟨x, hx, h⟩ := says_expected t (k + 1 + 1) 0 s h
      exact ⟨x, by simp only [expected, List.mem_cons, List.mem_append]; exact .inr (.inr (.inr (.inl hx))), h⟩
    · obtain ⟨x, hx, h⟩ := says_expected r (k + 1 + 1 + t.size) 0 s h
      exact ⟨x, by simp only [expected, List.mem_cons, List.mem_append]; exact .inr (.inr (.inr (.inr hx))), h⟩

end Prog

/-- How much is shown: one step for each statement without a condition, three for each `if`, one at the end; one
branch for each `if`.  No statement, however deeply nested, goes without a step. -/
theorem C100_counts (p : Prog) (sp : Nat) {fuel : Nat} (hfu : fuel ≠ 0)
    {order : List (Loc × Nat) → List (Loc × Nat)} (ho : ∀ l, (order l).Perm l) :
    ∃ f locals, compute (.ofBody p.body fuel order) (p.source sp) = .steps f locals ∧
      f.segs.length = p.plain + 3 * p.ifs + 1 ∧ f.branches.length = p.ifs ∧
      ∀ s, p.Says s → ∃ g ∈ f.segs, g.span = s := by
  obtain ⟨f, locals, h1, h2, h3⟩ := C100_programs p sp hfu ho
  refine ⟨f, locals, h1, ?_, ?_, ?_⟩
  · have := congrArg List.length h2
    rw [List.length_map, List.length_append, Prog.expected_length] at this
    exact this
  · have := congrArg List.length h3
    rw [List.length_map, Prog.joins_length] at this
    exact this
  · intro s hs
    obtain ⟨x, hx, hxs⟩ := Prog.says_expected p 0 0 s hs
    have hm : x ∈ f.segs.map (fun g => (g.from, g.to, g.span)) := by
      rw [h2]
      exact List.mem_append_left _ hx
    obtain ⟨g, hg, rfl⟩ := List.mem_map.1 hm
    exact ⟨g, hg, hxs⟩

/-- The branch of a conditional ends where its arms come together. -/
theorem C100_join {b : Body} {F : Flow} (hv : Valid b) (h : Structured b F) {a : Nat} {t e r : Flow}
    (hs : Sub (.fork a t e r) F) : ∃ j, b.mapper.lpd a = some j ∧ r.first none = some j ∧ j ∈ r.spine := by
  obtain ⟨x, hx⟩ := hs.lay h.lay
  obtain ⟨j, hj, hm⟩ := Flow.first_spine hx.2.2.1
  exact ⟨j, by rw [h.join hv hs, hj], hj none, hm⟩

/-- Dominance in a body of nested conditionals: a block dominates what is nested in it or comes after it on its level
and below; nothing in an arm dominates anything outside of it. -/
theorem C100_dominators {b : Body} {F : Flow} (h : Structured b F) (u v : Nat) :
    (Dominates b.succ u v ↔ v ∈ F.blocks ∧ (u = v ∨ F.Fore u v)) ∧
    (u ∈ F.blocks → (PostDominates b.succ b.returns u v ↔ u = v ∨ F.Aft u v)) :=
  ⟨h.dom u v, h.pdom⟩

/-! ## A program

`x = 1; if c { f(); if d { y = 2 } } else { z = 3; if g { h() } else { } } w = 4` -/

namespace Example

def prog : Prog :=
  .act 10 (.ask 11 12 13 (.call 20 (.only 21 22 23 (.act 24 .fin) .fin))
    (.act 30 (.ask 31 32 33 (.call 34 .fin) .fin .fin)) (.act 40 .fin))

/-- Its blocks: two switches inside the two arms of a third one. -/
example : prog.size = 12 ∧ prog.ifs = 3 ∧ prog.plain = 6 := by decide

/-- What the model shows of it, run on the example, not by the theorem. -/
example : (match compute (.ofBody prog.body 3 id) (prog.source 50) with
    | .steps f _ => decide (f.segs.map (fun g => (g.from, g.to, g.span)) = prog.expected 0 0 ++
        [(⟨11, 1⟩, ⟨11, 2⟩, 50)] ∧ f.branches.map (fun x => (x.reachFrom, x.reachTo)) = [
          (⟨0, 2⟩, ⟨11, 0⟩), (⟨7, 1⟩, ⟨10, 0⟩), (⟨1, 2⟩, ⟨5, 0⟩)])
    | _ => false) = true := by decide +kernel

/-- The same with the arms listed the other way round. -/
example : (match compute (.ofBody prog.body 3 List.reverse) (prog.source 50) with
    | .steps f _ => decide (f.segs.map (·.span) =
        [10, 11, 13, 12, 20, 21, 23, 22, 24, 30, 31, 33, 32, 34, 40, 50])
    | _ => false) = true := by decide +kernel

example : prog.Says 24 ∧ prog.Says 34 ∧ ¬ prog.Says 33 := by simp [prog, Prog.Says]

end Example

end Verif.HirSteps
