import Verif.Walk.Props
import Verif.Walk.Ends
import Verif.HirSource.Props
/-!
# From the nodes of the source to the walk

`Walk/Lang.lean` writes down at which locations the nodes of a program begin and end.  Here they are computed as the code
does it, by `get_node_entry` and `get_node_exit`, from nothing but which locations belong to which node.
-/
namespace Verif.Walk

open Verif.Cfg Verif.Segments Verif.Graph Verif.HirSteps Verif.HirSource
open Verif.HirSteps.Prog (Slice Slice.left Slice.right Slice.tail next_inside)

/-! ## Specification: a program as source -/

mutual
/-- An expression without blocks, conditionals and closures. -/
def calmExpr : RExpr → Bool
  | .other _ ps => calmParts ps
  | _ => false
def calmParts : List RPart → Bool
  | [] => true
  | .expr e :: r => calmExpr e && calmParts r
  | _ :: _ => false
end

/-- The code of the node begins here and lies in the blocks up to `e`. -/
structure Begins (s : Source) (id : Nat) (a : Loc) (e : Nat) : Prop where
  mem : LocOf s id a
  all : ∀ l, LocOf s id l → In a.block e l.block ∧ (l.block = a.block → a.idx ≤ l.idx)

/-- The code of the node ends here and lies in the blocks from `k` on. -/
structure Stops (s : Source) (id : Nat) (k : Nat) (z : Loc) : Prop where
  mem : LocOf s id z
  all : ∀ l, LocOf s id l → k ≤ l.block ∧ l.block ≤ z.block ∧ (l.block = z.block → l.idx ≤ z.idx)

/-- The code of the node lies in these blocks and has a location in two of the ways through them. -/
structure Splits (s : Source) (id : Nat) (k e : Nat) (a c : Loc) : Prop where
  fst : LocOf s id a
  snd : LocOf s id c
  all : ∀ l, LocOf s id l → In k e l.block

/-- A block of the source, as an expression. -/
def rbraces (i j : Nat) (b : List RStmt) : RExpr := .other i [.block (.mk j b none)]

mutual
/-- The statements of the source that belong to a program whose code begins at the location `⟨k, n⟩`. -/
inductive Means (s : Source) : Prog → Nat → Nat → List RStmt → Prop
  | fin {k n} : Means s .fin k n []
  | act {sp r k n id e rest} : calmExpr e = true → s.span id = sp → Stops s id k ⟨k, n⟩ → Means s r k (n + 1) rest →
      Means s (.act sp r) k n (.expr id e :: rest)
  | bind {sp vs r k n id lid e rest} : calmExpr e = true → s.span id = sp → s.declared lid = vs → Stops s id k ⟨k, n⟩ →
      Means s r k (n + 1) rest → Means s (.bind sp vs r) k n (.lt id lid (some e) none :: rest)
  | call {sp r k n id e rest} : calmExpr e = true → s.span id = sp → Stops s id k ⟨k, n⟩ → Means s r (k + 1) 0 rest →
      Means s (.call sp r) k n (.expr id e :: rest)
  | ite {sp lt le hi t e r k n id i c it jt ie je st se rest} :
      calmExpr c = true → s.span c.id = sp → Stops s c.id k ⟨k, n⟩ →
      Begins s it ⟨k + 1 + e.size, 0⟩ (k + 1 + e.size + t.size) → s.lo it = lt →
      Begins s ie ⟨k + 1, 0⟩ (k + 1 + e.size) → s.lo ie = le → s.hi i = hi →
      Splits s id k (k + 1 + e.size + t.size) ⟨k + 1, 0⟩ ⟨k + 1 + e.size, 0⟩ →
      Means s t (k + 1 + e.size) 0 st → Means s e (k + 1) 0 se → Means s r (k + 1 + e.size + t.size) 0 rest →
      Means s (.ite sp lt le hi t e r) k n (.expr id (.ite i c (rbraces it jt st) (some (rbraces ie je se))) :: rest)
  | only {sp lt hi t r k n id i c it jt st rest} :
      calmExpr c = true → s.span c.id = sp → Stops s c.id k ⟨k, n⟩ →
      Begins s it ⟨k + 1 + 1, 0⟩ (k + 1 + 1 + t.size) → s.lo it = lt → s.hi i = hi →
      Splits s id k (k + 1 + 1 + t.size) ⟨k + 1, 0⟩ ⟨k + 1 + 1, 0⟩ →
      Means s t (k + 1 + 1) 0 st → Means s r (k + 1 + 1 + t.size) 0 rest →
      Means s (.only sp lt hi t r) k n (.expr id (.ite i c (rbraces it jt st) none) :: rest)
  | mtch {sp ds inf f as r k n id i c a x rest} {l : Loc × Nat} :
      calmExpr c = true → s.span c.id = sp → Stops s c.id k ⟨k, n⟩ →
      ArmMeans s inf f (k + 1 + 1) a → ArmsMean s as (k + 1 + 1 + f.size) x →
      (as.entries (k + 1 + 1 + f.size))[0]? = some l →
      Splits s id k (k + 1 + 1 + f.size + as.size) ⟨k + 1 + 1, inf.nb⟩ l.1 →
      Means s r (k + 1 + 1 + f.size + as.size) 0 rest →
      Means s (.mtch sp ds inf f as r) k n (.expr id (.mtch i false c (a :: x)) :: rest)
  | whl {sp sc lt hi sb c t r k n id i cnd it jt ie je ib eb st rest} :
      s.span id = sp → Stops s id k ⟨k + 3 + c + t.size, 0⟩ → s.hi i = hi →
      calmExpr cnd = true → s.span cnd.id = sc → Stops s cnd.id (k + 2) ⟨k + 2 + c, 0⟩ →
      Begins s it ⟨k + 3 + c, 0⟩ (k + 3 + c + t.size) → s.lo it = lt →
      Begins s ie ⟨k + 3 + c + t.size, 0⟩ (k + 3 + c + t.size + 1) →
      calmExpr eb = true → s.span ib = sb → Stops s ib (k + 3 + c + t.size) ⟨k + 3 + c + t.size, 0⟩ →
      Means s t (k + 3 + c) 0 st → Means s r (k + 3 + c + t.size) 1 rest →
      Means s (.whl sp sc lt hi sb c t r) k n
        (.expr id (.whileLoop i cnd (rbraces it jt st) (rbraces ie je [.expr ib eb])) :: rest)
  | frl {sp sa sc hi sn lb li nb t r k n id i c ia pa il cl inn pn en im pm it jt st rest} :
      s.span id = sp → Stops s id k ⟨k + 6 + t.size, 0⟩ →
      calmExpr c = true → Stops s c.id k ⟨k, n⟩ →
      Begins s ia ⟨k + 1, 0⟩ (k + 6 + t.size + 1) → s.lo ia = sa →
      Begins s il ⟨k + 3, 0⟩ (k + 6 + t.size + 1) → s.hi il = hi →
      calmExpr cl = true → s.span cl.id = sc → Stops s cl.id (k + 3) ⟨k + 3, 1⟩ →
      Begins s inn ⟨k + 6 + t.size, 0⟩ (k + 6 + t.size + 1) → s.lo inn = sn →
      calmExpr en = true → Begins s en.id ⟨k + 6 + t.size, 0⟩ (k + 6 + t.size + 1) →
      Begins s im ⟨k + 6, 0⟩ (k + 6 + t.size) → s.lo im = li →
      Begins s it ⟨k + 6, nb⟩ (k + 6 + t.size) → s.lo it = lb →
      Means s t (k + 6) nb st → Means s r (k + 6 + t.size) 1 rest →
      Means s (.frl sp sa sc hi sn lb li nb t r) k n
        (.expr id (.mtch i true c [.mk ia pa none (.forLoop il cl (.mk inn pn none en)
          (.mk im pm none (rbraces it jt st)))]) :: rest)
/-- An arm of a `match`, the code of which begins at the block `k`. -/
inductive ArmMeans (s : Source) : ArmInfo → Prog → Nat → RArm → Prop
  | mk {inf f k ia pa it jt st} : s.lo ia = inf.lo → s.hi pa = inf.pat → Begins s ia ⟨k, 0⟩ (k + f.size) →
      Begins s it ⟨k, inf.nb⟩ (k + f.size) → Means s f k inf.nb st →
      ArmMeans s inf f k (.mk ia pa none (rbraces it jt st))
inductive ArmsMean (s : Source) : Arms → Nat → List RArm → Prop
  | last {inf f k a} : ArmMeans s inf f k a → ArmsMean s (.last inf f) k [a]
  | cons {inf f as k a x} : ArmMeans s inf f (k + 1) a → ArmsMean s as (k + 1 + f.size) x →
      ArmsMean s (.cons inf f as) k (a :: x)
end

/-- The source of a function that is this program; the whole is shown at `sp`. -/
inductive Written (s : Source) (p : Prog) (sp : Nat) : RExpr → Prop
  | mk {i j ss} : s.body = p.body → s.span i = sp → Stops s i 0 (p.finAt 0 0) → Means s p 0 0 ss →
      Written s p sp (rbraces i j ss)

/-! ## Where nodes begin and end -/

section
variable {s : Source} {ret : Nat}

theorem exit_eq (W : Whole s.body ret) {id : Nat} {e : Loc} (he : LocOf s id e)
    (h : ∀ l, LocOf s id l → PostDominates s.body.succ s.body.returns l.block e.block ∧ (l.block = e.block → l.idx ≤ e.idx)) :
    (s.node id).exit = some e := by
  obtain ⟨h1, h2⟩ := C99_end W.valid id
  obtain ⟨e', he'⟩ := h1.2 ⟨e, he, fun l hl => (h l hl).1⟩
  obtain ⟨h3, h4⟩ := h2 e' he'
  have hm : ret ∈ s.body.returns := by rw [W.returns]; exact List.mem_singleton.2 rfl
  have a1 := (h4 e he).1 ret hm
  have a2 := (h e' h3).1 ret hm
  have hb : e.block = e'.block := postdominance_antisymm a1.1 a1.2 a2.2
  have i1 := (h4 e he).2 hb
  have i2 := (h e' h3).2 hb.symm
  rw [he']
  congr 1
  cases e
  cases e'
  simp only [Loc.mk.injEq] at *
  exact ⟨hb.symm, by omega⟩

theorem entry_eq (W : Whole s.body ret) {id : Nat} {e : Loc} (he : LocOf s id e)
    (h : ∀ l, LocOf s id l → Dominates s.body.succ e.block l.block ∧ (l.block = e.block → e.idx ≤ l.idx)) :
    (s.node id).entry = some e := by
  obtain ⟨h1, h2⟩ := C99_begin W.valid id
  obtain ⟨e', he'⟩ := h1.2 ⟨e, he, fun l hl => (h l hl).1⟩
  obtain ⟨h3, h4⟩ := h2 e' he'
  have a1 := (h4 e he).1
  have a2 := (h e' h3).1
  have hb : e'.block = e.block := dominance_antisymm a1.1 a1.2 a2.2
  have i1 := (h4 e he).2 hb.symm
  have i2 := (h e' h3).2 hb
  rw [he']
  congr 1
  cases e
  cases e'
  simp only [Loc.mk.injEq] at *
  exact ⟨hb, by omega⟩

/-- The code of the node is dominated by its first block. -/
theorem Begins.entry (W : Whole s.body ret) {id : Nat} {a : Loc} {e : Nat} (h : Begins s id a e)
    (hd : ∀ y, In a.block e y → Dominates s.body.succ a.block y) : (s.node id).entry = some a :=
  entry_eq W h.mem fun l hl => ⟨hd _ (h.all l hl).1, (h.all l hl).2⟩

theorem Stops.exit (W : Whole s.body ret) {id k : Nat} {z : Loc} (h : Stops s id k z)
    (hd : ∀ y, k ≤ y → y ≤ z.block → PostDominates s.body.succ s.body.returns y z.block) : (s.node id).exit = some z :=
  exit_eq W h.mem fun l hl => ⟨hd _ (h.all l hl).1 (h.all l hl).2.1, (h.all l hl).2.2⟩

/-- Code that ends in the block in which it begins. -/
theorem Stops.here (W : Whole s.body ret) {id k n : Nat} (h : Stops s id k ⟨k, n⟩)
    (hr : Reach s.body.succ 0 k) : (s.node id).exit = some ⟨k, n⟩ := by
  refine h.exit W fun y h1 h2 => ?_
  obtain rfl : y = k := Nat.le_antisymm h2 h1
  exact W.pdom hr fun l hl => hl.head_mem

/-- A node with code in two arms has no end. -/
theorem Splits.exit (W : Whole s.body ret) {id : Nat} {as : Limbs} {r : Shape} {k : Nat} {xs : List Nat}
    (P : Place s.body.succ (.fork as r) k xs) (hreal : ¬ EndsInFalseEdge s.body (k + 1 + as.size)) {a c : Loc}
    (h : Splits s id k (k + 1 + as.size) a c) {h0 h1 : Nat} {hd0 hd1 : Bool} {f0 f1 : Shape}
    (hp0 : (as.parts (k + 1))[0]? = some (h0, hd0, f0)) (hp1 : (as.parts (k + 1))[1]? = some (h1, hd1, f1))
    (ha : In h0 (h0 + hd0.toNat + f0.size) a.block) (hc : In h1 (h1 + hd1.toNat + f1.size) c.block) :
    (s.node id).exit = none := by
  have F := P.forked
  have B := P.fork W hreal
  have hm : ret ∈ s.body.returns := by rw [W.returns]; exact List.mem_singleton.2 rfl
  cases hx : (s.node id).exit with
  | none => rfl
  | some z =>
    exfalso
    obtain ⟨hz, hall⟩ := (C99_end W.valid id).2 z hx
    have hzin := h.all z hz
    -- a way from an arm in which the end is not
    have key : ∀ (i h' : Nat) (hd : Bool) (f : Shape) (y : Nat), (as.parts (k + 1))[i]? = some (h', hd, f) →
        In h' (h' + hd.toNat + f.size) y → ¬ In h' (h' + hd.toNat + f.size) z.block →
        PostDominates s.body.succ s.body.returns y z.block → False := by
      intro i h' hd f y hpt hy hnz hpd
      have hpf := f.pos
      have hw : Via s.body.succ (fun u => u ≠ z.block) y (k + 1 + as.size) := by
        refine ((Limbs.ways F.limbs hpt hy).2.mono fun u hu => ?_).snoc (c := k + 1 + as.size) ?_ ?_
        · rintro rfl
          exact hnz hu
        · rw [Shape.last (Limbs.fits F.limbs hpt).1]
          exact List.mem_cons_self
        · have := hzin.2
          omega
      obtain ⟨l0, hl0, hu0⟩ := hw
      have h1 : PostDominates s.body.succ s.body.returns z.block (k + 1 + as.size) := B.pdom hzin
      have := postdominance_antisymm (h1 ret hm).1 (h1 ret hm).2 (fun l hl => by
        have := (hpd ret hm).2 _ (hl0.append hl)
        rcases List.mem_append.1 this with h | h
        · exact absurd rfl (hu0 _ h)
        · exact List.mem_of_mem_tail h)
      have := hzin.2
      omega
    by_cases h0z : In h0 (h0 + hd0.toNat + f0.size) z.block
    · exact key 1 h1 hd1 f1 c.block hp1 hc (Forked.disjoint hp0 hp1 (by decide) h0z) (hall c h.snd).1
    · exact key 0 h0 hd0 f0 a.block hp0 ha h0z (hall a h.fst).1

end

/-! ## What there is to do -/

mutual
theorem calm_expr (s : Source) (E : Env) : ∀ e : RExpr, calmExpr e = true → deedExpr E (s.expr e) = []
  | .other _ ps, h => by
    rw [calmExpr] at h
    simp only [Source.expr, deedExpr]
    exact calm_parts s E ps h
  | .ite _ _ _ _, h => by simp [calmExpr] at h
  | .whileLoop _ _ _ _, h => by simp [calmExpr] at h
  | .forLoop _ _ _ _, h => by simp [calmExpr] at h
  | .mtch _ _ _ _, h => by simp [calmExpr] at h
theorem calm_parts (s : Source) (E : Env) : ∀ ps : List RPart, calmParts ps = true → deedParts E (s.parts ps) = []
  | [], _ => by simp [Source.parts, deedParts]
  | .expr e :: r, h => by
    rw [calmParts, Bool.and_eq_true] at h
    simp only [Source.parts, Source.part, deedParts, deedPart, calm_expr s E e h.1, calm_parts s E r h.2, List.nil_append]
  | .block _ :: _, h => by simp [calmParts] at h
  | .body _ :: _, h => by simp [calmParts] at h
end

theorem node_expr (s : Source) : ∀ e : RExpr, (s.expr e).node = s.node e.id
  | .ite _ _ _ _ => by rw [Source.expr]; rfl
  | .whileLoop _ _ _ _ => by rw [Source.expr]; rfl
  | .forLoop _ _ _ _ => by rw [Source.expr]; rfl
  | .mtch _ _ _ _ => by rw [Source.expr]; rfl
  | .other _ _ => by rw [Source.expr]; rfl

theorem other_id (n : Nat) (ps : List RPart) : (RExpr.other n ps).id = n := rfl
theorem for_node (n : Node) (c : Expr) (a b : Arm) : (Expr.forLoop n c a b).node = n := rfl
theorem other_node (n : Node) (ps : List Part) : (Expr.other n ps).node = n := rfl

theorem node_lo (s : Source) (i : Nat) : (s.node i).lo = s.lo i := rfl
theorem node_hi (s : Source) (i : Nat) : (s.node i).hi = s.hi i := rfl
theorem node_span (s : Source) (i : Nat) : (s.node i).span = s.span i := rfl

section
variable {b : Body} {fuel : Nat} {order : List (Loc × Nat) → List (Loc × Nat)}

theorem after_node {n : Node} {l l' : Loc} (h : n.exit = some l) (hn : b.locationSuccessor l = some l') :
    after (Env.ofBody b fuel order).next n = some l' := by
  obtain ⟨e, x, sp, lo, hi⟩ := n
  cases h
  exact after_next hn

theorem deedAfter_node {n : Node} {l l' : Loc} (h : n.exit = some l) (hn : b.locationSuccessor l = some l') :
    deedAfter (.ofBody b fuel order) n = [.step l' n.span] := by
  unfold deedAfter
  rw [after_node h hn]

theorem deedAfter_lost {E : Env} {n : Node} (h : n.exit = none) : deedAfter E n = [] := by
  obtain ⟨e, x, sp, lo, hi⟩ := n
  cases h
  rfl

theorem deedFork_node {n cn : Node} {l l' : Loc} (h : cn.exit = some l) (hn : b.locationSuccessor l = some l') (f : Spanner)
    (arms : List (List Deed)) :
    deedFork (.ofBody b fuel order) n cn f arms = [.step l' cn.span, .fork l' f arms] := by
  unfold deedFork
  rw [after_node h hn]
  rfl

theorem deedFork_one {n : Node} {e : Option Loc} {l l' : Loc} {sp lo hi : Nat} (hn : b.locationSuccessor l = some l')
    (f : Spanner) (arms : List (List Deed)) :
    deedFork (.ofBody b fuel order) n ⟨e, some l, sp, lo, hi⟩ f arms = [.step l' sp, .fork l' f arms] :=
  deedFork_node rfl hn f arms

end

theorem Place.start {succ : Nat → List Nat} {t : Shape} {k : Nat} {xs : List Nat} (P : Place succ t k xs) : Reach succ 0 k :=
  P.region.reach0 ⟨Nat.le_refl _, Nat.lt_add_of_pos_right t.pos⟩

theorem Place.first {succ : Nat → List Nat} {t : Shape} {k y : Nat} {xs : List Nat} (P : Place succ t k xs)
    (hy : In k (k + 1) y) : Dominates succ k y := by
  obtain rfl : y = k := by unfold In at hy; omega
  exact P.region.dom ⟨Nat.le_refl _, Nat.lt_add_of_pos_right t.pos⟩

theorem armEntries_same : ∀ {as as' : List Arm} (m : List (Loc × Nat)),
    as.map (fun a => (a.body.node.entry, a.pat.hi)) = as'.map (fun a => (a.body.node.entry, a.pat.hi)) →
    as.foldl (fun m a => setEntry m a.body.node.entry a.pat.hi) m =
      as'.foldl (fun m a => setEntry m a.body.node.entry a.pat.hi) m
  | [], [], _, _ => rfl
  | [], _ :: _, _, h => by simp at h
  | _ :: _, [], _, h => by simp at h
  | a :: as, a' :: as', m, h => by
    simp only [List.map_cons, List.cons.injEq, Prod.mk.injEq] at h
    rw [List.foldl_cons, List.foldl_cons, h.1.1, h.1.2]
    exact armEntries_same _ h.2

/-- Ways out of a set of blocks lead to one block. -/
theorem leave_pdom {b : Body} {ret : Nat} (W : Whole b ret) {k x y : Nat} (hr : Reach b.succ 0 y)
    (h : ∀ u v, v ∈ b.succ u → In k x u → In k x v ∨ v = x) (hret : ¬ In k x ret) (h1 : k ≤ y) (h2 : y ≤ x) :
    PostDominates b.succ b.returns y x := by
  refine W.pdom hr fun l hl => ?_
  by_cases hx : y = x
  · subst hx
    exact hl.head_mem
  · refine Flow.leave (B := In k x) ?_ hl ⟨h1, by omega⟩ hret
    intro p q hp hq hnq
    rcases h p q hq hp with h | h
    · exact absurd h hnq
    · exact h

theorem ArmMeans.facts {s : Source} {inf : ArmInfo} {f : Prog} {k : Nat} {a : RArm} (h : ArmMeans s inf f k a) :
    ∃ ia pa it jt st, a = .mk ia pa none (rbraces it jt st) ∧ s.lo ia = inf.lo ∧ s.hi pa = inf.pat ∧
      Begins s ia ⟨k, 0⟩ (k + f.size) ∧ Begins s it ⟨k, inf.nb⟩ (k + f.size) ∧ Means s f k inf.nb st := by
  cases h
  exact ⟨_, _, _, _, _, rfl, ‹_›, ‹_›, ‹_›, ‹_›, ‹_›⟩

/-- An arm: what there is to do in it, and where its body begins. -/
theorem arm_same {s : Source} {ret : Nat} (W : Whole s.body ret) (E : Env) {inf : ArmInfo} {f : Prog} {k : Nat} {e : Loc}
    (R : Region s.body.succ k (k + f.size)) {ia pa it jt : Nat} {st : List RStmt}
    (h1 : s.lo ia = inf.lo) (h2 : s.hi pa = inf.pat) (h3 : Begins s ia ⟨k, 0⟩ (k + f.size))
    (h4 : Begins s it ⟨k, inf.nb⟩ (k + f.size)) {x : List Stmt} (h5 : deedStmts E (s.stmts st) = deedStmts E x) :
    deedArm E (s.arm (.mk ia pa none (rbraces it jt st))) = deedArm E (armOf inf ⟨k, inf.nb⟩ e x) ∧
    (s.arm (.mk ia pa none (rbraces it jt st))).body.node.entry = some ⟨k, inf.nb⟩ ∧
    (s.arm (.mk ia pa none (rbraces it jt st))).pat.hi = inf.pat := by
  have e1 := h3.entry W fun y hy => R.dom hy
  have e2 := h4.entry W fun y hy => R.dom hy
  refine ⟨?_, ?_, ?_⟩
  · simp only [Source.arm, rbraces, Source.expr, Source.parts, Source.part, Source.block, Source.optExpr, deedArm,
      deedArmOf, Expr.node, deedExpr, deedParts, deedPart, deedBlock, armOf, braces, e1, e2, h5, node_lo, h1]
  · simp only [Source.arm, rbraces, Source.expr, Arm.body, Expr.node]
    exact e2
  · simp only [Source.arm, Arm.pat]
    exact h2

mutual
theorem Means.deeds {s : Source} {ret : Nat} (W : Whole s.body ret) (fuel : Nat)
    (order : List (Loc × Nat) → List (Loc × Nat)) : ∀ (p : Prog) (k n : Nat) (last : Term) (xs : List Nat)
    (ss : List RStmt), (∀ r i, last ≠ .falseEdge r i) → Place s.body.succ p.shape k xs →
    Slice s.body k (p.code k n last) → Means s p k n ss →
    deedStmts (.ofBody s.body fuel order) (s.stmts ss) = deedStmts (.ofBody s.body fuel order) (p.stmts k n)
  | .fin, k, n, last, xs, ss, hl, P, hs, hm => by
    cases hm
    simp only [Source.stmts, Prog.stmts]
  | .act sp r, k, n, last, xs, ss, hl, P, hs, hm => by
    cases hm with
    | act hc hsp hst hr =>
      obtain ⟨d, hd, hn⟩ := head_of (p := r) (n := n + 1) hl hs
      have hnext := next_inside hd (n := n) (by omega)
      have hx := hst.here W P.start
      have ih := Means.deeds W fuel order r k (n + 1) last xs _ hl P hs hr
      simp only [Source.stmts, Source.stmt, Prog.stmts, deedStmts, deedStmt, calm_expr s _ _ hc, deedExpr, deedParts, one,
        deedAfter_some hnext, deedAfter_node hx hnext, node_span, hsp, ih]
  | .bind sp vs r, k, n, last, xs, ss, hl, P, hs, hm => by
    cases hm with
    | bind hc hsp hv hst hr =>
      obtain ⟨d, hd, hn⟩ := head_of (p := r) (n := n + 1) hl hs
      have hnext := next_inside hd (n := n) (by omega)
      have hx := hst.here W P.start
      have ih := Means.deeds W fuel order r k (n + 1) last xs _ hl P hs hr
      simp only [Source.stmts, Source.stmt, Source.optExpr, Source.optBlock, Prog.stmts, deedStmts, deedStmt, deedOpt,
        deedOptBlock, calm_expr s _ _ hc, deedExpr, deedParts, one, deedAfter_some hnext, deedAfter_node hx hnext, node_span,
        hsp, ih]
  | .call sp r, k, n, last, xs, ss, hl, P, hs, hm => by
    cases hm with
    | call hc hsp hst hr =>
      obtain ⟨hd, hsr⟩ := Slice.tail hs
      have hf := P.fits
      rw [Prog.shape, Shape.Fits] at hf
      have hnext := next_block hd (Nat.le_refl n) hf.1
      have hx := hst.here W P.start
      have ih := Means.deeds W fuel order r (k + 1) 0 last xs _ hl P.line hsr hr
      simp only [Source.stmts, Source.stmt, Prog.stmts, deedStmts, deedStmt, calm_expr s _ _ hc, deedExpr, deedParts, one,
        deedAfter_some hnext, deedAfter_node hx hnext, node_span, hsp, ih]
  | .ite sp lt le hi t e r, k, n, last, xs, ss, hl, P, hs, hm => by
    cases hm with
    | @ite _ _ _ _ _ _ _ _ _ id i c it jt ie je st se rest hc hsp hcs hbt hlt hbe hle hhi hspl ht he hr =>
      obtain ⟨hd, hse, hst, hsr⟩ := slice_ite hs
      have hpt := t.size_pos
      have hpe := e.size_pos
      have hj : k + 1 + (Limbs.cons false e.shape (.cons false t.shape .nil)).size = k + 1 + e.size + t.size := by
        simp only [Limbs.size, Bool.toNat_false, Prog.size]; omega
      have hx := hcs.here W P.start
      rw [Prog.shape] at P
      have hreal : ¬ EndsInFalseEdge s.body (k + 1 + e.size + t.size) := real_of hl hsr
      have hp0 : ((Limbs.cons false e.shape (.cons false t.shape .nil)).parts (k + 1))[0]? =
        some (k + 1, false, e.shape) := rfl
      have hp1 : ((Limbs.cons false e.shape (.cons false t.shape .nil)).parts (k + 1))[1]? =
        some (k + 1 + e.size, false, t.shape) := rfl
      have hnext := next_inside hd (n := n) (Nat.lt_succ_self n)
      have PE := P.limb hp0
      have PT := P.limb hp1
      have PR := P.join
      rw [hj] at PR
      have hno : (s.node id).exit = none := Splits.exit W P (hj.symm ▸ hreal) (hj.symm ▸ hspl) hp0 hp1
        ⟨Nat.le_refl _, Nat.lt_add_of_pos_right hpe⟩ ⟨Nat.le_refl _, Nat.lt_add_of_pos_right hpt⟩
      have e1 := hbt.entry W fun y hy => PT.region.dom hy
      have e2 := hbe.entry W fun y hy => PE.region.dom hy
      have iht := Means.deeds W fuel order t (k + 1 + e.size) 0 _ _ _ (by intro _ _ h; cases h) PT hst ht
      have ihe := Means.deeds W fuel order e (k + 1) 0 _ _ _ (by intro _ _ h; cases h) PE hse he
      have ihr := Means.deeds W fuel order r (k + 1 + e.size + t.size) 0 last xs _ hl PR hsr hr
      simp only [Source.stmts, Source.stmt, Source.expr, Source.optExpr, rbraces, Source.parts, Source.part, Source.block,
        Prog.stmts, deedStmts, deedStmt, calm_expr s _ _ hc, deedExpr, deedParts, deedPart, deedBlock, deedElse, node_expr, other_id,
        other_node, deedFork_node hx hnext, deedAfter_lost hno, one, deedFork_one hnext, deedAfter_none, ifEntries,
        setEntry, braces, Option.map_some, Option.some_or, deedIf, e1, e2, node_lo, node_hi, node_span, hsp, hlt, hle, hhi,
        reduceCtorEq, if_false, List.append_nil, List.nil_append, iht, ihe, ihr]
  | .only sp lt hi t r, k, n, last, xs, ss, hl, P, hs, hm => by
    cases hm with
    | @only _ _ _ _ _ _ _ id i c it jt st rest hc hsp hcs hbt hlt hhi hspl ht hr =>
      obtain ⟨hd, hse, hst, hsr⟩ := slice_only hs
      have hpt := t.size_pos
      have hj : k + 1 + (Limbs.cons false .fin (.cons false t.shape .nil)).size = k + 1 + 1 + t.size := by
        simp only [Limbs.size, Shape.size, Bool.toNat_false, Prog.size]; omega
      have hx := hcs.here W P.start
      rw [Prog.shape] at P
      have hreal : ¬ EndsInFalseEdge s.body (k + 1 + 1 + t.size) := real_of hl hsr
      have hp0 : ((Limbs.cons false .fin (.cons false t.shape .nil)).parts (k + 1))[0]? = some (k + 1, false, .fin) := rfl
      have hp1 : ((Limbs.cons false .fin (.cons false t.shape .nil)).parts (k + 1))[1]? =
        some (k + 1 + 1, false, t.shape) := rfl
      have hnext := next_inside hd (n := n) (Nat.lt_succ_self n)
      have PT := P.limb hp1
      have PR := P.join
      rw [hj] at PR
      have hno : (s.node id).exit = none := Splits.exit W P (hj.symm ▸ hreal) (hj.symm ▸ hspl) hp0 hp1
        ⟨Nat.le_refl _, Nat.lt_succ_self _⟩ ⟨Nat.le_refl _, Nat.lt_add_of_pos_right hpt⟩
      have e1 := hbt.entry W fun y hy => PT.region.dom hy
      have iht := Means.deeds W fuel order t (k + 1 + 1) 0 _ _ _ (by intro _ _ h; cases h) PT hst ht
      have ihr := Means.deeds W fuel order r (k + 1 + 1 + t.size) 0 last xs _ hl PR hsr hr
      simp only [Source.stmts, Source.stmt, Source.expr, Source.optExpr, rbraces, Source.parts, Source.part, Source.block,
        Prog.stmts, deedStmts, deedStmt, calm_expr s _ _ hc, deedExpr, deedParts, deedPart, deedBlock, deedElse, node_expr, other_id,
        other_node, deedFork_node hx hnext, deedAfter_lost hno, one, deedFork_one hnext, deedAfter_none, ifEntries,
        setEntry, braces, Option.map_none, Option.some_or, deedIf, e1, node_lo, node_hi, node_span, hsp, hlt, hhi,
        reduceCtorEq, if_false, List.append_nil, List.nil_append, iht, ihr]
  | .mtch sp ds inf f as r, k, n, last, xs, ss, hl, P, hs, hm => by
    cases hm with
    | @mtch _ _ _ _ _ _ _ _ id i c a x rest l hc hsp hcs ha has hle hspl hr =>
      obtain ⟨hd, hd1, hsf, hsa, hsr⟩ := slice_mtch hs
      have hpf := f.size_pos
      have hpa := as.size_pos
      have hj : k + 1 + (Limbs.cons true f.shape as.limbs).size = k + 1 + 1 + f.size + as.size := by
        simp only [Limbs.size, Bool.toNat_true, Prog.size, Arms.size]; omega
      have hx := hcs.here W P.start
      rw [Prog.shape] at P
      have hreal : ¬ EndsInFalseEdge s.body (k + 1 + 1 + f.size + as.size) := real_of hl hsr
      have hnext := next_inside hd (n := n) (by dsimp only; omega)
      have hp0 : ((Limbs.cons true f.shape as.limbs).parts (k + 1))[0]? = some (k + 1, true, f.shape) := rfl
      obtain ⟨⟨h1, hd1', g1⟩, hp1⟩ : ∃ y, (as.limbs.parts (k + 1 + 1 + f.size))[0]? = some y := by
        cases as with
        | last i f => exact ⟨_, rfl⟩
        | cons i f as => exact ⟨_, rfl⟩
      have hp1' : ((Limbs.cons true f.shape as.limbs).parts (k + 1))[1]? = some (h1, hd1', g1) := hp1
      obtain ⟨l', sp', q1, q2⟩ := as.entry (k + 1 + 1 + f.size) hp1
      rw [hle] at q1
      cases q1
      have PF := P.limb hp0
      have PR := P.join
      rw [hj] at PR
      have hg := g1.pos
      have hno : (s.node id).exit = none := Splits.exit W P (hj.symm ▸ hreal) (hj.symm ▸ hspl) hp0 hp1'
        ⟨Nat.le_succ _, Nat.lt_add_of_pos_right hpf⟩ (by rw [q2]; unfold In; omega)
      obtain ⟨ia, pa, it, jt, st, rfl, m1, m2, m3, m4, m5⟩ := ha.facts
      have ihf := Means.deeds W fuel order f (k + 1 + 1) inf.nb _ _ _ (by intro _ _ h; cases h) PF hsf m5
      obtain ⟨a1, a2, a3⟩ := arm_same (e := f.finAt (k + 1 + 1) inf.nb) (jt := jt) W _ PF.region m1 m2 m3 m4 ihf
      obtain ⟨r1, r2⟩ := ArmsMean.deeds W fuel order as (k + 1 + 1 + f.size) (k + 1 + 1 + f.size + as.size) _ hsa
        (fun q h hd g hpt => by
          have := P.limb (i := q + 1) (h' := h) (hd := hd) (f := g) hpt
          rw [hj] at this
          exact this) has
      have hen : armEntries (s.arm (.mk ia pa none (rbraces it jt st)) :: s.arms x) =
          armEntries (armOf inf ⟨k + 1 + 1, inf.nb⟩ (f.finAt (k + 1 + 1) inf.nb) (f.stmts (k + 1 + 1) inf.nb) ::
            as.arms (k + 1 + 1 + f.size)) := by
        refine armEntries_same [] ?_
        rw [List.map_cons, List.map_cons, a2, a3, r2]
        rfl
      have ihr := Means.deeds W fuel order r (k + 1 + 1 + f.size + as.size) 0 last xs _ hl PR hsr hr
      simp only [Source.stmts, Source.stmt, Source.expr, Source.arms, Prog.stmts, deedStmts, deedStmt, calm_expr s _ _ hc,
        deedExpr, deedParts, node_expr, other_id, other_node, deedFork_node hx hnext, deedAfter_lost hno, one,
        deedFork_one hnext, deedAfter_none, Option.some_or, deedArms, node_span, hsp, Bool.false_and, Bool.false_eq_true,
        if_false, List.append_nil, List.nil_append, hen, a1, r1, ihr]
      rfl
  | .whl sp sc lt hi sb c t r, k, n, last, xs, ss, hl, P, hs, hm => by
    cases hm with
    | @whl _ _ _ _ _ _ _ _ _ _ id i cnd it jt ie je ib eb st rest hsp hstop hhi hc hsc hcs hbt hlt hbe hcb hsb hbs ht hr =>
      obtain ⟨hd0, hd1, hdc, hda, hst, hsr⟩ := slice_whl hs
      have hp := r.size_pos
      have hpt := t.size_pos
      rw [Prog.shape] at P
      have L := P.looped
      have hlt' := L.lt
      have hreal : ¬ EndsInFalseEdge s.body (k + 3 + c + t.size) := real_of hl hsr
      have hhead : false = true → EndsInFalseEdge s.body (k + 3 + c) := by simp
      have B : Branching s.body ret k (k + 2 + c) (k + 3 + c + t.size) _ := P.loop W hreal hhead
      have PA : Place s.body.succ r.shape (k + 3 + c + t.size) xs := P.after
      have PB : Place s.body.succ t.shape (k + 3 + c) [k + 1] := P.body
      have hnext := next_inside hda (n := 0) (by dsimp only; omega)
      obtain ⟨dx, hdx, hnx⟩ := head_of (p := r) (n := 1) hl hsr
      have hnextx := next_inside hdx (n := 0) (by omega)
      have x1 : (s.node id).exit = some ⟨k + 3 + c + t.size, 0⟩ := hstop.exit W fun y h1 h2 => by
        by_cases hy : y = k + 3 + c + t.size
        · subst hy
          exact W.pdom PA.start fun l hl => hl.head_mem
        · exact B.pdom ⟨h1, by dsimp only at h2; omega⟩
      have x2 : (s.node cnd.id).exit = some ⟨k + 2 + c, 0⟩ := hcs.exit W fun y h1 h2 => by
        dsimp only at h2
        have := straight_pdom W (k := y) (m := k + 2 + c - y) (fun i hi => by
          have := L.line (y - k + i) (by omega)
          rw [show k + (y - k + i) = y + i by omega] at this
          exact this) (P.region.reach0 (by
            have : (Shape.loop c false t.shape r.shape).size = 3 + c + Bool.toNat false + t.shape.size + r.shape.size := by
              rw [Shape.size]
            unfold In
            omega))
        rw [show y + (k + 2 + c - y) = k + 2 + c by omega] at this
        exact this
      have e1 := hbt.entry W fun y hy => PB.region.dom hy
      have e2 := hbe.entry W fun y hy => PA.first hy
      have x3 := hbs.here W PA.start
      have iht := Means.deeds W fuel order t (k + 3 + c) 0 _ _ _ (by intro _ _ h; cases h) PB hst ht
      have ihr := Means.deeds W fuel order r (k + 3 + c + t.size) 1 last xs _ hl PA hsr hr
      simp only [Source.stmts, Source.stmt, Source.expr, Source.optExpr, rbraces, Source.parts, Source.part, Source.block,
        Prog.stmts, deedStmts, deedStmt, calm_expr s _ _ hc, calm_expr s _ _ hcb, deedExpr, deedParts, deedPart, deedBlock,
        node_expr, other_id, other_node, deedFork_node x2 hnext, deedAfter_node x1 hnextx, deedAfter_node x3 hnextx, one,
        deedFork_one hnext, deedAfter_some hnextx, setEntry, braces, Option.some_or, deedIf, e1, e2, node_lo, node_hi,
        node_span, hsp, hsc, hlt, hhi, hsb, reduceCtorEq, if_false, List.append_nil, List.nil_append, iht, ihr]
  | .frl sp sa sc hi sn lb li nb t r, k, n, last, xs, ss, hl, P, hs, hm => by
    cases hm with
    | @frl _ _ _ _ _ _ _ _ _ _ _ _ id i c ia pa il cl inn pn en im pm it jt st rest hsp hstop hc hcs hba hsa hbl hhi hcl
        hsc hcls hbn hsn hce hben hbm hli hbt hlb ht hr =>
      obtain ⟨hd0, hd1, hd2, hd3, hda, hd5, hst, hsr⟩ := slice_frl hs
      have hp := r.size_pos
      have hpt := t.size_pos
      have x0 := hcs.here W P.start
      have hsz : k + (Prog.frl sp sa sc hi sn lb li nb t r).shape.size = k + 6 + t.size + r.size := by
        simp only [Prog.size, Prog.shape, Shape.size, Bool.toNat_true]; omega
      have hRk := P.region
      rw [hsz] at hRk
      rw [Prog.shape] at P
      have hfit := P.fits
      rw [Shape.Fits] at hfit
      have Q := P.line
      have L := Q.looped
      have hreal : ¬ EndsInFalseEdge s.body (k + 6 + t.size) := real_of hl hsr
      have hhead : true = true → EndsInFalseEdge s.body (k + 5) := fun _ => ⟨_, _, term_of hd5⟩
      have B : Branching s.body ret (k + 1) (k + 4) (k + 6 + t.size) _ := Q.loop W hreal hhead
      have PA : Place s.body.succ r.shape (k + 6 + t.size) xs := Q.after
      have PB : Place s.body.succ t.shape (k + 6) [k + 2] := Q.body
      have hRQ := Q.region
      have hszQ : k + 1 + (Shape.loop 1 true t.shape r.shape).size = k + 6 + t.size + r.size := by
        simp only [Prog.size, Shape.size, Bool.toNat_true]; omega
      rw [hszQ] at hRQ
      have hnext0 : s.body.locationSuccessor ⟨k, n⟩ = some ⟨k + 1, 0⟩ := next_block hd0 (Nat.le_refl n) hfit.1
      have hnext3 : s.body.locationSuccessor ⟨k + 3, 1⟩ = some ⟨k + 4, 0⟩ :=
        next_block hd3 (Nat.le_refl 1) (L.line 2 (by omega))
      obtain ⟨dx, hdx, hnx⟩ := head_of (p := r) (n := 1) hl hsr
      have hnextx := next_inside hdx (n := 0) (by omega)
      have hps : ∀ m : Node, m.exit = some ⟨k, n⟩ → (Env.ofBody s.body fuel order).producedSwitch m = false := by
        intro m hm
        have : (Env.ofBody s.body fuel order).exitOf m = some ⟨k + 1, 0⟩ := after_node hm hnext0
        unfold Env.producedSwitch
        rw [this]
        show s.body.mapper.isSwitch (k + 1) = false
        cases h : s.body.mapper.isSwitch (k + 1) with
        | false => rfl
        | true =>
          obtain ⟨ts, h⟩ := isSwitch_iff.1 h
          rw [term_of hd1] at h
          cases h
      have ps0 := hps _ x0
      have ps1 := hps ⟨some ⟨k, n⟩, some ⟨k, n⟩, 0, 0, 0⟩ rfl
      have x1 : (s.node id).exit = some ⟨k + 6 + t.size, 0⟩ := hstop.exit W fun y h1 h2 => by
        dsimp only at h2
        refine leave_pdom W (hRk.reach0 ⟨h1, by omega⟩) (k := k) (x := k + 6 + t.size) ?_ ?_ h1 h2
        · intro u v hv hu
          by_cases huk : u = k
          · subst huk
            rw [hfit.1, List.mem_singleton] at hv
            unfold In
            omega
          · rcases B.leaves u v hv (by unfold In at *; omega) with h | h
            · exact .inl (by unfold In at *; omega)
            · exact .inr h
        · intro h
          have := hRk.stop W.stop (by unfold In at *; omega)
          unfold In at *
          omega
      have x2 : (s.node cl.id).exit = some ⟨k + 3, 1⟩ := hcls.here W (hRk.reach0 (by unfold In; omega))
      -- the block in front of the switch dominates what follows
      have hdom : ∀ y, In (k + 3) (k + 6 + t.size + 1) y → Dominates s.body.succ (k + 3) y := by
        intro y hy
        have hy' : In (k + 3) (k + 6 + t.size + r.size) y := by unfold In at *; omega
        refine ⟨hRk.reach0 (by unfold In at *; omega), fun l hl => ?_⟩
        refine Flow.leave (B := fun z => ¬ In (k + 3) (k + 6 + t.size + r.size) z) ?_ hl ?_ (fun h => h hy')
        · intro u v hu hv hnv
          have hv' := Classical.not_not.1 hnv
          by_cases hin : In (k + 1) (k + 6 + t.size + r.size) u
          · have h12 : u = k + 1 ∨ u = k + 2 := by unfold In at *; omega
            rcases h12 with rfl | rfl
            · have := L.line 0 (by omega)
              rw [show k + 1 + 0 = k + 1 from rfl] at this
              rw [this, List.mem_singleton] at hv
              unfold In at *
              omega
            · have := L.line 1 (by omega)
              rw [show k + 1 + 1 = k + 2 from rfl] at this
              rw [this, List.mem_singleton] at hv
              exact hv
          · have := hRQ.inn u v hv (by unfold In at *; omega) hin
            unfold In at *
            omega
        · unfold In
          omega
      have e0 := hba.entry W fun y hy => hRQ.dom (by simp only [In] at *; omega)
      have e1 := hbl.entry W hdom
      have e2 := hbn.entry W fun y hy => PA.first hy
      have e3 := hben.entry W fun y hy => PA.first hy
      have e4 := hbm.entry W fun y hy => PB.region.dom hy
      have e5 := hbt.entry W fun y hy => PB.region.dom hy
      have iht := Means.deeds W fuel order t (k + 6) nb _ _ _ (by intro _ _ h; cases h) PB hst ht
      have ihr := Means.deeds W fuel order r (k + 6 + t.size) 1 last xs _ hl PA hsr hr
      simp only [Source.stmts, Source.stmt, Source.expr, Source.optExpr, Source.arms, Source.arm, rbraces, Source.parts,
        Source.part, Source.block, Prog.stmts, deedStmts, deedStmt, calm_expr s _ _ hc, calm_expr s _ _ hcl,
        calm_expr s _ _ hce, deedExpr, deedParts, deedPart, deedBlock, deedArms, deedArm, deedArmOf, Arm.body, node_expr, other_id,
        other_node, for_node, deedFork_node x2 hnext3, deedAfter_node x1 hnextx, one, deedFork_one hnext3,
        deedAfter_some hnextx, setEntry, braces, Option.some_or, e0, e1, e2, e3, e4, e5, node_lo, node_hi, node_span, hsp,
        hsa, hsc, hhi, hsn, hli, hlb, ps0, ps1, Option.isSome_none, Bool.false_eq_true, Bool.not_false, List.length_cons,
        List.length_nil, Nat.zero_add, decide_true, Bool.and_self, if_true, if_false, List.flatten_cons,
        List.flatten_nil, List.append_nil, List.nil_append, iht, ihr]
theorem ArmsMean.deeds {s : Source} {ret : Nat} (W : Whole s.body ret) (fuel : Nat)
    (order : List (Loc × Nat) → List (Loc × Nat)) : ∀ (as : Arms) (k j : Nat) (x : List RArm),
    Slice s.body k (as.code k j) →
    (∀ (i h : Nat) (hd : Bool) (g : Shape), (as.limbs.parts k)[i]? = some (h, hd, g) →
      Place s.body.succ g (h + hd.toNat) [j]) → ArmsMean s as k x →
    deedArms (.ofBody s.body fuel order) (s.arms x) = deedArms (.ofBody s.body fuel order) (as.arms k) ∧
    (s.arms x).map (fun a => (a.body.node.entry, a.pat.hi)) = (as.arms k).map (fun a => (a.body.node.entry, a.pat.hi))
  | .last inf f, k, j, x, hs, hP, hm => by
    cases hm with
    | last ha =>
      obtain ⟨ia, pa, it, jt, st, rfl, h1, h2, h3, h4, h5⟩ := ha.facts
      have Q := hP 0 k false f.shape rfl
      have ih := Means.deeds W fuel order f k inf.nb _ _ _ (by intro _ _ h; cases h) Q (slice_last hs) h5
      obtain ⟨a1, a2, a3⟩ := arm_same (e := f.finAt k inf.nb) (jt := jt) W _ Q.region h1 h2 h3 h4 ih
      simp only [Source.arms, Arms.arms, deedArms, List.map_cons, List.map_nil, a1, a2, a3]
      exact ⟨rfl, rfl⟩
  | .cons inf f as, k, j, x, hs, hP, hm => by
    cases hm with
    | cons ha hr =>
      obtain ⟨_, hsf, hsa⟩ := slice_cons hs
      obtain ⟨ia, pa, it, jt, st, rfl, h1, h2, h3, h4, h5⟩ := ha.facts
      have Q := hP 0 k true f.shape rfl
      have ih := Means.deeds W fuel order f (k + 1) inf.nb _ _ _ (by intro _ _ h; cases h) Q hsf h5
      obtain ⟨a1, a2, a3⟩ := arm_same (e := f.finAt (k + 1) inf.nb) (jt := jt) W _ Q.region h1 h2 h3 h4 ih
      obtain ⟨r1, r2⟩ := ArmsMean.deeds W fuel order as (k + 1 + f.size) j _ hsa
        (fun q h hd g hpt => hP (q + 1) h hd g hpt) hr
      simp only [Source.arms, Arms.arms, deedArms, List.map_cons, a1, a2, a3, r1, r2]
      exact ⟨rfl, rfl⟩
end

/-! ## The steps -/

/-- The whole way: from which locations belong to which node of the source, through where the nodes begin and end, to the
steps and the branches. -/
theorem C102_source {s : Source} {p : Prog} {sp : Nat} {value : RExpr} (hw : Written s p sp value) {fuel : Nat}
    (hfu : fuel ≠ 0) {order : List (Loc × Nat) → List (Loc × Nat)} (ho : ∀ l, (order l).Perm l) :
    ∃ f locals, s.compute fuel order value = .steps f locals ∧
      f.segs.map (fun g => (g.from, g.to, g.span)) =
        p.expected 0 0 ++ [(p.finAt 0 0, ⟨(p.finAt 0 0).block, (p.finAt 0 0).idx + 1⟩, sp)] ∧
      Branched f (p.joins 0 0) := by
  cases hw with
  | @mk i j ss hbody hsp hstop hm =>
  have W := body_whole p
  have g := Prog.goes (body_fine p) W fuel ho p 0 0 .ret .fin [] (In 0 (0 + p.size)) none
    (by intro _ _ h; cases h) (.plain (body_place p)) (body_slice p)
    (fun _ hy => In.plain hy) (fun _ _ q hq => by cases hq)
  have h0 : In 0 (0 + p.size) 0 := ⟨Nat.le_refl _, by have := p.size_pos; omega⟩
  have hf := g.mem h0
  obtain ⟨d, hd, hn⟩ := fin_inside p 0 0 .ret (body_slice p)
  have hnext : p.body.locationSuccessor (p.finAt 0 0) = some ⟨(p.finAt 0 0).block, (p.finAt 0 0).idx + 1⟩ :=
    next_inside hd hn
  have P := body_place p
  have S := body_slice p
  rw [← hbody] at W g hnext P S
  have x0 : (s.node i).exit = some (p.finAt 0 0) := hstop.exit W fun y h1 h2 => by
    have hb := p.finAt_block 0 0
    have := P.region.last_pdom W (u := y) ⟨h1, by simp only [Prog.size] at hb; omega⟩
    rwa [show 0 + p.shape.size - 1 = (p.finAt 0 0).block by simp only [Prog.size] at hb; omega] at this
  have hds := Means.deeds W fuel order p 0 0 .ret [] ss (by intro _ _ h; cases h) P S hm
  refine C102_steps W.valid (by rw [W.returns]; simp) hfu order (s.expr (rbraces i j ss))
    (c := ⟨(p.finAt 0 0).block, (p.finAt 0 0).idx + 1⟩) h0 ?_
  have := Goes.append g (Goes.step (sp := sp) (ds := []) (l := ⟨(p.finAt 0 0).block, (p.finAt 0 0).idx + 1⟩) hf
    (.inl ⟨rfl, Nat.le_succ _⟩) (.inl ⟨rfl, Nat.le_succ _⟩) (fun q hq => by cases hq) .done)
  have hd : deedBody (.ofBody s.body fuel order) (s.expr (rbraces i j ss)) =
      deedStmts (.ofBody s.body fuel order) (p.stmts 0 0) ++
      [.step ⟨(p.finAt 0 0).block, (p.finAt 0 0).idx + 1⟩ sp] := by
    unfold deedBody
    simp only [rbraces, Source.expr, Source.parts, Source.part, Source.block, Source.optExpr, other_node,
      deedAfter_node x0 hnext, node_span, hsp]
    simp [deedExpr, deedParts, deedPart, deedBlock, hds]
  rw [List.append_nil] at this
  rw [hd]
  exact this

/-! ## Two functions

```text
let x = 1;
if c { f(); } else { y = 1; }
while d { z = 1; }
```
-/

namespace Example

/-- Whether the code of a node is as said, computed. -/
def begins (s : Source) (id : Nat) (a : Loc) (e : Nat) : Bool :=
  match s.locations id true with
  | some o => decide (a ∈ o.values ∧
      ∀ l ∈ o.values, (a.block ≤ l.block ∧ l.block < e) ∧ (l.block = a.block → a.idx ≤ l.idx))
  | none => false

def stops (s : Source) (id : Nat) (k : Nat) (z : Loc) : Bool :=
  match s.locations id true with
  | some o => decide (z ∈ o.values ∧
      ∀ l ∈ o.values, k ≤ l.block ∧ l.block ≤ z.block ∧ (l.block = z.block → l.idx ≤ z.idx))
  | none => false

def splits (s : Source) (id : Nat) (k e : Nat) (a c : Loc) : Bool :=
  match s.locations id true with
  | some o => decide (a ∈ o.values ∧ c ∈ o.values ∧ ∀ l ∈ o.values, k ≤ l.block ∧ l.block < e)
  | none => false

theorem begins_iff {s : Source} {id : Nat} {a : Loc} {e : Nat} (h : begins s id a e = true) : Begins s id a e := by
  unfold begins at h
  split at h
  · next o ho =>
    obtain ⟨h1, h2⟩ := of_decide_eq_true h
    exact ⟨(mem_values ho a).1 h1, fun l hl => h2 l ((mem_values ho l).2 hl)⟩
  · cases h

theorem stops_iff {s : Source} {id k : Nat} {z : Loc} (h : stops s id k z = true) : Stops s id k z := by
  unfold stops at h
  split at h
  · next o ho =>
    obtain ⟨h1, h2⟩ := of_decide_eq_true h
    exact ⟨(mem_values ho z).1 h1, fun l hl => h2 l ((mem_values ho l).2 hl)⟩
  · cases h

theorem splits_iff {s : Source} {id k e : Nat} {a c : Loc} (h : splits s id k e a c = true) : Splits s id k e a c := by
  unfold splits at h
  split at h
  · next o ho =>
    obtain ⟨h1, h2, h3⟩ := of_decide_eq_true h
    exact ⟨(mem_values ho a).1 h1, (mem_values ho c).1 h2, fun l hl => h3 l ((mem_values ho l).2 hl)⟩
  · cases h

/-- Nodes with a table of their parents. -/
def hirOfTable (t : List Nat) (h : t.zipIdx.all (fun q => decide (q.1 < q.2) || q.2 == 0) = true) : Mapper.Hir where
  parent i := if i = 0 then none else t[i]?
  lt := by
    intro i p hp
    by_cases hi : i = 0
    · rw [if_pos hi] at hp
      cases hp
    · rw [if_neg hi] at hp
      have := List.all_eq_true.1 h (p, i) (List.mk_mem_zipIdx_iff_getElem?.2 hp)
      simpa [hi] using this

def first : Prog :=
  .bind 10 [0] (.ite 20 21 22 23 (.call 30 .fin) (.act 31 .fin) (.whl 40 41 42 43 44 0 (.act 45 .fin) .fin))

/-- 1, 2: the block of the function; 3, 4, 5: the `let`; 6, 7: the `if`; 8: its condition; 9, 10: its block; 11, 12: the
call; 13, 14: the other block; 15, 16: the assignment; 17, 18: the loop; 19: its condition; 20, 21: its block; 22, 23: the
assignment; 24 to 27: the `break` -/
def firstSource : Source where
  body := first.body
  hir := hirOfTable [0, 0, 1, 2, 3, 4, 2, 6, 7, 7, 9, 10, 11, 7, 13, 14, 15, 2, 17, 18, 18, 20, 21, 22, 18, 24, 25, 26]
    (by decide)
  hirOf l := ([[4, 8, 7], [16, 14, 7], [12], [10, 7], [18], [18], [19, 18], [23, 21, 18], [27, 2, 0]].getD l.block []).getD
    l.idx 0
  span := fun | 1 => 50 | 3 => 10 | 8 => 20 | 11 => 30 | 15 => 31 | 17 => 40 | 19 => 41 | 22 => 45 | 26 => 44 | _ => 0
  lo := fun | 9 => 21 | 13 => 22 | 20 => 42 | _ => 0
  hi := fun | 7 => 23 | 18 => 43 | _ => 0
  letRead := fun l => if l = ⟨0, 0⟩ then some 0 else none

def firstValue : RExpr := rbraces 1 2
  [.lt 3 4 (some (.other 5 [])) none,
   .expr 6 (.ite 7 (.other 8 []) (rbraces 9 10 [.expr 11 (.other 12 [])]) (some (rbraces 13 14 [.expr 15 (.other 16 [])]))),
   .expr 17 (.whileLoop 18 (.other 19 []) (rbraces 20 21 [.expr 22 (.other 23 [])]) (rbraces 24 25 [.expr 26 (.other 27 [])]))]

theorem first_written : Written firstSource first 50 firstValue := by
  refine .mk rfl rfl (stops_iff (by decide +kernel)) ?_
  refine .bind rfl rfl (by decide +kernel) (stops_iff (by decide +kernel)) ?_
  refine .ite rfl rfl (stops_iff (by decide +kernel)) (begins_iff (by decide +kernel)) rfl (begins_iff (by decide +kernel))
    rfl rfl (splits_iff (by decide +kernel)) ?_ ?_ ?_
  · exact .call rfl rfl (stops_iff (by decide +kernel)) .fin
  · exact .act rfl rfl (stops_iff (by decide +kernel)) .fin
  · refine .whl rfl (stops_iff (by decide +kernel)) rfl rfl rfl (stops_iff (by decide +kernel)) (begins_iff (by decide +kernel))
      rfl (begins_iff (by decide +kernel)) rfl rfl (stops_iff (by decide +kernel)) ?_ .fin
    exact .act rfl rfl (stops_iff (by decide +kernel)) .fin

example : ∃ f locals, firstSource.compute 1 List.reverse firstValue = .steps f locals ∧ f.segs.length = 13 ∧
    f.branches.length = 2 := by
  obtain ⟨f, locals, h1, h2, h3⟩ := C102_source first_written (by decide : 1 ≠ 0) (order := List.reverse)
    (fun l => List.reverse_perm l)
  refine ⟨f, locals, h1, ?_, ?_⟩
  · have := congrArg List.length h2
    rw [List.length_map] at this
    exact this
  · have := congrArg List.length h3
    rw [List.length_map, List.length_map] at this
    exact this

/-! ```text
match x { A(a) => { y = 1; } B => {} C => {} }
for p in e { if c { f(); } }
``` -/

def second : Prog :=
  .mtch 10 1 ⟨11, 12, 1⟩ (.act 13 .fin) (.cons ⟨14, 15, 0⟩ .fin (.last ⟨16, 17, 0⟩ .fin))
    (.frl 20 21 22 23 24 25 26 1 (.only 30 31 32 (.call 33 .fin) .fin) .fin)

/-- 1, 2: the block of the function; 3, 4, 5: the `match` and its value; 6 to 11: the first arm, its pattern, block and
assignment; 12 to 15, 16 to 19: the other arms; 20, 21, 22: the `for` and its value; 23, 24, 25: the arm around the loop;
26: the call of `next`; 27, 28, 29: the arm `None`; 30 to 33: the arm `Some(p)`; 34 to 40: the `if` -/
def secondSource : Source where
  body := second.body
  hir := hirOfTable [0, 0, 1, 2, 3, 4, 4, 6, 6, 8, 9, 10, 4, 12, 12, 14, 4, 16, 16, 18, 2, 20, 21, 21, 23, 23, 25, 25, 27, 27,
    25, 30, 30, 32, 33, 34, 35, 35, 37, 38, 39] (by decide)
  hirOf l := ([[5, 4, 4], [4], [7, 11, 9, 4], [4], [15, 4], [19, 4], [22], [23, 23], [25], [26, 26], [25, 25], [25],
    [31, 36, 35], [35, 35], [40], [38, 35], [33, 25], [29, 2, 0]].getD l.block []).getD l.idx 0
  span := fun | 1 => 50 | 5 => 10 | 10 => 13 | 20 => 20 | 26 => 22 | 36 => 30 | 39 => 33 | _ => 0
  lo := fun | 6 => 12 | 12 => 15 | 16 => 17 | 23 => 21 | 27 => 24 | 32 => 25 | 30 => 26 | 37 => 31 | _ => 0
  hi := fun | 7 => 11 | 13 => 14 | 17 => 16 | 25 => 23 | 35 => 32 | _ => 0
  letRead := fun _ => none

def secondValue : RExpr := rbraces 1 2
  [.expr 3 (.mtch 4 false (.other 5 []) [.mk 6 7 none (rbraces 8 9 [.expr 10 (.other 11 [])]),
      .mk 12 13 none (rbraces 14 15 []), .mk 16 17 none (rbraces 18 19 [])]),
   .expr 20 (.mtch 21 true (.other 22 []) [.mk 23 24 none (.forLoop 25 (.other 26 []) (.mk 27 28 none (.other 29 []))
      (.mk 30 31 none (rbraces 32 33 [.expr 34 (.ite 35 (.other 36 []) (rbraces 37 38 [.expr 39 (.other 40 [])]) none)])))])]

theorem second_written : Written secondSource second 50 secondValue := by
  refine .mk rfl rfl (stops_iff (by decide +kernel)) ?_
  refine .mtch (l := (⟨4, 0⟩, 14)) rfl rfl (stops_iff (by decide +kernel)) ?_ ?_ rfl (splits_iff (by decide +kernel)) ?_
  · exact .mk rfl rfl (begins_iff (by decide +kernel)) (begins_iff (by decide +kernel))
      (.act rfl rfl (stops_iff (by decide +kernel)) .fin)
  · exact .cons (.mk rfl rfl (begins_iff (by decide +kernel)) (begins_iff (by decide +kernel)) .fin)
      (.last (.mk rfl rfl (begins_iff (by decide +kernel)) (begins_iff (by decide +kernel)) .fin))
  · refine .frl rfl (stops_iff (by decide +kernel)) rfl (stops_iff (by decide +kernel)) (begins_iff (by decide +kernel)) rfl
      (begins_iff (by decide +kernel)) rfl rfl rfl (stops_iff (by decide +kernel)) (begins_iff (by decide +kernel)) rfl rfl
      (begins_iff (by decide +kernel)) (begins_iff (by decide +kernel)) rfl (begins_iff (by decide +kernel)) rfl ?_ .fin
    refine .only rfl rfl (stops_iff (by decide +kernel)) (begins_iff (by decide +kernel)) rfl rfl
      (splits_iff (by decide +kernel)) ?_ .fin
    exact .call rfl rfl (stops_iff (by decide +kernel)) .fin

/-- The steps of the second function: the loop and the `if` in it come after the `match`. -/
example : ∃ f locals, secondSource.compute 1 List.reverse secondValue = .steps f locals ∧
    f.segs.map (·.span) = [10, 11, 14, 16, 12, 13, 15, 17, 21, 22, 23, 25, 24, 26, 30, 32, 31, 33, 20, 50] := by
  obtain ⟨f, locals, h1, h2, -⟩ := C102_source second_written (by decide : 1 ≠ 0) (order := List.reverse)
    (fun l => List.reverse_perm l)
  refine ⟨f, locals, h1, ?_⟩
  have := congrArg (List.map fun x : Loc × Loc × Nat => x.2.2) h2
  rw [List.map_map] at this
  exact this

end Example

end Verif.Walk
