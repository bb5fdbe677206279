import Verif.Mapper.Model
import Verif.Cfg.Props
import Verif.Group.Props
/-!
# C91: a state is shown at the statement that was running; C92: the trace that is shown
-/
namespace Verif.Mapper
open Verif.Cfg Verif.Group Verif.Group.Spec

/-! ## Specification -/

/-- `i` is `a` or lies inside `a`. -/
inductive Below (h : Hir) (a : Nat) : Nat → Prop
  | here : Below h a a
  | up {i p} : h.parent i = some p → Below h a p → Below h a i

/-- `s` is a statement or the final expression of the outermost block of the function. -/
inductive TopLevel : Value → Nat → Prop
  | stmt {id stmts tail s} : s ∈ stmts → TopLevel (.block id stmts tail) s
  | tail {id stmts s} : TopLevel (.block id stmts (some s)) s

/-- The statements and the final expression of a block are its children. -/
def Placed (f : Fn) : Prop :=
  ∀ id stmts tail, f.value = .block id stmts tail → ∀ s, TopLevel f.value s → f.hir.parent s = some id

/-- A location of the body. -/
def InBody (b : Body) (l : Loc) : Prop := ∃ d, b[l.block]? = some d ∧ l.idx ≤ d.stmts

/-- The order lists exactly the nodes found. -/
def Lists (f : Fn) (order : List Nat) : Prop := ∀ x, x ∈ order ↔ x ∈ steppable f.value

/-! ## Ancestors -/

theorem mem_steppable (v : Value) (s : Nat) : s ∈ steppable v ↔ TopLevel v s := by
  cases v with
  | block id stmts tail =>
    simp only [steppable, List.mem_append, Option.mem_toList]
    constructor
    · rintro (h | h)
      · exact .stmt h
      · rw [show tail = some s from h]; exact .tail
    · intro h
      cases h with
      | stmt h => exact .inl h
      | tail => exact .inr rfl
  | other id =>
    simp only [steppable, List.not_mem_nil, false_iff]
    intro h; cases h

theorem mem_ancestors (h : Hir) (a : Nat) : ∀ n i, i ≤ n → (a ∈ h.ancestors n i ↔ a ≠ i ∧ Below h a i) := by
  intro n
  induction n with
  | zero =>
    intro i hi
    simp only [Hir.ancestors, List.not_mem_nil, false_iff]
    rintro ⟨hne, hb⟩
    cases hb with
    | here => exact hne rfl
    | up hp _ => have := h.lt _ _ hp; omega
  | succ n ih =>
    intro i hi
    simp only [Hir.ancestors]
    cases hp : h.parent i with
    | none =>
      simp only [List.not_mem_nil, false_iff]
      rintro ⟨hne, hb⟩
      cases hb with
      | here => exact hne rfl
      | up hp' _ => rw [hp] at hp'; simp at hp'
    | some p =>
      have hlt := h.lt _ _ hp
      simp only [List.mem_cons, ih p (by omega)]
      constructor
      · rintro (rfl | ⟨_, hb⟩)
        · exact ⟨by omega, .up hp .here⟩
        · refine ⟨?_, .up hp hb⟩
          rintro rfl
          have : ∀ i, Below h a i → a ≤ i := by
            intro i hi
            induction hi with
            | here => exact Nat.le_refl _
            | up hq _ ih' => have := h.lt _ _ hq; omega
          have := this _ hb
          omega
      · rintro ⟨hne, hb⟩
        cases hb with
        | here => exact absurd rfl hne
        | up hp' hb' =>
          rw [hp] at hp'
          simp only [Option.some.injEq] at hp'
          subst hp'
          by_cases ha : a = p
          · exact .inl ha
          · exact .inr ⟨ha, hb'⟩

theorem mem_parents (h : Hir) (a i : Nat) : a ∈ h.parents i ↔ a ≠ i ∧ Below h a i :=
  mem_ancestors h a i i (Nat.le_refl _)

theorem below_le {h : Hir} {a i : Nat} (hb : Below h a i) : a ≤ i := by
  induction hb with
  | here => exact Nat.le_refl _
  | up hq _ ih' => have := h.lt _ _ hq; omega

theorem below_trans {h : Hir} {a b i : Nat} (h1 : Below h a b) (h2 : Below h b i) : Below h a i := by
  induction h2 with
  | here => exact h1
  | up hp _ ih => exact .up hp ih

/-- Two nodes around the same node lie one inside the other. -/
theorem below_chain {h : Hir} {a b i : Nat} (h1 : Below h a i) (h2 : Below h b i) : Below h a b ∨ Below h b a := by
  induction h1 with
  | here => exact .inr h2
  | up hp h1' ih =>
    cases h2 with
    | here => exact .inl (.up hp h1')
    | up hp' h2' =>
      rw [hp] at hp'
      simp only [Option.some.injEq] at hp'
      subst hp'
      exact ih h2'

/-- A location lies in at most one statement of the outermost block. -/
theorem topLevel_unique {f : Fn} (hw : Placed f) {s t i : Nat} (hs : TopLevel f.value s) (ht : TopLevel f.value t)
    (h1 : Below f.hir s i) (h2 : Below f.hir t i) : s = t := by
  have key : ∀ s t, TopLevel f.value s → TopLevel f.value t → Below f.hir s t → s = t := by
    intro s t hs ht hb
    have : ∃ id stmts tail, f.value = .block id stmts tail := by
      cases hv : f.value with
      | block id stmts tail => exact ⟨_, _, _, rfl⟩
      | other => rw [hv] at hs; cases hs
    obtain ⟨id, stmts, tail, hv⟩ := this
    have ps := hw _ _ _ hv s hs
    have pt := hw _ _ _ hv t ht
    cases hb with
    | here => rfl
    | up hp hb' =>
      rw [pt] at hp
      simp only [Option.some.injEq] at hp
      subst hp
      have := below_le hb'
      have := f.hir.lt _ _ ps
      omega
  rcases below_chain h1 h2 with h | h
  · exact key s t hs ht h
  · exact (key t s ht hs h).symm

/-! ## The locations of the nodes -/

theorem mem_visited (b : Body) (all : Bool) (l : Loc) :
    l ∈ visited b all ↔ ∃ d, b[l.block]? = some d ∧ l.idx ≤ d.stmts ∧ (all = true ∨ d.cleanup = false) := by
  obtain ⟨bb, i⟩ := l
  simp only [visited, List.mem_flatMap]
  constructor
  · rintro ⟨⟨d, n⟩, hd, hl⟩
    rw [List.mem_zipIdx_iff_getElem?] at hd
    split at hl
    · simp at hl
    · rename_i hc
      simp only [List.mem_map, List.mem_range, Loc.mk.injEq] at hl
      obtain ⟨j, hj, rfl, rfl⟩ := hl
      refine ⟨d, hd, by show j ≤ d.stmts; omega, ?_⟩
      cases all <;> simp_all
  · rintro ⟨d, hd, hi, ha⟩
    refine ⟨(d, bb), List.mem_zipIdx_iff_getElem?.2 hd, ?_⟩
    rw [if_neg (by rcases ha with rfl | hc <;> simp_all)]
    simp only [List.mem_map, List.mem_range]
    exact ⟨i, by have : i ≤ d.stmts := hi; omega, rfl⟩

theorem mem_insertLoc (m : List (Nat × List Loc)) (id : Nat) (l : Loc) (k : Nat) (x : Loc) :
    (∃ v, (k, v) ∈ insertLoc m id l ∧ x ∈ v) ↔ (k = id ∧ x = l) ∨ ∃ v, (k, v) ∈ m ∧ x ∈ v := by
  induction m with
  | nil =>
    simp only [insertLoc, List.mem_singleton, Prod.mk.injEq, List.not_mem_nil, false_and, exists_false, or_false]
    constructor
    · rintro ⟨v, ⟨rfl, rfl⟩, hx⟩; exact ⟨rfl, by simpa using hx⟩
    · rintro ⟨rfl, rfl⟩; exact ⟨_, ⟨rfl, rfl⟩, by simp⟩
  | cons e m ih =>
    obtain ⟨k', v'⟩ := e
    unfold insertLoc
    split
    · rename_i hk
      subst hk
      simp only [List.mem_cons, Prod.mk.injEq]
      constructor
      · rintro ⟨v, ⟨rfl, rfl⟩ | hm, hx⟩
        · simp only [List.mem_append, List.mem_singleton] at hx
          rcases hx with hx | hx
          · exact .inr ⟨v', .inl ⟨rfl, rfl⟩, hx⟩
          · exact .inl ⟨rfl, hx⟩
        · exact .inr ⟨v, .inr hm, hx⟩
      · rintro (⟨rfl, rfl⟩ | ⟨v, ⟨rfl, rfl⟩ | hm, hx⟩)
        · exact ⟨_, .inl ⟨rfl, rfl⟩, by simp⟩
        · exact ⟨_, .inl ⟨rfl, rfl⟩, by simp [hx]⟩
        · exact ⟨v, .inr hm, hx⟩
    · simp only [List.mem_cons, Prod.mk.injEq]
      constructor
      · rintro ⟨v, h | hm, hx⟩
        · exact .inr ⟨v, .inl h, hx⟩
        · rcases ih.1 ⟨v, hm, hx⟩ with h | ⟨v, hm, hx⟩
          · exact .inl h
          · exact .inr ⟨v, .inr hm, hx⟩
      · rintro (h | ⟨v, h | hm, hx⟩)
        · obtain ⟨v, hm, hx⟩ := ih.2 (.inl h)
          exact ⟨v, .inr hm, hx⟩
        · exact ⟨v, .inl h, hx⟩
        · obtain ⟨v, hm, hx⟩ := ih.2 (.inr ⟨v, hm, hx⟩)
          exact ⟨v, .inr hm, hx⟩

theorem mem_hirToMir (b : Body) (hirOf : Loc → Nat) (all : Bool) (k : Nat) (x : Loc) :
    (∃ v, (k, v) ∈ hirToMir b hirOf all ∧ x ∈ v) ↔ x ∈ visited b all ∧ hirOf x = k := by
  have : ∀ (ls : List Loc) (m : List (Nat × List Loc)),
      (∃ v, (k, v) ∈ ls.foldl (fun m l => insertLoc m (hirOf l) l) m ∧ x ∈ v) ↔
        (x ∈ ls ∧ hirOf x = k) ∨ ∃ v, (k, v) ∈ m ∧ x ∈ v := by
    intro ls
    induction ls with
    | nil => simp
    | cons l ls ih =>
      intro m
      rw [List.foldl_cons, ih, mem_insertLoc]
      simp only [List.mem_cons]
      grind
  rw [hirToMir, this]
  simp

/-- **C91.** The check of the mapper in debug builds always succeeds: no location belongs to two nodes. -/
theorem C91_disjoint (b : Body) (hirOf : Loc → Nat) (all : Bool) (k k' : Nat) (v v' : List Loc) (l : Loc)
    (h : (k, v) ∈ hirToMir b hirOf all) (h' : (k', v') ∈ hirToMir b hirOf all) (hl : l ∈ v) (hl' : l ∈ v') :
    k = k' := by
  have h1 := (mem_hirToMir b hirOf all k l).1 ⟨v, h, hl⟩
  have h2 := (mem_hirToMir b hirOf all k' l).1 ⟨v', h', hl'⟩
  exact h1.2.symm.trans h2.2

theorem mem_gathered (f : Fn) (id : Nat) (l : Loc) :
    l ∈ gather (hirToMir f.body f.hirOf true) f.hir.parents id true ↔
      InBody f.body l ∧ Below f.hir id (f.hirOf l) := by
  rw [C39_gather]
  have hv : l ∈ visited f.body true ↔ InBody f.body l := by
    rw [mem_visited]
    constructor
    · rintro ⟨d, h1, h2, -⟩; exact ⟨d, h1, h2⟩
    · rintro ⟨d, h1, h2⟩; exact ⟨d, h1, h2, .inl rfl⟩
  constructor
  · rintro ⟨k, ls, hm, hl, hk⟩
    obtain ⟨h1, h2⟩ := (mem_hirToMir f.body f.hirOf true k l).1 ⟨ls, hm, hl⟩
    refine ⟨hv.1 h1, ?_⟩
    rw [h2]
    rcases hk with rfl | ⟨-, hk⟩
    · exact .here
    · exact ((mem_parents _ _ _).1 hk).2
  · rintro ⟨h1, h2⟩
    obtain ⟨ls, hm, hl⟩ := (mem_hirToMir f.body f.hirOf true (f.hirOf l) l).2 ⟨hv.2 h1, rfl⟩
    refine ⟨_, ls, hm, hl, ?_⟩
    by_cases he : f.hirOf l = id
    · exact .inl he
    · exact .inr ⟨rfl, (mem_parents _ _ _).2 ⟨Ne.symm he, h2⟩⟩

theorem mem_nodePairs (f : Fn) (id : Nat) (l : Loc) (k : Nat) :
    (l, k) ∈ nodePairs f id ↔ k = id ∧ InBody f.body l ∧ Below f.hir id (f.hirOf l) ∧ RealLoc f.body l := by
  unfold nodePairs
  have hin : ∀ x ∈ gather (hirToMir f.body f.hirOf true) f.hir.parents id true, x.block < f.body.length := by
    intro x hx
    obtain ⟨⟨d, hd, -⟩, -⟩ := (mem_gathered f id x).1 hx
    exact (List.getElem?_eq_some_iff.1 hd).1
  split
  · rename_i hn
    rw [C39_none] at hn
    simp only [List.not_mem_nil, false_iff]
    rintro ⟨-, h1, h2, -⟩
    have := (mem_gathered f id l).2 ⟨h1, h2⟩
    rw [hn] at this
    simp at this
  · rename_i o ho
    have := (C39_values ho hin).2 l
    rw [mem_gathered] at this
    simp only [List.mem_map, Prod.mk.injEq]
    constructor
    · rintro ⟨x, hx, rfl, rfl⟩
      obtain ⟨⟨h1, h2⟩, h3⟩ := this.1 hx
      exact ⟨rfl, h1, h2, h3⟩
    · rintro ⟨rfl, h1, h2, h3⟩
      exact ⟨l, this.2 ⟨⟨h1, h2⟩, h3⟩, rfl, rfl⟩

/-- The mapping sends a location to the statement around it. -/
theorem bodyMapping_some {f : Fn} (hw : Placed f) {order : List Nat} (ho : Lists f order) (l : Loc) (s : Nat) :
    bodyMapping f order l = some s ↔
      TopLevel f.value s ∧ InBody f.body l ∧ Below f.hir s (f.hirOf l) ∧ RealLoc f.body l := by
  have hmem : ∀ k, (l, k) ∈ (order.flatMap (nodePairs f)).reverse ↔
      TopLevel f.value k ∧ InBody f.body l ∧ Below f.hir k (f.hirOf l) ∧ RealLoc f.body l := by
    intro k
    simp only [List.mem_reverse, List.mem_flatMap, mem_nodePairs]
    constructor
    · rintro ⟨id, hid, rfl, h⟩
      exact ⟨(mem_steppable _ _).1 ((ho _).1 hid), h⟩
    · rintro ⟨ht, h⟩
      exact ⟨k, (ho _).2 ((mem_steppable _ _).2 ht), rfl, h⟩
  unfold bodyMapping
  simp only [Option.map_eq_some_iff]
  constructor
  · rintro ⟨⟨l', k⟩, hf, rfl⟩
    have h1 := List.find?_some hf
    have h2 := List.mem_of_find?_eq_some hf
    simp only [beq_iff_eq] at h1
    subst h1
    exact (hmem k).1 h2
  · intro h
    have hm := (hmem s).2 h
    cases hf : (order.flatMap (nodePairs f)).reverse.find? (fun p => p.1 == l) with
    | none =>
      have := List.find?_eq_none.1 hf _ hm
      simp at this
    | some p =>
      obtain ⟨l', k⟩ := p
      have h1 := List.find?_some hf
      have h2 := List.mem_of_find?_eq_some hf
      simp only [beq_iff_eq] at h1
      subst h1
      have hk := (hmem k).1 h2
      exact ⟨_, rfl, topLevel_unique hw hk.1 h.1 hk.2.2.1 h.2.2.1⟩

/-! ## C91 -/

/-- The span of the location is the last byte of the function. -/
def AtBrace (f : Fn) (l : Loc) : Prop := (f.span l).lo = f.whole.hi - 1 ∧ (f.span l).hi = f.whole.hi

theorem isCleanup_some (f : Fn) (l : Loc) (s : Span) :
    isCleanup f l = some s ↔ AtBrace f l ∧ s = ⟨f.whole.hi - 1, f.whole.hi⟩ := by
  unfold isCleanup endBrace AtBrace
  cases hsp : f.span l with
  | mk lo hi =>
    simp only [Span.mk.injEq]
    split
    · rename_i h; simp only [Option.some.injEq, h, and_self, true_and]; exact eq_comm
    · rename_i h; simp only [reduceCtorEq, h, false_and]

theorem isCleanup_none (f : Fn) (l : Loc) : isCleanup f l = none ↔ ¬AtBrace f l := by
  cases h : isCleanup f l with
  | none =>
    simp only [true_iff]
    intro hb
    have := (isCleanup_some f l _).2 ⟨hb, rfl⟩
    rw [h] at this; simp at this
  | some s => simp only [reduceCtorEq, false_iff]; exact fun hn => hn ((isCleanup_some f l s).1 h).1

/-- **C91.** A state whose location is not the closing brace is attributed to a node iff this is the statement, or the
final expression, of the outermost block of the function that contains the code running, and the location is one a
compiled program really reaches. -/
theorem C91_statement (f : Fn) (hw : Placed f) (order : List Nat) (ho : Lists f order) (l : Loc) (owner s : Nat) :
    abstractLoc f order (.inl l) = some (owner, .inl s) ↔
      owner = f.owner ∧ ¬AtBrace f l ∧ InBody f.body l ∧ RealLoc f.body l ∧ TopLevel f.value s ∧
        Below f.hir s (f.hirOf l) := by
  simp only [abstractLoc]
  cases hc : isCleanup f l with
  | some sp =>
    have := ((isCleanup_some f l sp).1 hc).1
    simp [this]
  | none =>
    have hb := (isCleanup_none f l).1 hc
    cases hm : bodyMapping f order l with
    | none =>
      simp only [reduceCtorEq, false_iff]
      rintro ⟨-, -, h1, h2, h3, h4⟩
      have := (bodyMapping_some hw ho l s).2 ⟨h3, h1, h4, h2⟩
      rw [hm] at this; simp at this
    | some id =>
      obtain ⟨h3, h1, h4, h2⟩ := (bodyMapping_some hw ho l id).1 hm
      simp only [Option.some.injEq, Prod.mk.injEq, Sum.inl.injEq]
      constructor
      · rintro ⟨rfl, rfl⟩; exact ⟨rfl, hb, h1, h2, h3, h4⟩
      · rintro ⟨rfl, -, -, -, h3', h4'⟩
        exact ⟨rfl, topLevel_unique hw h3 h3' h4 h4'⟩

/-- **C91.** A state is attributed to a bare span iff its location is the closing brace; the span is the brace. -/
theorem C91_brace (f : Fn) (order : List Nat) (l : Loc) (owner : Nat) (sp : Span) :
    abstractLoc f order (.inl l) = some (owner, .inr sp) ↔
      owner = f.owner ∧ AtBrace f l ∧ sp = ⟨f.whole.hi - 1, f.whole.hi⟩ := by
  simp only [abstractLoc]
  cases hc : isCleanup f l with
  | some sp' =>
    obtain ⟨h1, h2⟩ := (isCleanup_some f l sp').1 hc
    simp only [Option.some.injEq, Prod.mk.injEq, Sum.inr.injEq, h1, true_and, ← h2]
    constructor
    · rintro ⟨rfl, rfl⟩; exact ⟨rfl, rfl⟩
    · rintro ⟨rfl, rfl⟩; exact ⟨rfl, rfl⟩
  | none =>
    have hb := (isCleanup_none f l).1 hc
    cases bodyMapping f order l <;> simp [hb]

/-- **C91.** A state is attributed to nothing iff its location is not the closing brace, and lies in no statement of the
outermost block or is not real. -/
theorem C91_dropped (f : Fn) (hw : Placed f) (order : List Nat) (ho : Lists f order) (l : Loc) :
    abstractLoc f order (.inl l) = none ↔
      ¬AtBrace f l ∧ ¬∃ s, InBody f.body l ∧ RealLoc f.body l ∧ TopLevel f.value s ∧ Below f.hir s (f.hirOf l) := by
  constructor
  · intro h
    refine ⟨fun hb => ?_, ?_⟩
    · rw [(C91_brace f order l _ _).2 ⟨rfl, hb, rfl⟩] at h; simp at h
    · rintro ⟨s, h1, h2, h3, h4⟩
      by_cases hb : AtBrace f l
      · rw [(C91_brace f order l _ _).2 ⟨rfl, hb, rfl⟩] at h; simp at h
      · rw [(C91_statement f hw order ho l f.owner s).2 ⟨rfl, hb, h1, h2, h3, h4⟩] at h; simp at h
  · rintro ⟨hb, hn⟩
    cases h : abstractLoc f order (.inl l) with
    | none => rfl
    | some r =>
      obtain ⟨o, s | sp⟩ := r
      · obtain ⟨-, -, h1, h2, h3, h4⟩ := (C91_statement f hw order ho l o s).1 h
        exact absurd ⟨s, h1, h2, h3, h4⟩ hn
      · exact absurd ((C91_brace f order l o sp).1 h).2.1 hb

/-- **C91.** The order in which the set of statements is walked, which changes from run to run, has no effect. -/
theorem C91_order (f : Fn) (hw : Placed f) (o o' : List Nat) (ho : Lists f o) (ho' : Lists f o') (x : Loc ⊕ Span) :
    abstractLoc f o x = abstractLoc f o' x := by
  cases x with
  | inr s => rfl
  | inl l =>
    have : bodyMapping f o l = bodyMapping f o' l := by
      apply Option.ext
      intro s
      rw [bodyMapping_some hw ho, bodyMapping_some hw ho']
    simp only [abstractLoc, this]

/-- **C91.** In a function whose body is not a block, such as a closure `|x| x + 1`, every location but the closing
brace is attributed to nothing. -/
theorem C91_no_block (f : Fn) (id : Nat) (hv : f.value = .other id) (l : Loc) (hb : ¬AtBrace f l) :
    abstractLoc f (steppable f.value) (.inl l) = none := by
  refine (C91_dropped f ?_ _ (fun _ => Iff.rfl) l).2 ⟨hb, ?_⟩
  · intro id' stmts tail h; rw [hv] at h; simp at h
  · rintro ⟨s, -, -, h, -⟩; rw [hv] at h; cases h

/-- A state that is inside a called function with its span is attributed to this span. -/
theorem C91_span (f : Fn) (order : List Nat) (s : Span) : abstractLoc f order (.inr s) = some (f.owner, .inr s) := rfl

/-! ## The memo table -/

/-- Every mapping in the table was built for its instance, with some order of the nodes. -/
def MemoOk (fns : Nat → Fn) (m : Memo) : Prop :=
  ∀ e ∈ m, e.2.1 = (fns e.1).owner ∧ ∃ o, Lists (fns e.1) o ∧ e.2.2 = bodyMapping (fns e.1) o

/-- Asking for a list of places, one after the other. -/
def abstractAll (fns : Nat → Fn) : Memo → List (Nat × (Loc ⊕ Span) × (Nat → List Nat)) → List (Option HirLoc)
  | _, [] => []
  | m, (i, x, o) :: r => (abstractMemo fns o m i x).2 :: abstractAll fns (abstractMemo fns o m i x).1 r

theorem abstractMemo_ok (fns : Nat → Fn) (hw : ∀ i, Placed (fns i)) (order : Nat → List Nat)
    (ho : ∀ i, Lists (fns i) (order i)) (m : Memo) (hm : MemoOk fns m) (i : Nat) (x : Loc ⊕ Span) :
    MemoOk fns (abstractMemo fns order m i x).1 ∧
      (abstractMemo fns order m i x).2 = abstractLoc (fns i) (order i) x := by
  have hm' : ∃ m', (abstractMemo fns order m i x).1 = m' ∧ MemoOk fns m' ∧
      ∃ mp o, m'.find? (fun e => e.1 == i) = some (i, (fns i).owner, mp) ∧ Lists (fns i) o ∧
        mp = bodyMapping (fns i) o := by
    refine ⟨_, rfl, ?_⟩
    unfold abstractMemo
    dsimp only
    cases hf : m.find? (fun e => e.1 == i) with
    | some e =>
      refine ⟨hm, ?_⟩
      have h1 := List.find?_some hf
      have h2 := List.mem_of_find?_eq_some hf
      obtain ⟨k, ow, mp⟩ := e
      simp only [beq_iff_eq] at h1
      subst h1
      obtain ⟨h3, o, h4, h5⟩ := hm _ h2
      dsimp only at h3 h4 h5 ⊢
      exact ⟨mp, o, by rw [hf, h3], h4, h5⟩
    | none =>
      refine ⟨?_, bodyMapping (fns i) (order i), order i, ?_, ho i, rfl⟩
      · intro e he
        rcases List.mem_cons.1 he with rfl | he
        · exact ⟨rfl, order i, ho i, rfl⟩
        · exact hm e he
      · simp
  obtain ⟨m', he, hok, mp, o, hf, hl, hmp⟩ := hm'
  refine ⟨he ▸ hok, ?_⟩
  have : (abstractMemo fns order m i x).2 = abstractLoc (fns i) o x := by
    have he' := he
    unfold abstractMemo at he' ⊢
    dsimp only at he' ⊢
    rw [he', hf]
    dsimp only
    subst hmp
    cases x <;> rfl
  rw [this]
  exact C91_order _ (hw i) _ _ hl (ho i) x

/-- **C91.** The table of mappings already built changes no answer, whatever was asked before and in whatever order the
sets of statements were walked when the mappings were built. -/
theorem C91_memo (fns : Nat → Fn) (hw : ∀ i, Placed (fns i))
    (qs : List (Nat × (Loc ⊕ Span) × (Nat → List Nat))) (hq : ∀ q ∈ qs, ∀ i, Lists (fns i) (q.2.2 i)) :
    abstractAll fns [] qs = qs.map (fun q => abstractLoc (fns q.1) (steppable (fns q.1).value) q.2.1) := by
  have : ∀ m, MemoOk fns m →
      abstractAll fns m qs = qs.map (fun q => abstractLoc (fns q.1) (steppable (fns q.1).value) q.2.1) := by
    induction qs with
    | nil => intro m _; rfl
    | cons q qs ih =>
      obtain ⟨i, x, o⟩ := q
      intro m hm
      have ho : ∀ i, Lists (fns i) (o i) := hq (i, x, o) (List.mem_cons_self ..)
      obtain ⟨h1, h2⟩ := abstractMemo_ok fns hw o ho m hm i x
      simp only [abstractAll, List.map_cons, h2, ih (fun q hq' => hq q (List.mem_cons_of_mem _ hq')) _ h1,
        C91_order (fns i) (hw i) _ _ (ho i) (fun _ => Iff.rfl) x]
  exact this [] (by intro e he; simp at he)

/-! ## A concrete function

`fn main() { let a = f(1); g(a) }` with nodes 1 = block, 2 = `let`, 3 = `f(1)`, 4 = `g(a)`. -/

def demoHir : Hir where
  parent i := if i = 1 then some 0 else if i = 2 then some 1 else if i = 3 then some 2 else if i = 4 then some 1 else none
  lt := by intro i p h; grind

def demoFn : Fn where
  owner := 0
  body := [⟨1, .other [1], false⟩, ⟨1, .other [2], false⟩, ⟨0, .ret, false⟩]
  hir := demoHir
  value := .block 1 [2] (some 4)
  hirOf l := if l.block = 0 then 3 else if l.block = 1 then 4 else 1
  span l := if l.block = 2 then ⟨29, 30⟩ else ⟨l.block * 10, l.block * 10 + 5⟩
  whole := ⟨0, 30⟩

theorem demo_placed : Placed demoFn := by
  intro id stmts tail h s hs
  simp only [demoFn, Value.block.injEq] at h
  obtain ⟨rfl, rfl, rfl⟩ := h
  have : s ∈ [2, 4] := (mem_steppable demoFn.value s).2 hs
  simp only [List.mem_cons, List.not_mem_nil, or_false] at this
  rcases this with rfl | rfl <;> rfl

/-- The call `f(1)` is shown as the `let`, the call of `g` as the final expression, the return as the brace, whichever of
the two nodes comes first. -/
example : ∀ o ∈ [[2, 4], [4, 2]],
    abstractLoc demoFn o (.inl ⟨0, 1⟩) = some (0, .inl 2) ∧ abstractLoc demoFn o (.inl ⟨1, 0⟩) = some (0, .inl 4) ∧
    abstractLoc demoFn o (.inl ⟨2, 0⟩) = some (0, .inr ⟨29, 30⟩) ∧ abstractLoc demoFn o (.inl ⟨3, 0⟩) = none := by
  decide +kernel

/-- A closure `|x| f(x)` with the same machine code: nothing is shown but the end. -/
example : abstractLoc { demoFn with value := .other 1 } [] (.inl ⟨0, 1⟩) = none := by decide +kernel

end Verif.Mapper
