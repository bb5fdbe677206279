import Verif.Value.Lemmas
/-!
# C15, C16, C18: abbreviated arrays, pointers, labels
-/
namespace Verif.Value
open Spec

/-! ## C15 -/

theorem mapRange_ok {ε σ T : Type} {mk : Nat → EStateM ε σ T} {count start s vs s'} :
    mapRange mk start count s = .ok vs s' ↔ Reads mk (List.range' start count) s vs s' := by
  induction count generalizing start s vs s' with
  | zero =>
    unfold mapRange
    rw [pure_ok]
    constructor
    · rintro ⟨rfl, rfl⟩; exact .nil
    · intro h; cases h; exact ⟨rfl, rfl⟩
  | succ c ih =>
    unfold mapRange
    rw [bind_ok]
    constructor
    · rintro ⟨v, s₁, h1, h2⟩
      obtain ⟨vs', s₂, h3, h4⟩ := bind_ok.1 h2
      obtain ⟨rfl, rfl⟩ := pure_ok.1 h4
      exact .cons h1 (ih.1 h3)
    · intro h
      cases h with
      | cons h1 h2 => exact ⟨_, _, h1, bind_ok.2 ⟨_, _, ih.2 h2, pure_ok.2 ⟨rfl, rfl⟩⟩⟩

theorem fails_cons {ε σ T : Type} {mk : Nat → EStateM ε σ T} {i is s e s'} :
    Fails mk (i :: is) s e s' ↔
      mk i s = .error e s' ∨ ∃ v s₁, mk i s = .ok v s₁ ∧ Fails mk is s₁ e s' := by
  constructor
  · rintro ⟨before, j, after, vs, s₁, h1, h2, h3⟩
    cases h2 with
    | nil =>
      simp only [List.nil_append, List.cons.injEq] at h1
      obtain ⟨rfl, rfl⟩ := h1
      exact .inl h3
    | cons h4 h5 =>
      simp only [List.cons_append, List.cons.injEq] at h1
      obtain ⟨rfl, rfl⟩ := h1
      exact .inr ⟨_, _, h4, _, _, _, _, _, rfl, h5, h3⟩
  · rintro (h | ⟨v, s₁, h, before, j, after, vs, s₂, rfl, h2, h3⟩)
    · exact ⟨[], i, is, [], s, rfl, .nil, h⟩
    · exact ⟨i :: before, j, after, _, _, rfl, .cons h h2, h3⟩

theorem mapRange_error {ε σ T : Type} {mk : Nat → EStateM ε σ T} {count start s e s'} :
    mapRange mk start count s = .error e s' ↔ Fails mk (List.range' start count) s e s' := by
  induction count generalizing start s e s' with
  | zero =>
    unfold mapRange
    constructor
    · intro h; exact absurd h pure_error
    · rintro ⟨before, j, after, vs, s₁, h1, -⟩; simp at h1
  | succ c ih =>
    unfold mapRange
    rw [bind_error, List.range'_succ, fails_cons]
    constructor
    · rintro (h | ⟨v, s₁, h1, h2⟩)
      · exact .inl h
      · rcases bind_error.1 h2 with h | ⟨_, _, _, h⟩
        · exact .inr ⟨v, s₁, h1, ih.1 h⟩
        · exact absurd h pure_error
    · rintro (h | ⟨v, s₁, h1, h2⟩)
      · exact .inl h
      · exact .inr ⟨v, s₁, h1, bind_error.2 (.inl (ih.2 h2))⟩

theorem reads_append {ε σ T : Type} {mk : Nat → EStateM ε σ T} {is js s vs s'} :
    Reads mk (is ++ js) s vs s' ↔
      ∃ us ws s₁, vs = us ++ ws ∧ Reads mk is s us s₁ ∧ Reads mk js s₁ ws s' := by
  induction is generalizing s vs with
  | nil =>
    constructor
    · intro h; exact ⟨[], vs, s, rfl, .nil, h⟩
    · rintro ⟨us, ws, s₁, rfl, h1, h2⟩; cases h1; exact h2
  | cons i is ih =>
    constructor
    · intro h
      cases h with
      | cons h1 h2 =>
        obtain ⟨us, ws, s₁, rfl, h3, h4⟩ := ih.1 h2
        exact ⟨_ :: us, ws, s₁, rfl, .cons h1 h3, h4⟩
    · rintro ⟨us, ws, s₁, rfl, h1, h2⟩
      cases h1 with
      | cons h3 h4 => exact .cons h3 (ih.2 ⟨_, _, _, rfl, h4, h2⟩)

theorem reads_length {ε σ T : Type} {mk : Nat → EStateM ε σ T} {is s vs s'}
    (h : Reads mk is s vs s') : vs.length = is.length := by
  induction h with
  | nil => rfl
  | cons _ _ ih => simp [ih]

theorem fails_append {ε σ T : Type} {mk : Nat → EStateM ε σ T} {is js s e s'} :
    Fails mk (is ++ js) s e s' ↔
      Fails mk is s e s' ∨ ∃ vs s₁, Reads mk is s vs s₁ ∧ Fails mk js s₁ e s' := by
  induction is generalizing s with
  | nil =>
    constructor
    · intro h; exact .inr ⟨[], s, .nil, h⟩
    · rintro (⟨before, _, _, _, _, h, -⟩ | ⟨vs, s₁, h1, h2⟩)
      · simp at h
      · cases h1; exact h2
  | cons i is ih =>
    rw [List.cons_append, fails_cons, fails_cons]
    constructor
    · rintro (h | ⟨v, s₁, h1, h2⟩)
      · exact .inl (.inl h)
      · rcases ih.1 h2 with h | ⟨vs, s₂, h3, h4⟩
        · exact .inl (.inr ⟨v, s₁, h1, h⟩)
        · exact .inr ⟨_, s₂, .cons h1 h3, h4⟩
    · rintro ((h | ⟨v, s₁, h1, h2⟩) | ⟨vs, s₂, h3, h4⟩)
      · exact .inl h
      · exact .inr ⟨v, s₁, h1, ih.2 (.inl h2)⟩
      · cases h3 with
        | cons h5 h6 => exact .inr ⟨_, _, h5, ih.2 (.inr ⟨_, _, h6, h4⟩)⟩

/-- **C15 (success).** Showing an array of `n` elements succeeds exactly if reading the shown indices —
all of them for `n ≤ 12`, else 0 to 10 and `n - 1` — one after the other succeeds; the elements shown
are the values read, in that order, and "the last element" is set apart exactly for `n > 12`. -/
theorem C15_shown {ε σ T : Type} (mk : Nat → EStateM ε σ T) (n : Nat) (s : σ) (r : Abbreviated T) (s' : σ) :
    Abbreviated.new n mk s = .ok r s' ↔
      Reads mk (shownIndices n) s (elements r) s' ∧ ((∃ vs, r = .all vs) ↔ n ≤ 12) := by
  unfold Abbreviated.new shownIndices
  by_cases hn : n ≤ abbrevMax
  · have hn' : n ≤ 12 := hn
    rw [if_pos hn, if_pos hn', bind_ok]
    constructor
    · rintro ⟨vs, s₁, h1, h2⟩
      obtain ⟨rfl, rfl⟩ := pure_ok.1 h2
      refine ⟨?_, by simp [hn']⟩
      rw [List.range_eq_range']
      exact mapRange_ok.1 h1
    · rintro ⟨h1, h2⟩
      obtain ⟨vs, rfl⟩ := h2.2 hn'
      rw [List.range_eq_range'] at h1
      exact ⟨vs, s', mapRange_ok.2 h1, pure_ok.2 ⟨rfl, rfl⟩⟩
  · have hn' : ¬ n ≤ 12 := hn
    rw [if_neg hn, if_neg hn', bind_ok, reads_append]
    constructor
    · rintro ⟨vs, s₁, h1, h2⟩
      obtain ⟨l, s₂, h3, h4⟩ := bind_ok.1 h2
      obtain ⟨rfl, rfl⟩ := pure_ok.1 h4
      refine ⟨⟨vs, [l], s₁, rfl, ?_, .cons h3 .nil⟩, by simp [hn']⟩
      rw [List.range_eq_range']
      exact mapRange_ok.1 h1
    · rintro ⟨⟨us, ws, s₁, h1, h2, h3⟩, h4⟩
      cases r with
      | all vs => exact absurd (h4.1 ⟨vs, rfl⟩) hn'
      | only vs l =>
        cases h3 with
        | cons h5 h6 =>
          cases h6
          simp only [elements] at h1
          obtain ⟨rfl, h7⟩ := List.append_inj' h1 rfl
          simp only [List.cons.injEq, and_true] at h7
          subst h7
          rw [List.range_eq_range'] at h2
          exact ⟨vs, s₁, mapRange_ok.2 h2, bind_ok.2 ⟨l, _, h5, pure_ok.2 ⟨rfl, rfl⟩⟩⟩

/-- **C15 (failure).** It fails exactly if reading the shown indices in that order fails, with the error
of the first failing read. -/
theorem C15_first_error {ε σ T : Type} (mk : Nat → EStateM ε σ T) (n : Nat) (s : σ) (e : ε) (s' : σ) :
    Abbreviated.new n mk s = .error e s' ↔ Fails mk (shownIndices n) s e s' := by
  unfold Abbreviated.new shownIndices
  by_cases hn : n ≤ abbrevMax
  · have hn' : n ≤ 12 := hn
    rw [if_pos hn, if_pos hn', bind_error, List.range_eq_range', ← mapRange_error]
    constructor
    · rintro (h | ⟨_, _, _, h⟩)
      · exact h
      · exact absurd h pure_error
    · exact .inl
  · have hn' : ¬ n ≤ 12 := hn
    rw [if_neg hn, if_neg hn', bind_error, fails_append, List.range_eq_range', ← mapRange_error]
    constructor
    · rintro (h | ⟨vs, s₁, h1, h2⟩)
      · exact .inl h
      · refine .inr ⟨vs, s₁, mapRange_ok.1 h1, ?_⟩
        rcases bind_error.1 h2 with h | ⟨_, _, _, h⟩
        · exact fails_cons.2 (.inl h)
        · exact absurd h pure_error
    · rintro (h | ⟨vs, s₁, h1, h2⟩)
      · exact .inl h
      · refine .inr ⟨vs, s₁, mapRange_ok.2 h1, bind_error.2 (.inl ?_)⟩
        rcases fails_cons.1 h2 with h | ⟨_, _, _, _, _, _, _, _, h, -⟩
        · exact h
        · simp at h

/-- **C15 (count).** The number of elements shown is `min n 12`. -/
theorem C15_count {ε σ T : Type} (mk : Nat → EStateM ε σ T) (n : Nat) (s : σ) (r : Abbreviated T) (s' : σ)
    (h : Abbreviated.new n mk s = .ok r s') : (elements r).length = min n 12 := by
  rw [reads_length ((C15_shown mk n s r s').1 h).1]
  unfold shownIndices
  split <;> simp <;> omega

example : Abbreviated.new (ε := Unit) (σ := Unit) 14 (fun i => pure (i * i)) () =
    .ok (.only [0, 1, 4, 9, 16, 25, 36, 49, 64, 81, 100] 169) () := rfl

example : Abbreviated.new (ε := Nat) (σ := Unit) 14 (fun i => if i = 5 then throw i else pure i) () =
    .error 5 () := rfl

/-! ## C16 -/

theorem reached_closed (mem : Mem) (roots : List Op) : ∀ ks p a off o ks' q, Reached mem roots ks p →
    p.target = some (a, off) → Content mem ks a off p.ty o → OccursIn ks' q ks o →
    Reached mem roots ks' q :=
  fun _ _ _ _ _ _ _ h1 h2 h3 h4 => .step h1 h2 h3 h4

/-- All the facts about a step read from memory without pointer cycles. -/
theorem diagram {mem : Mem} {roots : List Op} {rank : AllocId → Nat}
    (hac : Acyclic mem (Reached mem roots) rank) {fuel : Nat} {slots vs s'}
    (h : readAll mem fuel roots (startMap slots) = .ok vs s') :
    ∃ order, Inv mem (Reached mem roots) order s' ∧ s'.slots = slots ∧
      List.Forall₂ (Depicts mem (mapOf s') []) roots vs := by
  obtain ⟨r, hr⟩ := roots_bound rank roots
  obtain ⟨order, h1, h2, h3⟩ := readAll_sound hac (reached_closed mem roots) fuel r roots
    (fun o ho ks p hp => ⟨.root ho hp, hr o ho ks p hp⟩) [] _ vs s' (inv_start mem _ slots) h
  exact ⟨order, h1, h2.le.slot, h3⟩

/-- **C16 (the whole step).** For memory without pointer cycles, the values and the heap of a step form
a diagram of the variables' operands: every followed pointer is shown as a pointer to the place where its
allocation is drawn (or as hidden, if it goes to a variable that is not part of the step), every heap
allocation reached is shown exactly once, and each cell shows the contents of its allocation. -/
theorem C16_diagram (mem : Mem) (roots : List Op) (rank : AllocId → Nat)
    (hac : Acyclic mem (Reached mem roots) rank) (fuel : Nat) (slots vs s')
    (h : readAll mem fuel roots (startMap slots) = .ok vs s') :
    ∃ order m, Diagram mem roots slots vs s'.heap order m := by
  obtain ⟨order, hI, hs, hd⟩ := diagram hac h
  refine ⟨order, mapOf s', hI.len, ?_, ?_, ?_, hs, ?_, hd,
    fun i a ly v hl hv => hI.shows i a v (hI.heap a i ly hl).1 hv ly hl, ?_⟩
  · unfold List.Nodup
    rw [List.pairwise_iff_getElem]
    intro i j hi hj hij heq
    obtain ⟨ly, h1⟩ := hI.cell i _ (List.getElem?_eq_getElem hi)
    obtain ⟨ly', h2⟩ := hI.cell j _ (List.getElem?_eq_getElem hj)
    rw [heq, h2] at h1
    simp only [Option.some.injEq, Prod.mk.injEq, MSeg.heap.injEq] at h1
    omega
  · intro a i
    constructor
    · rintro ⟨ly, hl⟩; exact (hI.heap a i ly hl).1
    · intro hi; exact hI.cell i a hi
  · intro a ha
    obtain ⟨i, hi⟩ := List.getElem?_of_mem ha
    obtain ⟨ly, hl⟩ := hI.cell i a hi
    exact (hI.heap a i ly hl).2
  · intro a f n ly hl
    have := hI.stack a f n ly hl
    rw [hs] at this
    exact this
  · intro a b i ha hb
    exact label_unique ha hb

/-- **C16 (targets exist).** Every pointer in a variable or in a heap cell of the step refers to a heap
cell of the same step or to a variable recorded for it. -/
theorem C16_targets (mem : Mem) (roots : List Op) (rank : AllocId → Nat)
    (hac : Acyclic mem (Reached mem roots) rank) (fuel : Nat) (slots vs s')
    (h : readAll mem fuel roots (startMap slots) = .ok vs s')
    (v : MValue) (hv : v ∈ vs ∨ v ∈ s'.heap) (seg : MSeg) (hp : HasPtr v seg) :
    (∃ i, seg = .heap i ∧ i < s'.heap.length) ∨
    (∃ f n, seg = .stack f n ∧ ∃ a ly, slots a = some (f, n, ly)) := by
  obtain ⟨order, m, hd⟩ := C16_diagram mem roots rank hac fuel slots vs s' h
  have hdr : Drawn m seg := by
    rcases hv with hv | hv
    · have : ∀ {os ws}, List.Forall₂ (Depicts mem m []) os ws → v ∈ ws → Drawn m seg := by
        intro os ws hf
        induction hf with
        | nil => simp
        | cons h1 _ ih =>
          intro hm
          rcases List.mem_cons.1 hm with rfl | hm
          · exact depicts_ptr h1 hp
          · exact ih hm
      exact this hd.variables hv
    · obtain ⟨i, hi⟩ := List.getElem?_of_mem hv
      have hlt : i < order.length := by
        rw [hd.cells]
        exact (List.getElem?_eq_some_iff.1 hi).1
      obtain ⟨ly, hl⟩ := (hd.heapLoc _ i).2 (List.getElem?_eq_getElem hlt)
      exact cellShows_ptr (hd.cell i _ ly v hl hi) hp
  obtain ⟨a, ly, hl⟩ := hdr
  cases seg with
  | heap i =>
    refine .inl ⟨i, rfl, ?_⟩
    rw [← hd.cells]
    exact (List.getElem?_eq_some_iff.1 ((hd.heapLoc a i).1 ⟨ly, hl⟩)).1
  | stack f n => exact .inr ⟨f, n, rfl, a, ly, (hd.stackLoc a f n ly hl).1⟩

/-- **C16 (one cell per allocation).** Two pointers of a diagram into allocations `a` and `b` that are
drawn as pointers to heap cells refer to the same cell iff `a = b`. -/
theorem C16_same_cell {mem roots slots vs heap order m} (hd : Diagram mem roots slots vs heap order m)
    (p q : Ptr) (a b oa ob i j pa pb ra rb) (hp : p.target = some (a, oa)) (hq : q.target = some (b, ob))
    (hsp : ShowsPtr mem m p (.pointer (.heap i) pa ra)) (hsq : ShowsPtr mem m q (.pointer (.heap j) pb rb)) :
    i = j ↔ a = b := by
  cases hsp with
  | drawn h1 h2 _ =>
    cases hsq with
    | drawn h3 h4 _ =>
      rw [hp] at h1; rw [hq] at h3
      simp only [Option.some.injEq, Prod.mk.injEq] at h1 h3
      obtain ⟨rfl, rfl⟩ := h1
      obtain ⟨rfl, rfl⟩ := h3
      have ha := (hd.heapLoc a i).1 ⟨_, h2⟩
      have hb := (hd.heapLoc b j).1 ⟨_, h4⟩
      constructor
      · rintro rfl; rw [ha] at hb; simpa using hb
      · rintro rfl
        rw [h2] at h4
        simp only [Option.some.injEq, Prod.mk.injEq, MSeg.heap.injEq] at h4
        exact h4.1

/-- **C16 (heap allocations reached are shown).** A followed pointer of a diagram to a heap allocation is
drawn as a pointer to a cell of the heap, and that cell shows the allocation. -/
theorem C16_reached_shown {mem roots slots vs heap order m} (hd : Diagram mem roots slots vs heap order m)
    (p : Ptr) (a off v) (hp : p.target = some (a, off)) (hk : mem.kind a = some .machine)
    (hs : ShowsPtr mem m p v) :
    ∃ i parts ly w, v = .pointer (.heap i) parts p.mdata ∧ heap[i]? = some w ∧
      CellShows mem (Reached mem roots) m a ly w ∧ locateAddress ly (mem.size a) p.mdata off = .ok parts := by
  cases hs with
  | drawn h1 h2 h3 =>
    rename_i a' off' seg ly parts
    rw [hp] at h1
    simp only [Option.some.injEq, Prod.mk.injEq] at h1
    obtain ⟨rfl, rfl⟩ := h1
    cases seg with
    | stack f n =>
      have := (hd.stackLoc a f n ly h2).2
      rw [hk] at this; simp at this
    | heap i =>
      have hi := (hd.heapLoc a i).1 ⟨ly, h2⟩
      have hlt : i < heap.length := by
        rw [← hd.cells]; exact (List.getElem?_eq_some_iff.1 hi).1
      exact ⟨i, parts, ly, heap[i], rfl, List.getElem?_eq_getElem hlt,
        hd.cell i a ly _ h2 (List.getElem?_eq_getElem hlt), h3⟩
  | hidden h1 h2 =>
    rw [hp] at h1
    simp only [Option.some.injEq, Prod.mk.injEq] at h1
    obtain ⟨rfl, rfl⟩ := h1
    rw [hk] at h2; simp at h2

/-- **C60 (acyclic memory).** For memory without pointer cycles, the tool does not recurse forever: a stack
deeper than the rank of the variables' targets is never exhausted. Missing from the full property:
cyclic structures and string literals (false, below). -/
theorem C60_terminates_partial (mem : Mem) (roots : List Op) (rank : AllocId → Nat)
    (hac : Acyclic mem (Reached mem roots) rank) (fuel : Nat) (s s')
    (hpos : 0 < fuel)
    (hfuel : ∀ o ∈ roots, ∀ ks p b off, OccursIn ks p [] o → p.target = some (b, off) → rank b + 1 < fuel) :
    readAll mem fuel roots s ≠ .error .stackOverflow s' := by
  have : ∀ os : List Op, (∀ o ∈ os, o ∈ roots) → Safe (readAll mem fuel os) := by
    intro os
    induction os with
    | nil => intro _; unfold readAll; exact .pure
    | cons o os ih =>
      intro hos
      unfold readAll
      refine Safe.bind (readOp_safe [] o ?_) fun v => (ih (fun o' h => hos o' (by simp [h]))).bind fun _ => .pure
      intro ks p hp
      have ho := hos o (by simp)
      exact readPtr_safe hac (reached_closed mem roots) fuel ks p (.root ho hp)
        (fun b off hb => hfuel o ho ks p b off hp hb) hpos
  exact this roots (fun _ h => h) s s'

/-! ### Pointer cycles and string literals -/

/-- One allocation that holds a pointer to itself. -/
def selfPtr : Ptr := { target := some (0, 0), accessOk := true, mdata := none, ty := .prim 8 }
def selfMem : Mem := { kind := fun _ => some .machine, size := fun _ => 8, at_ := fun _ _ _ => .ptr selfPtr }

/-- **C60 is false for cyclic structures.** On a structure that points to itself (such as `Rc` cycles), reading
never ends: every stack is exhausted. -/
theorem C60_cycle_overflows (fuel : Nat) (s : MemMap) (h : s.loc 0 = none) :
    ∃ s', readPtr selfMem fuel [] selfPtr s = .error .stackOverflow s' := by
  induction fuel with
  | zero => exact ⟨s, rfl⟩
  | succ fuel ih =>
    obtain ⟨s', hs'⟩ := ih
    refine ⟨s', ?_⟩
    unfold readPtr
    simp only [selfPtr]
    rw [get_bind, h]
    simp only [Option.isSome_none, Bool.false_eq_true, if_false]
    refine bind_error.2 (.inl ?_)
    unfold readAlloc
    have hat : ∀ a off ty, selfMem.at_ a off ty = .ptr selfPtr := fun _ _ _ => rfl
    simp only [List.head?_nil, hat]
    unfold readOp
    simpa [selfPtr] using hs'

/-- A string literal: `str` operands stand for the bytes at their own address (mvalue.rs:485-488). -/
def literalPtr : Ptr := { target := some (0, 0), accessOk := true, mdata := some 2, ty := .prim 1 }
def literalMem : Mem :=
  { kind := fun _ => some .machine, size := fun _ => 2, at_ := fun _ _ _ => .str literalPtr }

/-- **C60 is false for string literals.** Reading `&str` that points to memory not seen before recurses on
the same address without end. -/
theorem C60_literal_overflows (fuel : Nat) (s : MemMap) (h : s.loc 0 = none) :
    ∃ s', readPtr literalMem fuel [] literalPtr s = .error .stackOverflow s' := by
  induction fuel with
  | zero => exact ⟨s, rfl⟩
  | succ fuel ih =>
    obtain ⟨s', hs'⟩ := ih
    refine ⟨s', ?_⟩
    unfold readPtr
    simp only [literalPtr]
    rw [get_bind, h]
    simp only [Option.isSome_none, Bool.false_eq_true, if_false]
    refine bind_error.2 (.inl ?_)
    unfold readAlloc
    have hat : ∀ a off ty, literalMem.at_ a off ty = .str literalPtr := fun _ _ _ => rfl
    simp only [List.head?_nil, hat]
    unfold readOp
    simpa [literalPtr] using hs'

/-! ### A concrete diagram -/

/-- A vector of two references, `vec![&x, &x]`, and `x` itself, with `x` in slot (0, "x"). Allocation 1
is `x`, allocation 2 the buffer of the vector. -/
def demoX : Ptr := { target := some (1, 0), accessOk := true, mdata := none, ty := .prim 4 }
def demoBuf : Ptr := { target := some (2, 0), accessOk := true, mdata := none, ty := .prim 8 }
def demoMem : Mem :=
  { kind := fun a => if a = 1 then some .stack else some .machine
    size := fun a => if a = 1 then 4 else 8
    at_ := fun a _ _ => if a = 2 then .ptr demoX else .prim (.uint 7) }
def demoRoots : List Op := [.prim (.uint 7), .box (.ptr demoBuf), .ptr demoBuf]
def demoSlots : AllocId → Option (Nat × String × Ty) :=
  fun a => if a = 1 then some (0, "x", .prim 4) else none

example : Acyclic demoMem (Reached demoMem demoRoots) id := by
  intro ks p a off o ks' q b off' _ _ hc hq hb
  have key : ∀ off ty, OccursIn ks' q ks (demoMem.at_ a off ty) → id b < id a := by
    intro off ty hq
    simp only [demoMem] at hq
    split at hq
    · rename_i ha
      simp only [OccursIn] at hq
      obtain ⟨rfl, -, -⟩ := hq
      simp only [demoX, Option.some.injEq, Prod.mk.injEq] at hb
      obtain ⟨rfl, -⟩ := hb
      simp [ha]
    · simp [OccursIn] at hq
  cases hc <;> exact key _ _ hq

/-- The step is read, with one heap cell and three pointers to two targets. -/
example : (match readAll demoMem 4 demoRoots (startMap demoSlots) with
    | .ok vs s' => some (vs, s'.heap)
    | .error _ _ => none) =
    some ([.prim (.uint 7),
      .adt "Box" none [("0", .pointer (.heap 0) [] none)] (some .box),
      .pointer (.heap 0) [] none], [.pointer (.stack 0 "x") [] none]) := by
  rfl

/-! ## C59 -/

/-- **C59 (outside strings and vectors).** If no pointer is followed directly from inside a string or
vector, each heap cell depicts the value behind a pointer to its allocation, read with that pointer's
type. Missing from the full property: pointers stored in vectors (false, `C59_vec_of_refs`). -/
theorem C59_value_partial {mem roots slots vs heap order m} (hd : Diagram mem roots slots vs heap order m)
    (hno : ∀ ks p, Reached mem roots ks p →
      (∀ len, ks.head? ≠ some (.string len)) ∧ (∀ len el, ks.head? ≠ some (.vec len el)))
    (i : Nat) (a v) (ha : order[i]? = some a) (hv : heap[i]? = some v) :
    ∃ ks p off, Reached mem roots ks p ∧ p.target = some (a, off) ∧
      Depicts mem m ks (mem.at_ a off p.ty) v := by
  obtain ⟨ly, hl⟩ := (hd.heapLoc a i).2 ha
  obtain ⟨ks, p, off, h1, h2, h3, -⟩ := hd.cell i a ly v hl hv
  obtain ⟨n1, n2⟩ := hno ks p h1
  refine ⟨ks, p, off, h1, h2, ?_⟩
  cases h3 with
  | chars h => exact absurd h (n1 _)
  | elems h => exact absurd h (n2 _ _)
  | value _ _ h => exact h

example : ∀ ks p, Reached demoMem demoRoots ks p →
    (∀ len, ks.head? ≠ some (.string len)) ∧ (∀ len el, ks.head? ≠ some (.vec len el)) := by
  have key : ∀ ks p, Reached demoMem demoRoots ks p → ks = [] ∨ ks = [.box] := by
    intro ks p h
    induction h with
    | root ho hp =>
      simp only [demoRoots, List.mem_cons, List.not_mem_nil, or_false] at ho
      rcases ho with rfl | rfl | rfl
      · simp [OccursIn] at hp
      · simp only [OccursIn] at hp; exact .inr hp.2.1
      · simp only [OccursIn] at hp; exact .inl hp.2.1
    | step _ _ hc hq ih =>
      rename_i ks p a off o ks' q _ _
      have : ∀ off ty, OccursIn ks' q ks (demoMem.at_ a off ty) → ks' = ks := by
        intro off ty hq
        simp only [demoMem] at hq
        split at hq
        · simp only [OccursIn] at hq; exact hq.2.1
        · simp [OccursIn] at hq
      have hk : ks' = ks := by cases hc <;> exact this _ _ hq
      rw [hk]; exact ih
  intro ks p h
  rcases key ks p h with rfl | rfl <;> simp

/-- The value 7 in heap allocation 1, and a vector of two references to it (buffer: allocation 2). -/
def refsPtr : Ptr := { target := some (1, 0), accessOk := true, mdata := none, ty := .prim 4 }
def refsBuf : Ptr := { target := some (2, 0), accessOk := true, mdata := none, ty := .prim 1 }
def refsMem : Mem :=
  { kind := fun _ => some .machine
    size := fun a => if a = 2 then 16 else 4
    at_ := fun a off _ => if a = 2 then .ptr refsPtr else if off = 0 then .prim (.uint 7) else .fault }
def refsVec : Op := .adt (.vec (some 2) (.ptr 8)) (.cons "ptr" false (.ptr refsBuf) .nil)

/-- The heap of a step, or nothing if reading failed. -/
def heapOf (r : EStateM.Result Err MemMap (List MValue)) : Option (List MValue) :=
  match r with
  | .ok _ s => some s.heap
  | .error _ _ => none

/-- **C59 is false for references in a vector.** Reading a plain reference to the heap value 7 shows it.
Reading a vector of two such references fails, because the referenced four bytes are read as if they
were the two eight-byte elements of the vector. -/
theorem C59_vec_of_refs :
    heapOf (readAll refsMem 4 [.ptr refsPtr] (startMap fun _ => none)) = some [.prim (.uint 7)] ∧
    heapOf (readAll refsMem 4 [refsVec] (startMap fun _ => none)) = none :=
  ⟨rfl, rfl⟩

/-- With a vector of one reference, no error arises, but the value is shown as an array. -/
theorem C59_vec_of_one_ref :
    heapOf (readAll refsMem 4 [.adt (.vec (some 1) (.ptr 8)) (.cons "ptr" false (.ptr refsBuf) .nil)]
      (startMap fun _ => none)) = some [.all [.prim (.uint 7)], .all [.pointer (.heap 0) [] none]] :=
  rfl

/-! ## C18 -/

/-- **C18 (within a step).** Two pointers that may not be followed, shown in one diagram with labels `i`
and `j`, carry the same label iff they point to the same allocation. -/
theorem C18_labels {mem roots slots vs heap order m} (hd : Diagram mem roots slots vs heap order m)
    (ks ks' p q a b oa ob i j) (hp : p.target = some (a, oa)) (hq : q.target = some (b, ob))
    (hpa : p.accessOk = false) (hqa : q.accessOk = false)
    (hsp : Depicts mem m ks (.ptr p) (.unallocated (some i)))
    (hsq : Depicts mem m ks' (.ptr q) (.unallocated (some j))) : i = j ↔ a = b := by
  have lab : ∀ {ks p a oa i}, p.target = some (a, oa) → p.accessOk = false →
      Depicts mem m ks (.ptr p) (.unallocated (some i)) → m.label a = some i := by
    intro ks p a oa i h1 h2 h3
    generalize ho : Op.ptr p = o at h3
    generalize hv : MValue.unallocated (some i) = v at h3
    cases h3 <;> simp only [Op.ptr.injEq, reduceCtorEq, MValue.unallocated.injEq, Option.some.injEq] at ho hv
    · subst ho; simp_all
    · subst ho hv; simp_all
  have h1 := lab hp hpa hsp
  have h2 := lab hq hqa hsq
  constructor
  · rintro rfl; exact hd.labels a b i h1 h2
  · rintro rfl; rw [h1] at h2; simpa using h2

/-- **C18 (dangling pointers are labelled).** Every pointer of a diagram that may not be followed but has
an allocation is shown with a label, so the previous theorem applies to all of them. -/
theorem C18_labelled {mem m} (ks p a off v) (hp : p.target = some (a, off)) (hpa : p.accessOk = false)
    (hs : Depicts mem m ks (.ptr p) v) : ∃ i, v = .unallocated (some i) ∧ m.label a = some i := by
  generalize ho : Op.ptr p = o at hs
  cases hs <;> simp only [Op.ptr.injEq, reduceCtorEq] at ho
  · subst ho; simp_all
  · subst ho
    rename_i i h3 h1 h2
    rw [hp] at h2
    simp only [Option.some.injEq, Prod.mk.injEq] at h2
    obtain ⟨rfl, rfl⟩ := h2
    exact ⟨i, rfl, h3⟩
  · subst ho; simp_all

/-- The label reported with a use after free of allocation `a` (`beautify_error`, step.rs:622-641): the
machine step that failed comes after the memory map was reset by `build_heap` (step.rs:459-461). -/
def errorLabel (slots : AllocId → Option (Nat × String × Ty)) (a : AllocId) : Option Nat :=
  match remapAllocId a (startMap slots) with
  | .ok i _ => some i
  | .error _ _ => none

/-- The reported label is always 0. -/
theorem errorLabel_zero (slots a) : errorLabel slots a = some 0 := rfl

/-- **C18 (second half, partial).** The label reported with the error is that of the pointer in the last
step iff the freed allocation is the first one labelled in that step. -/
theorem C18_error_partial {m : Map} (slots a i) (h : m.label a = some i) :
    errorLabel slots a = m.label a ↔ i = 0 := by
  rw [errorLabel_zero, h]
  simp only [Option.some.injEq]
  exact eq_comm

def danglingPtr (a : AllocId) : Ptr := { target := some (a, 0), accessOk := false, mdata := none, ty := .prim 4 }

/-- **C18 is false for the error label.** With two dangling pointers, to allocations 5 and 7, in the last
step, the labels are 0 and 1; a use after free of allocation 7 is reported with label 0, the label of the
other pointer. -/
theorem C18_error_wrong (mem : Mem) (slots) :
    (∃ s', readAll mem 1 [.ptr (danglingPtr 5), .ptr (danglingPtr 7)] (startMap slots) =
      .ok [.unallocated (some 0), .unallocated (some 1)] s' ∧
      (mapOf s').label 7 = some 1) ∧ errorLabel slots 7 = some 0 := by
  refine ⟨⟨_, rfl, rfl⟩, rfl⟩

end Verif.Value
