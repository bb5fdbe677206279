import Verif.HirSteps.Nested
/-!
# C100: all programs of actions, calls and `if`s

A small language, its translation to blocks and to source, and that every program of it is given the steps one
expects.  The translation follows what rustc does: an action is one statement of a block, a call ends a block, an `if`
ends a block in a switch whose first target is the `else` branch, and the end of a branch assigns the unit value and
goes to the join.
-/
namespace Verif.HirSteps

open Verif.Cfg Verif.Segments Verif.Graph

/-- A list of statements.  The numbers are the spans. -/
inductive Prog
  | fin
  /-- `x = 1;` -/
  | act (sp : Nat) (r : Prog)
  /-- `f();` -/
  | call (sp : Nat) (r : Prog)
  /-- `if c { t } else { e }`; shown are the condition and the starts of the two blocks -/
  | ask (sp lt le : Nat) (t e r : Prog)
  /-- `if c { t }`; shown are the condition, the start of the block and the end of the whole -/
  | only (sp lt hi : Nat) (t r : Prog)
  deriving DecidableEq, Repr

namespace Prog

/-- The number of blocks. -/
def size : Prog → Nat
  | fin => 1
  | act _ r => r.size
  | call _ r => 1 + r.size
  | ask _ _ _ t e r => 1 + (e.size + (t.size + r.size))
  | only _ _ _ t r => 1 + (1 + (t.size + r.size))

/-- The blocks, if the first one has the number `k` and already contains `n` statements. -/
def code : Prog → Nat → Nat → Term → List Cfg.Block
  | fin, _, n, last => [⟨n + 1, last, false⟩]
  | act _ r, k, n, last => r.code k (n + 1) last
  | call _ r, k, n, last => ⟨n, .other [k + 1], false⟩ :: r.code (k + 1) 0 last
  | ask _ _ _ t e r, k, n, last =>
    ⟨n + 1, .switchInt [k + 1, k + 1 + e.size], false⟩ ::
      (e.code (k + 1) 0 (.goto (k + 1 + e.size + t.size)) ++
        (t.code (k + 1 + e.size) 0 (.goto (k + 1 + e.size + t.size)) ++ r.code (k + 1 + e.size + t.size) 0 last))
  | only _ _ _ t r, k, n, last =>
    ⟨n + 1, .switchInt [k + 1, k + 1 + 1], false⟩ ::
      ([⟨1, .goto (k + 1 + 1 + t.size), false⟩] ++
        (t.code (k + 1 + 1) 0 (.goto (k + 1 + 1 + t.size)) ++ r.code (k + 1 + 1 + t.size) 0 last))

/-- Its control flow. -/
def flow : Prog → Nat → Flow
  | fin, k => .blk k .nil
  | act _ r, k => r.flow k
  | call _ r, k => .blk k (r.flow (k + 1))
  | ask _ _ _ t e r, k => .fork k (e.flow (k + 1)) (t.flow (k + 1 + e.size)) (r.flow (k + 1 + e.size + t.size))
  | only _ _ _ t r, k => .fork k (.blk (k + 1) .nil) (t.flow (k + 1 + 1)) (r.flow (k + 1 + 1 + t.size))

/-- A node that occupies one location. -/
def one (k n sp : Nat) : Node := ⟨some ⟨k, n⟩, some ⟨k, n⟩, sp, 0, 0⟩

/-- The source, as the statements of a block. -/
def stmts : Prog → Nat → Nat → List Stmt
  | fin, _, _ => []
  | act sp r, k, n => .expr (one k n sp) (.other (one k n sp) []) :: r.stmts k (n + 1)
  | call sp r, k, n => .expr (one k n sp) (.other (one k n sp) []) :: r.stmts (k + 1) 0
  | ask sp lt le t e r, k, n =>
    .expr ⟨some ⟨k, n⟩, none, 0, 0, 0⟩ (.ite ⟨some ⟨k, n⟩, none, 0, 0, 0⟩ (.other (one k n sp) [])
      (.other ⟨some ⟨k + 1 + e.size, 0⟩, none, 0, lt, 0⟩
        [.block (.mk ⟨some ⟨k + 1 + e.size, 0⟩, none, 0, lt, 0⟩ (t.stmts (k + 1 + e.size) 0) none)])
      (some (.other ⟨some ⟨k + 1, 0⟩, none, 0, le, 0⟩
        [.block (.mk ⟨some ⟨k + 1, 0⟩, none, 0, le, 0⟩ (e.stmts (k + 1) 0) none)]))) ::
      r.stmts (k + 1 + e.size + t.size) 0
  | only sp lt hi t r, k, n =>
    .expr ⟨some ⟨k, n⟩, none, 0, 0, 0⟩ (.ite ⟨some ⟨k, n⟩, none, 0, 0, hi⟩ (.other (one k n sp) [])
      (.other ⟨some ⟨k + 1 + 1, 0⟩, none, 0, lt, 0⟩
        [.block (.mk ⟨some ⟨k + 1 + 1, 0⟩, none, 0, lt, 0⟩ (t.stmts (k + 1 + 1) 0) none)]) none) ::
      r.stmts (k + 1 + 1 + t.size) 0

/-- Where the unit value is assigned at the end. -/
def finAt : Prog → Nat → Nat → Loc
  | fin, k, n => ⟨k, n⟩
  | act _ r, k, n => r.finAt k (n + 1)
  | call _ r, k, _ => r.finAt (k + 1) 0
  | ask _ _ _ t e r, k, _ => r.finAt (k + 1 + e.size + t.size) 0
  | only _ _ _ t r, k, _ => r.finAt (k + 1 + 1 + t.size) 0

/-- The body of a function. -/
def body (p : Prog) : Body := p.code 0 0 .ret

/-- Its source. -/
def source (p : Prog) (sp : Nat) : Expr :=
  .other ⟨some ⟨0, 0⟩, some (p.finAt 0 0), sp, 0, 0⟩
    [.block (.mk ⟨some ⟨0, 0⟩, some (p.finAt 0 0), sp, 0, 0⟩ (p.stmts 0 0) none)]

/-- The steps one expects, from the location `⟨k, n⟩` on: one for each statement without a condition, one for each
condition, one into each branch; and those of the statements inside the branches, first the `then` branch. -/
def expected : Prog → Nat → Nat → List Step
  | fin, _, _ => []
  | act sp r, k, n => (⟨k, n⟩, ⟨k, n + 1⟩, sp) :: r.expected k (n + 1)
  | call sp r, k, n => (⟨k, n⟩, ⟨k + 1, 0⟩, sp) :: r.expected (k + 1) 0
  | ask sp lt le t e r, k, n =>
    (⟨k, n⟩, ⟨k, n + 1⟩, sp) :: (⟨k, n + 1⟩, ⟨k + 1, 0⟩, le) :: (⟨k, n + 1⟩, ⟨k + 1 + e.size, 0⟩, lt) ::
      (t.expected (k + 1 + e.size) 0 ++ e.expected (k + 1) 0 ++ r.expected (k + 1 + e.size + t.size) 0)
  | only sp lt hi t r, k, n =>
    (⟨k, n⟩, ⟨k, n + 1⟩, sp) :: (⟨k, n + 1⟩, ⟨k + 1, 0⟩, hi) :: (⟨k, n + 1⟩, ⟨k + 1 + 1, 0⟩, lt) ::
      (t.expected (k + 1 + 1) 0 ++ r.expected (k + 1 + 1 + t.size) 0)

/-- The branches one expects: from the switch to the join of each `if`. -/
def joins : Prog → Nat → Nat → List (Loc × Loc)
  | fin, _, _ => []
  | act _ r, k, n => r.joins k (n + 1)
  | call _ r, k, _ => r.joins (k + 1) 0
  | ask _ _ _ t e r, k, n => (⟨k, n + 1⟩, ⟨k + 1 + e.size + t.size, 0⟩) ::
      (t.joins (k + 1 + e.size) 0 ++ e.joins (k + 1) 0 ++ r.joins (k + 1 + e.size + t.size) 0)
  | only _ _ _ t r, k, n => (⟨k, n + 1⟩, ⟨k + 1 + 1 + t.size, 0⟩) ::
      (t.joins (k + 1 + 1) 0 ++ r.joins (k + 1 + 1 + t.size) 0)

/-! ## The blocks -/

theorem size_pos : ∀ p : Prog, 0 < p.size
  | fin => Nat.one_pos
  | act _ r => size_pos r
  | call _ r => by simp only [size]; omega
  | ask _ _ _ t e r => by simp only [size]; omega
  | only _ _ _ t r => by simp only [size]; omega

theorem code_length : ∀ (p : Prog) (k n : Nat) (last : Term), (p.code k n last).length = p.size
  | fin, _, _, _ => rfl
  | act _ r, k, n, last => code_length r k (n + 1) last
  | call _ r, k, n, last => by
    simp only [code, List.length_cons, code_length r, size]
    omega
  | ask _ _ _ t e r, k, n, last => by
    simp only [code, List.length_cons, List.length_append, code_length r, code_length t, code_length e, size]
    omega
  | only _ _ _ t r, k, n, last => by
    simp only [code, List.length_cons, List.length_append, code_length r, code_length t, size, List.length_nil]
    omega

/-- The blocks `c` are those of `b` from number `k` on. -/
def Slice (b : Body) (k : Nat) (c : List Cfg.Block) : Prop := ∀ (i : Nat) (d : Cfg.Block), c[i]? = some d → b[k + i]? = some d

theorem Slice.left {b : Body} {k : Nat} {c c' : List Cfg.Block} (h : Slice b k (c ++ c')) : Slice b k c :=
  fun i d hi => h i d (by rw [List.getElem?_append_left (List.getElem?_eq_some_iff.1 hi).1]; exact hi)

theorem Slice.right {b : Body} {k : Nat} {c c' : List Cfg.Block} (h : Slice b k (c ++ c')) :
    Slice b (k + c.length) c' := by
  intro i d hi
  rw [Nat.add_assoc]
  exact h _ d (by rw [List.getElem?_append_right (Nat.le_add_right _ _), Nat.add_sub_cancel_left]; exact hi)

theorem Slice.tail {b : Body} {k : Nat} {x : Cfg.Block} {c : List Cfg.Block} (h : Slice b k (x :: c)) :
    b[k]? = some x ∧ Slice b (k + 1) c := by
  refine ⟨h 0 x rfl, fun i d hi => ?_⟩
  rw [Nat.add_assoc, Nat.add_comm 1 i]
  exact h (i + 1) d hi

theorem slice_ask {b : Body} {sp lt le : Nat} {t e r : Prog} {k n : Nat} {last : Term}
    (h : Slice b k ((ask sp lt le t e r).code k n last)) :
    b[k]? = some ⟨n + 1, .switchInt [k + 1, k + 1 + e.size], false⟩ ∧
    Slice b (k + 1) (e.code (k + 1) 0 (.goto (k + 1 + e.size + t.size))) ∧
    Slice b (k + 1 + e.size) (t.code (k + 1 + e.size) 0 (.goto (k + 1 + e.size + t.size))) ∧
    Slice b (k + 1 + e.size + t.size) (r.code (k + 1 + e.size + t.size) 0 last) := by
  obtain ⟨h1, h2⟩ := Slice.tail h
  have h3 := h2.right
  rw [code_length] at h3
  have h4 := h3.right
  rw [code_length] at h4
  exact ⟨h1, h2.left, h3.left, h4⟩

theorem slice_only {b : Body} {sp lt hi : Nat} {t r : Prog} {k n : Nat} {last : Term}
    (h : Slice b k ((only sp lt hi t r).code k n last)) :
    b[k]? = some ⟨n + 1, .switchInt [k + 1, k + 1 + 1], false⟩ ∧
    b[k + 1]? = some ⟨1, .goto (k + 1 + 1 + t.size), false⟩ ∧
    Slice b (k + 1 + 1) (t.code (k + 1 + 1) 0 (.goto (k + 1 + 1 + t.size))) ∧
    Slice b (k + 1 + 1 + t.size) (r.code (k + 1 + 1 + t.size) 0 last) := by
  obtain ⟨h1, h2⟩ := Slice.tail h
  have h3 := h2.right
  have h4 := h3.right
  rw [code_length] at h4
  exact ⟨h1, h2.left.tail.1, h3.left, h4⟩

/-- Every block of the function is kept. -/
def Plain (d : Cfg.Block) : Prop := d.cleanup = false ∧ d.term ≠ .unreachable ∧ ∀ r i, d.term ≠ .falseEdge r i

theorem code_plain : ∀ (p : Prog) (k n : Nat) (last : Term), (last = .ret ∨ ∃ t, last = .goto t) →
    ∀ d ∈ p.code k n last, Plain d
  | fin, k, n, last, hl, d, hd => by
    simp only [code, List.mem_singleton] at hd
    subst hd
    rcases hl with rfl | ⟨t, rfl⟩
    · exact ⟨rfl, by simp, by simp⟩
    · exact ⟨rfl, by simp, by simp⟩
  | act _ r, k, n, last, hl, d, hd => code_plain r k (n + 1) last hl d hd
  | call _ r, k, n, last, hl, d, hd => by
    rcases List.mem_cons.1 hd with rfl | hd
    · exact ⟨rfl, by simp, by simp⟩
    · exact code_plain r _ _ last hl d hd
  | ask _ _ _ t e r, k, n, last, hl, d, hd => by
    rcases List.mem_cons.1 hd with rfl | hd
    · exact ⟨rfl, by simp, by simp⟩
    · rcases List.mem_append.1 hd with hd | hd
      · exact code_plain e _ _ _ (.inr ⟨_, rfl⟩) d hd
      · rcases List.mem_append.1 hd with hd | hd
        · exact code_plain t _ _ _ (.inr ⟨_, rfl⟩) d hd
        · exact code_plain r _ _ last hl d hd
  | only _ _ _ t r, k, n, last, hl, d, hd => by
    rcases List.mem_cons.1 hd with rfl | hd
    · exact ⟨rfl, by simp, by simp⟩
    · rcases List.mem_append.1 hd with hd | hd
      · rw [List.mem_singleton] at hd
        subst hd
        exact ⟨rfl, by simp, by simp⟩
      · rcases List.mem_append.1 hd with hd | hd
        · exact code_plain t _ _ _ (.inr ⟨_, rfl⟩) d hd
        · exact code_plain r _ _ last hl d hd

/-- The first block exists, and contains more statements than it started with unless it ends in a call. -/
theorem code_head : ∀ (p : Prog) (k n : Nat) (last : Term), ∃ d, (p.code k n last)[0]? = some d ∧ n ≤ d.stmts
  | fin, _, n, _ => ⟨_, rfl, Nat.le_succ n⟩
  | act _ r, k, n, last => by
    obtain ⟨d, h1, h2⟩ := code_head r k (n + 1) last
    exact ⟨d, h1, by omega⟩
  | call _ _, _, n, _ => ⟨_, rfl, Nat.le_refl n⟩
  | ask _ _ _ _ _ _, _, n, _ => ⟨_, rfl, Nat.le_succ n⟩
  | only _ _ _ _ _, _, n, _ => ⟨_, rfl, Nat.le_succ n⟩

section
variable {b : Body} (hb : ∀ d ∈ b, Plain d)
include hb

theorem succ_all {k : Nat} {d : Cfg.Block} (hd : b[k]? = some d) (ht : ∀ t ∈ d.term.targets, t < b.length) :
    b.succ k = d.term.targets := by
  have hterm : ∀ (i : Nat) (x : Cfg.Block), b[i]? = some x → b.term i = x.term := by
    intro i x hx
    unfold Body.term
    rw [hx]
  unfold Body.succ Body.rawSucc
  rw [hterm k d hd, List.filter_eq_self]
  intro t htm
  obtain ⟨x, hx⟩ : ∃ x, b[t]? = some x := ⟨_, List.getElem?_eq_getElem (ht t htm)⟩
  obtain ⟨h1, h2, h3⟩ := hb x (List.mem_of_getElem? hx)
  have hk : b.keep t = true := by
    unfold Body.keep
    rw [hx]
    simp [h1, h2]
  have hi : isImaginaryTarget (b.term t) t = false := by
    rw [hterm t x hx]
    unfold isImaginaryTarget
    split
    · rename_i r i he
      exact absurd he (h3 _ _)
    · rfl
  rw [hk, hi]
  rfl

end

/-! ## The control flow -/

theorem flow_first : ∀ (p : Prog) (k : Nat) (x : Option Nat), (p.flow k).first x = some k
  | fin, _, _ => rfl
  | act _ r, k, x => flow_first r k x
  | call _ _, _, _ => rfl
  | ask _ _ _ _ _ _, _, _ => rfl
  | only _ _ _ _ _, _, _ => rfl

theorem flow_ne : ∀ (p : Prog) (k : Nat), p.flow k ≠ .nil := by
  intro p k h
  have := flow_first p k none
  rw [h] at this
  simp [Flow.first] at this

theorem flow_blocks : ∀ (p : Prog) (k : Nat), (p.flow k).blocks = List.range' k p.size
  | fin, _ => rfl
  | act _ r, k => flow_blocks r k
  | call _ r, k => by
    rw [flow, Flow.blocks, flow_blocks r, size, Nat.add_comm 1 r.size, List.range'_succ]
  | ask _ _ _ t e r, k => by
    rw [flow, Flow.blocks, flow_blocks t, flow_blocks e, flow_blocks r, size, Nat.add_comm 1, List.range'_succ,
      List.range'_append_1, List.range'_append_1]
  | only _ _ _ t r, k => by
    rw [flow, Flow.blocks, flow_blocks t, flow_blocks r, Flow.blocks, Flow.blocks, size, Nat.add_comm 1,
      List.range'_succ, List.range'_append_1, Nat.add_comm 1, List.range'_succ]
    rfl

/-- What follows a piece of code: nothing, or the block it goes to. -/
def following : Term → Option Nat
  | .goto t => some t
  | _ => none

theorem flow_lay {b : Body} (hb : ∀ d ∈ b, Plain d) : ∀ (p : Prog) (k n : Nat) (last : Term),
    (last = .ret ∨ ∃ t, last = .goto t ∧ t < b.length) → Slice b k (p.code k n last) →
    (p.flow k).Lay b.succ (following last)
  | fin, k, n, last, hl, hs => by
    have h := Slice.tail hs
    refine ⟨?_, trivial⟩
    rw [succ_all hb h.1]
    · rcases hl with rfl | ⟨t, rfl, _⟩ <;> rfl
    · rcases hl with rfl | ⟨t, rfl, ht⟩
      · simp [Term.targets]
      · simpa [Term.targets] using ht
  | act _ r, k, n, last, hl, hs => flow_lay hb r k (n + 1) last hl hs
  | call _ r, k, n, last, hl, hs => by
    have h := Slice.tail hs
    refine ⟨?_, flow_lay hb r (k + 1) 0 last hl h.2⟩
    rw [succ_all hb h.1, flow_first]
    · rfl
    · obtain ⟨d, hd, _⟩ := code_head r (k + 1) 0 last
      have := (List.getElem?_eq_some_iff.1 (h.2 0 d hd)).1
      simpa [Term.targets] using this
  | ask _ _ _ t e r, k, n, last, hl, hs => by
    obtain ⟨h1, h2, h3, h4⟩ := slice_ask hs
    have hlt : ∀ {q : Prog} {i j : Nat} {l : Term}, Slice b i (q.code i j l) → i < b.length := by
      intro q i j l h
      obtain ⟨d, hd, _⟩ := code_head q i j l
      exact (List.getElem?_eq_some_iff.1 (h 0 d hd)).1
    have hj := hlt h4
    refine ⟨flow_ne e _, flow_ne t _, flow_ne r _, ?_, ?_, ?_, flow_lay hb r _ 0 last hl h4⟩
    · rw [succ_all hb h1, flow_first, flow_first]
      · rfl
      · have ha := hlt h2
        have hc := hlt h3
        simp only [Term.targets, List.mem_cons, List.not_mem_nil, or_false]
        rintro x (rfl | rfl)
        · exact ha
        · exact hc
    · rw [flow_first]
      exact flow_lay hb e _ 0 _ (.inr ⟨_, rfl, hj⟩) h2
    · rw [flow_first]
      exact flow_lay hb t _ 0 _ (.inr ⟨_, rfl, hj⟩) h3
  | only _ _ _ t r, k, n, last, hl, hs => by
    obtain ⟨h1, h2, h3, h4⟩ := slice_only hs
    have hlt : ∀ {q : Prog} {i j : Nat} {l : Term}, Slice b i (q.code i j l) → i < b.length := by
      intro q i j l h
      obtain ⟨d, hd, _⟩ := code_head q i j l
      exact (List.getElem?_eq_some_iff.1 (h 0 d hd)).1
    have hj := hlt h4
    refine ⟨by simp, flow_ne t _, flow_ne r _, ?_, ⟨?_, trivial⟩, ?_, flow_lay hb r _ 0 last hl h4⟩
    · rw [succ_all hb h1, flow_first]
      · rfl
      · have ha := (List.getElem?_eq_some_iff.1 h2).1
        have hc := hlt h3
        simp only [Term.targets, List.mem_cons, List.not_mem_nil, or_false]
        rintro x (rfl | rfl)
        · exact ha
        · exact hc
    · rw [succ_all hb h2, flow_first]
      · rfl
      · simpa [Term.targets] using hj
    · rw [flow_first]
      exact flow_lay hb t _ 0 _ (.inr ⟨_, rfl, hj⟩) h3

theorem isSwitch_of {b : Body} {k : Nat} {d : Cfg.Block} (hd : b[k]? = some d) :
    b.mapper.isSwitch k = (match d.term with | .switchInt _ => true | _ => false) := by
  change (match b.term k with | .switchInt _ => true | _ => false) = _
  unfold Body.term
  rw [hd]

theorem flow_switched {b : Body} : ∀ (p : Prog) (k n : Nat) (last : Term),
    (last = .ret ∨ ∃ t, last = .goto t) → Slice b k (p.code k n last) → Switched b.mapper.isSwitch (p.flow k)
  | fin, k, n, last, hl, hs => by
    refine ⟨?_, trivial⟩
    rw [isSwitch_of (Slice.tail hs).1]
    rcases hl with rfl | ⟨t, rfl⟩ <;> rfl
  | act _ r, k, n, last, hl, hs => flow_switched r k (n + 1) last hl hs
  | call _ r, k, n, last, hl, hs => by
    have h := Slice.tail hs
    exact ⟨by rw [isSwitch_of h.1], flow_switched r _ 0 last hl h.2⟩
  | ask _ _ _ t e r, k, n, last, hl, hs => by
    obtain ⟨h1, h2, h3, h4⟩ := slice_ask hs
    exact ⟨by rw [isSwitch_of h1], flow_switched e _ 0 _ (.inr ⟨_, rfl⟩) h2, flow_switched t _ 0 _ (.inr ⟨_, rfl⟩) h3,
      flow_switched r _ 0 last hl h4⟩
  | only _ _ _ t r, k, n, last, hl, hs => by
    obtain ⟨h1, h2, h3, h4⟩ := slice_only hs
    exact ⟨by rw [isSwitch_of h1], ⟨by rw [isSwitch_of h2], trivial⟩, flow_switched t _ 0 _ (.inr ⟨_, rfl⟩) h3,
      flow_switched r _ 0 last hl h4⟩

/-- The last block of the stretch. -/
theorem flow_last : ∀ (p : Prog) (k n : Nat), (p.flow k).spine.getLast? = some (p.finAt k n).block
  | fin, _, _ => rfl
  | act _ r, k, n => flow_last r k (n + 1)
  | call _ r, k, _ => by
    rw [flow, Flow.spine, Flow.getLast_cons (flow_ne r _)]
    exact flow_last r _ 0
  | ask _ _ _ t e r, k, _ => by
    rw [flow, Flow.spine, Flow.getLast_cons (flow_ne r _)]
    exact flow_last r _ 0
  | only _ _ _ t r, k, _ => by
    rw [flow, Flow.spine, Flow.getLast_cons (flow_ne r _)]
    exact flow_last r _ 0

theorem code_returns : ∀ (p : Prog) (k n : Nat) (last : Term) (i : Nat) (d : Cfg.Block),
    (p.code k n last)[i]? = some d → (d.term = .ret ↔ last = .ret ∧ k + i = (p.finAt k n).block)
  | fin, k, n, last, i, d, h => by
    have hi : i = 0 := by
      have := (List.getElem?_eq_some_iff.1 h).1
      simp only [code, List.length_singleton] at this
      omega
    subst hi
    simp only [code, List.getElem?_cons_zero, Option.some.injEq] at h
    subst h
    simp [finAt]
  | act _ r, k, n, last, i, d, h => code_returns r k (n + 1) last i d h
  | call _ r, k, n, last, i, d, h => by
    cases i with
    | zero =>
      simp only [code, List.getElem?_cons_zero, Option.some.injEq] at h
      subst h
      have := finAt_ge r (k + 1) 0
      simp only [finAt]
      constructor
      · simp
      · rintro ⟨_, h⟩
        omega
    | succ i =>
      have := code_returns r (k + 1) 0 last i d h
      rw [this, finAt]
      simp only [Nat.add_assoc, Nat.add_comm 1 i]
  | ask _ _ _ t e r, k, n, last, i, d, h => by
    have hge := finAt_ge r (k + 1 + e.size + t.size) 0
    rw [finAt]
    cases i with
    | zero =>
      simp only [code, List.getElem?_cons_zero, Option.some.injEq] at h
      subst h
      constructor
      · simp
      · rintro ⟨_, h⟩
        omega
    | succ i =>
      simp only [code, List.getElem?_cons_succ] at h
      by_cases h1 : i < e.size
      · rw [List.getElem?_append_left (by rw [code_length]; exact h1)] at h
        have := code_returns e _ _ _ i d h
        rw [this]
        constructor
        · simp
        · rintro ⟨_, h⟩
          omega
      · rw [List.getElem?_append_right (by rw [code_length]; omega), code_length] at h
        by_cases h2 : i - e.size < t.size
        · rw [List.getElem?_append_left (by rw [code_length]; exact h2)] at h
          have := code_returns t _ _ _ _ d h
          rw [this]
          constructor
          · simp
          · rintro ⟨_, h⟩
            omega
        · rw [List.getElem?_append_right (by rw [code_length]; omega), code_length] at h
          have := code_returns r _ _ _ _ d h
          rw [this, show k + 1 + e.size + t.size + (i - e.size - t.size) = k + (i + 1) by omega]
  | only _ _ _ t r, k, n, last, i, d, h => by
    have hge := finAt_ge r (k + 1 + 1 + t.size) 0
    rw [finAt]
    cases i with
    | zero =>
      simp only [code, List.getElem?_cons_zero, Option.some.injEq] at h
      subst h
      constructor
      · simp
      · rintro ⟨_, h⟩
        omega
    | succ i =>
      simp only [code, List.getElem?_cons_succ, List.cons_append, List.nil_append] at h
      cases i with
      | zero =>
        simp only [List.getElem?_cons_zero, Option.some.injEq] at h
        subst h
        constructor
        · simp
        · rintro ⟨_, h⟩
          omega
      | succ i =>
        simp only [List.getElem?_cons_succ] at h
        by_cases h2 : i < t.size
        · rw [List.getElem?_append_left (by rw [code_length]; exact h2)] at h
          have := code_returns t _ _ _ _ d h
          rw [this]
          constructor
          · simp
          · rintro ⟨_, h⟩
            omega
        · rw [List.getElem?_append_right (by rw [code_length]; omega), code_length] at h
          have := code_returns r _ _ _ _ d h
          rw [this, show k + 1 + 1 + t.size + (i - t.size) = k + (i + 1 + 1) by omega]
where
  finAt_ge : ∀ (p : Prog) (k n : Nat), k ≤ (p.finAt k n).block
    | fin, k, _ => Nat.le_refl k
    | act _ r, k, n => finAt_ge r k (n + 1)
    | call _ r, k, _ => by have := finAt_ge r (k + 1) 0; simp only [finAt]; omega
    | ask _ _ _ t e r, k, _ => by have := finAt_ge r (k + 1 + e.size + t.size) 0; simp only [finAt]; omega
    | only _ _ _ t r, k, _ => by have := finAt_ge r (k + 1 + 1 + t.size) 0; simp only [finAt]; omega

theorem filter_one {n z : Nat} {p : Nat → Bool} (hz : z < n) (h : ∀ i < n, p i = true ↔ i = z) :
    (List.range n).filter p = [z] := by
  have h1 : (List.range n).filter p = (List.range n).filter (fun i => decide (i = z)) := by
    refine List.filter_congr fun i hi => ?_
    rw [Bool.eq_iff_iff, h i (List.mem_range.1 hi), decide_eq_true_eq]
  rw [h1]
  clear h1 h
  induction n with
  | zero => omega
  | succ n ih =>
    rw [List.range_succ, List.filter_append]
    by_cases hzn : z = n
    · subst hzn
      have : (List.range z).filter (fun i => decide (i = z)) = [] := by
        rw [List.filter_eq_nil_iff]
        intro i hi
        have := List.mem_range.1 hi
        simp only [decide_eq_true_eq]
        omega
      rw [this]
      simp
    · rw [ih (by omega)]
      simp only [List.filter_cons, List.filter_nil]
      rw [if_neg (by simp only [decide_eq_true_eq]; omega)]
      rfl

theorem finAt_lt : ∀ (p : Prog) (k n : Nat), (p.finAt k n).block < k + p.size
  | fin, k, _ => Nat.lt_succ_self k
  | act _ r, k, n => finAt_lt r k (n + 1)
  | call _ r, k, _ => by have := finAt_lt r (k + 1) 0; simp only [finAt, size]; omega
  | ask _ _ _ t e r, k, _ => by have := finAt_lt r (k + 1 + e.size + t.size) 0; simp only [finAt, size]; omega
  | only _ _ _ t r, k, _ => by have := finAt_lt r (k + 1 + 1 + t.size) 0; simp only [finAt, size]; omega

theorem body_slice (p : Prog) : Slice p.body 0 (p.code 0 0 .ret) := by
  intro i d h
  rw [Nat.zero_add]
  exact h

theorem body_plain (p : Prog) : ∀ d ∈ p.body, Plain d := code_plain p 0 0 .ret (.inl rfl)

theorem body_length (p : Prog) : p.body.length = p.size := code_length p 0 0 .ret

theorem body_structured (p : Prog) : Structured p.body (p.flow 0) where
  start := flow_first p 0 none
  lay := flow_lay (body_plain p) p 0 0 .ret (.inl rfl) (body_slice p)
  nodup := by rw [flow_blocks]; exact List.nodup_range'
  exit := by
    rw [flow_last p 0 0]
    unfold Body.returns
    rw [body_length]
    refine filter_one (by have := finAt_lt p 0 0; omega) fun i hi => ?_
    have hd : p.body[i]? = some (p.body[i]'(by rw [body_length]; exact hi)) := List.getElem?_eq_getElem _
    have := code_returns p 0 0 .ret i _ hd
    unfold Body.term
    rw [hd]
    dsimp only
    rw [beq_iff_eq, this]
    simp
  real := by
    rintro n _ ⟨r, i, h⟩
    unfold Body.term at h
    cases hd : p.body[n]? with
    | none => rw [hd] at h; simp at h
    | some d =>
      rw [hd] at h
      exact (body_plain p d (List.mem_of_getElem? hd)).2.2 _ _ h
  switched := flow_switched p 0 0 .ret (.inl rfl) (body_slice p)

end Prog

end Verif.HirSteps
