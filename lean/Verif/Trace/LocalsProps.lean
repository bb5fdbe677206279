import Batteries.Data.List.Basic
import Verif.Trace.LocalsSpec
import Verif.Value.Props

/-! # The variables of a step (C95, C96) -/
namespace Verif.Trace.Locals

open Verif.Value
open Spec

/-! ## Initialised memory -/

theorem rangeInit_iff {init : Nat → Bool} {off n : Nat} :
    rangeInit init (off, n) = true ↔ AllInit init off (off + n) := by
  simp only [rangeInit, List.all_eq_true, List.mem_range, AllInit]
  constructor
  · intro h i h1 h2
    have := h (i - off) (by omega)
    rwa [show off + (i - off) = i by omega] at this
  · intro h i hi
    exact h _ (by omega) (by omega)

theorem ranges_mem {fs : LayFields} {off n : Nat} :
    (off, n) ∈ fs.ranges ↔ ∃ l, HasField fs off l ∧ l.size = n := by
  match fs with
  | .nil =>
    simp only [LayFields.ranges, List.not_mem_nil, false_iff]
    rintro ⟨l, h, _⟩; cases h
  | .cons o l rest =>
    simp only [LayFields.ranges, List.mem_cons, Prod.mk.injEq, ranges_mem (fs := rest)]
    constructor
    · rintro (⟨rfl, rfl⟩ | ⟨l', h, h'⟩)
      · exact ⟨l, .here, rfl⟩
      · exact ⟨l', .there h, h'⟩
    · rintro ⟨l', h, h'⟩
      cases h with
      | here => exact .inl ⟨rfl, h'.symm⟩
      | there h => exact .inr ⟨l', h, h'⟩

theorem fields_all {fs : LayFields} {init : Nat → Bool} :
    fs.ranges.all (rangeInit init) = true ↔
      ∀ off l, HasField fs off l → AllInit init off (off + l.size) := by
  rw [List.all_eq_true]
  constructor
  · intro h off l hf
    exact rangeInit_iff.1 (h _ (ranges_mem.2 ⟨l, hf, rfl⟩))
  · rintro h ⟨off, n⟩ hm
    obtain ⟨l, hf, rfl⟩ := ranges_mem.1 hm
    exact rangeInit_iff.2 (h off l hf)

theorem memInit_true {lay : Lay} {size : Nat} {init : Nat → Bool} :
    memIsInitialized lay size init = some true ↔ PartsInit size init lay := by
  cases lay with
  | scalar n =>
    simp only [memIsInitialized, Option.some.injEq, rangeInit_iff, Nat.zero_add]
    exact ⟨.scalar, fun h => by cases h; assumption⟩
  | array e c =>
    simp only [memIsInitialized, Option.some.injEq, rangeInit_iff, Nat.zero_add]
    exact ⟨.array, fun h => by cases h; assumption⟩
  | fields fs n =>
    simp only [memIsInitialized, Option.some.injEq, fields_all]
    exact ⟨.fields, fun h => by cases h; assumption⟩
  | enum o t p n =>
    simp only [memIsInitialized, Option.some.injEq, rangeInit_iff]
    exact ⟨.enum, fun h => by cases h; assumption⟩
  | union n =>
    simp only [memIsInitialized]
    exact ⟨fun h => by simp at h, fun h => by cases h⟩

theorem memInit_none {lay : Lay} {size : Nat} {init : Nat → Bool} :
    memIsInitialized lay size init = none ↔ ∃ n, lay = .union n := by
  cases lay <;> simp [memIsInitialized]

mutual
theorem valueByte_bounds : ∀ (l : Lay) (base i : Nat), Fits l → ValueByte l base i →
    base ≤ i ∧ i < base + l.size
  | .scalar n, base, i, _, h => by simpa [ValueByte, Lay.size] using h
  | .array e c, base, i, hf, h => by
    simp only [ValueByte] at h
    obtain ⟨j, hj, h⟩ := h
    have := valueByte_bounds e _ i (by simpa [Fits] using hf) h
    simp only [Lay.size]
    have h2 : e.size * j + e.size ≤ e.size * c := by
      rw [← Nat.mul_succ]; exact Nat.mul_le_mul_left _ hj
    omega
  | .fields fs n, base, i, hf, h => by
    simp only [ValueByte] at h
    simp only [Fits] at hf
    simpa [Lay.size] using valueByteF_bounds fs base i n hf h
  | .enum o t p n, base, i, hf, h => by
    simp only [ValueByte] at h
    simp only [Fits] at hf
    simp only [Lay.size]
    rcases h with h | h
    · omega
    · exact valueByteF_bounds p base i n hf.2 h
  | .union n, base, i, _, h => by simp [ValueByte] at h
theorem valueByteF_bounds : ∀ (fs : LayFields) (base i n : Nat), FitsF fs n → ValueByteF fs base i →
    base ≤ i ∧ i < base + n
  | .nil, _, _, _, _, h => by simp [ValueByteF] at h
  | .cons off l rest, base, i, n, hf, h => by
    simp only [ValueByteF] at h
    simp only [FitsF] at hf
    rcases h with h | h
    · have := valueByte_bounds l _ i hf.2.1 h
      omega
    · exact valueByteF_bounds rest base i n hf.2.2 h
end

theorem valueByteF_field {fs : LayFields} {i n : Nat} (hf : FitsF fs n) (h : ValueByteF fs 0 i) :
    ∃ off l, HasField fs off l ∧ off ≤ i ∧ i < off + l.size := by
  match fs with
  | .nil => simp [ValueByteF] at h
  | .cons off l rest =>
    simp only [ValueByteF] at h
    simp only [FitsF] at hf
    rcases h with h | h
    · have := valueByte_bounds l _ i hf.2.1 h
      exact ⟨off, l, .here, by omega, by omega⟩
    · obtain ⟨off', l', h1, h2⟩ := valueByteF_field hf.2.2 h
      exact ⟨off', l', .there h1, h2⟩

mutual
theorem valueByte_shift : ∀ (l : Lay) (base i d : Nat), ValueByte l base i → ValueByte l (base + d) (i + d)
  | .scalar n, base, i, d, h => by
    simp only [ValueByte] at h ⊢
    omega
  | .array e c, base, i, d, h => by
    simp only [ValueByte] at h ⊢
    obtain ⟨j, hj, h⟩ := h
    refine ⟨j, hj, ?_⟩
    have := valueByte_shift e _ i d h
    rwa [show base + d + e.size * j = base + e.size * j + d by omega]
  | .fields fs n, base, i, d, h => by
    simp only [ValueByte] at h ⊢
    exact valueByteF_shift fs base i d h
  | .enum o t p n, base, i, d, h => by
    simp only [ValueByte] at h ⊢
    rcases h with h | h
    · left; omega
    · right; exact valueByteF_shift p base i d h
  | .union n, base, i, d, h => by simp [ValueByte] at h
theorem valueByteF_shift : ∀ (fs : LayFields) (base i d : Nat), ValueByteF fs base i →
    ValueByteF fs (base + d) (i + d)
  | .nil, _, _, _, h => by simp [ValueByteF] at h
  | .cons off l rest, base, i, d, h => by
    simp only [ValueByteF] at h ⊢
    rcases h with h | h
    · left
      have := valueByte_shift l _ i d h
      rwa [show base + d + off = base + off + d by omega]
    · right; exact valueByteF_shift rest base i d h
end

theorem hasField_byte {fs : LayFields} {off : Nat} {l : Lay} {i : Nat} (hf : HasField fs off l)
    (h : ValueByte l off i) : ValueByteF fs 0 i := by
  induction hf with
  | here => simp only [ValueByteF, Nat.zero_add]; exact .inl h
  | there _ ih => simp only [ValueByteF]; exact .inr (ih h)

/-- **C95 (a variable in memory that is shown is initialised).** If the parts of a variable in memory count
as initialised, then every byte of its value is, at every depth. Missing from the full property: a variable
whose own type is an enum, of which only the tag is looked at (false, `C95_enum`). -/
theorem C95_initialised_partial (lay : Lay) (init : Nat → Bool) (hf : Fits lay)
    (he : ∀ o t p n, lay ≠ .enum o t p n) (h : memIsInitialized lay lay.size init = some true) :
    ValueInit init lay := by
  intro i hi
  have hp := memInit_true.1 h
  have hb := valueByte_bounds lay 0 i hf hi
  cases hp with
  | scalar hall => exact hall i (by omega) (by omega)
  | array hall => exact hall i (by omega) (by omega)
  | fields hall =>
    simp only [Fits] at hf
    simp only [ValueByte] at hi
    obtain ⟨off, l, h1, h2, h3⟩ := valueByteF_field hf hi
    exact hall off l h1 i h2 h3
  | enum h => exact absurd rfl (he _ _ _ _)

/-- **C95 (an initialised variable in memory is shown).** If all bytes of the value are initialised, the
variable counts as initialised, provided that the parts at the first level (the fields of a struct, the
elements of an array) have no padding inside them. Missing from the full property: parts with padding
(false, `C95_padding`), and unions. -/
theorem C95_complete_partial (lay : Lay) (init : Nat → Bool) (hu : ∀ n, lay ≠ .union n)
    (hd : match lay with
      | .fields fs _ => ∀ off l, HasField fs off l → Dense l
      | .enum .. => True
      | l => Dense l)
    (h : ValueInit init lay) : memIsInitialized lay lay.size init = some true := by
  rw [memInit_true]
  cases lay with
  | scalar n => exact .scalar fun i _ hi => h i (hd i hi)
  | array e c => exact .array fun i _ hi => h i (hd i hi)
  | fields fs n =>
    refine .fields fun off l hf i h1 h2 => h i ?_
    have hb := hd off l hf (i - off) (by omega)
    have := valueByte_shift l 0 (i - off) off hb
    rw [Nat.zero_add, Nat.sub_add_cancel h1] at this
    simp only [ValueByte]
    exact hasField_byte hf this
  | enum o t p n =>
    refine .enum fun i h1 h2 => h i ?_
    simp only [ValueByte, Nat.zero_add]
    exact .inl ⟨h1, h2⟩
  | union n => exact absurd rfl (hu n)

/-! ## Variables -/

theorem hasDebugInfo_iff {debug : List Debug} {l : Nat} :
    hasDebugInfo debug l = true ↔ Debug.place l 0 ∈ debug := by
  simp only [hasDebugInfo, List.any_eq_true, List.mem_filterMap, beq_iff_eq]
  constructor
  · rintro ⟨p, ⟨d, hd, hp⟩, rfl⟩
    cases d with
    | place q n =>
      cases n with
      | zero => simp only [Option.some.injEq] at hp; subst hp; exact hd
      | succ n => simp at hp
    | const => simp at hp
  · intro h
    exact ⟨l, ⟨_, h, rfl⟩, rfl⟩

theorem shownName_iff {b : Body} {l : Nat} {v : Var} {n : String} :
    shownName b l v = some n ↔ Named b l v n := by
  unfold shownName
  by_cases h0 : l = 0
  · rw [if_pos h0]
    constructor
    · intro h
      cases hu : v.isUnit with
      | true => simp [hu] at h
      | false =>
        simp only [hu, Bool.false_eq_true, if_false, Option.some.injEq] at h
        subst h
        exact .result h0 hu
    · intro h
      cases h with
      | result _ hu => simp [hu]
      | source h _ _ => omega
      | unprinted h _ _ => omega
  · rw [if_neg h0]
    by_cases hd : hasDebugInfo b.debug l = true
    · rw [if_pos hd]
      have hm := hasDebugInfo_iff.1 hd
      constructor
      · intro h
        cases hn : v.name with
        | some m =>
          simp only [hn, Option.some.injEq] at h
          subst h
          exact .source (by omega) hm hn
        | none =>
          simp only [hn, Option.some.injEq] at h
          subst h
          exact .unprinted (by omega) hm hn
      · intro h
        cases h with
        | result h _ => exact absurd h h0
        | source _ _ h => simp [h]
        | unprinted _ _ h => simp [h]
    · rw [if_neg hd]
      constructor
      · intro h; simp at h
      · intro h
        exfalso
        cases h with
        | result h _ => exact h0 h
        | source _ h _ => exact hd (hasDebugInfo_iff.2 h)
        | unprinted _ h _ => exact hd (hasDebugInfo_iff.2 h)

theorem named_unique {b l v n m} (h : Named b l v n) (h' : Named b l v m) : n = m := by
  rw [← shownName_iff] at h h'
  rw [h] at h'
  exact Option.some.inj h'

/-- The slot that a shown variable gets. -/
def SlotOf (v : Var) : Option (AllocId × Ty) → Prop
  | none => ∀ a, v.state ≠ .memory a
  | some (a, ty) => v.state = .memory a ∧ ∃ lay, v.layout = .ok (lay, ty)

theorem testLocal_some {st b l v f} : testLocal st b l v = .ok (some f) ↔
    Shows st b l v f.name f.op ∧ SlotOf v f.slot ∧ (∀ a, v.state = .memory a → st.mem.kind a ≠ none) := by
  unfold testLocal Shows
  cases hn : shownName b l v with
  | none =>
    simp only [Except.ok.injEq, reduceCtorEq, false_iff]
    rintro ⟨⟨h, _⟩, _⟩
    rw [← shownName_iff, hn] at h
    cases h
  | some name =>
    have hnm := shownName_iff.1 hn
    have key : ∀ (slot : Option (AllocId × Ty)) (P Q : Prop), (SlotOf v f.slot ↔ f.slot = slot) → P → Q →
        ((match v.op with
          | .error e => (.error e : Except Err (Option Found))
          | .ok op => .ok (some { name, op, slot })) = .ok (some f) ↔
        (Named b l v f.name ∧ v.op = .ok f.op ∧ P) ∧ SlotOf v f.slot ∧ Q) := by
      intro slot P Q hs hp hq
      rw [hs]
      cases ho : v.op with
      | error e => simp
      | ok op =>
        simp only [Except.ok.injEq, Option.some.injEq]
        constructor
        · rintro rfl
          exact ⟨⟨hnm, rfl, hp⟩, rfl, hq⟩
        · rintro ⟨⟨h1, h2, _⟩, h3, _⟩
          cases f
          simp only at h1 h2 h3
          rw [named_unique hnm h1, h2, h3]
    dsimp only
    cases hst : v.state with
    | dead =>
      simp only [Except.ok.injEq, reduceCtorEq, false_iff]
      rintro ⟨⟨_, _, lay, ty, _, h⟩, _⟩
      cases h
    | uninit =>
      cases hl : v.layout with
      | error e => simp
      | ok x =>
        obtain ⟨lay, ty⟩ := x
        dsimp only
        by_cases hz : lay.size = 0
        · rw [if_pos hz]
          refine key none _ _ ?_ ⟨lay, ty, rfl, .empty hz⟩ (fun a h => by cases h)
          cases hf : f.slot with
          | none => simp [SlotOf, hst]
          | some x => simp [SlotOf, hst]
        · rw [if_neg hz]
          simp only [Except.ok.injEq, reduceCtorEq, false_iff]
          rintro ⟨⟨_, _, lay', ty', h1, h⟩, _⟩
          simp only [Prod.mk.injEq] at h1
          obtain ⟨rfl, rfl⟩ := h1
          cases h with
          | empty h => exact hz h
    | value =>
      cases hl : v.layout with
      | error e => simp
      | ok x =>
        obtain ⟨lay, ty⟩ := x
        dsimp only
        refine key none _ _ ?_ ⟨lay, ty, rfl, .value⟩ (fun a h => by cases h)
        cases hf : f.slot with
        | none => simp [SlotOf, hst]
        | some x => simp [SlotOf, hst]
    | memory a =>
      cases hl : v.layout with
      | error e => simp
      | ok x =>
        obtain ⟨lay, ty⟩ := x
        dsimp only
        cases hk : st.mem.kind a with
        | none =>
          simp only [reduceCtorEq, false_iff]
          rintro ⟨_, _, h⟩
          exact h a rfl hk
        | some kd =>
          dsimp only
          cases hm : memIsInitialized lay (st.mem.size a) (st.init a) with
          | none =>
            simp only [reduceCtorEq, false_iff]
            rintro ⟨⟨_, _, lay', ty', h1, h⟩, _⟩
            simp only [Except.ok.injEq, Prod.mk.injEq] at h1
            obtain ⟨rfl, rfl⟩ := h1
            cases h with
            | memory h => rw [memInit_true.2 h] at hm; cases hm
          | some r =>
            cases r with
            | false =>
              simp only [Except.ok.injEq, reduceCtorEq, false_iff]
              rintro ⟨⟨_, _, lay', ty', h1, h⟩, _⟩
              simp only [Prod.mk.injEq] at h1
              obtain ⟨rfl, rfl⟩ := h1
              cases h with
              | memory h => rw [memInit_true.2 h] at hm; cases hm
            | true =>
              refine key (some (a, ty)) _ _ ?_ ⟨lay, ty, rfl, .memory (memInit_true.1 hm)⟩ ?_
              · cases hf : f.slot with
                | none => simp [SlotOf, hst]
                | some x =>
                  obtain ⟨a', ty'⟩ := x
                  simp only [SlotOf, hst, State.memory.injEq, hl, Except.ok.injEq, Prod.mk.injEq,
                    Option.some.injEq]
                  constructor
                  · rintro ⟨rfl, lay', _, rfl⟩; exact ⟨rfl, rfl⟩
                  · rintro ⟨rfl, rfl⟩; exact ⟨rfl, lay, rfl, rfl⟩
              · rintro a' h
                simp only [State.memory.injEq] at h
                subst h
                rw [hk]; simp

theorem testLocal_error {st b l v e} : testLocal st b l v = .error e ↔ Breaks st b l v e := by
  unfold testLocal
  cases hn : shownName b l v with
  | none =>
    have hno : ∀ n, ¬ Named b l v n := fun n h => by
      rw [← shownName_iff, hn] at h; cases h
    simp only [reduceCtorEq, false_iff]
    intro h
    cases h with
    | layout h => exact hno _ h
    | missing h => exact hno _ h
    | union h => exact hno _ h
    | operand h => exact hno _ h
  | some name =>
    have hnm := shownName_iff.1 hn
    have key : ∀ (slot : Option (AllocId × Ty)) (lay : Lay) (ty : Ty), v.layout = .ok (lay, ty) →
        Holds st lay v.state → (∀ a, v.state = .memory a → st.mem.kind a ≠ none) →
        ((match v.op with
          | .error e => (.error e : Except Err (Option Found))
          | .ok op => .ok (some { name, op, slot })) = .error e ↔ Breaks st b l v e) := by
      intro slot lay ty hl hh hk
      constructor
      · intro h
        cases ho : v.op with
        | error e' =>
          simp only [ho, Except.error.injEq] at h
          subst h
          exact .operand hnm hl hh hk ho
        | ok op => simp [ho] at h
      · intro h
        cases h with
        | layout _ _ h => rw [hl] at h; cases h
        | missing _ h1 _ h2 => exact absurd h2 (hk _ h1)
        | union _ h1 h2 =>
          rw [hl] at h2
          simp only [Except.ok.injEq, Prod.mk.injEq] at h2
          obtain ⟨rfl, rfl⟩ := h2
          rw [h1] at hh
          cases hh with
          | memory h => cases h
        | operand _ _ _ _ h => rw [h]
    dsimp only
    cases hst : v.state with
    | dead =>
      simp only [reduceCtorEq, false_iff]
      intro h
      cases h with
      | layout _ h => exact h hst
      | missing _ h => rw [hst] at h; cases h
      | union _ h => rw [hst] at h; cases h
      | operand _ _ h => rw [hst] at h; cases h
    | uninit =>
      cases hl : v.layout with
      | error e' =>
        simp only [Except.error.injEq]
        constructor
        · rintro rfl; exact .layout hnm (by rw [hst]; simp) hl
        · intro h
          cases h with
          | layout _ _ h => rw [hl] at h; exact Except.error.inj h
          | missing _ h => rw [hst] at h; cases h
          | union _ h => rw [hst] at h; cases h
          | operand _ h => rw [hl] at h; cases h
      | ok x =>
        obtain ⟨lay, ty⟩ := x
        dsimp only
        by_cases hz : lay.size = 0
        · rw [if_pos hz]
          exact key none lay ty hl (by rw [hst]; exact .empty hz) (fun a h => by rw [hst] at h; cases h)
        · rw [if_neg hz]
          simp only [reduceCtorEq, false_iff]
          intro h
          cases h with
          | layout _ _ h => rw [hl] at h; cases h
          | missing _ h => rw [hst] at h; cases h
          | union _ h => rw [hst] at h; cases h
          | operand _ h1 h =>
            rw [hl] at h1
            simp only [Except.ok.injEq, Prod.mk.injEq] at h1
            obtain ⟨rfl, rfl⟩ := h1
            rw [hst] at h
            cases h with
            | empty h => exact hz h
    | value =>
      cases hl : v.layout with
      | error e' =>
        simp only [Except.error.injEq]
        constructor
        · rintro rfl; exact .layout hnm (by rw [hst]; simp) hl
        · intro h
          cases h with
          | layout _ _ h => rw [hl] at h; exact Except.error.inj h
          | missing _ h => rw [hst] at h; cases h
          | union _ h => rw [hst] at h; cases h
          | operand _ h => rw [hl] at h; cases h
      | ok x =>
        obtain ⟨lay, ty⟩ := x
        exact key none lay ty hl (by rw [hst]; exact .value) (fun a h => by rw [hst] at h; cases h)
    | memory a =>
      cases hl : v.layout with
      | error e' =>
        simp only [Except.error.injEq]
        constructor
        · rintro rfl; exact .layout hnm (by rw [hst]; simp) hl
        · intro h
          cases h with
          | layout _ _ h => rw [hl] at h; exact Except.error.inj h
          | missing _ _ h => rw [hl] at h; cases h
          | union _ _ h => rw [hl] at h; cases h
          | operand _ h => rw [hl] at h; cases h
      | ok x =>
        obtain ⟨lay, ty⟩ := x
        dsimp only
        cases hk : st.mem.kind a with
        | none =>
          simp only [Except.error.injEq]
          constructor
          · rintro rfl; exact .missing hnm hst hl hk
          · intro h
            cases h with
            | layout _ _ h => rw [hl] at h; cases h
            | missing => rfl
            | union => rfl
            | operand _ _ _ h => exact absurd hk (h a hst)
        | some kd =>
          have hk' : ∀ a', v.state = .memory a' → st.mem.kind a' ≠ none := by
            intro a' h
            rw [hst] at h
            simp only [State.memory.injEq] at h
            subst h
            rw [hk]; simp
          dsimp only
          cases hm : memIsInitialized lay (st.mem.size a) (st.init a) with
          | none =>
            obtain ⟨n, rfl⟩ := memInit_none.1 hm
            simp only [Except.error.injEq]
            constructor
            · rintro rfl; exact .union hnm hst hl
            · intro h
              cases h with
              | layout _ _ h => rw [hl] at h; cases h
              | missing => rfl
              | union => rfl
              | operand _ h1 h =>
                rw [hl] at h1
                simp only [Except.ok.injEq, Prod.mk.injEq] at h1
                obtain ⟨rfl, rfl⟩ := h1
                rw [hst] at h
                cases h with
                | memory h => cases h
          | some r =>
            cases r with
            | false =>
              simp only [reduceCtorEq, false_iff]
              intro h
              cases h with
              | layout _ _ h => rw [hl] at h; cases h
              | missing _ h _ h2 => exact hk' _ h h2
              | union _ _ h =>
                rw [hl] at h
                simp only [Except.ok.injEq, Prod.mk.injEq] at h
                obtain ⟨rfl, rfl⟩ := h
                simp [memIsInitialized] at hm
              | operand _ h1 h =>
                rw [hl] at h1
                simp only [Except.ok.injEq, Prod.mk.injEq] at h1
                obtain ⟨rfl, rfl⟩ := h1
                rw [hst] at h
                cases h with
                | memory h => rw [memInit_true.2 h] at hm; cases hm
            | true =>
              exact key (some (a, ty)) lay ty hl (by rw [hst]; exact .memory (memInit_true.1 hm)) hk'

/-! ## Frames -/

theorem findFrame_ok {st b k} : ∀ {vs : List Var} {l slots fs slots'},
    findFrame st b k l vs slots = .ok (fs, slots') →
    fs.Pairwise (fun x y => x.1 < y.1) ∧ (∀ x ∈ fs, l ≤ x.1) ∧
    (∀ i n op, (l + i, n, op) ∈ fs ↔ ∃ v, vs[i]? = some v ∧ Shows st b (l + i) v n op) ∧
    (∀ i v, vs[i]? = some v → ∀ e, ¬ Breaks st b (l + i) v e)
  | [], l, slots, fs, slots', h => by
    simp only [findFrame, Except.ok.injEq, Prod.mk.injEq] at h
    obtain ⟨rfl, rfl⟩ := h
    simp
  | v :: vs, l, slots, fs, slots', h => by
    unfold findFrame at h
    cases ht : testLocal st b l v with
    | error e => simp [ht] at h
    | ok r =>
      have hnb : ∀ e, ¬ Breaks st b l v e := fun e hb => by
        rw [testLocal_error.2 hb] at ht; cases ht
      cases r with
      | none =>
        simp only [ht] at h
        obtain ⟨h1, h2, h3, h4⟩ := findFrame_ok h
        refine ⟨h1, fun x hx => Nat.le_of_succ_le (h2 x hx), ?_, ?_⟩
        · intro i n op
          cases i with
          | zero =>
            simp only [Nat.add_zero, List.getElem?_cons_zero, Option.some.injEq, exists_eq_left']
            constructor
            · intro hm
              have := h2 _ hm
              simp only at this
              omega
            · intro hs
              exfalso
              by_cases hk : ∀ a, v.state = .memory a → st.mem.kind a ≠ none
              · obtain ⟨hn, ho, lay, ty, hl, hh⟩ := hs
                cases hst : v.state with
                | memory a =>
                  have := testLocal_some (f := ⟨n, op, some (a, ty)⟩).2
                    ⟨⟨hn, ho, lay, ty, hl, hh⟩, ⟨hst, lay, hl⟩, hk⟩
                  rw [this] at ht; cases ht
                | _ =>
                  have := testLocal_some (f := ⟨n, op, none⟩).2
                    ⟨⟨hn, ho, lay, ty, hl, hh⟩, (fun a h => by rw [hst] at h; cases h), hk⟩
                  rw [this] at ht; cases ht
              · simp only [Classical.not_forall, Classical.not_not] at hk
                obtain ⟨a, hst, hk⟩ := hk
                obtain ⟨hn, ho, lay, ty, hl, hh⟩ := hs
                exact hnb _ (.missing hn hst hl hk)
          | succ i =>
            rw [show l + (i + 1) = l + 1 + i by omega, h3 i n op]
            simp
        · intro i w hw
          cases i with
          | zero =>
            simp only [List.getElem?_cons_zero, Option.some.injEq] at hw
            subst hw
            exact hnb
          | succ i =>
            rw [show l + (i + 1) = l + 1 + i by omega]
            exact h4 i w (by simpa using hw)
      | some f =>
        simp only [ht] at h
        cases hr : findFrame st b k (l + 1) vs (record slots k f) with
        | error e => simp [hr] at h
        | ok x =>
          obtain ⟨fs', sl⟩ := x
          simp only [hr, Except.ok.injEq, Prod.mk.injEq] at h
          obtain ⟨rfl, rfl⟩ := h
          obtain ⟨h1, h2, h3, h4⟩ := findFrame_ok hr
          have hs := (testLocal_some.1 ht).1
          refine ⟨?_, ?_, ?_, ?_⟩
          · rw [List.pairwise_cons]
            exact ⟨fun y hy => h2 y hy, h1⟩
          · intro x hx
            rcases List.mem_cons.1 hx with rfl | hx
            · exact Nat.le_refl _
            · exact Nat.le_of_succ_le (h2 x hx)
          · intro i n op
            cases i with
            | zero =>
              simp only [Nat.add_zero, List.getElem?_cons_zero, Option.some.injEq, exists_eq_left',
                List.mem_cons, Prod.mk.injEq, true_and]
              constructor
              · rintro (⟨rfl, rfl⟩ | hm)
                · exact hs
                · have := h2 _ hm
                  simp only at this
                  omega
              · intro hs'
                left
                refine ⟨named_unique hs'.1 hs.1, ?_⟩
                have := hs'.2.1
                rw [hs.2.1] at this
                exact (Except.ok.inj this).symm
            | succ i =>
              have : (l + (i + 1), n, op) ∈ (l, f.name, f.op) :: fs' ↔ (l + 1 + i, n, op) ∈ fs' := by
                simp only [List.mem_cons, Prod.mk.injEq]
                rw [show l + (i + 1) = l + 1 + i by omega]
                constructor
                · rintro (⟨h, _⟩ | h)
                  · omega
                  · exact h
                · exact .inr
              rw [this, h3 i n op]
              simp [show l + (i + 1) = l + 1 + i by omega]
          · intro i w hw
            cases i with
            | zero =>
              simp only [List.getElem?_cons_zero, Option.some.injEq] at hw
              subst hw
              intro e hb
              rw [Nat.add_zero, ← testLocal_error, ht] at hb
              cases hb
            | succ i =>
              rw [show l + (i + 1) = l + 1 + i by omega]
              exact h4 i w (by simpa using hw)

theorem findLocals_ok {st} : ∀ {bs : List Body} {k slots fss slots'},
    findLocals st k bs slots = .ok (fss, slots') →
    fss.length = bs.length ∧
    ∀ (j : Nat) b xs, bs[j]? = some b → fss[j]? = some xs →
      ∃ s s', findFrame st b (k + j) 0 b.vars s = .ok (xs, s')
  | [], k, slots, fss, slots', h => by
    simp only [findLocals, Except.ok.injEq, Prod.mk.injEq] at h
    obtain ⟨rfl, rfl⟩ := h
    simp
  | b :: bs, k, slots, fss, slots', h => by
    unfold findLocals at h
    cases hf : findFrame st b k 0 b.vars slots with
    | error e => simp [hf] at h
    | ok x =>
      obtain ⟨fs, sl⟩ := x
      simp only [hf] at h
      cases hr : findLocals st (k + 1) bs sl with
      | error e => simp [hr] at h
      | ok y =>
        obtain ⟨gs, sl'⟩ := y
        simp only [hr, Except.ok.injEq, Prod.mk.injEq] at h
        obtain ⟨rfl, rfl⟩ := h
        obtain ⟨h1, h2⟩ := findLocals_ok hr
        refine ⟨by simp [h1], ?_⟩
        intro j b' xs hb hx
        cases j with
        | zero =>
          simp only [List.getElem?_cons_zero, Option.some.injEq] at hb hx
          subst hb hx
          exact ⟨slots, sl, hf⟩
        | succ j =>
          obtain ⟨s, s', h⟩ := h2 j b' xs (by simpa using hb) (by simpa using hx)
          exact ⟨s, s', by rw [show k + (j + 1) = k + 1 + j by omega]; exact h⟩

/-- **C95 (the variables of a frame).** Every user frame shows, in the order of declaration, exactly its
variables that a reader knows by name and that hold a value, each under its name. -/
theorem C95_shown (st : World) (bodies : List Body) (fss slots)
    (h : findLocals st 0 bodies (fun _ => none) = .ok (fss, slots)) :
    fss.length = bodies.length ∧
    ∀ (k : Nat) b xs, bodies[k]? = some b → fss[k]? = some xs →
      xs.Pairwise (fun x y => x.1 < y.1) ∧
      ∀ l n op, (l, n, op) ∈ xs ↔ ∃ v, b.vars[l]? = some v ∧ Shows st b l v n op := by
  obtain ⟨h1, h2⟩ := findLocals_ok h
  refine ⟨h1, fun k b xs hb hx => ?_⟩
  obtain ⟨s, s', hf⟩ := h2 k b xs hb hx
  obtain ⟨h3, _, h4, _⟩ := findFrame_ok hf
  refine ⟨h3, fun l n op => ?_⟩
  have := h4 l n op
  simpa using this

theorem findFrame_error {st b k} : ∀ {vs : List Var} {l slots e},
    findFrame st b k l vs slots = .error e →
    ∃ (i : Nat) (v : Var), vs[i]? = some v ∧ Breaks st b (l + i) v e ∧
      ∀ (j : Nat) w, j < i → vs[j]? = some w → ∀ e', ¬ Breaks st b (l + j) w e'
  | [], _, _, _, h => by simp [findFrame] at h
  | v :: vs, l, slots, e, h => by
    unfold findFrame at h
    cases ht : testLocal st b l v with
    | error e' =>
      simp only [ht, Except.error.injEq] at h
      subst h
      exact ⟨0, v, rfl, testLocal_error.1 ht, fun j w hj => by omega⟩
    | ok r =>
      have hnb : ∀ e, ¬ Breaks st b l v e := fun e hb => by
        rw [testLocal_error.2 hb] at ht; cases ht
      have hrest : ∃ sl, findFrame st b k (l + 1) vs sl = .error e := by
        cases r with
        | none => simp only [ht] at h; exact ⟨_, h⟩
        | some f =>
          simp only [ht] at h
          cases hr : findFrame st b k (l + 1) vs (record slots k f) with
          | error e' =>
            simp only [hr, Except.error.injEq] at h
            subst h
            exact ⟨_, hr⟩
          | ok x => simp [hr] at h
      obtain ⟨sl, hr⟩ := hrest
      obtain ⟨i, w, h1, h2, h3⟩ := findFrame_error hr
      refine ⟨i + 1, w, by simpa using h1, by rw [show l + (i + 1) = l + 1 + i by omega]; exact h2, ?_⟩
      intro j u hj hu
      cases j with
      | zero =>
        simp only [List.getElem?_cons_zero, Option.some.injEq] at hu
        subst hu
        exact hnb
      | succ j =>
        rw [show l + (j + 1) = l + 1 + j by omega]
        exact h3 j u (by omega) (by simpa using hu)

theorem findLocals_error {st} : ∀ {bs : List Body} {k slots e},
    findLocals st k bs slots = .error e →
    ∃ (j : Nat) (b : Body) (l : Nat) (v : Var), At bs j l b v ∧ Breaks st b l v e ∧
      ∀ (j' : Nat) (b' : Body) (l' : Nat) (v' : Var), At bs j' l' b' v' → (j' < j ∨ j' = j ∧ l' < l) →
        ∀ e', ¬ Breaks st b' l' v' e'
  | [], _, _, _, h => by simp [findLocals] at h
  | b :: bs, k, slots, e, h => by
    unfold findLocals at h
    cases hf : findFrame st b k 0 b.vars slots with
    | error e' =>
      simp only [hf, Except.error.injEq] at h
      subst h
      obtain ⟨l, v, h1, h2, h3⟩ := findFrame_error hf
      rw [Nat.zero_add] at h2
      refine ⟨0, b, l, v, ⟨rfl, h1⟩, h2, ?_⟩
      rintro j' b' l' v' ⟨hb, hv⟩ (hj | ⟨rfl, hl⟩)
      · omega
      · simp only [List.getElem?_cons_zero, Option.some.injEq] at hb
        subst hb
        have := h3 l' v' hl hv
        rwa [Nat.zero_add] at this
    | ok x =>
      obtain ⟨fs, sl⟩ := x
      simp only [hf] at h
      have hr : findLocals st (k + 1) bs sl = .error e := by
        cases hr : findLocals st (k + 1) bs sl with
        | error e' => simpa [hr] using h
        | ok y => simp [hr] at h
      obtain ⟨j, b', l, v, h1, h2, h3⟩ := findLocals_error hr
      refine ⟨j + 1, b', l, v, ⟨by simpa using h1.1, h1.2⟩, h2, ?_⟩
      rintro j' b'' l' v' ⟨hb, hv⟩ hj
      cases j' with
      | zero =>
        simp only [List.getElem?_cons_zero, Option.some.injEq] at hb
        subst hb
        have := (findFrame_ok hf).2.2.2 l' v' hv
        rwa [Nat.zero_add] at this
      | succ j' => exact h3 j' b'' l' v' ⟨by simpa using hb, hv⟩ (by omega)

/-- **C95 (when the recording stops).** Looking at the variables stops with an error iff some variable of a
user frame makes it stop: its layout or operand cannot be computed, its memory is missing, or it is a union
in memory. The error is that of the first such variable. -/
theorem C95_stops (st : World) (bodies : List Body) :
    ((∃ e, findLocals st 0 bodies (fun _ => none) = .error e) ↔
      ∃ k b l v e, At bodies k l b v ∧ Breaks st b l v e) ∧
    ∀ e, findLocals st 0 bodies (fun _ => none) = .error e →
      ∃ k b l v, At bodies k l b v ∧ Breaks st b l v e ∧
        ∀ k' b' l' v', At bodies k' l' b' v' → (k' < k ∨ k' = k ∧ l' < l) → ∀ e', ¬ Breaks st b' l' v' e' := by
  refine ⟨⟨?_, ?_⟩, fun e h => findLocals_error h⟩
  · rintro ⟨e, h⟩
    obtain ⟨k, b, l, v, h1, h2, _⟩ := findLocals_error h
    exact ⟨k, b, l, v, e, h1, h2⟩
  · rintro ⟨k, b, l, v, e, ⟨hb, hv⟩, h2⟩
    cases h : findLocals st 0 bodies (fun _ => none) with
    | error e' => exact ⟨e', rfl⟩
    | ok x =>
      obtain ⟨fss, slots⟩ := x
      obtain ⟨h3, h4⟩ := findLocals_ok h
      have hk : k < fss.length := by
        rw [h3]; exact (List.getElem?_eq_some_iff.1 hb).1
      obtain ⟨s, s', hf⟩ := h4 k b _ hb (List.getElem?_eq_getElem hk)
      have := (findFrame_ok hf).2.2.2 l v hv e
      rw [Nat.zero_add] at this
      exact absurd h2 this

/-! ## Slots -/

theorem findFrame_slots {st b k} : ∀ {vs : List Var} {l slots fs slots'},
    findFrame st b k l vs slots = .ok (fs, slots') →
    (∀ a x, slots' a = some x → slots a = some x ∨
      ∃ (i : Nat) (v : Var), ∃ n op ty lay, vs[i]? = some v ∧ Shows st b (l + i) v n op ∧ v.state = .memory a ∧
        v.layout = .ok (lay, ty) ∧ x = (k, n, ty)) ∧
    (∀ a, (slots a).isSome → (slots' a).isSome) ∧
    (∀ (i : Nat) (v : Var) n op a, vs[i]? = some v → Shows st b (l + i) v n op → v.state = .memory a →
      (slots' a).isSome)
  | [], l, slots, fs, slots', h => by
    simp only [findFrame, Except.ok.injEq, Prod.mk.injEq] at h
    obtain ⟨rfl, rfl⟩ := h
    exact ⟨fun a x h => .inl h, fun a h => h, fun i v n op a h => by simp at h⟩
  | v :: vs, l, slots, fs, slots', h => by
    have hfull := (findFrame_ok h).2.2.1
    unfold findFrame at h
    cases ht : testLocal st b l v with
    | error e => simp [ht] at h
    | ok r =>
      cases r with
      | none =>
        simp only [ht] at h
        obtain ⟨h1, h2, h3⟩ := findFrame_slots h
        obtain ⟨_, h5, _, _⟩ := findFrame_ok h
        refine ⟨?_, h2, ?_⟩
        · intro a x hx
          rcases h1 a x hx with h | ⟨i, w, n, op, ty, lay, hw, hs, hr⟩
          · exact .inl h
          · exact .inr ⟨i + 1, w, n, op, ty, lay, by simpa using hw,
              by rw [show l + (i + 1) = l + 1 + i by omega]; exact hs, hr⟩
        · intro i w n op a hw hs hst
          cases i with
          | zero =>
            have := (hfull 0 n op).2 ⟨w, hw, hs⟩
            have := h5 _ this
            simp only [Nat.add_zero] at this
            omega
          | succ i =>
            exact h3 i w n op a (by simpa using hw)
              (by rw [show l + 1 + i = l + (i + 1) by omega]; exact hs) hst
      | some f =>
        simp only [ht] at h
        cases hr : findFrame st b k (l + 1) vs (record slots k f) with
        | error e => simp [hr] at h
        | ok x =>
          obtain ⟨fs', sl⟩ := x
          simp only [hr, Except.ok.injEq, Prod.mk.injEq] at h
          obtain ⟨rfl, rfl⟩ := h
          obtain ⟨h1, h2, h3⟩ := findFrame_slots hr
          obtain ⟨hs, hslot, _⟩ := testLocal_some.1 ht
          have hrec : ∀ a x, record slots k f a = some x → slots a = some x ∨
              (∃ ty lay, v.state = .memory a ∧ v.layout = .ok (lay, ty) ∧ x = (k, f.name, ty)) := by
            intro a x hx
            unfold record at hx
            cases hf : f.slot with
            | none => simp only [hf] at hx; exact .inl hx
            | some y =>
              obtain ⟨a', ty⟩ := y
              simp only [hf] at hx
              by_cases ha : a = a'
              · subst ha
                simp only [if_pos, Option.some.injEq] at hx
                rw [hf] at hslot
                obtain ⟨h4, lay, h5⟩ := hslot
                exact .inr ⟨ty, lay, h4, h5, hx.symm⟩
              · rw [if_neg ha] at hx; exact .inl hx
          have hmono : ∀ a, (slots a).isSome → (record slots k f a).isSome := by
            intro a ha
            unfold record
            cases hf : f.slot with
            | none => exact ha
            | some y =>
              obtain ⟨a', ty⟩ := y
              dsimp only
              by_cases h : a = a'
              · simp [h]
              · rw [if_neg h]; exact ha
          refine ⟨?_, fun a ha => h2 a (hmono a ha), ?_⟩
          · intro a x hx
            rcases h1 a x hx with h | ⟨i, w, n, op, ty, lay, hw, hs, hr⟩
            · rcases hrec a x h with h | ⟨ty, lay, h4, h5, h6⟩
              · exact .inl h
              · exact .inr ⟨0, v, f.name, f.op, ty, lay, rfl, hs, h4, h5, h6⟩
            · exact .inr ⟨i + 1, w, n, op, ty, lay, by simpa using hw,
                by rw [show l + (i + 1) = l + 1 + i by omega]; exact hs, hr⟩
          · intro i w n op a hw hs' hst
            cases i with
            | zero =>
              simp only [List.getElem?_cons_zero, Option.some.injEq] at hw
              subst hw
              apply h2
              unfold record
              cases hf : f.slot with
              | none => rw [hf] at hslot; exact absurd hst (hslot a)
              | some y =>
                obtain ⟨a', ty⟩ := y
                rw [hf] at hslot
                have := hslot.1
                rw [hst] at this
                simp only [State.memory.injEq] at this
                simp [this]
            | succ i =>
              exact h3 i w n op a (by simpa using hw)
                (by rw [show l + 1 + i = l + (i + 1) by omega]; exact hs') hst

theorem findLocals_slots {st} : ∀ {bs : List Body} {k slots fss slots'},
    findLocals st k bs slots = .ok (fss, slots') →
    (∀ a x, slots' a = some x → slots a = some x ∨
      ∃ (j l : Nat) (b : Body) (v : Var), ∃ n op ty lay, At bs j l b v ∧ Shows st b l v n op ∧
        v.state = .memory a ∧ v.layout = .ok (lay, ty) ∧ x = (k + j, n, ty)) ∧
    (∀ a, (slots a).isSome → (slots' a).isSome) ∧
    (∀ (j l : Nat) (b : Body) (v : Var) n op a, At bs j l b v → Shows st b l v n op →
      v.state = .memory a → (slots' a).isSome)
  | [], k, slots, fss, slots', h => by
    simp only [findLocals, Except.ok.injEq, Prod.mk.injEq] at h
    obtain ⟨rfl, rfl⟩ := h
    exact ⟨fun a x h => .inl h, fun a h => h, fun j l b v n op a h => by simp [At] at h⟩
  | b :: bs, k, slots, fss, slots', h => by
    unfold findLocals at h
    cases hf : findFrame st b k 0 b.vars slots with
    | error e => simp [hf] at h
    | ok x =>
      obtain ⟨fs, sl⟩ := x
      simp only [hf] at h
      cases hr : findLocals st (k + 1) bs sl with
      | error e => simp [hr] at h
      | ok y =>
        obtain ⟨gs, sl'⟩ := y
        simp only [hr, Except.ok.injEq, Prod.mk.injEq] at h
        obtain ⟨rfl, rfl⟩ := h
        obtain ⟨h1, h2, h3⟩ := findLocals_slots hr
        obtain ⟨g1, g2, g3⟩ := findFrame_slots hf
        refine ⟨?_, fun a ha => h2 a (g2 a ha), ?_⟩
        · intro a x hx
          rcases h1 a x hx with h | ⟨j, l, b', v, n, op, ty, lay, ⟨hb, hv⟩, hs, hst, hl, rfl⟩
          · rcases g1 a x h with h | ⟨i, v, n, op, ty, lay, hv, hs, hst, hl, rfl⟩
            · exact .inl h
            · rw [Nat.zero_add] at hs
              exact .inr ⟨0, i, b, v, n, op, ty, lay, ⟨rfl, hv⟩, hs, hst, hl, rfl⟩
          · exact .inr ⟨j + 1, l, b', v, n, op, ty, lay, ⟨by simpa using hb, hv⟩, hs, hst, hl,
              by rw [show k + (j + 1) = k + 1 + j by omega]⟩
        · rintro j l b' v n op a ⟨hb, hv⟩ hs hst
          cases j with
          | zero =>
            simp only [List.getElem?_cons_zero, Option.some.injEq] at hb
            subst hb
            exact h2 a (g3 l v n op a hv (by rw [Nat.zero_add]; exact hs) hst)
          | succ j => exact h3 j l b' v n op a ⟨by simpa using hb, hv⟩ hs hst

/-- Different variables have different memory. -/
def OwnMemory (bodies : List Body) : Prop :=
  ∀ k l b v k' l' b' v' a, At bodies k l b v → At bodies k' l' b' v' → v.state = .memory a →
    v'.state = .memory a → k = k' ∧ l = l'

/-- **C96 (where pointers to variables may lead).** The memory recorded as variables of the step is exactly
that of the variables shown, each with the position of its frame among the frames shown, its name and its
type. -/
theorem C96_slots (st : World) (bodies : List Body) (fss slots)
    (h : findLocals st 0 bodies (fun _ => none) = .ok (fss, slots)) (ho : OwnMemory bodies)
    (a : AllocId) (k : Nat) (n : String) (ty : Ty) :
    slots a = some (k, n, ty) ↔ ∃ l b v op lay, At bodies k l b v ∧ Shows st b l v n op ∧
      v.state = .memory a ∧ v.layout = .ok (lay, ty) := by
  obtain ⟨h1, _, h3⟩ := findLocals_slots h
  constructor
  · intro hx
    rcases h1 a _ hx with h | ⟨j, l, b, v, n', op, ty', lay, hat, hs, hst, hl, heq⟩
    · simp at h
    · simp only [Nat.zero_add, Prod.mk.injEq] at heq
      obtain ⟨rfl, rfl, rfl⟩ := heq
      exact ⟨l, b, v, op, lay, hat, hs, hst, hl⟩
  · rintro ⟨l, b, v, op, lay, hat, hs, hst, hl⟩
    have hsome := h3 k l b v n op a hat hs hst
    cases hx : slots a with
    | none => rw [hx] at hsome; cases hsome
    | some x =>
      rcases h1 a x hx with h | ⟨j, l', b', v', n', op', ty', lay', hat', hs', hst', hl', rfl⟩
      · simp at h
      · obtain ⟨rfl, rfl⟩ := ho _ _ _ _ _ _ _ _ a hat hat' hst hst'
        obtain ⟨hb, hv⟩ := hat
        obtain ⟨hb', hv'⟩ := hat'
        rw [hb] at hb'
        obtain rfl := Option.some.inj hb'
        rw [hv] at hv'
        obtain rfl := Option.some.inj hv'
        obtain rfl := named_unique hs.1 hs'.1
        rw [hl] at hl'
        simp only [Except.ok.injEq, Prod.mk.injEq] at hl'
        rw [hl'.2, Nat.zero_add]

/-! ## Whole steps -/

theorem readAll_append {mem : Mem} {fuel : Nat} : ∀ {xs ys : List Op} {s s₁ s₂ vs ws},
    readAll mem fuel xs s = .ok vs s₁ → readAll mem fuel ys s₁ = .ok ws s₂ →
    readAll mem fuel (xs ++ ys) s = .ok (vs ++ ws) s₂
  | [], ys, s, s₁, s₂, vs, ws, h1, h2 => by
    obtain ⟨rfl, rfl⟩ := pure_ok.1 h1
    exact h2
  | x :: xs, ys, s, s₁, s₂, vs, ws, h1, h2 => by
    unfold readAll at h1
    obtain ⟨v, s', hv, h1⟩ := bind_ok.1 h1
    obtain ⟨vs', s'', hvs, h1⟩ := bind_ok.1 h1
    obtain ⟨rfl, rfl⟩ := pure_ok.1 h1
    rw [List.cons_append]
    unfold readAll
    exact bind_ok.2 ⟨v, s', hv, bind_ok.2 ⟨_, _, readAll_append hvs h2, pure_ok.2 ⟨rfl, rfl⟩⟩⟩

/-- A shown variable `x` is what was found, with the mark for its moves. -/
def Matches (moved : List Nat) (f : Nat × String × Op) (x : MLocal) : Prop :=
  x.name = f.2.1 ∧ (f.1 ∈ moved → x.movedPaths = [[]]) ∧ (f.1 ∉ moved → x.movedPaths = [])

theorem buildVars_ok {mem : Mem} {fuel : Nat} {moved : List Nat} :
    ∀ {xs : List (Nat × String × Op)} {s ls s'}, buildVars mem fuel moved xs s = .ok ls s' →
    readAll mem fuel (xs.map (·.2.2)) s = .ok (ls.map (·.value)) s' ∧
    List.Forall₂ (Matches moved) xs ls
  | [], s, ls, s', h => by
    obtain ⟨rfl, rfl⟩ := pure_ok.1 h
    exact ⟨rfl, .nil⟩
  | (l, n, o) :: xs, s, ls, s', h => by
    unfold buildVars at h
    obtain ⟨v, s₁, hv, h⟩ := bind_ok.1 h
    obtain ⟨vs, s₂, hvs, h⟩ := bind_ok.1 h
    obtain ⟨rfl, rfl⟩ := pure_ok.1 h
    obtain ⟨h1, h2⟩ := buildVars_ok hvs
    refine ⟨?_, .cons ⟨rfl, ?_, ?_⟩ h2⟩
    · simp only [List.map_cons]
      unfold readAll
      exact bind_ok.2 ⟨v, s₁, hv, bind_ok.2 ⟨_, _, h1, pure_ok.2 ⟨rfl, rfl⟩⟩⟩
    · intro hm; simp only [movedPaths] at hm ⊢; rw [if_pos (by simpa using hm)]
    · intro hm; simp only [movedPaths] at hm ⊢; rw [if_neg (by simpa using hm)]

theorem buildStackVars_ok {mem : Mem} {fuel : Nat} {mp : MovedPlaces} :
    ∀ {idx : List Nat} {xss : List (List (Nat × String × Op))} {s lss s'}, idx.length = xss.length →
    buildStackVars mem fuel mp idx xss s = .ok lss s' →
    readAll mem fuel (xss.flatten.map (·.2.2)) s = .ok (lss.flatten.map (·.value)) s' ∧
    lss.length = xss.length ∧
    ∀ (k i : Nat) xs ls, idx[k]? = some i → xss[k]? = some xs → lss[k]? = some ls →
      ∃ moved, mp[i]? = some moved ∧ List.Forall₂ (Matches moved) xs ls
  | [], [], s, lss, s', _, h => by
    unfold buildStackVars at h
    obtain ⟨rfl, rfl⟩ := pure_ok.1 h
    exact ⟨rfl, rfl, fun k i xs ls h => by simp at h⟩
  | [], _ :: _, _, _, _, hl, _ => by simp at hl
  | _ :: _, [], _, _, _, hl, _ => by simp at hl
  | i :: idx, xs :: xss, s, lss, s', hl, h => by
    unfold buildStackVars at h
    cases hm : placesAt mp i with
    | none =>
      simp only [hm] at h
      exact absurd h (by simp [throw, throwThe, MonadExceptOf.throw, EStateM.throw])
    | some moved =>
      simp only [hm] at h
      obtain ⟨f, s₁, hf, h⟩ := bind_ok.1 h
      obtain ⟨fs, s₂, hfs, h⟩ := bind_ok.1 h
      obtain ⟨rfl, rfl⟩ := pure_ok.1 h
      obtain ⟨h1, h2⟩ := buildVars_ok hf
      obtain ⟨h3, h4, h5⟩ := buildStackVars_ok (by simpa using hl) hfs
      refine ⟨?_, by simp [h4], ?_⟩
      · simp only [List.flatten_cons, List.map_append]
        exact readAll_append h1 h3
      · intro k j ys ls hk hy hls
        cases k with
        | zero =>
          simp only [List.getElem?_cons_zero, Option.some.injEq] at hk hy hls
          subst hk hy hls
          exact ⟨moved, hm, h2⟩
        | succ k => exact h5 k j ys ls (by simpa using hk) (by simpa using hy) (by simpa using hls)

/-- **C96 (a whole step).** The variables and the heap of a step form a diagram (in the sense of C16) whose
roots are the variables shown, frame by frame, and whose stack places are the variables recorded; in each
frame, the variables shown are those found, in the same order and under the same names, each marked as moved
as a whole if the function moved any of it out while it had no address, and otherwise not marked. -/
theorem C96_step (st : World) (fuel : Nat) (mp : MovedPlaces) (frames : List (Nat × Body)) (lss heap)
    (rank : AllocId → Nat) (h : stepVars st fuel mp frames = .ok (lss, heap))
    (hac : ∀ fss slots, findLocals st 0 (frames.map (·.2)) (fun _ => none) = .ok (fss, slots) →
      Acyclic st.mem (Reached st.mem (fss.flatten.map (·.2.2))) rank) :
    ∃ fss slots order m, findLocals st 0 (frames.map (·.2)) (fun _ => none) = .ok (fss, slots) ∧
      Diagram st.mem (fss.flatten.map (·.2.2)) slots (lss.flatten.map (·.value)) heap order m ∧
      lss.length = frames.length ∧
      ∀ (k i : Nat) b xs ls, frames[k]? = some (i, b) → fss[k]? = some xs → lss[k]? = some ls →
        ∃ moved, mp[i]? = some moved ∧ List.Forall₂ (Matches moved) xs ls := by
  unfold stepVars at h
  cases hf : findLocals st 0 (frames.map (·.2)) (fun _ => none) with
  | error e => simp [hf] at h
  | ok x =>
    obtain ⟨fss, slots⟩ := x
    simp only [hf] at h
    have hlen := (findLocals_ok hf).1
    cases hb : buildStackVars st.mem fuel mp (frames.map (·.1)) fss (startMap slots) with
    | error e s => simp [hb] at h
    | ok vs s =>
      simp only [hb, Except.ok.injEq, Prod.mk.injEq] at h
      obtain ⟨rfl, rfl⟩ := h
      obtain ⟨h1, h2, h3⟩ := buildStackVars_ok (by simp [hlen]) hb
      obtain ⟨order, m, hd⟩ := C16_diagram st.mem _ rank (hac fss slots hf) fuel slots _ s h1
      refine ⟨fss, slots, order, m, rfl, hd, by simp [h2, hlen], ?_⟩
      intro k i b xs ls hk hx hl
      exact h3 k i xs ls (by simp [hk]) hx hl

/-- **C96 (pointers to variables).** In a diagram, a pointer that may be followed and points into the stack
is drawn to the variable of the step whose memory it points into, by frame and name; if its target is not
the memory of a variable shown, it is drawn without target, under a label. -/
theorem C96_pointer (st : World) (bodies : List Body) (fss slots)
    (h : findLocals st 0 bodies (fun _ => none) = .ok (fss, slots)) (ho : OwnMemory bodies)
    {vs heap order m} (hd : Diagram st.mem (fss.flatten.map (·.2.2)) slots vs heap order m)
    (p : Ptr) (a off : Nat) (w : MValue) (hp : p.target = some (a, off)) (hk : st.mem.kind a = some .stack)
    (hw : ShowsPtr st.mem m p w) :
    (∃ k l b v n op lay ty parts, At bodies k l b v ∧ Shows st b l v n op ∧ v.state = .memory a ∧
        v.layout = .ok (lay, ty) ∧ locateAddress ty (st.mem.size a) p.mdata off = .ok parts ∧
        w = .pointer (.stack k n) parts p.mdata) ∨
    ((∀ k l b v n op, At bodies k l b v → Shows st b l v n op → v.state ≠ .memory a) ∧
      ∃ i, w = .unallocated (some i)) := by
  cases hw with
  | drawn h1 h2 h3 =>
    rename_i a' off' seg ly parts
    rw [hp] at h1
    simp only [Option.some.injEq, Prod.mk.injEq] at h1
    obtain ⟨rfl, rfl⟩ := h1
    cases seg with
    | heap i =>
      have := hd.isHeap a (List.mem_of_getElem? ((hd.heapLoc a i).1 ⟨ly, h2⟩))
      rw [hk] at this; simp at this
    | stack f n =>
      have hs := (hd.stackLoc a f n ly h2).1
      obtain ⟨l, b, v, op, lay, hat, hsh, hst, hl⟩ := (C96_slots st bodies fss slots h ho a f n ly).1 hs
      exact .inl ⟨f, l, b, v, n, op, lay, ly, parts, hat, hsh, hst, hl, h3, rfl⟩
  | hidden h1 h2 h3 h4 =>
    rename_i a' off' i
    rw [hp] at h1
    simp only [Option.some.injEq, Prod.mk.injEq] at h1
    obtain ⟨rfl, rfl⟩ := h1
    refine .inr ⟨?_, i, rfl⟩
    intro k l b v n op hat hsh hst
    obtain ⟨hn, hop, lay, ty, hl, hh⟩ := hsh
    have := (C96_slots st bodies fss slots h ho a k n ty).2 ⟨l, b, v, op, lay, hat,
      ⟨hn, hop, lay, ty, hl, hh⟩, hst, hl⟩
    rw [← hd.slot, h3] at this
    cases this

/-! ## Witnesses -/

/-- `((u32, u8), u8)` with the padding of the inner tuple. -/
def paddedLay : Lay :=
  .fields (.cons 0 (.fields (.cons 0 (.scalar 4) (.cons 4 (.scalar 1) .nil)) 8) (.cons 8 (.scalar 1) .nil)) 12
/-- Its value is written: bytes 0-4 and 8. -/
def paddedInit : Nat → Bool := fun i => i < 5 || i == 8

/-- C95 fails: a variable in memory of type `((u32, u8), u8)` whose value is completely initialised counts as
uninitialised, because the check looks at the padding inside the inner tuple. -/
theorem C95_padding : ValueInit paddedInit paddedLay ∧
    memIsInitialized paddedLay paddedLay.size paddedInit = some false := by
  refine ⟨?_, by decide⟩
  intro i h
  simp only [paddedLay, ValueByte, ValueByteF] at h
  simp only [paddedInit, Bool.or_eq_true, decide_eq_true_eq, beq_iff_eq]
  simp only [or_false] at h
  omega

/-- C95 fails: a variable in memory whose type is an enum counts as initialised as soon as its tag is. -/
theorem C95_enum :
    memIsInitialized (.enum 0 4 (.cons 4 (.scalar 4) .nil) 8) 8 (fun i => i < 4) = some true ∧
    ¬ ValueInit (fun i => i < 4) (.enum 0 4 (.cons 4 (.scalar 4) .nil) 8) := by
  refine ⟨by decide, fun h => ?_⟩
  have := h 4 (by simp only [ValueByte, ValueByteF]; omega)
  simp at this

def demoSt : World where
  mem := { kind := fun _ => some .stack, size := fun _ => 12, at_ := fun _ _ _ => .prim (.uint 7) }
  init := fun a => if a = 0 then paddedInit else fun _ => true
def demoVar (n : String) (s : State) (lay : Lay) (op : Op) : Var :=
  { isUnit := false, name := some n, state := s, layout := .ok (lay, .prim 12), op := .ok op }

/-- C95 fails: a variable of a type that is a union stops the recording once it has an address, initialised
or not. -/
theorem C95_union (st : World) (b : Body) (l : Nat) (v : Var) (n a k ty) (h : Named b l v n)
    (hs : v.state = .memory a) (hl : v.layout = .ok (.union k, ty)) : testLocal st b l v = .error .panic :=
  testLocal_error.2 (.union h hs hl)

/-- C95 fails: a zero-sized variable is shown from the start of its scope, before it is assigned. -/
theorem C95_empty (st : World) (b : Body) (l : Nat) (v : Var) (n lay ty op) (h : Named b l v n)
    (hs : v.state = .uninit) (hl : v.layout = .ok (lay, ty)) (hz : lay.size = 0) (ho : v.op = .ok op) :
    ∃ f, testLocal st b l v = .ok (some f) ∧ f.name = n ∧ f.op = op :=
  ⟨⟨n, op, none⟩, testLocal_some.2 ⟨⟨h, ho, lay, ty, hl, by rw [hs]; exact .empty hz⟩,
    (show SlotOf v none from fun a h => by rw [hs] at h; cases h), fun a h => by rw [hs] at h; cases h⟩, rfl, rfl⟩

/-- A frame: result not yet there, a number, a reference to a temporary, a reference to the number's memory,
the temporary, and a variable captured by a closure. -/
def demoBody : Body where
  vars := [demoVar "_0" .uninit (.scalar 4) .uninit,
    demoVar "x" (.memory 1) (.scalar 12) (.prim (.uint 7)),
    demoVar "t" .value (.scalar 8) (.ptr { target := some (2, 0), accessOk := true, mdata := none, ty := .prim 4 }),
    demoVar "r" .value (.scalar 8) (.ptr { target := some (1, 0), accessOk := true, mdata := none, ty := .prim 4 }),
    demoVar "_4" (.memory 2) (.scalar 4) (.prim (.uint 9)),
    demoVar "p" (.memory 0) paddedLay (.prim (.uint 1))]
  debug := [.place 1 0, .place 2 0, .place 3 0, .place 4 1, .place 5 0]

/-- The names and the values that are pointers or labels, of a step. -/
def summary : Except Err (List (List MLocal) × List MValue) → List (List (String × Option (MSeg ⊕ Option Nat)))
  | .error _ => []
  | .ok (lss, _) => lss.map (·.map fun x => (x.name, match x.value with
      | .pointer seg _ _ => some (.inl seg)
      | .unallocated i => some (.inr i)
      | _ => none))

/-- C95, C96 on a frame: the number and the references are shown; the result, the temporary and the padded
tuple are not; the reference to the number leads to it, and the reference to the temporary, which is alive, is
drawn like a dangling one. -/
theorem C96_temporary : summary (stepVars demoSt 5 [[], []] [(1, demoBody)]) =
    [[("x", none), ("t", some (.inr (some 0))), ("r", some (.inl (.stack 0 "x")))]] := by decide +kernel

end Verif.Trace.Locals
