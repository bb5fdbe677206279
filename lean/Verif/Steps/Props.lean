import Verif.Steps.Spec
/-!
# Properties of steps and line tables
-/
namespace Verif.Steps

open Verif.Permissions

/-! ## C40 -/

theorem C40_flag (a b : Bool) :
    (Gained (diffBool a b) ↔ a = false ∧ b = true) ∧ (Lost (diffBool a b) ↔ a = true ∧ b = false) ∧
    (Unchanged (diffBool a b) ↔ a = b) ∧ applyBool a (diffBool a b) = b := by
  cases a <;> cases b <;> simp [diffBool, Gained, Lost, Unchanged, applyBool]

theorem C40_fact (a b : Option α) :
    (Gained (diffOption a b) ↔ a = none ∧ b ≠ none) ∧ (Lost (diffOption a b) ↔ a ≠ none ∧ b = none) ∧
    (Unchanged (diffOption a b) ↔ (a = none ↔ b = none)) ∧ applyOption a (diffOption a b) = b := by
  cases a <;> cases b <;> simp [diffOption, Gained, Lost, Unchanged, applyOption]

/-- Applying the step from `a` to `b` to `a` gives `b`, for two states of the same place (whose type, and
so copyability, is fixed). -/
theorem C40_apply (a b : Data) (h : a.typeCopyable = b.typeCopyable) : applyData a (diffData a b) = b := by
  cases a; cases b
  simp only [applyData, diffData] at h ⊢
  simp only [(C40_flag _ _).2.2.2, (C40_fact _ _).2.2.2, h]

/-- The permissions part of the step says how the displayed permissions change. -/
theorem C40_permissions (a b : Data) : applyPerms a.permissions (diffData a b).permissions = b.permissions := by
  simp only [applyPerms, diffData, diffPerms, (C40_flag _ _).2.2.2]

theorem diffBool_empty (a b : Bool) : (diffBool a b).isEmpty = decide (a = b) := by
  cases a <;> cases b <;> rfl

/-- A step is empty iff the displayed permissions are equal. -/
theorem C40_empty (a b : Data) : (diffData a b).isEmpty = true ↔ a.permissions = b.permissions := by
  simp only [DataDiff.isEmpty, PermsDiff.isEmpty, diffData, diffPerms, diffBool_empty]
  generalize a.permissions = p
  generalize b.permissions = q
  cases p; cases q
  simp [and_assoc]

/-- The step of a whole state: defined iff every place of the earlier state is in the later one; then it
has the same places and each place's own step. -/
theorem C40_domain [DecidableEq P] (a b : Domain P) :
    ((∃ r, diffDomain a b = some r) ↔ ∀ e ∈ a, (b.get e.1).isSome) ∧
    ∀ r, diffDomain a b = some r → r.map (·.1) = a.map (·.1) ∧
      ∀ p d, (p, d) ∈ r ↔ ∃ x y, (p, x) ∈ a ∧ b.get p = some y ∧ d = diffData x y := by
  induction a with
  | nil => simp [diffDomain]
  | cons e rest ih =>
    obtain ⟨place, p1⟩ := e
    obtain ⟨ih1, ih2⟩ := ih
    simp only [diffDomain]
    cases hg : b.get place with
    | none =>
      refine ⟨⟨fun ⟨r, h⟩ => absurd h (by simp), fun h => ?_⟩, fun r h => absurd h (by simp)⟩
      have := h (place, p1) (by simp)
      simp [hg] at this
    | some p2 =>
      dsimp only
      cases hd : diffDomain rest b with
      | none =>
        refine ⟨⟨fun ⟨r, h⟩ => absurd h (by simp), fun h => ?_⟩, fun r h => absurd h (by simp)⟩
        rw [hd] at ih1
        have := ih1.2 (fun e he => h e (by simp [he]))
        simp at this
      | some r' =>
        obtain ⟨h1, h2⟩ := ih2 r' hd
        refine ⟨⟨fun _ => ?_, fun _ => ⟨_, rfl⟩⟩, ?_⟩
        · intro e he
          rcases List.mem_cons.1 he with rfl | he
          · simp [hg]
          · exact ih1.1 ⟨_, hd⟩ e he
        · intro r h
          simp only [Option.map_some, Option.some.injEq] at h
          subst h
          refine ⟨by simp [h1], ?_⟩
          intro p d
          simp only [List.mem_cons, Prod.mk.injEq, h2]
          constructor
          · rintro (⟨rfl, rfl⟩ | ⟨x, y, hx, hy, hd⟩)
            · exact ⟨p1, p2, .inl ⟨rfl, rfl⟩, hg, rfl⟩
            · exact ⟨x, y, .inr hx, hy, hd⟩
          · rintro ⟨x, y, ⟨rfl, rfl⟩ | hx, hy, rfl⟩
            · rw [hg] at hy
              simp only [Option.some.injEq] at hy
              subst hy
              exact .inl ⟨rfl, rfl⟩
            · exact .inr ⟨x, y, hx, hy, rfl⟩

def sampleData : Data :=
  { typeDroppable := true, typeWriteable := true, typeCopyable := false, isLive := true,
    pathUninitialized := false, pathMoved := none, loanReadRefined := none, loanWriteRefined := some 3,
    loanDropRefined := some 3 }

example : (diffData sampleData { sampleData with loanWriteRefined := none, pathMoved := some 4 }).permissions =
    ⟨.low, .none (some false), .none (some false)⟩ := by decide

/-- **C40 (entry).** The step at the opening brace has one row for each place; a row shows as gained
exactly the permissions the place has on entry, loses nothing, and is not showable if the place is not
live on entry. -/
theorem C40_entry {P : Type} [DecidableEq P] (places : List P) (first : Domain P)
    (h : ∀ p ∈ places, (first.get p).isSome) : ∃ rows, entryStep places first = some rows ∧
      rows.map (·.1) = places ∧
      ∀ p d, (p, d) ∈ rows → ∃ x, first.get p = some x ∧
        (Gained d.permissions.read ↔ x.permissions.read = true) ∧
        (Gained d.permissions.write ↔ x.permissions.write = true) ∧
        (Gained d.permissions.drop ↔ x.permissions.drop = true) ∧
        ¬ Lost d.permissions.read ∧ ¬ Lost d.permissions.write ∧ ¬ Lost d.permissions.drop ∧
        (d.isLive = .none (some false) ↔ x.isLive = false) ∧
        (d.pathMoved = .low ∨ d.loanReadRefined = .low ∨ d.loanWriteRefined = .low ∨
          d.loanDropRefined = .low → False) := by
  obtain ⟨h1, h2⟩ := C40_domain (places.map fun p => (p, bottomData)) first
  obtain ⟨rows, hr⟩ := h1.2 (by simpa using h)
  obtain ⟨h3, h4⟩ := h2 rows hr
  refine ⟨rows, hr, by simpa [Function.comp_def] using h3, ?_⟩
  intro p d hd
  obtain ⟨x, y, hx, hy, rfl⟩ := (h4 p d).1 hd
  simp only [List.mem_map, Prod.mk.injEq] at hx
  obtain ⟨-, -, -, rfl⟩ := hx
  have hb : bottomData.permissions = ⟨false, false, false⟩ := rfl
  refine ⟨y, hy, ?_⟩
  simp only [diffData, diffPerms, hb, C40_flag, true_and, Bool.false_eq_true, false_and, not_false_eq_true]
  obtain ⟨td, tw, tc, live, un, mv, lr, lw, ld⟩ := y
  cases live <;> cases mv <;> cases lr <;> cases lw <;> cases ld <;> simp [bottomData, diffBool, diffOption]

example : (entryStep [1, 2] [(1, sampleData), (2, bottomData)]).map (·.map fun r => r.2.permissions.read) =
    some [.high true, .none (some false)] := by decide

/-- A changed refiner is not visible as a change: the loan that takes the permission away may be another
one, and the step is still "unchanged" (though it carries the new loan). -/
theorem C40_refiner_change (v w : α) : Unchanged (diffOption (some v) (some w)) ∧
    diffOption (some v) (some w) = .none (some w) := ⟨trivial, rfl⟩

/-! ## C41 -/

theorem step_symmetric_iff (x y : Step α) : x.isSymmetric y = true ↔
    (Gained x ∧ Lost y) ∨ (Lost x ∧ Gained y) ∨ (Unchanged x ∧ Unchanged y) := by
  cases x <;> cases y <;> simp [Step.isSymmetric, Gained, Lost, Unchanged]

theorem isSymmetric_iff (a b : DataDiff) : a.isSymmetric b = true ↔ Undo a b := by
  simp only [DataDiff.isSymmetric, Bool.and_eq_true, step_symmetric_iff, Undo, and_assoc]

theorem C41_back_and_forth (a b : Data) : (diffData a b).isSymmetric (diffData b a) = true := by
  have : ∀ x y : Bool, (diffBool x y).isSymmetric (diffBool y x) = true := by decide
  simp only [DataDiff.isSymmetric, diffData, diffPerms, this, Bool.and_self]

theorem C41_commutes (a b : DataDiff) : a.isSymmetric b = b.isSymmetric a := by
  have : ∀ x y : Step Bool, x.isSymmetric y = y.isSymmetric x := by
    intro x y; cases x <;> cases y <;> rfl
  simp only [DataDiff.isSymmetric, this]

/-- If two consecutive steps are recognised as symmetric, the permissions are the same before and after
both. -/
theorem C41_compose (a b c : Data) (h : (diffData a b).isSymmetric (diffData b c) = true) :
    a.permissions = c.permissions := by
  have key : ∀ x y z : Bool, (diffBool x y).isSymmetric (diffBool y z) = true → x = z := by decide
  simp only [DataDiff.isSymmetric, diffData, diffPerms, Bool.and_eq_true] at h
  obtain ⟨⟨h1, h2⟩, h3⟩ := h
  have e1 := key _ _ _ h1
  have e2 := key _ _ _ h2
  have e3 := key _ _ _ h3
  revert e1 e2 e3
  generalize a.permissions = p
  generalize c.permissions = q
  cases p; cases q
  simp only [Perms.mk.injEq]
  exact fun a b c => ⟨a, b, c⟩

/-- And conversely: two consecutive steps that lead back to the same permissions are recognised. -/
theorem C41_complete (a b c : Data) (h : a.permissions = c.permissions) :
    (diffData a b).isSymmetric (diffData b c) = true := by
  have key : ∀ x y : Bool, (diffBool x y).isSymmetric (diffBool y x) = true := by decide
  simp only [DataDiff.isSymmetric, diffData, diffPerms, h, key, Bool.and_self]

example : (diffData sampleData { sampleData with isLive := false }).isSymmetric
    (diffData sampleData { sampleData with isLive := false }) = false := by decide

/-! ## Lines -/

theorem lineOf_eq_of_le {src : List Char} {p q : Nat} (hpq : p ≤ q) :
    lineOf src p = lineOf src q ↔ ∀ (i : Nat), p ≤ i → i < q → src[i]? ≠ some '\n' := by
  have hq : src.take q = src.take p ++ (src.drop p).take (q - p) := by
    rw [← List.take_add, Nat.add_sub_cancel' hpq]
  unfold lineOf
  rw [hq, List.count_append]
  constructor
  · intro h i h1 h2 hc
    have h0 : List.count '\n' ((src.drop p).take (q - p)) = 0 := by omega
    rw [List.count_eq_zero] at h0
    apply h0
    rw [List.mem_iff_getElem?]
    refine ⟨i - p, ?_⟩
    rw [List.getElem?_take, if_pos (by omega), List.getElem?_drop]
    rw [Nat.add_sub_cancel' h1]; exact hc
  · intro h
    have h0 : List.count '\n' ((src.drop p).take (q - p)) = 0 := by
      rw [List.count_eq_zero]
      intro hc
      rw [List.mem_iff_getElem?] at hc
      obtain ⟨i, hi⟩ := hc
      rw [List.getElem?_take] at hi
      split at hi
      · rw [List.getElem?_drop] at hi
        exact h (p + i) (by omega) (by omega) hi
      · exact absurd hi (by simp)
    omega

/-- The line number identifies the line. -/
theorem lineOf_eq_iff (src : List Char) (p q : Nat) : lineOf src p = lineOf src q ↔ SameLine src p q := by
  unfold SameLine
  rcases Nat.le_total p q with h | h
  · rw [Nat.min_eq_left h, Nat.max_eq_right h]; exact lineOf_eq_of_le h
  · rw [Nat.min_eq_right h, Nat.max_eq_left h, eq_comm]; exact lineOf_eq_of_le h

theorem getElem?_takeWhile_some {α : Type} {p : α → Bool} {l : List α} {i : Nat} (h : i < (l.takeWhile p).length) :
    ∃ x, l[i]? = some x ∧ p x = true := by
  have hp : (l.takeWhile p) <+: l := List.takeWhile_prefix p
  refine ⟨(l.takeWhile p)[i], ?_, ?_⟩
  · rw [← List.getElem?_eq_getElem h]
    obtain ⟨t, ht⟩ := hp
    conv => lhs; rw [← ht]
    exact List.getElem?_append_left h
  · have := List.all_takeWhile (p := p) (l := l)
    rw [List.all_eq_true] at this
    exact this _ (List.getElem_mem h)

theorem lineOf_lineEnd (src : List Char) (hi : Nat) : lineOf src (lineEnd src hi) = lineOf src hi := by
  rw [eq_comm, lineOf_eq_of_le (by unfold lineEnd; omega)]
  intro i h1 h2 hc
  unfold lineEnd at h2
  obtain ⟨x, hx, hpx⟩ := getElem?_takeWhile_some (p := (· != '\n')) (l := src.drop hi) (i := i - hi) (by omega)
  rw [List.getElem?_drop, Nat.add_sub_cancel' h1, hc] at hx
  simp only [Option.some.injEq] at hx
  subst hx
  simp at hpx

theorem takeWhile_end (p : α → Bool) (l : List α) :
    l.length ≤ (l.takeWhile p).length ∨ ∃ x, l[(l.takeWhile p).length]? = some x ∧ p x = false := by
  induction l with
  | nil => simp
  | cons a r ih =>
    rw [List.takeWhile_cons]
    split
    · rcases ih with h | ⟨x, h1, h2⟩
      · left; simp only [List.length_cons]; omega
      · right; exact ⟨x, by simpa using h1, h2⟩
    · rename_i h
      right; exact ⟨a, by simp, by simpa using h⟩

theorem lineEnd_atLineEnd (src : List Char) (hi : Nat) : AtLineEnd src (lineEnd src hi) := by
  unfold AtLineEnd lineEnd
  rcases takeWhile_end (· != '\n') (src.drop hi) with h | ⟨x, h1, h2⟩
  · left; rw [List.length_drop] at h; omega
  · right
    rw [List.getElem?_drop] at h1
    rw [h1]
    simp only [bne_eq_false_iff_eq] at h2
    rw [h2]

/-! ## Grouping by line -/

/-- Whether a table is used. -/
def used (src : List Char) (err : Option Nat) (visible : Place → Bool) (mode : Mode) (t : Table) : Bool :=
  !((keptRows visible mode t).isEmpty || err.any (fun e => decide (e < lineEnd src t.hi)))

def toEntry (src : List Char) (visible : Place → Bool) (mode : Mode) (t : Table) : Entry :=
  ⟨t.segment, lineEnd src t.hi, keptRows visible mode t⟩

/-- The entries of a line. -/
def entriesOf (src : List Char) (err : Option Nat) (visible : Place → Bool) (mode : Mode)
    (tables : List Table) (line : Nat) : List Entry :=
  (tables.filter (fun t => used src err visible mode t && decide (lineOf src t.hi = line))).map
    (toEntry src visible mode)

theorem pushLine_keys (m : List (Nat × List Entry)) (k : Nat) (e : Entry) :
    ((pushLine m k e).map (·.1) = m.map (·.1) ∧ k ∈ m.map (·.1)) ∨
    ((pushLine m k e).map (·.1) = m.map (·.1) ++ [k] ∧ k ∉ m.map (·.1)) := by
  induction m with
  | nil => simp [pushLine]
  | cons a r ih =>
    obtain ⟨k', v⟩ := a
    simp only [pushLine]
    split
    · rename_i h; subst h; simp
    · rename_i h
      rcases ih with ⟨h1, h2⟩ | ⟨h1, h2⟩
      · exact .inl ⟨by simp only [List.map_cons, h1], by simp only [List.map_cons, List.mem_cons, h2, or_true]⟩
      · refine .inr ⟨by simp only [List.map_cons, h1, List.cons_append], ?_⟩
        simp only [List.map_cons, List.mem_cons, not_or]
        exact ⟨fun hc => h hc.symm, h2⟩

theorem mem_pushLine {m : List (Nat × List Entry)} (hk : (m.map (·.1)).Nodup) (line : Nat) (e : Entry)
    (k : Nat) (es : List Entry) : (k, es) ∈ pushLine m line e ↔
      (k ≠ line ∧ (k, es) ∈ m) ∨ (k = line ∧ ((∃ es', (k, es') ∈ m ∧ es = es' ++ [e]) ∨
        (k ∉ m.map (·.1) ∧ es = [e]))) := by
  induction m with
  | nil =>
    simp only [pushLine, List.mem_cons, Prod.mk.injEq, List.not_mem_nil, or_false, and_false, false_or,
      List.map_nil, not_false_eq_true, true_and, false_and, exists_const]
  | cons a r ih =>
    obtain ⟨k', v⟩ := a
    simp only [List.map_cons, List.nodup_cons] at hk
    simp only [pushLine]
    split
    · rename_i h
      subst h
      have hnot : ∀ es', (k', es') ∉ r := fun es' hm => hk.1 (List.mem_map.2 ⟨_, hm, rfl⟩)
      simp only [List.mem_cons, Prod.mk.injEq, List.map_cons, not_or]
      constructor
      · rintro (⟨rfl, rfl⟩ | h)
        · exact .inr ⟨rfl, .inl ⟨v, .inl ⟨rfl, rfl⟩, rfl⟩⟩
        · by_cases hk' : k = k'
          · subst hk'; exact absurd h (hnot _)
          · exact .inl ⟨hk', .inr h⟩
      · rintro (⟨h1, ⟨h2, _⟩ | h2⟩ | ⟨rfl, ⟨es', ⟨_, rfl⟩ | h2, rfl⟩ | ⟨h2, _⟩⟩)
        · exact absurd h2 h1
        · exact .inr h2
        · exact .inl ⟨rfl, rfl⟩
        · exact absurd h2 (hnot _)
        · exact absurd rfl h2.1
    · rename_i h
      simp only [List.mem_cons, Prod.mk.injEq, List.map_cons, not_or, ih hk.2]
      constructor
      · rintro (⟨rfl, rfl⟩ | ⟨h1, h2⟩ | ⟨rfl, ⟨es', h2, h3⟩ | ⟨h2, h3⟩⟩)
        · exact .inl ⟨h, .inl ⟨rfl, rfl⟩⟩
        · exact .inl ⟨h1, .inr h2⟩
        · exact .inr ⟨rfl, .inl ⟨es', .inr h2, h3⟩⟩
        · exact .inr ⟨rfl, .inr ⟨⟨fun hc => h hc.symm, h2⟩, h3⟩⟩
      · rintro (⟨h1, ⟨rfl, rfl⟩ | h2⟩ | ⟨rfl, ⟨es', ⟨h2, _⟩ | h2, h3⟩ | ⟨h2, h3⟩⟩)
        · exact .inl ⟨rfl, rfl⟩
        · exact .inr (.inl ⟨h1, h2⟩)
        · exact absurd h2.symm h
        · exact .inr (.inr ⟨rfl, .inl ⟨es', h2, h3⟩⟩)
        · exact .inr (.inr ⟨rfl, .inr ⟨h2.2, h3⟩⟩)

/-- The grouped tables: one group per line that has a used table, with the used tables in order. -/
theorem semiFiltered_spec (src : List Char) (err : Option Nat) (visible : Place → Bool) (mode : Mode)
    (tables : List Table) :
    ((semiFiltered src err visible mode tables).map (·.1)).Nodup ∧
    ∀ k es, (k, es) ∈ semiFiltered src err visible mode tables ↔
      es = entriesOf src err visible mode tables k ∧ es ≠ [] := by
  rw [← List.reverse_reverse tables]
  generalize tables.reverse = rt
  induction rt with
  | nil => simp [semiFiltered, entriesOf]
  | cons t rs ih =>
    rw [List.reverse_cons]
    generalize rs.reverse = ts at ih ⊢
    obtain ⟨ih1, ih2⟩ := ih
    have hstep : semiFiltered src err visible mode (ts ++ [t]) =
        addTable src err visible mode (semiFiltered src err visible mode ts) t := by
      simp [semiFiltered, List.foldl_append]
    rw [hstep]
    unfold addTable
    dsimp only
    have hent : ∀ k, entriesOf src err visible mode (ts ++ [t]) k = entriesOf src err visible mode ts k ++
        (if used src err visible mode t && decide (lineOf src t.hi = k) then [toEntry src visible mode t]
          else []) := by
      intro k
      unfold entriesOf
      rw [List.filter_append, List.map_append, List.filter_cons]
      split <;> simp
    split
    · rename_i hu
      have hu' : used src err visible mode t = true := hu
      rw [lineOf_lineEnd]
      generalize hM : semiFiltered src err visible mode ts = M at ih1 ih2
      refine ⟨?_, ?_⟩
      · rcases pushLine_keys M (lineOf src t.hi) ⟨t.segment, lineEnd src t.hi, keptRows visible mode t⟩ with
          ⟨he, _⟩ | ⟨he, hn⟩
        · rw [he]; exact ih1
        · rw [he, List.nodup_append]
          exact ⟨ih1, by simp, by
            intro a ha c hc hac
            rw [List.mem_singleton] at hc
            exact hn (hc ▸ hac ▸ ha)⟩
      · intro k es
        rw [mem_pushLine ih1, hent, hu']
        by_cases hk : k = lineOf src t.hi
        · subst hk
          simp only [decide_true, Bool.and_self, if_true, ne_eq, not_true, false_and, false_or, true_and]
          constructor
          · rintro (⟨es', h1, rfl⟩ | ⟨h1, rfl⟩)
            · rw [ih2] at h1
              exact ⟨by rw [← h1.1]; rfl, by simp⟩
            · have : entriesOf src err visible mode ts (lineOf src t.hi) = [] := by
                apply Classical.byContradiction
                intro hne
                exact h1 (List.mem_map.2 ⟨_, (ih2 _ _).2 ⟨rfl, hne⟩, rfl⟩)
              rw [this]
              exact ⟨rfl, by simp⟩
          · rintro ⟨rfl, _⟩
            by_cases hne : entriesOf src err visible mode ts (lineOf src t.hi) = []
            · right
              rw [hne]
              refine ⟨?_, rfl⟩
              intro hm
              obtain ⟨⟨k', es'⟩, h1, h2⟩ := List.mem_map.1 hm
              dsimp only at h2
              subst h2
              rw [ih2] at h1
              exact h1.2 (h1.1.trans hne)
            · left
              exact ⟨_, (ih2 _ _).2 ⟨rfl, hne⟩, rfl⟩
        · have : (decide (lineOf src t.hi = k)) = false := by simpa using fun h => hk h.symm
          simp only [this, Bool.and_false, Bool.false_eq_true, if_false, List.append_nil, ne_eq, hk,
            not_false_eq_true, true_and, false_and, or_false]
          exact ih2 k es
    · rename_i hu
      have hu' : used src err visible mode t = false := by
        simpa [used] using hu
      refine ⟨ih1, ?_⟩
      intro k es
      rw [hent, hu']
      simp only [Bool.false_and, Bool.false_eq_true, if_false, List.append_nil]
      exact ih2 k es

/-! ## Combining -/

/-- The fate of a single place. -/
def cancel (old : Option DataDiff) (d : DataDiff) : Option DataDiff :=
  match old with
  | none => some d
  | some o => if d.isSymmetric o then none else some o

def lookup (m : List (Place × DataDiff)) (p : Place) : Option DataDiff :=
  (m.find? (fun e => decide (e.1 = p))).map (·.2)

theorem lookup_append (m : List (Place × DataDiff)) (x : Place × DataDiff) (p : Place) :
    lookup (m ++ [x]) p = (lookup m p).or (if x.1 = p then some x.2 else none) := by
  unfold lookup
  rw [List.find?_append]
  cases h : m.find? (fun e => decide (e.1 = p)) with
  | some y => simp
  | none =>
    by_cases hx : x.1 = p
    · simp [hx]
    · simp [hx]

theorem find?_filter_ne (m : List (Place × DataDiff)) (p q : Place) :
    lookup (m.filter (fun e => !decide (e.1 = q))) p = if p = q then none else lookup m p := by
  induction m with
  | nil => simp [lookup]
  | cons a r ih =>
    unfold lookup at ih ⊢
    rw [List.filter_cons]
    by_cases ha : a.1 = q
    · simp only [ha, decide_true, Bool.not_true, Bool.false_eq_true, if_false, ih, List.find?_cons]
      by_cases hpq : p = q
      · simp [hpq]
      · have : (decide (q = p)) = false := by simpa using fun h => hpq h.symm
        simp [hpq, this]
    · simp only [ha, decide_false, Bool.not_false, if_true, List.find?_cons]
      by_cases hap : a.1 = p
      · have : p ≠ q := fun h => ha (hap.trans h)
        simp [hap, this]
      · simp only [hap, decide_false]
        exact ih

theorem combineRow_spec (m : List (Place × DataDiff)) (hk : (m.map (·.1)).Nodup) (q : Place) (d : DataDiff) :
    ((combineRow m q d).map (·.1)).Nodup ∧
    ∀ p, lookup (combineRow m q d) p = if p = q then cancel (lookup m p) d else lookup m p := by
  unfold combineRow
  cases h : m.find? (fun e => decide (e.1 = q)) with
  | none =>
    dsimp only
    refine ⟨?_, ?_⟩
    · rw [List.map_append, List.nodup_append]
      refine ⟨hk, by simp, ?_⟩
      intro a ha c hc hac
      simp only [List.map_cons, List.map_nil, List.mem_singleton] at hc
      obtain ⟨e, he, rfl⟩ := List.mem_map.1 ha
      rw [List.find?_eq_none] at h
      exact h e he (by simp [hac, hc])
    · intro p
      rw [lookup_append]
      by_cases hp : p = q
      · subst hp
        have : lookup m p = none := by simp [lookup, h]
        rw [this]
        simp [cancel]
      · have : ¬ q = p := fun hc => hp hc.symm
        simp [hp, this]
  | some old =>
    dsimp only
    split
    · rename_i hs
      refine ⟨hk.sublist (List.Sublist.map _ List.filter_sublist), ?_⟩
      intro p
      rw [find?_filter_ne]
      by_cases hp : p = q
      · subst hp
        simp [lookup, h, cancel, hs]
      · simp [hp]
    · rename_i hs
      refine ⟨hk, ?_⟩
      intro p
      by_cases hp : p = q
      · subst hp
        simp [lookup, h, cancel, hs]
      · simp [hp]

theorem combineRows_spec (rows m : List (Place × DataDiff)) (hk : (m.map (·.1)).Nodup) :
    ((rows.foldl (fun m r => combineRow m r.1 r.2) m).map (·.1)).Nodup ∧
    ∀ p, lookup (rows.foldl (fun m r => combineRow m r.1 r.2) m) p =
      ((rows.filter (fun r => decide (r.1 = p))).map (·.2)).foldl cancel (lookup m p) := by
  induction rows generalizing m with
  | nil => exact ⟨hk, fun p => rfl⟩
  | cons r rs ih =>
    obtain ⟨h1, h2⟩ := combineRow_spec m hk r.1 r.2
    obtain ⟨h3, h4⟩ := ih _ h1
    refine ⟨h3, ?_⟩
    intro p
    rw [List.foldl_cons, h4, h2, List.filter_cons]
    by_cases hp : p = r.1
    · subst hp; simp
    · have : ¬ r.1 = p := fun h => hp h.symm
      simp [hp, this]

theorem combine_eq (entries : List Entry) :
    combine entries = (entries.flatMap (·.rows)).foldl (fun m r => combineRow m r.1 r.2) [] := by
  unfold combine
  generalize ([] : List (Place × DataDiff)) = m
  induction entries generalizing m with
  | nil => rfl
  | cons e es ih =>
    rw [List.foldl_cons, List.flatMap_cons, List.foldl_append]
    exact ih _

theorem combine_spec (entries : List Entry) : ((combine entries).map (·.1)).Nodup ∧
    ∀ p, lookup (combine entries) p =
      (((entries.flatMap (·.rows)).filter (fun r => decide (r.1 = p))).map (·.2)).foldl cancel none := by
  rw [combine_eq]
  exact combineRows_spec _ [] (by simp)

theorem mem_iff_lookup {m : List (Place × DataDiff)} (hk : (m.map (·.1)).Nodup) (p : Place) (d : DataDiff) :
    (p, d) ∈ m ↔ lookup m p = some d := by
  induction m with
  | nil => simp [lookup]
  | cons a r ih =>
    obtain ⟨q, x⟩ := a
    simp only [List.map_cons, List.nodup_cons] at hk
    unfold lookup at ih ⊢
    rw [List.find?_cons]
    by_cases hq : q = p
    · subst hq
      simp only [List.mem_cons, Prod.mk.injEq, true_and, decide_true, Option.map_some, Option.some.injEq]
      constructor
      · rintro (h | h)
        · exact h.symm
        · exact absurd (List.mem_map.2 ⟨_, h, rfl⟩) hk.1
      · exact fun h => .inl h.symm
    · simp only [List.mem_cons, Prod.mk.injEq, hq, decide_false]
      rw [← ih hk.2]
      constructor
      · rintro (⟨h, _⟩ | h)
        · exact absurd h.symm hq
        · exact h
      · exact .inr

theorem insertRow_perm (x : Place × DataDiff) (l : List (Place × DataDiff)) : (insertRow x l).Perm (x :: l) := by
  induction l with
  | nil => exact .refl _
  | cons y r ih =>
    simp only [insertRow]
    split
    · exact .refl _
    · exact (ih.cons y).trans (.swap x y r)

theorem sortRows_perm (l : List (Place × DataDiff)) : (sortRows l).Perm l := by
  induction l with
  | nil => exact .refl _
  | cons x r ih => exact (insertRow_perm x _).trans (ih.cons x)

theorem rowLe_iff (a b : Place × DataDiff) : rowLe a b = true ↔ RowOrder a b := by
  simp [rowLe, RowOrder]

theorem insertRow_sorted (x : Place × DataDiff) {l : List (Place × DataDiff)} (h : l.Pairwise RowOrder) :
    (insertRow x l).Pairwise RowOrder := by
  induction l with
  | nil => simp [insertRow]
  | cons y r ih =>
    simp only [insertRow]
    rw [List.pairwise_cons] at h
    split
    · rename_i hxy
      rw [rowLe_iff] at hxy
      rw [List.pairwise_cons]
      refine ⟨?_, List.pairwise_cons.2 h⟩
      intro a ha
      rcases List.mem_cons.1 ha with rfl | ha
      · exact hxy
      · have := h.1 a ha
        unfold RowOrder at *
        omega
    · rename_i hxy
      rw [rowLe_iff] at hxy
      rw [List.pairwise_cons]
      refine ⟨?_, ih h.2⟩
      intro a ha
      rcases List.mem_cons.1 ((insertRow_perm x r).mem_iff.1 ha) with rfl | ha
      · unfold RowOrder at *; omega
      · exact h.1 a ha

theorem sortRows_sorted (l : List (Place × DataDiff)) : (sortRows l).Pairwise RowOrder := by
  induction l with
  | nil => simp [sortRows]
  | cons x r ih => exact insertRow_sorted x ih

/-! ## C42 -/

theorem display_spec {es : List Entry} {d : Display} (h : display es = some d) :
    (∃ e, es.head? = some e ∧ d.pos = e.pos) ∧ combine es ≠ [] ∧ d.state = sortRows (combine es) := by
  unfold display at h
  cases hh : es.head? with
  | none =>
    rw [List.head?_eq_none_iff] at hh
    subst hh
    simp [combine] at h
  | some e =>
    rw [hh] at h
    dsimp only at h
    split at h
    · exact absurd h (by simp)
    · rename_i hne
      simp only [Option.some.injEq] at h
      subst h
      exact ⟨⟨e, rfl, rfl⟩, by simpa using hne, rfl⟩

theorem display_some {es : List Entry} (h : combine es ≠ []) : ∃ d, display es = some d := by
  unfold display
  dsimp only
  rw [if_neg (by simpa using h)]
  exact ⟨_, rfl⟩

theorem display_pos {src : List Char} {err : Option Nat} {visible : Place → Bool} {mode : Mode}
    {tables : List Table} {k : Nat} {d : Display}
    (h : display (entriesOf src err visible mode tables k) = some d) :
    lineOf src d.pos = k ∧ AtLineEnd src d.pos := by
  obtain ⟨⟨e, he, hp⟩, _, _⟩ := display_spec h
  have hm : e ∈ entriesOf src err visible mode tables k := List.mem_of_mem_head? he
  unfold entriesOf at hm
  obtain ⟨t, ht, rfl⟩ := List.mem_map.1 hm
  rw [List.mem_filter, Bool.and_eq_true, decide_eq_true_eq] at ht
  rw [hp]
  dsimp only [toEntry]
  rw [lineOf_lineEnd]
  exact ⟨ht.2.2, lineEnd_atLineEnd src _⟩

theorem mem_prettify {src : List Char} {err : Option Nat} {visible : Place → Bool} {mode : Mode}
    {tables : List Table} {d : Display} : d ∈ prettify src err visible mode tables ↔
      ∃ k, display (entriesOf src err visible mode tables k) = some d := by
  unfold prettify
  rw [List.mem_filterMap]
  constructor
  · rintro ⟨⟨k, es⟩, h1, h2⟩
    rw [(semiFiltered_spec src err visible mode tables).2] at h1
    exact ⟨k, by rw [← h1.1]; exact h2⟩
  · rintro ⟨k, h⟩
    refine ⟨(k, _), ((semiFiltered_spec src err visible mode tables).2 _ _).2 ⟨rfl, ?_⟩, h⟩
    intro hc
    rw [hc] at h
    simp [display, combine] at h

/-- At most one display per source line, each placed at the end of its line. -/
theorem C42_one_per_line (src : List Char) (err : Option Nat) (visible : Place → Bool) (mode : Mode)
    (tables : List Table) :
    (prettify src err visible mode tables).Pairwise (fun a b => ¬ SameLine src a.pos b.pos) ∧
    ∀ d ∈ prettify src err visible mode tables, AtLineEnd src d.pos := by
  constructor
  · obtain ⟨hk, hm⟩ := semiFiltered_spec src err visible mode tables
    unfold prettify
    rw [List.pairwise_filterMap]
    rw [List.Nodup, List.pairwise_map] at hk
    refine List.Pairwise.imp_of_mem ?_ hk
    rintro ⟨k, es⟩ ⟨k', es'⟩ h1 h2 hne d hd d' hd'
    rw [hm] at h1 h2
    rw [h1.1] at hd
    rw [h2.1] at hd'
    rw [← lineOf_eq_iff, (display_pos hd).1, (display_pos hd').1]
    exact hne
  · intro d hd
    obtain ⟨k, hk⟩ := mem_prettify.1 hd
    exact (display_pos hk).2

theorem keptRows_iff (visible : Place → Bool) (mode : Mode) (t : Table) (r : Place × DataDiff) :
    r ∈ keptRows visible mode t ↔ r ∈ t.data ∧ Showable visible mode r := by
  have he : ∀ s : Step Bool, s.isEmpty = true ↔ Unchanged s := by
    intro s; cases s <;> simp [Step.isEmpty, Unchanged]
  unfold keptRows Showable shouldKeep DataDiff.isEmpty PermsDiff.isEmpty
  rw [List.mem_filter, Bool.and_eq_true, Bool.not_eq_true', Bool.or_eq_false_iff, decide_eq_false_iff_not,
    ← Bool.not_eq_true, Bool.and_eq_true, decide_eq_true_eq, Bool.and_eq_true, Bool.and_eq_true, he, he, he]
  cases mode <;> simp [and_assoc]

theorem cancel_mem (l : List DataDiff) (o : Option DataDiff) (d : DataDiff) (h : l.foldl cancel o = some d) :
    d ∈ l ∨ o = some d := by
  induction l generalizing o with
  | nil => exact .inr h
  | cons a r ih =>
    rw [List.foldl_cons] at h
    rcases ih _ h with h | h
    · exact .inl (by simp [h])
    · cases o with
      | none =>
        simp only [cancel, Option.some.injEq] at h
        exact .inl (by simp [h])
      | some x =>
        simp only [cancel] at h
        split at h
        · exact absurd h (by simp)
        · exact .inr h

theorem state_mem {es : List Entry} {d : Display} (h : display es = some d) (p : Place) (x : DataDiff) :
    (p, x) ∈ d.state ↔
      (((es.flatMap (·.rows)).filter (fun r => decide (r.1 = p))).map (·.2)).foldl cancel none = some x := by
  obtain ⟨_, _, hs⟩ := display_spec h
  rw [hs, (sortRows_perm _).mem_iff, mem_iff_lookup (combine_spec es).1, (combine_spec es).2]

/-- The rows of a display: not empty, in order, each path once, each from a table on this line and fit to be
shown. -/
theorem C42_rows {src : List Char} {err : Option Nat} {visible : Place → Bool} {mode : Mode}
    {tables : List Table} {d : Display} (hd : d ∈ prettify src err visible mode tables) :
    d.state ≠ [] ∧ d.state.Pairwise RowOrder ∧ (d.state.map (·.1)).Nodup ∧
    ∀ r ∈ d.state, Showable visible mode r ∧ ∃ t ∈ tables, r ∈ t.data ∧ SameLine src t.hi d.pos := by
  obtain ⟨k, hk⟩ := mem_prettify.1 hd
  obtain ⟨_, hne, hs⟩ := display_spec hk
  refine ⟨?_, ?_, ?_, ?_⟩
  · intro hc
    rw [hs] at hc
    have := (sortRows_perm (combine (entriesOf src err visible mode tables k))).symm
    rw [hc] at this
    exact hne (List.perm_nil.1 this)
  · rw [hs]; exact sortRows_sorted _
  · rw [hs]
    exact ((sortRows_perm _).map _).nodup_iff.2 (combine_spec _).1
  · rintro ⟨p, x⟩ hr
    rw [state_mem hk] at hr
    rcases cancel_mem _ _ _ hr with h | h
    · obtain ⟨⟨p', x'⟩, h1, h2⟩ := List.mem_map.1 h
      dsimp only at h2
      subst h2
      rw [List.mem_filter, decide_eq_true_eq] at h1
      obtain ⟨h1, h2⟩ := h1
      dsimp only at h2
      subst h2
      obtain ⟨e, he, hre⟩ := List.mem_flatMap.1 h1
      unfold entriesOf at he
      obtain ⟨t, ht, rfl⟩ := List.mem_map.1 he
      rw [List.mem_filter, Bool.and_eq_true, decide_eq_true_eq] at ht
      obtain ⟨h3, h4⟩ := (keptRows_iff visible mode t _).1 hre
      refine ⟨h4, t, ht.1, h3, ?_⟩
      rw [← lineOf_eq_iff, ht.2.2, (display_pos hk).1]
    · exact absurd h (by simp)

/-! ## C43 -/

open Classical in
theorem filter_flatMap_rows (src : List Char) (err : Option Nat) (visible : Place → Bool) (mode : Mode)
    (tables : List Table) (k : Nat) (p : Place) :
    (((entriesOf src err visible mode tables k).flatMap (·.rows)).filter (fun r => decide (r.1 = p))).map (·.2) =
      stepsOn src err visible mode tables k p := by
  have hrows : ∀ data : List (Place × DataDiff),
      ((data.filter (fun e => visible e.1 && shouldKeep mode e.2)).filter (fun r => decide (r.1 = p))).map (·.2) =
        data.filterMap fun (r : Place × DataDiff) => if r.1 = p ∧ Showable visible mode r then some r.2 else none := by
    intro data
    induction data with
    | nil => rfl
    | cons r rs ih =>
      have hk := keptRows_iff visible mode ⟨0, 0, [r]⟩ r
      unfold keptRows at hk
      simp only [List.mem_filter, List.mem_singleton, true_and] at hk
      rw [List.filterMap_cons, List.filter_cons]
      by_cases hs : Showable visible mode r
      · rw [if_pos (hk.2 hs), List.filter_cons]
        by_cases hp : r.1 = p
        · simp only [hp, decide_true, if_true, List.map_cons, hs, and_self, ih]
        · simp only [hp, decide_false, Bool.false_eq_true, if_false, false_and, ih]
      · rw [if_neg (fun h => hs (hk.1 h))]
        simp only [hs, and_false, if_false, ih]
  unfold entriesOf stepsOn
  induction tables with
  | nil => rfl
  | cons t ts ih =>
    rw [List.flatMap_cons, ← ih, List.filter_cons]
    by_cases hl : lineOf src t.hi = k
    · by_cases he : ∃ e, err = some e ∧ e < lineEnd src t.hi
      · have hu : used src err visible mode t = false := by
          obtain ⟨e, rfl, he⟩ := he
          simp [used, he]
        simp only [hu, Bool.false_and, Bool.false_eq_true, if_false, he, not_true, and_false, List.nil_append]
      · have her : err.any (fun e => decide (e < lineEnd src t.hi)) = false := by
          cases err with
          | none => rfl
          | some e =>
            simp only [Option.any_some, decide_eq_false_iff_not]
            exact fun h => he ⟨e, rfl, h⟩
        simp only [hl, he, not_false_eq_true, and_self, if_true, decide_true, Bool.and_true]
        rw [← hrows]
        by_cases hu : used src err visible mode t = true
        · rw [if_pos hu, List.map_cons, List.flatMap_cons, List.filter_append, List.map_append]
          rfl
        · rw [if_neg hu]
          have : keptRows visible mode t = [] := by
            simpa [used, her] using hu
          unfold keptRows at this
          rw [this]
          rfl
    · simp only [hl, decide_false, Bool.and_false, Bool.false_eq_true, if_false, false_and, List.nil_append]

/-- The outcome for a place on a line is a function of the steps of that place on that line alone. -/
theorem C43_outcome (src : List Char) (err : Option Nat) (visible : Place → Bool) (mode : Mode)
    (tables : List Table) (line : Nat) (p : Place) (x : DataDiff) :
    Shown src (prettify src err visible mode tables) line p x ↔
      (stepsOn src err visible mode tables line p).foldl cancel none = some x := by
  rw [← filter_flatMap_rows]
  constructor
  · rintro ⟨d, hd, hl, hm⟩
    obtain ⟨k, hk⟩ := mem_prettify.1 hd
    have := (display_pos hk).1
    rw [hl] at this
    subst this
    rwa [state_mem hk] at hm
  · intro h
    have hne : combine (entriesOf src err visible mode tables line) ≠ [] := by
      intro hc
      have h2 := (combine_spec (entriesOf src err visible mode tables line)).2 p
      rw [h, hc] at h2
      simp [lookup] at h2
    obtain ⟨d, hd⟩ := display_some hne
    exact ⟨d, mem_prettify.2 ⟨line, hd⟩, (display_pos hd).1, (state_mem hd p x).2 h⟩

/-- With at most two steps on the line: a single one is shown; two that undo each other are not shown;
otherwise the first is shown. -/
theorem C43_two_steps {src : List Char} {err : Option Nat} {visible : Place → Bool} {mode : Mode}
    {tables : List Table} {line : Nat} {p : Place} :
    (stepsOn src err visible mode tables line p = [] →
      ∀ x, ¬ Shown src (prettify src err visible mode tables) line p x) ∧
    (∀ a, stepsOn src err visible mode tables line p = [a] →
      ∀ x, Shown src (prettify src err visible mode tables) line p x ↔ x = a) ∧
    (∀ a b, stepsOn src err visible mode tables line p = [a, b] →
      ∀ x, Shown src (prettify src err visible mode tables) line p x ↔ ¬ Undo a b ∧ x = a) := by
  simp only [C43_outcome]
  refine ⟨?_, ?_, ?_⟩
  · intro h x; rw [h]; simp
  · intro a h x; rw [h]; simp [cancel, eq_comm]
  · intro a b h x
    rw [h]
    simp only [List.foldl_cons, List.foldl_nil, cancel]
    rw [← isSymmetric_iff, ← C41_commutes b a]
    by_cases hs : b.isSymmetric a = true
    · simp [hs]
    · simp only [hs, Bool.false_eq_true, if_false, Option.some.injEq, not_false_eq_true, true_and]
      exact eq_comm

/-- In general, if the steps of a place on a line alternate between two that undo each other, an even number
cancels and an odd number shows the first. -/
theorem C43_alternating {src : List Char} {err : Option Nat} {visible : Place → Bool} {mode : Mode}
    {tables : List Table} {line : Nat} {p : Place} {a b : DataDiff} {n : Nat} (hu : Undo a b)
    (h : stepsOn src err visible mode tables line p = (List.replicate n [a, b]).flatten) :
    ∀ x, ¬ Shown src (prettify src err visible mode tables) line p x := by
  intro x
  rw [C43_outcome, h]
  have : (List.replicate n [a, b]).flatten.foldl cancel none = none := by
    clear h
    induction n with
    | zero => rfl
    | succ n ih =>
      rw [List.replicate_succ, List.flatten_cons, List.foldl_append]
      rw [← isSymmetric_iff, C41_commutes] at hu
      simp only [List.foldl_cons, List.foldl_nil, cancel, hu, if_true]
      exact ih
  rw [this]; simp

def plainStep (r w : Step Bool) : DataDiff :=
  { isLive := .none (some true), typeDroppable := .none (some true), typeWriteable := .none (some true),
    pathMoved := .none none, pathUninitialized := .none (some false), loanReadRefined := .none none,
    loanWriteRefined := .none none, loanDropRefined := .none none,
    permissions := ⟨r, w, .none (some false)⟩ }

def upR : DataDiff := plainStep (.high true) (.none (some false))
def downR : DataDiff := plainStep .low (.none (some false))
def upW : DataDiff := plainStep (.none (some true)) (.high true)
def same : DataDiff := plainStep (.none (some true)) (.none (some false))
def px : Place := ⟨1, []⟩

/-- Two tables on the first line of a two-line file; two places. -/
example : (prettify "ab\ncd".toList none (fun _ => true) .changes
    [⟨0, 0, [(⟨2, [.deref]⟩, upR), (px, upR)]⟩, ⟨1, 1, [(px, downR), (⟨2, []⟩, downR)]⟩, ⟨4, 2, [(px, upW)]⟩]) =
    [⟨2, 0, [(⟨2, []⟩, downR), (⟨2, [.deref]⟩, upR)]⟩, ⟨5, 2, [(px, upW)]⟩] := by decide +kernel

/-- Two steps that are not symmetric: the one met first in hash order is shown, so the display depends on
the order of a hash map. -/
theorem C43_order_dependent : ∃ (t u : Table),
    prettify [] none (fun _ => true) .changes [t, u] ≠ prettify [] none (fun _ => true) .changes [u, t] ∧
    ((prettify [] none (fun _ => true) .changes [t, u]).map (·.state) ≠
      (prettify [] none (fun _ => true) .changes [u, t]).map (·.state)) :=
  ⟨⟨0, 0, [(px, upR)]⟩, ⟨0, 0, [(px, upW)]⟩, by decide +kernel, by decide +kernel⟩

/-- The shown step is not the total change on the line: gaining R and then W is shown as gaining R. -/
theorem C43_not_total : (prettify [] none (fun _ => true) .changes [⟨0, 0, [(px, upR)]⟩, ⟨0, 1, [(px, upW)]⟩]).map
    (·.state) = [[(px, upR)]] := by decide +kernel

/-- In the mode that shows all paths, a path that does not change in two steps of a line vanishes from it:
"no change" twice counts as symmetric. -/
theorem C43_unchanged_vanishes : prettify [] none (fun _ => true) .all
    [⟨0, 0, [(px, same)]⟩, ⟨0, 1, [(px, same)]⟩] = [] := by decide +kernel

/-! ## C30, step rows -/

/-- With an error ending at `e`, the result is that of the tables whose line ends at or before `e`. -/
theorem C30_rows_filter (src : List Char) (e : Nat) (visible : Place → Bool) (mode : Mode)
    (tables : List Table) : prettify src (some e) visible mode tables =
      prettify src none visible mode (tables.filter (fun t => decide (lineEnd src t.hi ≤ e))) := by
  unfold prettify semiFiltered
  congr 1
  generalize ([] : List (Nat × List Entry)) = m
  induction tables generalizing m with
  | nil => rfl
  | cons t ts ih =>
    rw [List.foldl_cons, List.filter_cons]
    by_cases h : lineEnd src t.hi ≤ e
    · have h' : ¬ e < lineEnd src t.hi := by omega
      simp only [h, decide_true, if_true, List.foldl_cons]
      rw [← ih]
      congr 1
      simp [addTable, h']
    · have h' : e < lineEnd src t.hi := by omega
      simp only [h, decide_false, Bool.false_eq_true, if_false]
      rw [← ih]
      congr 1
      simp [addTable, h']

/-- Steps that begin after the error are never shown. -/
theorem C30_rows_after {src : List Char} {e : Nat} {visible : Place → Bool} {mode : Mode}
    {tables : List Table} {d : Display} (hd : d ∈ prettify src (some e) visible mode tables) :
    ∀ r ∈ d.state, ∃ t ∈ tables, r ∈ t.data ∧ SameLine src t.hi d.pos ∧ t.hi ≤ e := by
  intro r hr
  rw [C30_rows_filter] at hd
  obtain ⟨_, t, ht, h1, h2⟩ := (C42_rows hd).2.2.2 r hr
  rw [List.mem_filter, decide_eq_true_eq] at ht
  refine ⟨t, ht.1, h1, h2, ?_⟩
  have := ht.2
  unfold lineEnd at this
  omega

/-- What is shown on a line that ends at or before the end of the error is not affected by the error. -/
theorem C30_rows_before_partial {src : List Char} {e : Nat} {visible : Place → Bool} {mode : Mode}
    {tables : List Table} {line : Nat} (hline : ∀ t ∈ tables, lineOf src t.hi = line → lineEnd src t.hi ≤ e)
    (p : Place) (x : DataDiff) :
    Shown src (prettify src (some e) visible mode tables) line p x ↔
      Shown src (prettify src none visible mode tables) line p x := by
  rw [C43_outcome, C43_outcome]
  have : stepsOn src (some e) visible mode tables line p = stepsOn src none visible mode tables line p := by
    unfold stepsOn
    induction tables with
    | nil => rfl
    | cons t ts ih =>
      rw [List.flatMap_cons, List.flatMap_cons, ih (fun t ht => hline t (by simp [ht]))]
      congr 1
      by_cases hl : lineOf src t.hi = line
      · have := hline t (by simp) hl
        have h1 : ¬ ∃ e', some e = some e' ∧ e' < lineEnd src t.hi := by
          rintro ⟨e', he, h⟩
          simp only [Option.some.injEq] at he
          omega
        have h2 : ¬ ∃ e', none = some e' ∧ e' < lineEnd src t.hi := by simp
        simp only [h1, h2]
      · simp only [hl, false_and]
  rw [this]

/-- The comparison is made with the end of the line, so steps on the line of the error are lost, even those
that end before the error begins: step at 0..1, error at 2..3, line ends at 4. -/
theorem C30_rows_same_line_lost :
    prettify "a(b);".toList (some 3) (fun _ => true) .changes [⟨1, 0, [(px, upR)]⟩] = [] ∧
    prettify "a(b);".toList none (fun _ => true) .changes [⟨1, 0, [(px, upR)]⟩] ≠ [] := by decide +kernel

end Verif.Steps
