import Verif.Wire.JsonProps
/-!
# A text that was cut off is not read

What the reader makes of a text does not change when further text follows, unless the text ends within a number; so a strict
prefix of the text of a value that is not a number is refused.
-/
namespace Verif.Wire
open Verif.Preproc (Json)

theorem readStr_more : (s q x r : List Char) → readStr s = some (x, r) → readStr (s ++ q) = some (x, r ++ q) := by
  intro s q
  fun_induction readStr s with
  | case1 => intro x r h; simp at h
  | case2 r' =>
    intro x r h
    simp only [Option.some.injEq, Prod.mk.injEq] at h
    obtain ⟨rfl, rfl⟩ := h
    simp [readStr]
  | case3 a b c d r' y s' r'' h1 h2 ih =>
    intro x r h
    simp only [Option.some.injEq, Prod.mk.injEq] at h
    obtain ⟨rfl, rfl⟩ := h
    simp only [List.cons_append, readStr, h2, ih _ _ h1]
  | case4 => intro x r h; simp at h
  | case5 c r' h0 y s' r'' h1 h2 ih =>
    intro x r h
    simp only [Option.some.injEq, Prod.mk.injEq] at h
    obtain ⟨rfl, rfl⟩ := h
    have hu : c ≠ 'u' := by rintro rfl; rw [show simpleEscape 'u' = none from by decide] at h2; cases h2
    simp only [List.cons_append]
    rw [readStr.eq_4]
    · simp only [h2, ih _ _ h1]
    · intro a b c' d r h; exact absurd h hu
  | case6 => intro x r h; simp at h
  | case7 => intro x r h; simp at h
  | case8 c r' hq h0 h0' hc s' r'' h1 ih =>
    intro x r h
    simp only [Option.some.injEq, Prod.mk.injEq] at h
    obtain ⟨rfl, rfl⟩ := h
    rw [List.cons_append, readStr_plain hq (fun h => hc (.inr h)) (fun h => hc (.inl h)), ih _ _ h1]
    rfl
  | case9 => intro x r h; simp at h

theorem ws_more {s q : List Char} (h : ws s ≠ []) : ws (s ++ q) = ws s ++ q := by
  induction s with
  | nil => exact absurd rfl h
  | cons c s ih =>
    unfold ws at h ih ⊢
    by_cases hc : isWs c = true
    · simp only [List.cons_append, List.dropWhile_cons, hc, if_true] at h ⊢
      exact ih h
    · simp [hc]

/-- The value is not a number. -/
def notNum : Json → Prop
  | .num _ => False
  | _ => True

theorem readNum_some {s r : List Char} {j : Json} (h : readNum s = some (j, r)) :
    ∃ t c t', s = t ++ r ∧ j = .num t ∧ isNumber t = true ∧ Ends r ∧ t = c :: t' ∧ (c.isDigit = true ∨ c = '-') := by
  unfold readNum at h
  split at h
  · rename_i hn
    simp only [Option.some.injEq, Prod.mk.injEq] at h
    obtain ⟨rfl, rfl⟩ := h
    obtain ⟨-, c, t', h1, h2⟩ := number_num hn
    refine ⟨_, c, t', (List.takeWhile_append_dropWhile).symm, rfl, hn, ?_, h1, h2⟩
    intro c r hr
    have := List.head?_dropWhile_not (p := numChar) (l := s)
    rw [hr] at this
    simpa using this
  · cases h

theorem ends_more {r q : List Char} (h : Ends r) (hne : r ≠ []) : Ends (r ++ q) := by
  cases r with
  | nil => exact absurd rfl hne
  | cons c r => exact ends_cons (h c r rfl)

theorem digit_not_ws {c : Char} (h : c.isDigit = true ∨ c = '-') : isWs c = false := by
  rcases h with h | rfl
  · by_cases hw : isWs c = true
    · simp only [isWs, Bool.or_eq_true, beq_iff_eq] at hw
      rcases hw with ((rfl | rfl) | rfl) | rfl <;> exact absurd h (by decide)
    · simpa using hw
  · decide

theorem readValue_num {c : Char} {s : List Char} (n : Nat) (h : c.isDigit = true ∨ c = '-') : readValue (n + 1) (c :: s) = readNum (c :: s) := by
  have hw := digit_not_ws h
  rw [readValue, ws_cons hw]
  have hne : c ≠ 'n' ∧ c ≠ 't' ∧ c ≠ 'f' ∧ c ≠ '"' ∧ c ≠ '[' ∧ c ≠ '{' := by
    refine ⟨?_, ?_, ?_, ?_, ?_, ?_⟩ <;> rintro rfl <;> revert h <;> decide
  obtain ⟨e1, e2, e3, e4, e5, e6⟩ := hne
  split
  · rename_i heq; injection heq with h _; exact absurd h e1
  · rename_i heq; injection heq with h _; exact absurd h e2
  · rename_i heq; injection heq with h _; exact absurd h e3
  · rename_i heq; injection heq with h _; exact absurd h e4
  · rename_i heq; injection heq with h _; exact absurd h e5
  · rename_i heq; injection heq with h _; exact absurd h e6
  · rfl

theorem readItems_nil (n : Nat) : readItems n [] = none := by cases n <;> simp [readItems, ws]
theorem readFields_nil (n : Nat) : readFields n [] = none := by cases n <;> simp [readFields, ws]

theorem readValue_nil (n : Nat) : readValue n [] = none := by cases n <;> simp [readValue, ws, readNum, isNumber, isUnsigned]
theorem readField_nil (n : Nat) : readField n [] = none := by cases n <;> simp [readField, ws]

theorem read_more (q : List Char) (n : Nat) :
    (∀ m s j r, n ≤ m → readValue n s = some (j, r) → (r ≠ [] ∨ notNum j) → readValue m (s ++ q) = some (j, r ++ q)) ∧
    (∀ m s x r, n ≤ m → readItems n s = some (x, r) → readItems m (s ++ q) = some (x, r ++ q)) ∧
    (∀ m s x r, n ≤ m → readFields n s = some (x, r) → readFields m (s ++ q) = some (x, r ++ q)) ∧
    (∀ m s f r, n ≤ m → readField n s = some (f, r) → (r ≠ [] ∨ notNum f.2) → readField m (s ++ q) = some (f, r ++ q)) := by
  induction n with
  | zero => refine ⟨?_, ?_, ?_, ?_⟩ <;> intros <;> simp_all [readValue, readItems, readFields, readField]
  | succ n ih =>
    obtain ⟨ih1, ih2, ih3, ih4⟩ := ih
    refine ⟨?_, ?_, ?_, ?_⟩
    · intro m s j r hm h hr
      obtain ⟨m, rfl⟩ : ∃ m', m = m' + 1 := ⟨m - 1, by omega⟩
      have hm' : n ≤ m := by omega
      rw [readValue] at h ⊢
      split at h
      · rename_i r' hw
        simp only [Option.some.injEq, Prod.mk.injEq] at h
        obtain ⟨rfl, rfl⟩ := h
        rw [ws_more (by simp [hw]), hw]
        rfl
      · rename_i r' hw
        simp only [Option.some.injEq, Prod.mk.injEq] at h
        obtain ⟨rfl, rfl⟩ := h
        rw [ws_more (by simp [hw]), hw]
        rfl
      · rename_i r' hw
        simp only [Option.some.injEq, Prod.mk.injEq] at h
        obtain ⟨rfl, rfl⟩ := h
        rw [ws_more (by simp [hw]), hw]
        rfl
      · rename_i r' hw
        rw [ws_more (by simp [hw]), hw]
        simp only [Option.map_eq_some_iff] at h
        obtain ⟨⟨x, r1⟩, h1, h2⟩ := h
        simp only [Prod.mk.injEq] at h2
        obtain ⟨rfl, rfl⟩ := h2
        simp only [List.cons_append, readStr_more _ q _ _ h1, Option.map_some]
      · rename_i r' hw
        rw [ws_more (by simp [hw]), hw]
        simp only [List.cons_append]
        split at h
        · rename_i r1 hw1
          simp only [Option.some.injEq, Prod.mk.injEq] at h
          obtain ⟨rfl, rfl⟩ := h
          rw [ws_more (by simp [hw1]), hw1]
          rfl
        · rename_i hno
          split at h
          · cases h
          · rename_i y r1 h1
            have hne0 : ws r' ≠ [] := by intro h0; rw [h0, readValue_nil] at h1; cases h1
            simp only [Option.map_eq_some_iff] at h
            obtain ⟨⟨ys, r2⟩, h2, h3⟩ := h
            simp only [Prod.mk.injEq] at h3
            obtain ⟨rfl, rfl⟩ := h3
            have hne : r1 ≠ [] := by rintro rfl; rw [readItems_nil] at h2; cases h2
            rw [ws_more hne0]
            split
            · rename_i r3 heq
              cases hcs : ws r' with
              | nil => exact absurd hcs hne0
              | cons c cs =>
                rw [hcs, List.cons_append] at heq
                injection heq with e1 e2
                exact absurd (hcs.trans (by rw [e1])) (hno cs)
            · simp only [ih1 m _ _ _ hm' h1 (.inl hne), ih2 m _ _ _ hm' h2, Option.map_some]
      · rename_i r' hw
        rw [ws_more (by simp [hw]), hw]
        simp only [List.cons_append]
        split at h
        · rename_i r1 hw1
          simp only [Option.some.injEq, Prod.mk.injEq] at h
          obtain ⟨rfl, rfl⟩ := h
          rw [ws_more (by simp [hw1]), hw1]
          rfl
        · rename_i hno
          split at h
          · cases h
          · rename_i y r1 h1
            have hne0 : ws r' ≠ [] := by intro h0; rw [h0, readField_nil] at h1; cases h1
            simp only [Option.map_eq_some_iff] at h
            obtain ⟨⟨ys, r2⟩, h2, h3⟩ := h
            simp only [Prod.mk.injEq] at h3
            obtain ⟨rfl, rfl⟩ := h3
            have hne : r1 ≠ [] := by rintro rfl; rw [readFields_nil] at h2; cases h2
            rw [ws_more hne0]
            split
            · rename_i r3 heq
              cases hcs : ws r' with
              | nil => exact absurd hcs hne0
              | cons c cs =>
                rw [hcs, List.cons_append] at heq
                injection heq with e1 e2
                exact absurd (hcs.trans (by rw [e1])) (hno cs)
            · simp only [ih4 m _ _ _ hm' h1 (.inl hne), ih3 m _ _ _ hm' h2, Option.map_some]
      · obtain ⟨t, c, t', h1, rfl, h3, h4, rfl, h6⟩ := readNum_some h
        have hne : r ≠ [] := by
          rcases hr with hr | hr
          · exact hr
          · exact hr.elim
        have hv := readValue_num (s := t' ++ r ++ q) m h6
        rw [readValue, ws_cons (digit_not_ws h6)] at hv
        simp only [← List.cons_append] at hv
        rw [ws_more (by rw [h1]; simp), h1, hv, List.append_assoc]
        exact readNum_append h3 (ends_more h4 hne)
    · intro m s x r hm h
      obtain ⟨m, rfl⟩ : ∃ m', m = m' + 1 := ⟨m - 1, by omega⟩
      have hm' : n ≤ m := by omega
      rw [readItems] at h ⊢
      split at h
      · rename_i r' hw
        simp only [Option.some.injEq, Prod.mk.injEq] at h
        obtain ⟨rfl, rfl⟩ := h
        rw [ws_more (by simp [hw]), hw]
        rfl
      · rename_i r' hw
        rw [ws_more (by simp [hw]), hw]
        split at h
        · cases h
        · rename_i y r1 h1
          simp only [Option.map_eq_some_iff] at h
          obtain ⟨⟨ys, r2⟩, h2, h3⟩ := h
          simp only [Prod.mk.injEq] at h3
          obtain ⟨rfl, rfl⟩ := h3
          have hne : r1 ≠ [] := by rintro rfl; rw [readItems_nil] at h2; cases h2
          simp only [List.cons_append, ih1 m _ _ _ hm' h1 (.inl hne), ih2 m _ _ _ hm' h2, Option.map_some]
      · cases h
    · intro m s x r hm h
      obtain ⟨m, rfl⟩ : ∃ m', m = m' + 1 := ⟨m - 1, by omega⟩
      have hm' : n ≤ m := by omega
      rw [readFields] at h ⊢
      split at h
      · rename_i r' hw
        simp only [Option.some.injEq, Prod.mk.injEq] at h
        obtain ⟨rfl, rfl⟩ := h
        rw [ws_more (by simp [hw]), hw]
        rfl
      · rename_i r' hw
        rw [ws_more (by simp [hw]), hw]
        split at h
        · cases h
        · rename_i y r1 h1
          simp only [Option.map_eq_some_iff] at h
          obtain ⟨⟨ys, r2⟩, h2, h3⟩ := h
          simp only [Prod.mk.injEq] at h3
          obtain ⟨rfl, rfl⟩ := h3
          have hne : r1 ≠ [] := by rintro rfl; rw [readFields_nil] at h2; cases h2
          simp only [List.cons_append, ih4 m _ _ _ hm' h1 (.inl hne), ih3 m _ _ _ hm' h2, Option.map_some]
      · cases h
    · intro m s f r hm h hr
      obtain ⟨m, rfl⟩ : ∃ m', m = m' + 1 := ⟨m - 1, by omega⟩
      have hm' : n ≤ m := by omega
      rw [readField] at h ⊢
      split at h
      · rename_i r' hw
        rw [ws_more (by simp [hw]), hw]
        split at h
        · cases h
        · rename_i k r1 h1
          split at h
          · rename_i r2 hw2
            simp only [Option.map_eq_some_iff] at h
            obtain ⟨⟨v, r3⟩, h2, h3⟩ := h
            simp only [Prod.mk.injEq] at h3
            obtain ⟨rfl, rfl⟩ := h3
            simp only [List.cons_append, readStr_more _ q _ _ h1]
            rw [ws_more (by simp [hw2]), hw2]
            simp only [List.cons_append, ih1 m _ _ _ hm' h2 hr, Option.map_some]
          · cases h
      · cases h

theorem readValue_isNum {n : Nat} {s t r : List Char} (h : readValue n s = some (.num t, r)) :
    ∃ c r', ws s = c :: r' ∧ (c.isDigit = true ∨ c = '-') := by
  cases n with
  | zero => simp [readValue] at h
  | succ n =>
    rw [readValue] at h
    split at h
    · simp at h
    · simp at h
    · simp at h
    · simp only [Option.map_eq_some_iff] at h; obtain ⟨_, _, h⟩ := h; simp at h
    · split at h
      · simp at h
      · split at h
        · cases h
        · simp only [Option.map_eq_some_iff] at h; obtain ⟨_, _, h⟩ := h; simp at h
    · split at h
      · simp at h
      · split at h
        · cases h
        · simp only [Option.map_eq_some_iff] at h; obtain ⟨_, _, h⟩ := h; simp at h
    · obtain ⟨t, c, t', h1, -, -, -, rfl, h6⟩ := readNum_some h
      exact ⟨c, t' ++ r, h1, h6⟩

/-- How the text of a value that is not a number begins. -/
theorem write_head_notNum {j : Json} (hn : notNum j) : ∃ c r, write j = c :: r ∧ isWs c = false ∧ c.isDigit = false ∧ c ≠ '-' := by
  cases j with
  | null => exact ⟨_, _, rfl, by decide, by decide, by decide⟩
  | bool b => cases b <;> exact ⟨_, _, rfl, by decide, by decide, by decide⟩
  | num s => exact hn.elim
  | str => exact ⟨_, _, rfl, by decide, by decide, by decide⟩
  | arr => exact ⟨_, _, rfl, by decide, by decide, by decide⟩
  | obj => exact ⟨_, _, rfl, by decide, by decide, by decide⟩

/-- A strict prefix of the text of a value that is not a number is refused. -/
theorem read_prefix {j : Json} (hv : Valid j) (hn : notNum j) {p : List Char} (hp : p <+: write j) (hne : p ≠ write j) : read p = none := by
  obtain ⟨q, hq⟩ := hp
  cases hr : read p with
  | none => rfl
  | some j' =>
    exfalso
    unfold read at hr
    split at hr
    · rename_i j1 r h1
      have hnn : notNum j1 := by
        cases j1 with
        | num t =>
          obtain ⟨c, r', hw, hc⟩ := readValue_isNum h1
          obtain ⟨c', r'', hw', h2, h3, h4⟩ := write_head_notNum hn
          cases p with
          | nil => simp [ws] at hw
          | cons d p =>
            rw [hw', List.cons_append] at hq
            injection hq with e1 e2
            subst e1
            rw [ws_cons h2] at hw
            injection hw with e3 _
            subst e3
            rcases hc with hc | hc
            · rw [h3] at hc; cases hc
            · exact absurd hc h4
        | _ => trivial
      have h2 := (read_more q (p.length + 1)).1 ((write j).length + 1) p j1 r (by rw [← hq]; simp) h1 (.inr hnn)
      have h3 := (read_write ((write j).length + 1)).1 j [] (by omega) hv (by intro c r h; cases h)
      rw [List.append_nil] at h3
      rw [hq, h3] at h2
      simp only [Option.some.injEq, Prod.mk.injEq] at h2
      have : q = [] := by
        have := congrArg List.length h2.2
        simp at this
        exact List.eq_nil_of_length_eq_zero (by omega)
      exact hne (by rw [← hq, this, List.append_nil])
    · cases hr

/-- Numbers are different: `1` is a prefix of `12`. -/
example : read ['1', '2'] = some (.num ['1', '2']) ∧ read ['1'] = some (.num ['1']) := ⟨rfl, rfl⟩

end Verif.Wire
