import Verif.Wire.Json
/-!
# Reading back what was written as JSON
-/
namespace Verif.Wire
open Verif.Preproc (Json)

/-- The numbers in the value are numbers of JSON. -/
inductive Valid : Json → Prop
  | null : Valid .null
  | bool {b} : Valid (.bool b)
  | num {s} : isNumber s = true → Valid (.num s)
  | str {s} : Valid (.str s)
  | arr {xs} : (∀ x ∈ xs, Valid x) → Valid (.arr xs)
  | obj {fs} : (∀ f ∈ fs, Valid f.2) → Valid (.obj fs)

/-! ## Strings -/

theorem hexVal_hexDigit (k : Nat) (h : k < 16) : hexVal (hexDigit k) = some k := by
  have : ∀ k : Fin 16, hexVal (hexDigit k.1) = some k.1 := by decide
  exact this ⟨k, h⟩

theorem unicode_control {n : Nat} (h : n < 32) : unicode '0' '0' (hexDigit (n / 16)) (hexDigit (n % 16)) = some (Char.ofNat n) := by
  have h0 : hexVal '0' = some 0 := by decide
  have hv : n.isValidChar := .inl (by omega)
  unfold unicode
  rw [h0, hexVal_hexDigit _ (by omega), hexVal_hexDigit _ (by omega)]
  have : ((0 * 16 + 0) * 16 + n / 16) * 16 + n % 16 = n := by omega
  simp only [this, hv, if_true]

theorem readStr_simple {c x : Char} {r : List Char} (h : simpleEscape c = some x) (hu : c ≠ 'u') :
    readStr ('\\' :: c :: r) = (readStr r).map fun y => (x :: y.1, y.2) := by
  rw [readStr.eq_def]
  split
  · simp_all
  · simp_all
  · simp_all
  · rename_i heq
    injection heq with _ h1
    injection h1 with h1 h2
    subst h1 h2
    rw [h]
    cases readStr _ <;> rfl
  · rename_i hne heq
    injection heq with h1 h2
    subst h1 h2
    exact absurd rfl (hne _ _ rfl)

theorem readStr_plain {c : Char} {r : List Char} (h1 : c ≠ '"') (h2 : c ≠ '\\') (h3 : ¬ c.toNat < 32) :
    readStr (c :: r) = (readStr r).map fun y => (c :: y.1, y.2) := by
  rw [readStr.eq_def]
  split
  · simp_all
  · simp_all
  · simp_all
  · simp_all
  · rename_i heq
    injection heq with h4 h5
    subst h4 h5
    rw [if_neg (by simp [h2, h3])]
    cases readStr _ <;> rfl

theorem char_of_toNat {c : Char} {n : Nat} (h : c.toNat = n) : c = Char.ofNat n := by
  subst h; exact (Char.ofNat_toNat c).symm

theorem readStr_escape (c : Char) (r : List Char) :
    readStr (escapeChar c ++ r) = (readStr r).map fun y => (c :: y.1, y.2) := by
  unfold escapeChar
  split
  · rename_i h; subst h; exact readStr_simple (by decide) (by decide)
  split
  · rename_i h; subst h; exact readStr_simple (by decide) (by decide)
  split
  · rename_i h; rw [char_of_toNat h]; exact readStr_simple (by decide) (by decide)
  split
  · rename_i h; rw [char_of_toNat h]; exact readStr_simple (by decide) (by decide)
  split
  · rename_i h; rw [char_of_toNat h]; exact readStr_simple (by decide) (by decide)
  split
  · rename_i h; rw [char_of_toNat h]; exact readStr_simple (by decide) (by decide)
  split
  · rename_i h; rw [char_of_toNat h]; exact readStr_simple (by decide) (by decide)
  split
  · rename_i h
    simp only [List.cons_append, List.nil_append, readStr, unicode_control h, Char.ofNat_toNat]
    cases readStr r <;> rfl
  · rename_i h1 h2 _ _ _ _ _ h3
    exact readStr_plain h1 h2 h3

theorem readStr_flatMap (s r : List Char) : readStr (s.flatMap escapeChar ++ '"' :: r) = some (s, r) := by
  induction s with
  | nil => simp [readStr]
  | cons c s ih => rw [List.flatMap_cons, List.append_assoc, readStr_escape, ih]; rfl

/-! ## Numbers -/

theorem all_dropWhile_takeWhile {p q : Char → Bool} {l : List Char} (h : ∀ c, p c = true → q c = true)
    (hd : (l.dropWhile p).all q = true) : l.all q = true := by
  induction l with
  | nil => rfl
  | cons c l ih =>
    by_cases hc : p c = true
    · rw [List.dropWhile_cons_of_pos hc] at hd
      simp only [List.all_cons, Bool.and_eq_true]
      exact ⟨h c hc, ih hd⟩
    · rw [List.dropWhile_cons_of_neg hc] at hd
      exact hd

theorem digit_num {c : Char} (h : c.isDigit = true) : numChar c = true := by simp [numChar, h]

theorem all_digit_num {l : List Char} (h : l.all Char.isDigit = true) : l.all numChar = true := by
  rw [List.all_eq_true] at h ⊢
  exact fun c hc => digit_num (h c hc)

theorem exponent_num {l : List Char} (h : isExponent l = true) : l.all numChar = true := by
  unfold isExponent at h
  split at h
  · rfl
  · rename_i e r
    simp only [Bool.and_eq_true, Bool.or_eq_true, beq_iff_eq] at h
    obtain ⟨h1, h2⟩ := h
    have he : numChar e = true := by rcases h1 with rfl | rfl <;> decide
    simp only [List.all_cons, he, Bool.true_and]
    split at h2
    · simp only [Bool.and_eq_true] at h2
      simp only [List.all_cons, all_digit_num h2.2]; decide
    · simp only [Bool.and_eq_true] at h2
      simp only [List.all_cons, all_digit_num h2.2]; decide
    · simp only [Bool.and_eq_true] at h2
      exact all_digit_num h2.2

theorem fraction_num {l : List Char} (h : isFraction l = true) : l.all numChar = true := by
  unfold isFraction at h
  split at h
  · simp only [Bool.and_eq_true] at h
    simp only [List.all_cons, all_dropWhile_takeWhile (fun _ => digit_num) (exponent_num h.2)]; decide
  · exact exponent_num h

theorem unsigned_num {l : List Char} (h : isUnsigned l = true) : l.all numChar = true ∧ ∃ c r, l = c :: r ∧ c.isDigit = true := by
  unfold isUnsigned at h
  split at h
  · refine ⟨?_, _, _, rfl, by decide⟩
    simp only [List.all_cons, fraction_num h]; decide
  · simp only [Bool.and_eq_true] at h
    refine ⟨?_, _, _, rfl, h.1⟩
    simp only [List.all_cons, digit_num h.1, Bool.true_and]
    exact all_dropWhile_takeWhile (fun _ => digit_num) (fraction_num h.2)
  · simp at h

theorem number_num {l : List Char} (h : isNumber l = true) :
    l.all numChar = true ∧ ∃ c r, l = c :: r ∧ (c.isDigit = true ∨ c = '-') := by
  unfold isNumber at h
  split at h
  · obtain ⟨h1, -⟩ := unsigned_num h
    refine ⟨?_, _, _, rfl, .inr rfl⟩
    simp only [List.all_cons, h1]; decide
  · obtain ⟨h1, c, r, h2, h3⟩ := unsigned_num h
    exact ⟨h1, c, r, h2, .inl h3⟩

/-- What follows a value does not continue a number. -/
def Ends (rest : List Char) : Prop := ∀ c r, rest = c :: r → numChar c = false

theorem span_num {s rest : List Char} (h : s.all numChar = true) (he : Ends rest) :
    (s ++ rest).takeWhile numChar = s ∧ (s ++ rest).dropWhile numChar = rest := by
  induction s with
  | nil =>
    cases rest with
    | nil => exact ⟨rfl, rfl⟩
    | cons c r => simp [he c r rfl]
  | cons c s ih =>
    simp only [List.all_cons, Bool.and_eq_true] at h
    obtain ⟨h1, h2⟩ := ih h.2
    simp [h.1, h1, h2]

theorem readNum_append {s rest : List Char} (h : isNumber s = true) (he : Ends rest) : readNum (s ++ rest) = some (.num s, rest) := by
  unfold readNum
  rw [(span_num (number_num h).1 he).1, (span_num (number_num h).1 he).2, if_pos h]

/-! ## Values -/

theorem ws_cons {c : Char} {r : List Char} (h : isWs c = false) : ws (c :: r) = c :: r := by simp [ws, h]

theorem ends_cons {c : Char} {r : List Char} (h : numChar c = false) : Ends (c :: r) := by
  intro c' r' h'
  injection h' with h1 h2
  subst h1
  exact h

/-- How the text of a value begins. -/
theorem write_head {j : Json} (hv : Valid j) : ∃ c r, write j = c :: r ∧ isWs c = false ∧ c ≠ ']' := by
  cases hv with
  | null => exact ⟨_, _, rfl, by decide, by decide⟩
  | @bool b => cases b <;> exact ⟨_, _, rfl, by decide, by decide⟩
  | @num s h =>
    obtain ⟨-, c, r, rfl, h3⟩ := number_num h
    refine ⟨c, r, by simp [write], ?_, ?_⟩
    · rcases h3 with h3 | rfl
      · by_cases hw : isWs c = true
        · simp only [isWs, Bool.or_eq_true, beq_iff_eq] at hw
          rcases hw with ((rfl | rfl) | rfl) | rfl <;> exact absurd h3 (by decide)
        · simpa using hw
      · decide
    · rintro rfl
      rcases h3 with h3 | h3
      · exact absurd h3 (by decide)
      · exact absurd h3 (by decide)
  | str => exact ⟨_, _, rfl, by decide, by decide⟩
  | arr => exact ⟨_, _, rfl, by decide, by decide⟩
  | obj => exact ⟨_, _, rfl, by decide, by decide⟩

theorem items_ends (xs : List Json) (r : List Char) : Ends (writeItems xs ++ r) := by
  cases xs <;> exact ends_cons (by decide)

theorem fields_ends (fs : List (List Char × Json)) (r : List Char) : Ends (writeFields fs ++ r) := by
  cases fs <;> exact ends_cons (by decide)

theorem read_write (n : Nat) :
    (∀ j rest, (write j).length ≤ n → Valid j → Ends rest → readValue n (write j ++ rest) = some (j, rest)) ∧
    (∀ xs rest, (writeItems xs).length ≤ n → (∀ x ∈ xs, Valid x) → readItems n (writeItems xs ++ rest) = some (xs, rest)) ∧
    (∀ fs rest, (writeFields fs).length ≤ n → (∀ f ∈ fs, Valid f.2) → readFields n (writeFields fs ++ rest) = some (fs, rest)) ∧
    (∀ f rest, (writeField f).length ≤ n → Valid f.2 → Ends rest → readField n (writeField f ++ rest) = some (f, rest)) := by
  induction n with
  | zero =>
    refine ⟨?_, ?_, ?_, ?_⟩
    · intro j rest hl hv
      obtain ⟨c, r, h, -⟩ := write_head hv
      rw [h] at hl; simp at hl
    · intro xs rest hl
      cases xs <;> simp [writeItems] at hl
    · intro xs rest hl
      cases xs <;> simp [writeFields] at hl
    · rintro ⟨k, v⟩ rest hl
      simp [writeField, writeStr] at hl
  | succ n ih =>
    obtain ⟨ih1, ih2, ih3, ih4⟩ := ih
    refine ⟨?_, ?_, ?_, ?_⟩
    · intro j rest hl hv he
      cases hv with
      | null => simp [write, readValue, ws, isWs]
      | @bool b => cases b <;> simp [write, readValue, ws, isWs]
      | @num s h =>
        obtain ⟨-, c, r, hs, h3⟩ := number_num h
        obtain ⟨c', r', hc', hw, -⟩ := write_head (Valid.num h)
        simp only [write] at hc' ⊢
        rw [hs] at hc'
        injection hc' with h4 h5
        subst h4
        have hws : ws (s ++ rest) = s ++ rest := by rw [hs]; exact ws_cons hw
        rw [readValue, hws, ← readNum_append h he]
        have hne : c ≠ 'n' ∧ c ≠ 't' ∧ c ≠ 'f' ∧ c ≠ '"' ∧ c ≠ '[' ∧ c ≠ '{' := by
          refine ⟨?_, ?_, ?_, ?_, ?_, ?_⟩ <;> rintro rfl <;> revert h3 <;> decide
        obtain ⟨e1, e2, e3, e4, e5, e6⟩ := hne
        rw [hs]
        split
        · rename_i heq; simp only [List.cons_append] at heq; injection heq with h _; exact absurd h e1
        · rename_i heq; simp only [List.cons_append] at heq; injection heq with h _; exact absurd h e2
        · rename_i heq; simp only [List.cons_append] at heq; injection heq with h _; exact absurd h e3
        · rename_i heq; simp only [List.cons_append] at heq; injection heq with h _; exact absurd h e4
        · rename_i heq; simp only [List.cons_append] at heq; injection heq with h _; exact absurd h e5
        · rename_i heq; simp only [List.cons_append] at heq; injection heq with h _; exact absurd h e6
        · rfl
      | @str s =>
        simp only [write, writeStr, List.cons_append, List.append_assoc, List.nil_append, readValue]
        rw [ws_cons (by decide)]
        simp only [readStr_flatMap, Option.map_some]
      | @arr xs hx =>
        simp only [write, List.cons_append, readValue]
        rw [ws_cons (by decide)]
        cases xs with
        | nil => simp [writeFirst, ws, isWs]
        | cons x xs =>
          have hvx := hx x List.mem_cons_self
          obtain ⟨c, r, hc, hw, hb⟩ := write_head hvx
          simp only [write, writeFirst, List.length_cons, List.length_append] at hl
          have h1 := ih1 x (writeItems xs ++ rest) (by omega) hvx (items_ends _ _)
          have h2 := ih2 xs rest (by omega) (fun y hy => hx y (List.mem_cons_of_mem _ hy))
          simp only [writeFirst, List.append_assoc]
          rw [hc] at h1 ⊢
          simp only [List.cons_append] at h1 ⊢
          rw [ws_cons hw]
          try dsimp only
          split
          · rename_i heq; injection heq with h _; exact absurd h hb
          · simp [h1, h2]
      | @obj fs hf =>
        simp only [write, List.cons_append, readValue]
        rw [ws_cons (by decide)]
        cases fs with
        | nil => simp [writeFirstField, ws, isWs]
        | cons f fs =>
          simp only [write, writeFirstField, List.length_cons, List.length_append] at hl
          have h1 := ih4 f (writeFields fs ++ rest) (by omega) (hf f List.mem_cons_self) (fields_ends _ _)
          have h2 := ih3 fs rest (by omega) (fun y hy => hf y (List.mem_cons_of_mem _ hy))
          simp only [writeFirstField, List.append_assoc]
          obtain ⟨k, v⟩ := f
          simp only [writeField, writeStr, List.cons_append] at h1 ⊢
          rw [ws_cons (by decide)]
          try dsimp only
          split
          · rename_i heq; injection heq with h _; exact absurd h (by decide)
          · rw [h1]; simp [h2]
    · intro xs rest hl hx
      cases xs with
      | nil => simp [writeItems, readItems, ws, isWs]
      | cons x xs =>
        simp only [writeItems, List.length_cons, List.length_append] at hl
        have h1 := ih1 x (writeItems xs ++ rest) (by omega) (hx x List.mem_cons_self) (items_ends _ _)
        have h2 := ih2 xs rest (by omega) (fun y hy => hx y (List.mem_cons_of_mem _ hy))
        simp only [writeItems, List.cons_append, List.append_assoc, readItems]
        rw [ws_cons (by decide)]
        simp [h1, h2]
    · intro xs rest hl hx
      cases xs with
      | nil => simp [writeFields, readFields, ws, isWs]
      | cons x xs =>
        simp only [writeFields, List.length_cons, List.length_append] at hl
        have h1 := ih4 x (writeFields xs ++ rest) (by omega) (hx x List.mem_cons_self) (fields_ends _ _)
        have h2 := ih3 xs rest (by omega) (fun y hy => hx y (List.mem_cons_of_mem _ hy))
        simp only [writeFields, List.cons_append, List.append_assoc, readFields]
        rw [ws_cons (by decide)]
        simp [h1, h2]
    · rintro ⟨k, v⟩ rest hl hv he
      have hl' : (write v).length ≤ n := by
        simp only [writeField, writeStr, List.length_cons, List.length_append] at hl; omega
      have h1 := ih1 v rest hl' hv he
      simp only [writeField, writeStr, List.cons_append, List.append_assoc, List.nil_append, readField]
      rw [ws_cons (by decide)]
      simp only [readStr_flatMap]
      rw [ws_cons (by decide)]
      simp [h1]

/-- Reading the text of a value gives the value. -/
theorem read_write_eq {j : Json} (h : Valid j) : read (write j) = some j := by
  have := (read_write ((write j).length + 1)).1 j [] (by omega) h (by intro c r h; cases h)
  rw [List.append_nil] at this
  unfold read
  rw [this]
  rfl

end Verif.Wire
