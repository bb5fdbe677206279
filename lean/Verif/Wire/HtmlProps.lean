import Verif.Wire.Html
import Verif.Wire.JsonProps
/-!
# Reading back the element of a block
-/
namespace Verif.Wire
open Verif.Preproc (Json)

/-! ## Attribute values -/

theorem readAttrValue_plain {c : Char} {r : List Char} (h1 : c ≠ '"') (h2 : c ≠ '&') :
    readAttrValue (c :: r) = (readAttrValue r).map fun x => (c :: x.1, x.2) := by
  rw [readAttrValue.eq_def]
  split <;> simp_all

theorem readAttrValue_encode (c : Char) (r : List Char) :
    readAttrValue (encodeChar c ++ r) = (readAttrValue r).map fun x => (c :: x.1, x.2) := by
  unfold encodeChar
  split
  · subst c; simp [readAttrValue]
  · split
    · subst c; simp [readAttrValue]
    · split
      · subst c; simp [readAttrValue]
      · split
        · subst c; simp [readAttrValue]
        · rename_i h1 _ _ h4
          exact readAttrValue_plain h4 h1

theorem readAttrValue_write (v r : List Char) : readAttrValue (v.flatMap encodeChar ++ '"' :: r) = some (v, r) := by
  induction v with
  | nil => simp [readAttrValue]
  | cons c v ih => simp only [List.flatMap_cons, List.append_assoc]; rw [readAttrValue_encode, ih]; rfl

/-! ## Elements -/

/-- A name that can be read: not empty, and without the characters that end a name. -/
def PlainName (n : List Char) : Prop := n ≠ [] ∧ ∀ c ∈ n, endsName c = false

theorem plain_head {n : List Char} (h : PlainName n) : ∃ c r, n = c :: r ∧ isSpace c = false ∧ c ≠ '>' := by
  cases n with
  | nil => exact absurd rfl h.1
  | cons c r =>
    have := h.2 c (by simp)
    simp only [endsName, Bool.or_eq_false_iff, beq_eq_false_iff_ne] at this
    exact ⟨c, r, rfl, this.1.1.1, this.1.2⟩

theorem span_name {n : List Char} (h : ∀ c ∈ n, endsName c = false) (r : List Char) :
    (n ++ '=' :: r).takeWhile (fun c => !endsName c) = n ∧ (n ++ '=' :: r).dropWhile (fun c => !endsName c) = '=' :: r := by
  induction n with
  | nil =>
    have : endsName '=' = true := by decide
    simp [List.takeWhile, List.dropWhile, this]
  | cons c n ih =>
    have hc := h c (by simp)
    obtain ⟨i1, i2⟩ := ih fun x hx => h x (by simp [hx])
    simp [List.takeWhile, List.dropWhile, hc, i1, i2]

theorem readAttrs_write (attrs : List (List Char × List Char)) (h : ∀ a ∈ attrs, PlainName a.1) (n : Nat) (hn : attrs.length < n)
    (r : List Char) : readAttrs n (attrs.flatMap writeAttr ++ '>' :: r) = some (attrs, r) := by
  induction attrs generalizing n with
  | nil =>
    obtain ⟨n, rfl⟩ : ∃ k, n = k + 1 := ⟨n - 1, by simp at hn; omega⟩
    have : isSpace '>' = false := by decide
    simp [readAttrs, List.dropWhile, this]
  | cons a attrs ih =>
    obtain ⟨n, rfl⟩ : ∃ k, n = k + 1 := ⟨n - 1, by simp at hn; omega⟩
    have ha := h a (by simp)
    obtain ⟨c, m, e, h1, h2⟩ := plain_head ha
    have hsp : isSpace ' ' = true := by decide
    have ih := ih (fun x hx => h x (by simp [hx])) n (by simp at hn; omega)
    generalize ht : attrs.flatMap writeAttr ++ '>' :: r = t at ih
    have hs : ((a :: attrs).flatMap writeAttr ++ '>' :: r).dropWhile isSpace
        = a.1 ++ '=' :: '"' :: (a.2.flatMap encodeChar ++ '"' :: t) := by
      simp [writeAttr, List.dropWhile, hsp, e, h1, ← ht]
    obtain ⟨s1, s2⟩ := span_name ha.2 ('"' :: (a.2.flatMap encodeChar ++ '"' :: t))
    rw [readAttrs, hs]
    split
    · rename_i heq
      rw [e] at heq
      injection heq with heq
      exact absurd heq h2
    · simp [s1, s2, readAttrValue_write, ih]

theorem readElement_write {attrs : List (List Char × List Char)} (h : ∀ a ∈ attrs, PlainName a.1) :
    readElement (writeElement attrs) = some attrs := by
  unfold readElement writeElement
  simp only
  rw [readAttrs_write attrs h]
  · rfl
  · have : attrs.length ≤ (attrs.flatMap writeAttr).length := by
      clear h
      induction attrs with
      | nil => simp
      | cons a l ih =>
        rw [List.flatMap_cons, List.length_append, List.length_cons]
        have : 1 ≤ (writeAttr a).length := by unfold writeAttr; simp
        omega
    rw [List.length_append]
    omega

/-! ## One line -/

/-- No control characters. -/
def Printable (s : List Char) : Prop := ∀ c ∈ s, 32 ≤ c.toNat

theorem printable_append {a b : List Char} : Printable (a ++ b) ↔ Printable a ∧ Printable b := by
  simp [Printable, or_imp, forall_and]

theorem printable_cons {c : Char} {b : List Char} : Printable (c :: b) ↔ 32 ≤ c.toNat ∧ Printable b := by
  simp [Printable]

theorem printable_nil : Printable [] := by simp [Printable]

theorem printable_flatMap {α : Type} {f : α → List Char} {l : List α} (h : ∀ x ∈ l, Printable (f x)) : Printable (l.flatMap f) := by
  intro c hc
  obtain ⟨x, hx, hc⟩ := List.mem_flatMap.1 hc
  exact h x hx c hc

theorem printable_hex (k : Nat) (h : k < 16) : 32 ≤ (hexDigit k).toNat := by
  have : ∀ k : Fin 16, 32 ≤ (hexDigit k.1).toNat := by decide
  exact this ⟨k, h⟩

theorem printable_escape (c : Char) : Printable (escapeChar c) := by
  have e : ∀ x ∈ ['\\', '"', 'b', 't', 'n', 'f', 'r', 'u', '0'], 32 ≤ x.toNat := by decide
  unfold escapeChar
  repeat' split
  all_goals simp only [printable_cons, printable_nil, and_true]
  · exact ⟨e _ (by simp), e _ (by simp)⟩
  · exact ⟨e _ (by simp), e _ (by simp)⟩
  · exact ⟨e _ (by simp), e _ (by simp)⟩
  · exact ⟨e _ (by simp), e _ (by simp)⟩
  · exact ⟨e _ (by simp), e _ (by simp)⟩
  · exact ⟨e _ (by simp), e _ (by simp)⟩
  · exact ⟨e _ (by simp), e _ (by simp)⟩
  · exact ⟨e _ (by simp), e _ (by simp), e _ (by simp), e _ (by simp), printable_hex _ (by omega), printable_hex _ (by omega)⟩
  · omega

theorem printable_writeStr (s : List Char) : Printable (writeStr s) := by
  have e : 32 ≤ '"'.toNat := by decide
  simp only [writeStr, printable_cons, printable_append, printable_nil, and_true, e, true_and]
  exact printable_flatMap fun c _ => printable_escape c

theorem digit_printable {c : Char} (h : c.isDigit = true) : 32 ≤ c.toNat := by
  simp only [Char.isDigit, Bool.and_eq_true, decide_eq_true_eq] at h
  have : (48 : UInt32).toNat ≤ c.val.toNat := h.1
  have e : (48 : UInt32).toNat = 48 := by decide
  have e' : c.toNat = c.val.toNat := rfl
  omega

theorem printable_num {s : List Char} (h : isNumber s = true) : Printable s := by
  intro c hc
  have h1 := List.all_eq_true.1 (number_num h).1 c hc
  simp only [numChar, Bool.or_eq_true, beq_iff_eq] at h1
  rcases h1 with ((((h1 | h1) | h1) | h1) | h1) | h1
  · exact digit_printable h1
  all_goals subst h1; decide

mutual
theorem printable_write : (j : Json) → Valid j → Printable (write j)
  | .null, _ => by simp only [write]; unfold Printable; decide
  | .bool true, _ => by simp only [write]; unfold Printable; decide
  | .bool false, _ => by simp only [write]; unfold Printable; decide
  | .num s, h => by cases h with | num h => simp only [write]; exact printable_num h
  | .str s, _ => by simp only [write]; exact printable_writeStr s
  | .arr xs, h => by
    cases h with
    | arr h => simp only [write]; exact printable_cons.2 ⟨by decide, printable_first xs h⟩
  | .obj fs, h => by
    cases h with
    | obj h => simp only [write]; exact printable_cons.2 ⟨by decide, printable_firstField fs h⟩
theorem printable_first : (xs : List Json) → (∀ x ∈ xs, Valid x) → Printable (writeFirst xs)
  | [], _ => by simp only [writeFirst]; unfold Printable; decide
  | x :: xs, h => by
    simp only [writeFirst]
    exact printable_append.2 ⟨printable_write x (h x (by simp)), printable_items xs fun y hy => h y (by simp [hy])⟩
theorem printable_items : (xs : List Json) → (∀ x ∈ xs, Valid x) → Printable (writeItems xs)
  | [], _ => by simp only [writeItems]; unfold Printable; decide
  | x :: xs, h => by
    simp only [writeItems]
    exact printable_cons.2 ⟨by decide, printable_append.2 ⟨printable_write x (h x (by simp)),
      printable_items xs fun y hy => h y (by simp [hy])⟩⟩
theorem printable_firstField : (fs : List (List Char × Json)) → (∀ f ∈ fs, Valid f.2) → Printable (writeFirstField fs)
  | [], _ => by simp only [writeFirstField]; unfold Printable; decide
  | f :: fs, h => by
    simp only [writeFirstField]
    exact printable_append.2 ⟨printable_field f (h f (by simp)), printable_fields fs fun y hy => h y (by simp [hy])⟩
theorem printable_fields : (fs : List (List Char × Json)) → (∀ f ∈ fs, Valid f.2) → Printable (writeFields fs)
  | [], _ => by simp only [writeFields]; unfold Printable; decide
  | f :: fs, h => by
    simp only [writeFields]
    exact printable_cons.2 ⟨by decide, printable_append.2 ⟨printable_field f (h f (by simp)),
      printable_fields fs fun y hy => h y (by simp [hy])⟩⟩
theorem printable_field : (f : List Char × Json) → Valid f.2 → Printable (writeField f)
  | (k, v), h => by
    simp only [writeField]
    exact printable_append.2 ⟨printable_writeStr k, printable_cons.2 ⟨by decide, printable_write v h⟩⟩
end

theorem printable_encode {s : List Char} (h : Printable s) : Printable (s.flatMap encodeChar) := by
  refine printable_flatMap fun c hc => ?_
  unfold encodeChar
  repeat' split
  · unfold Printable; decide
  · unfold Printable; decide
  · unfold Printable; decide
  · unfold Printable; decide
  · exact printable_cons.2 ⟨h c hc, printable_nil⟩

theorem printable_element {attrs : List (List Char × List Char)} (h : ∀ a ∈ attrs, Printable a.1 ∧ Printable a.2) :
    Printable (writeElement attrs) := by
  unfold writeElement
  simp only [printable_cons, printable_append]
  refine ⟨by decide, by decide, by decide, by decide, printable_flatMap fun a ha => ?_, by decide, by unfold Printable; decide⟩
  unfold writeAttr
  simp only [printable_cons, printable_append]
  exact ⟨by decide, (h a ha).1, by decide, by decide, printable_encode (h a ha).2, by decide, printable_nil⟩

/-- The value between the quotes has no quotes, and no brackets. -/
theorem encode_safe (v : List Char) : ∀ c ∈ v.flatMap encodeChar, c ≠ '"' ∧ c ≠ '<' ∧ c ≠ '>' := by
  intro c hc
  obtain ⟨x, -, h⟩ := List.mem_flatMap.1 hc
  clear hc
  unfold encodeChar at h
  split at h
  · revert c; decide
  · split at h
    · revert c; decide
    · split at h
      · revert c; decide
      · split at h
        · revert c; decide
        · simp only [List.mem_singleton] at h
          subst h
          exact ⟨by assumption, by assumption, by assumption⟩

end Verif.Wire
