import Verif.Value.Packed
/-!
# C17: what the address locator does for every address

The locator goes into the parts around the address, in the layout without reordering and padding.  It stops at the first
one that begins at the address, and otherwise at the innermost one, where the kind of the type decides.
-/
namespace Verif.Value
open Spec

/-- No part of a part contains the address. -/
def Spec.Innermost (t : Ty) (b a : Nat) : Prop :=
  ∀ p a' t', Denotes t b p a' t' → p ≠ [] → ¬ (a' ≤ a ∧ a < a' + t'.size)

/-- Whether the locator stops quietly inside a part of the type. -/
def Spec.quiet : Ty → Except LocPanic Unit
  | .prim _ => .error .mismatch
  | .ptr _ => .error .mismatch
  | .enum _ => .error .enumTodo
  | .other _ => .error .unimplemented
  | .array _ _ => .error .divZero
  | .opaqueStruct _ => .ok ()
  | .union _ => .ok ()
  | .struct _ _ => .ok ()
  | .tuple _ _ => .ok ()

/-- What is known about the locator at an address in a part of the type. -/
def Settled (ty : Ty) : Prop := InOrder ty → ∀ base a, base ≤ a → a < base + ty.size →
  ∃ path b t, Denotes ty base path b t ∧
    ((b = a ∧ locate a ty base = .ok path) ∨
      (b < a ∧ a < b + t.size ∧ Innermost t b a ∧ locate a ty base = (quiet t).map (fun _ => path)))

theorem fields_gap {a base : Nat} {fs : Fields} {o n j : Nat} (h : InOrderFields fs o n) (ho : base + o ≤ a)
    (hno : ∀ i off t, field fs i = some (off, t) → ¬ (base + off ≤ a ∧ a < base + off + t.size)) :
    locateFields a fs j (base + o) = .ok [] := by
  induction fs using Fields.rec (motive_1 := fun _ => True) generalizing o j with
  | nil => unfold locateFields; rfl
  | cons off ty rest _ ih =>
    simp only [InOrderFields] at h
    obtain ⟨rfl, _, hr⟩ := h
    have h0 := hno 0 _ _ rfl
    unfold locateFields
    rw [if_neg (by omega), Nat.add_assoc]
    exact ih hr (by omega) (fun i off t hf => hno (i + 1) off t hf)
  | _ => trivial

theorem settled_leaf {ty : Ty} (hp : ∀ base p a' t', Denotes ty base p a' t' → p = [])
    (hl : ∀ a base, base ≠ a → locate a ty base = (quiet ty).map (fun _ => [])) : Settled ty := by
  intro _ base a h1 h2
  refine ⟨[], base, ty, .here, ?_⟩
  by_cases hb : base = a
  · exact .inl ⟨hb, by unfold locate; rw [if_pos hb]⟩
  · exact .inr ⟨by omega, h2, fun p a' t' hd hne => absurd (hp _ _ _ _ hd) hne, hl a base hb⟩

theorem settled_fields {ty : Ty} {fs : Fields} {n : Nat} (hs : ty.size = n)
    (hq : quiet ty = .ok ()) (hi : InOrder ty → InOrderFields fs 0 n)
    (hl : ∀ a base, base ≠ a → locate a ty base = locateFields a fs 0 base)
    (hd : ∀ {base i off t p a' t'}, field fs i = some (off, t) → Denotes t (base + off) p a' t' →
      Denotes ty base (.field i :: p) a' t')
    (hinv : ∀ {base p a' t'}, Denotes ty base p a' t' → p ≠ [] → ∃ i off t q, field fs i = some (off, t) ∧
      Denotes t (base + off) q a' t')
    (ih : ∀ i off t, field fs i = some (off, t) → Settled t) : Settled ty := by
  intro ho base a h1 h2
  have hio := hi ho
  by_cases hb : base = a
  · exact ⟨[], base, ty, .here, .inl ⟨hb, by unfold locate; rw [if_pos hb]⟩⟩
  · by_cases hex : ∃ i off t, field fs i = some (off, t) ∧ base + off ≤ a ∧ a < base + off + t.size
    · obtain ⟨i, off, t, hf, h3, h4⟩ := hex
      obtain ⟨_, _, hot⟩ := inOrder_field hio hf
      obtain ⟨path, b, t', hden, hres⟩ := ih i off t hf hot (base + off) a h3 h4
      have hloc := locateFields_find (target := a) (j := 0) (base := base) hio hf h3 h4
      simp only [Nat.add_zero, Nat.zero_add] at hloc
      refine ⟨.field i :: path, b, t', hd hf hden, ?_⟩
      rcases hres with ⟨e, hr⟩ | ⟨e1, e2, e3, hr⟩
      · exact .inl ⟨e, by rw [hl a base hb, hloc, hr]⟩
      · refine .inr ⟨e1, e2, e3, ?_⟩
        rw [hl a base hb, hloc, hr]
        cases quiet t' <;> rfl
    · refine ⟨[], base, ty, .here, .inr ⟨by omega, h2, ?_, ?_⟩⟩
      · intro p a' t' hden hne hcon
        obtain ⟨i, off, t, q, hf, hq⟩ := hinv hden hne
        obtain ⟨_, _, hot⟩ := inOrder_field hio hf
        obtain ⟨b1, b2⟩ := denotes_bounds hq hot
        exact hex ⟨i, off, t, hf, by omega, by omega⟩
      · rw [hl a base hb, hq]
        have := fields_gap (base := base) (a := a) (j := 0) hio (by omega)
          (fun i off t hf hc => hex ⟨i, off, t, hf, hc⟩)
        exact this

mutual
theorem settled : ∀ ty : Ty, Settled ty
  | .struct fs n => settled_fields (fs := fs) (n := n) rfl rfl (fun h => by simpa only [InOrder] using h)
      (fun a base hb => by unfold locate; rw [if_neg hb]) (fun hf h => .struct hf h)
      (by intro base p a' t' h hne; cases h with
          | here => exact absurd rfl hne
          | struct hf h => exact ⟨_, _, _, _, hf, h⟩) (settled_field fs)
  | .tuple fs n => settled_fields (fs := fs) (n := n) rfl rfl (fun h => by simpa only [InOrder] using h)
      (fun a base hb => by unfold locate; rw [if_neg hb]) (fun hf h => .tuple hf h)
      (by intro base p a' t' h hne; cases h with
          | here => exact absurd rfl hne
          | tuple hf h => exact ⟨_, _, _, _, hf, h⟩) (settled_field fs)
  | .array e n => by
    have ih := settled e
    intro ho base a h1 h2
    simp only [InOrder] at ho
    simp only [Ty.size] at h2
    by_cases hb : base = a
    · exact ⟨[], base, _, .here, .inl ⟨hb, by unfold locate; rw [if_pos hb]⟩⟩
    · have hs : e.size ≠ 0 := by intro h; rw [h] at h2; simp at h2; omega
      have hpos : 0 < e.size := Nat.pos_of_ne_zero hs
      have hle := Nat.div_mul_le_self (a - base) e.size
      have hlt : a - base < (a - base) / e.size * e.size + e.size := by
        have := Nat.lt_div_mul_add (a := a - base) hpos
        omega
      have hi : (a - base) / e.size < n := by
        rw [Nat.div_lt_iff_lt_mul hpos, Nat.mul_comm]
        omega
      obtain ⟨path, b, t, hd, hres⟩ := ih ho (base + (a - base) / e.size * e.size) a (by omega) (by omega)
      refine ⟨.index ((a - base) / e.size) :: path, b, t, .elem hi hd, ?_⟩
      have hloc : locate a (.array e n) base = (match locate a e (base + (a - base) / e.size * e.size) with
          | .ok segs => .ok (.index ((a - base) / e.size) :: segs)
          | .error x => .error x) := by
        conv => lhs; unfold locate
        rw [if_neg hb]
        dsimp only
        rw [if_neg hs, Nat.mul_div_cancel _ hpos]
        cases locate a e (base + (a - base) / e.size * e.size) <;> rfl
      rcases hres with ⟨e', hr⟩ | ⟨e1, e2, e3, hr⟩
      · exact .inl ⟨e', by rw [hloc, hr]⟩
      · refine .inr ⟨e1, e2, e3, ?_⟩
        rw [hloc, hr]
        cases quiet t <;> rfl
  | .prim _ => settled_leaf (by intro _ _ _ _ h; cases h; rfl) (fun a b h => by unfold locate; rw [if_neg h]; rfl)
  | .ptr _ => settled_leaf (by intro _ _ _ _ h; cases h; rfl) (fun a b h => by unfold locate; rw [if_neg h]; rfl)
  | .opaqueStruct _ => settled_leaf (by intro _ _ _ _ h; cases h; rfl) (fun a b h => by unfold locate; rw [if_neg h]; rfl)
  | .enum _ => settled_leaf (by intro _ _ _ _ h; cases h; rfl) (fun a b h => by unfold locate; rw [if_neg h]; rfl)
  | .union _ => settled_leaf (by intro _ _ _ _ h; cases h; rfl) (fun a b h => by unfold locate; rw [if_neg h]; rfl)
  | .other _ => settled_leaf (by intro _ _ _ _ h; cases h; rfl) (fun a b h => by unfold locate; rw [if_neg h]; rfl)
theorem settled_field : ∀ (fs : Fields) (i off : Nat) (t : Ty), field fs i = some (off, t) → Settled t
  | .nil, i, off, t, h => by cases i <;> simp [field] at h
  | .cons off' ty rest, 0, off, t, h => by
    simp only [field, Option.some.injEq, Prod.mk.injEq] at h
    rw [← h.2]
    exact settled ty
  | .cons off' ty rest, i + 1, off, t, h => settled_field rest i off t (by simpa only [field] using h)
end

/-- **C17 (exact).** For every type, whatever offsets the compiler chose, and every address in it: in the layout with the
fields in declaration order and without gaps, either the locator answers with the path of a part that begins at the
address, or with what the kind of the innermost part around the address decides: the path of that part if it is a struct,
a tuple or a union, a panic otherwise. -/
theorem C17_outcome (ty : Ty) (hr : Roomy ty) (base a : Nat) (h1 : base ≤ a) (h2 : a < base + ty.size) :
    ∃ path b t, Denotes (pack ty) base path b t ∧
      ((b = a ∧ locate a ty base = .ok path) ∨
        (b < a ∧ a < b + t.size ∧ Innermost t b a ∧
          locate a ty base = (match t with
            | .prim _ => .error .mismatch
            | .ptr _ => .error .mismatch
            | .enum _ => .error .enumTodo
            | .other _ => .error .unimplemented
            | _ => .ok path))) := by
  obtain ⟨path, b, t, hd, h⟩ := settled (pack ty) (pack_inOrder ty hr) base a h1 (by rw [pack_size]; exact h2)
  rw [locate_pack] at h
  refine ⟨path, b, t, hd, ?_⟩
  rcases h with h | ⟨e1, e2, e3, hl⟩
  · exact .inl h
  · refine .inr ⟨e1, e2, e3, ?_⟩
    rw [hl]
    cases t with
    | array e n =>
      exfalso
      simp only [Ty.size] at e2
      have hs : e.size ≠ 0 := by intro h; rw [h] at e2; simp at e2; omega
      have hpos : 0 < e.size := Nat.pos_of_ne_zero hs
      have hle := Nat.div_mul_le_self (a - b) e.size
      have hlt : a - b < (a - b) / e.size * e.size + e.size := by
        have := Nat.lt_div_mul_add (a := a - b) hpos
        omega
      have hi : (a - b) / e.size < n := by
        rw [Nat.div_lt_iff_lt_mul hpos, Nat.mul_comm]
        omega
      exact e3 _ _ _ (.elem hi .here) (by simp) ⟨by omega, by omega⟩
    | _ => rfl

/-- Inside a `Vec` that is the second field: the path of the field. -/
example : locate 12 (.struct (.cons 0 (.prim 8) (.cons 8 (.opaqueStruct 24) .nil)) 32) 0 = .ok [.field 1] := by
  simp [locate, locateFields, Ty.size]

/-- Inside a `u32`: a panic. -/
example : locate 2 (.struct (.cons 0 (.prim 4) .nil) 4) 0 = .error .mismatch := by
  simp [locate, locateFields, Ty.size]

end Verif.Value
