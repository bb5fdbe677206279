import Verif.Value.LayoutSpec
/-!
# Properties C17 and C21: paths and ranges of pointers
-/
namespace Verif.Value
open Spec

theorem inOrder_field {fs : Fields} {o n i off t} (h : InOrderFields fs o n)
    (hf : field fs i = some (off, t)) : o ≤ off ∧ off + t.size ≤ n ∧ InOrder t := by
  induction i generalizing fs o with
  | zero =>
    cases fs with
    | nil => simp [field] at hf
    | cons off' ty rest =>
      simp only [field, Option.some.injEq, Prod.mk.injEq] at hf
      obtain ⟨rfl, rfl⟩ := hf
      simp only [InOrderFields] at h
      obtain ⟨rfl, h1, h2⟩ := h
      refine ⟨by omega, ?_, h1⟩
      have : ∀ (fs : Fields) (o n : Nat), InOrderFields fs o n → o ≤ n := by
        intro fs
        induction fs using Fields.rec (motive_1 := fun _ => True) with
        | nil => intro o n h; simpa [InOrderFields] using h
        | cons _ ty _ _ ih =>
          intro o n h
          simp only [InOrderFields] at h
          have := ih _ _ h.2.2
          omega
        | _ => trivial
      exact this _ _ _ h2
  | succ i ih =>
    cases fs with
    | nil => simp [field] at hf
    | cons off' ty rest =>
      simp only [field] at hf
      simp only [InOrderFields] at h
      obtain ⟨h1, h2, h3⟩ := ih h.2.2 hf
      exact ⟨by omega, h2, h3⟩

/-- A part lies inside the whole. -/
theorem denotes_bounds {ty base path a t'} (h : Denotes ty base path a t') (ho : InOrder ty) :
    base ≤ a ∧ a + t'.size ≤ base + ty.size := by
  induction h with
  | here => exact ⟨Nat.le_refl _, Nat.le_refl _⟩
  | struct hf _ ih =>
    simp only [InOrder] at ho
    obtain ⟨h1, h2, h3⟩ := inOrder_field ho hf
    obtain ⟨h4, h5⟩ := ih h3
    simp only [Ty.size]
    omega
  | tuple hf _ ih =>
    simp only [InOrder] at ho
    obtain ⟨h1, h2, h3⟩ := inOrder_field ho hf
    obtain ⟨h4, h5⟩ := ih h3
    simp only [Ty.size]
    omega
  | @elem e n i base path a t' hi _ ih =>
    simp only [InOrder] at ho
    obtain ⟨h4, h5⟩ := ih ho
    simp only [Ty.size]
    have : i * e.size + e.size ≤ e.size * n := by
      have h6 : (i + 1) * e.size ≤ n * e.size := Nat.mul_le_mul_right _ hi
      rw [Nat.mul_comm e.size n]
      have h7 : (i + 1) * e.size = i * e.size + e.size := by rw [Nat.add_mul, Nat.one_mul]
      omega
    constructor
    · omega
    · omega

/-- The loop over the fields finds the field whose bytes contain the target. -/
theorem locateFields_find {target : Nat} {fs : Fields} {o n i off t j base} (h : InOrderFields fs o n)
    (hf : field fs i = some (off, t)) (h1 : base + off ≤ target) (h2 : target < base + off + t.size) :
    locateFields target fs j (base + o) =
      (match locate target t (base + off) with
       | .ok segs => .ok (.field (j + i) :: segs)
       | .error e => .error e) := by
  induction i generalizing fs o j with
  | zero =>
    cases fs with
    | nil => simp [field] at hf
    | cons off' ty rest =>
      simp only [field, Option.some.injEq, Prod.mk.injEq] at hf
      obtain ⟨rfl, rfl⟩ := hf
      simp only [InOrderFields] at h
      obtain ⟨rfl, -, -⟩ := h
      unfold locateFields
      rw [if_pos (by omega)]
      rfl
  | succ i ih =>
    cases fs with
    | nil => simp [field] at hf
    | cons off' ty rest =>
      simp only [field] at hf
      simp only [InOrderFields] at h
      obtain ⟨rfl, ho, hr⟩ := h
      obtain ⟨h3, -, -⟩ := inOrder_field hr hf
      unfold locateFields
      rw [if_neg (by omega)]
      rw [Nat.add_assoc, ih hr hf]
      simp only [Nat.add_assoc, Nat.add_comm 1 i]

/-- **C17 (layouts in declaration order without gaps).** For every nesting of structs, tuples and
arrays and every address of a non-empty part, the locator succeeds and the path it computes leads,
through the compiler's layout, to exactly that address. Missing from the full property: layouts in
which the compiler reordered or padded fields, for which it is false (`C17_wrong_field`,
`C17_padding_panic`). -/
theorem C17_locate_partial (ty : Ty) (base a : Nat) (t' : Ty) (ho : InOrder ty)
    (h : PartAt ty base a t') :
    ∃ path t'', locate a ty base = .ok path ∧ Denotes ty base path a t'' := by
  obtain ⟨hpos, path, hd⟩ := h
  induction hd with
  | here => exact ⟨[], _, by unfold locate; simp, .here⟩
  | @struct fs n i off t base path a t' hf hd ih =>
    simp only [InOrder] at ho
    obtain ⟨h1, h2, h3⟩ := inOrder_field ho hf
    obtain ⟨p, t'', h4, h5⟩ := ih h3 hpos
    obtain ⟨h6, h7⟩ := denotes_bounds hd h3
    by_cases hb : base = a
    · subst hb; exact ⟨[], _, by unfold locate; simp, .here⟩
    · refine ⟨.field i :: p, t'', ?_, .struct hf h5⟩
      unfold locate
      rw [if_neg hb]
      have := locateFields_find (target := a) (j := 0) (base := base) ho hf (by omega) (by omega)
      simp only [Nat.add_zero, Nat.zero_add] at this
      dsimp only
      rw [this, h4]
  | @tuple fs n i off t base path a t' hf hd ih =>
    simp only [InOrder] at ho
    obtain ⟨h1, h2, h3⟩ := inOrder_field ho hf
    obtain ⟨p, t'', h4, h5⟩ := ih h3 hpos
    obtain ⟨h6, h7⟩ := denotes_bounds hd h3
    by_cases hb : base = a
    · subst hb; exact ⟨[], _, by unfold locate; simp, .here⟩
    · refine ⟨.field i :: p, t'', ?_, .tuple hf h5⟩
      unfold locate
      rw [if_neg hb]
      have := locateFields_find (target := a) (j := 0) (base := base) ho hf (by omega) (by omega)
      simp only [Nat.add_zero, Nat.zero_add] at this
      dsimp only
      rw [this, h4]
  | @elem e n i base path a t' hi hd ih =>
    simp only [InOrder] at ho
    obtain ⟨p, t'', h4, h5⟩ := ih ho hpos
    obtain ⟨h6, h7⟩ := denotes_bounds hd ho
    by_cases hb : base = a
    · subst hb; exact ⟨[], _, by unfold locate; simp, .here⟩
    · have hs : e.size ≠ 0 := by omega
      have hdiv : (a - base) / e.size = i := by
        apply Nat.div_eq_of_lt_le
        · omega
        · rw [Nat.add_mul, Nat.one_mul]; omega
      refine ⟨.index i :: p, t'', ?_, .elem hi h5⟩
      unfold locate
      rw [if_neg hb]
      simp only [hs, if_false, hdiv, h4, Nat.mul_div_cancel _ (Nat.pos_of_ne_zero hs)]

/-- **C17 (allocation of several elements, declaration-order layouts).** For a thin pointer into the
`k`-th element of an allocation of `cap` elements, the path is the index followed by a path that
leads to the address. -/
theorem C17_locateAddress_partial (ty : Ty) (cap k a : Nat) (t' : Ty) (ho : InOrder ty) (hk : k < cap)
    (hcap : 1 < cap) (h : PartAt ty (k * ty.size) a t') :
    ∃ path t'', locateAddress ty (ty.size * cap) none a = .ok (.index k :: path) ∧
      Denotes (.array ty cap) 0 (.index k :: path) a t'' := by
  obtain ⟨p, t'', h1, h2⟩ := C17_locate_partial ty _ a t' ho h
  obtain ⟨hpos, path, hd⟩ := h
  obtain ⟨h6, h7⟩ := denotes_bounds hd ho
  have hs : 0 < ty.size := by omega
  have hdiv : a / ty.size = k := by
    apply Nat.div_eq_of_lt_le
    · omega
    · rw [Nat.add_mul, Nat.one_mul]; omega
  have hlt : ty.size < ty.size * cap := by
    calc ty.size = ty.size * 1 := by omega
      _ < ty.size * cap := Nat.mul_lt_mul_of_pos_left hcap hs
  refine ⟨p, t'', ?_, ?_⟩
  · unfold locateAddress
    rw [if_pos hlt, if_neg (by omega)]
    simp only [hdiv, h1, Nat.mul_div_cancel _ hs]
  · exact .elem hk (by simpa using h2)

/-- **C17 is false in general: wrong field.** For `struct { a: u8, b: u8, c: u16 }`, which the
compiler lays out as `c, a, b`, the address of `a` is described as field `c`, which is at another
address. -/
theorem C17_wrong_field :
    let ty : Ty := .struct (.cons 2 (.prim 1) (.cons 3 (.prim 1) (.cons 0 (.prim 2) .nil))) 4
    PartAt ty 0 2 (.prim 1) ∧ locate 2 ty 0 = .ok [.field 2] ∧
      ¬ ∃ t'', Denotes ty 0 [.field 2] 2 t'' := by
  refine ⟨⟨by decide, [.field 0], ?_⟩, ?_, ?_⟩
  · exact .struct (i := 0) (off := 2) (t := .prim 1) rfl .here
  · simp [locate, locateFields, Ty.size]
  · rintro ⟨t'', h⟩
    cases h with
    | struct hf hd =>
      simp only [field, Option.some.injEq, Prod.mk.injEq] at hf
      obtain ⟨rfl, rfl⟩ := hf
      cases hd

/-- **C17 is false in general: panic.** For `struct { a: u8, b: u32 }`, laid out as `b, a`, the
locator panics on the address of `a`. -/
theorem C17_padding_panic :
    let ty : Ty := .struct (.cons 4 (.prim 1) (.cons 0 (.prim 4) .nil)) 8
    PartAt ty 0 4 (.prim 1) ∧ locate 4 ty 0 = .error .mismatch := by
  refine ⟨⟨by decide, [.field 0], .struct (i := 0) (off := 4) (t := .prim 1) rfl .here⟩, ?_⟩
  simp [locate, locateFields, Ty.size]

/-! ## C21 -/

/-- The elements a drawn range `lo..hi` (both ends included) covers. -/
def covers (lo hi i : Nat) : Prop := lo ≤ i ∧ i ≤ hi

/-- **C21 (elements of one byte, as in string slices).** A slice pointer to `n ≥ 1` elements from
element `k` on is drawn as a range that covers exactly the elements `k, .., k + n - 1`. Missing from
the full property: larger elements (false, `C21_larger_elements`) and empty slices. -/
theorem C21_bytes_partial (ty : Ty) (cap k n : Nat) (hs : ty.size = 1) (hcap : 1 < cap) (hn : 0 < n) :
    ∃ lo hi, locateAddress ty cap (some n) k = .ok [.subslice lo hi] ∧
      ∀ i, covers lo hi i ↔ k ≤ i ∧ i < k + n := by
  refine ⟨k, k + n - 1, ?_, ?_⟩
  · unfold locateAddress
    rw [if_pos (by omega), if_neg (by omega)]
    simp only [hs, Nat.div_one, Nat.mul_one]
    rw [if_neg (by omega)]
    unfold locate
    simp
  · intro i; unfold covers; omega

/-- **C21 is false for larger elements.** `&v[1..3]` of a vector of four `u32` is drawn as the empty
range from 1 to 0, although the slice has the elements 1 and 2: the length is divided by the element
size as if it were a number of bytes. -/
theorem C21_larger_elements :
    locateAddress (.prim 4) 16 (some 2) 4 = .ok [.subslice 1 0] ∧ ¬ covers 1 0 1 := by
  refine ⟨?_, by unfold covers; omega⟩
  simp [locateAddress, Ty.size]
  unfold locate
  simp

/-- **C21 is false for larger elements: panic.** `&v[0..2]` of such a vector underflows. -/
theorem C21_underflow : locateAddress (.prim 4) 16 (some 2) 0 = .error .overflow := by
  simp [locateAddress, Ty.size]

/-- **C21 (exactly when).** A slice pointer to `n` elements from element `k` on, in an allocation of elements of any
size: what is drawn covers exactly the elements of the slice if the elements have one byte, or if the slice is empty
and does not start at the first element; in all other cases it does not (or the tool panics). -/
theorem C21_exact (ty : Ty) (cap k n : Nat) (hs : 0 < ty.size) (hcap : ty.size < cap) :
    (∃ lo hi, locateAddress ty cap (some n) (k * ty.size) = .ok [.subslice lo hi] ∧
      ∀ i, covers lo hi i ↔ k ≤ i ∧ i < k + n) ↔ 0 < k + n ∧ (n = 0 ∨ ty.size = 1) := by
  have hdiv : k * ty.size / ty.size = k := Nat.mul_div_cancel k hs
  have hval : locateAddress ty cap (some n) (k * ty.size) =
      if k + n / ty.size = 0 then .error .overflow else .ok [.subslice k (k + n / ty.size - 1)] := by
    unfold locateAddress
    rw [if_pos hcap, if_neg (by omega)]
    dsimp only
    rw [hdiv, hdiv]
    unfold locate
    simp
  have hle : n / ty.size ≤ n := Nat.div_le_self n ty.size
  have hlt : 0 < n → 1 < ty.size → n / ty.size < n := fun h1 h2 => Nat.div_lt_self h1 h2
  have hone : n = 0 ∨ ty.size = 1 → n / ty.size = n := by
    rintro (h | h)
    · simp [h]
    · rw [h, Nat.div_one]
  rw [hval]
  clear hval
  generalize n / ty.size = q at *
  constructor
  · rintro ⟨lo, hi, h, hc⟩
    split at h
    · cases h
    · rename_i hne
      simp only [Except.ok.injEq, List.cons.injEq, PSeg.subslice.injEq, and_true] at h
      obtain ⟨rfl, rfl⟩ := h
      have hpos : 0 < k + n := by omega
      refine ⟨hpos, ?_⟩
      by_cases hn : n = 0
      · exact .inl hn
      · refine .inr ?_
        have h1 := (hc (k + n - 1)).2 (by omega)
        unfold covers at h1
        have h2 : q = n := by omega
        by_cases h3 : ty.size = 1
        · exact h3
        · have := hlt (by omega) (by omega)
          omega
  · rintro ⟨hpos, hor⟩
    rw [hone hor, if_neg (by omega)]
    exact ⟨k, k + n - 1, rfl, fun i => by unfold covers; omega⟩

/-- An empty slice behind the first two of four `u32` is drawn as nothing; at the first it is a panic. -/
example : locateAddress (.prim 4) 16 (some 0) (2 * 4) = .ok [.subslice 2 1] ∧
    locateAddress (.prim 4) 16 (some 0) 0 = .error .overflow := by
  constructor
  · simp [locateAddress, Ty.size]; unfold locate; simp
  · simp [locateAddress, Ty.size]

/-! ## Non-vacuity -/

/-- `((u32, [u16; 3]), u8)` packed; the address of the last `u16`. -/
def demoTy : Ty :=
  .tuple (.cons 0 (.tuple (.cons 0 (.prim 4) (.cons 4 (.array (.prim 2) 3) .nil)) 10)
    (.cons 10 (.prim 1) .nil)) 12

example : InOrder demoTy := by simp [demoTy, InOrder, InOrderFields, Ty.size]

example : PartAt demoTy 0 8 (.prim 2) :=
  ⟨by decide, [.field 0, .field 1, .index 2],
    .tuple (i := 0) rfl (.tuple (i := 1) rfl (.elem (by decide) .here))⟩

example : locate 8 demoTy 0 = .ok [.field 0, .field 1, .index 2] := by
  simp [locate, locateFields, demoTy, Ty.size]

end Verif.Value
