import Verif.Frontend.Layout

/-!
# C79: arrows into the same box end at different heights around the middle
-/

namespace Verif.Frontend.Layout

/-- The number of pointers to the element `d`. -/
def into (ps : List Ptr) (d : Nat) : Nat := ps.countP (fun p => p.dst = d)

/-- An arrow that enters at the side of a box and is not one between two variables of the stack. -/
def Side (p : Ptr) : Prop := p.ranged = false ∧ ¬(p.src = .stack ∧ p.tgt = .stack) ∧ p.bottom = false

instance (p : Ptr) : Decidable (Side p) := inferInstanceAs (Decidable (_ ∧ _ ∧ _))

theorem collect_counts (ps : List Ptr) (c : Nat → Nat) (d : Nat) : (collect ps c).2 d = c d + into ps d := by
  induction ps generalizing c with
  | nil => simp [collect, into]
  | cons p ps ih =>
    simp only [collect, ih, into, List.countP_cons]
    by_cases h : p.dst = d
    · subst h; simp; omega
    · simp [h, Ne.symm h]

theorem collect_get (ps : List Ptr) (c : Nat → Nat) (i : Nat) :
    (collect ps c).1[i]? = ps[i]?.map fun p => (p, c p.dst + into (ps.take i) p.dst) := by
  induction ps generalizing c i with
  | nil => simp [collect]
  | cons p ps ih =>
    cases i with
    | zero => simp [collect, into]
    | succ i =>
      simp only [collect, List.getElem?_cons_succ, ih, into, List.take_succ_cons, List.countP_cons]
      cases ps[i]? with
      | none => rfl
      | some q =>
        simp only [Option.map_some, Option.some.injEq, Prod.mk.injEq, true_and]
        by_cases h : p.dst = q.dst
        · simp [h]; omega
        · simp [h, Ne.symm h]

theorem groupBy_const {α β} [DecidableEq β] (k : β) (key : α → β) (h : ∀ a, key a = k) (a : α) (as : List α) :
    groupBy key (a :: as) = [(k, a :: as)] := by
  have hk : ∀ (l : List α) g, g ∈ groupBy key l → g.1 = k := by
    intro l
    induction l with
    | nil => simp [groupBy]
    | cons b l ih =>
      intro g hg
      simp only [groupBy, List.mem_cons, List.mem_filter] at hg
      rcases hg with rfl | hg
      · exact h b
      · exact ih g hg.1
  simp only [groupBy, h]
  congr 1
  · congr 2
    exact List.filter_eq_self.2 (by simp)
  · exact List.filter_eq_nil_iff.2 (fun g hg => by simp [hk as g hg])

/-- One arrow for each pointer, in document order; each is drawn with the number of pointers to the same element, the
number of earlier ones, and its position among all pointers. -/
theorem arrows_get (ps : List Ptr) (i : Nat) :
    (arrows ps)[i]? = ps[i]?.map fun p => renderPtr (into ps) p (into (ps.take i) p.dst) i := by
  have hc : (collect ps (fun _ => 0)).2 = into ps := by
    funext d; rw [collect_counts]; omega
  have hg : ∀ l : List (Ptr × Nat),
      (groupBy (fun q : Ptr × Nat => groupKey q.1) l).flatMap (fun g =>
        g.2.zipIdx.map fun q => renderPtr (into ps) q.1.1 q.1.2 q.2) =
      l.zipIdx.map fun q => renderPtr (into ps) q.1.1 q.1.2 q.2 := by
    intro l
    cases l with
    | nil => rfl
    | cons a l =>
      rw [groupBy_const (groupKey a.1) (fun q : Ptr × Nat => groupKey q.1) (fun _ => rfl)]
      simp
  simp only [arrows, hc, hg, List.getElem?_map, List.getElem?_zipIdx, collect_get]
  cases ps[i]? <;> simp

theorem evenly (index total : Nat) (h : total ≠ 0) :
    evenlySpaceAround 50 30 index total = some (50 - 15 * (total : Rat) + 30 * (index : Rat)) := by
  have ht : (total : Rat) ≠ 0 := by exact_mod_cast h
  simp only [evenlySpaceAround, h, if_false, lerp, Option.some.injEq]
  have : (index : Rat) / total * total = index := Rat.div_mul_cancel ht
  grind

/-- **C79**: one arrow for each pointer of the step, in document order. -/
theorem C79_one_each (ps : List Ptr) : (arrows ps).length = ps.length := by
  apply Nat.le_antisymm
  · apply Nat.le_of_not_lt
    intro h
    have := arrows_get ps ps.length
    rw [List.getElem?_eq_none (Nat.le_refl _), List.getElem?_eq_getElem h] at this
    simp at this
  · apply Nat.le_of_not_lt
    intro h
    have := arrows_get ps (arrows ps).length
    rw [List.getElem?_eq_none (Nat.le_refl _), List.getElem?_eq_getElem h] at this
    simp at this

/-- **C79**: an arrow that enters a box at the side, together with at least one other arrow into the same box, ends
`15 · (n - 1)` percent above the middle, where `n` is the number of arrows into the box, plus `30` percent down for every
earlier one. -/
theorem C79_heights (ps : List Ptr) (i : Nat) (p : Ptr) (a : Arrow) (hp : ps[i]? = some p)
    (ha : (arrows ps)[i]? = some a) (hs : Side p) (hn : 2 ≤ into ps p.dst) :
    ∃ x, a.anchor = .point x
      (some (50 - 15 * ((into ps p.dst : Rat) - 1) + 30 * (into (ps.take i) p.dst : Rat))) ∧
      (x = 100 ∨ x = 0) ∧ (x = 100 ↔ p.tgt = .stack) := by
  rw [arrows_get, hp] at ha
  simp only [Option.map_some, Option.some.injEq] at ha
  subst ha
  obtain ⟨h1, h2, h3⟩ := hs
  have h2' : (decide (p.src = .stack) && decide (p.tgt = .stack)) = false := by
    rw [Bool.eq_false_iff]; simpa using h2
  refine ⟨if p.tgt = .stack then 100 else 0, ?_, ?_, ?_⟩
  · simp only [renderPtr, h1, h3, h2', Bool.false_eq_true, if_false]
    rw [evenly _ _ (by omega)]
    have : ((into ps p.dst - 1 : Nat) : Rat) = (into ps p.dst : Rat) - 1 := by
      obtain ⟨m, hm⟩ : ∃ m, into ps p.dst = m + 1 := ⟨into ps p.dst - 1, by omega⟩
      rw [hm]
      have : ((m + 1 : Nat) : Rat) = (m : Rat) + 1 := by exact_mod_cast rfl
      rw [this]
      simp
      grind
    rw [this]
  · split <;> simp
  · split <;> simp_all

/-- The number of pointers to `d` strictly before `j` is larger than before an earlier `i` that points to `d`. -/
theorem into_take_lt (ps : List Ptr) (i j : Nat) (p : Ptr) (hp : ps[i]? = some p) (hij : i < j) :
    into (ps.take i) p.dst + 1 ≤ into (ps.take j) p.dst := by
  have hi : i < ps.length := (List.getElem?_eq_some_iff.1 hp).1
  have h1 : ps.take (i + 1) = ps.take i ++ [p] := by
    rw [List.take_add_one, hp]; rfl
  have h2 : into (ps.take (i + 1)) p.dst = into (ps.take i) p.dst + 1 := by
    rw [h1]; simp [into]
  have h3 : into (ps.take (i + 1)) p.dst ≤ into (ps.take j) p.dst := by
    have : ps.take (i + 1) = (ps.take j).take (i + 1) := by
      rw [List.take_take]; congr 1; omega
    rw [this]
    exact List.Sublist.countP_le (List.take_sublist _ _)
  omega

/-- The height at which an arrow ends, if it ends at a point. -/
def Arrow.height (a : Arrow) : Option Rat :=
  match a.anchor with
  | .point _ y => y
  | _ => none

/-- **C79**: of two arrows that enter the same box at the side, the later one ends at least 30 percent lower. -/
theorem C79_apart (ps : List Ptr) (i j : Nat) (p q : Ptr) (a b : Arrow) (hp : ps[i]? = some p) (hq : ps[j]? = some q)
    (ha : (arrows ps)[i]? = some a) (hb : (arrows ps)[j]? = some b) (hij : i < j) (hd : p.dst = q.dst)
    (hsp : Side p) (hsq : Side q) :
    ∃ y z, a.height = some y ∧ b.height = some z ∧ y + 30 ≤ z := by
  have hlt := into_take_lt ps i j p hp hij
  have hn : 2 ≤ into ps p.dst := by
    have h1 := into_take_lt ps j (j + 1) q hq (by omega)
    have h2 : into (ps.take (j + 1)) q.dst ≤ into ps q.dst := List.Sublist.countP_le (List.take_sublist _ _)
    rw [hd] at hlt ⊢
    omega
  obtain ⟨x, hx, -⟩ := C79_heights ps i p a hp ha hsp hn
  obtain ⟨x', hx', -⟩ := C79_heights ps j q b hq hb hsq (hd ▸ hn)
  refine ⟨_, _, by rw [Arrow.height, hx], by rw [Arrow.height, hx'], ?_⟩
  rw [← hd]
  have : ((into (ps.take i) p.dst : Rat) + 1) ≤ (into (ps.take j) p.dst : Rat) := by exact_mod_cast hlt
  grind

/-- **C79**: such an arrow never ends where an arrow between two variables of the stack ends. -/
theorem C79_not_stack (ps : List Ptr) (i : Nat) (p : Ptr) (a : Arrow) (hp : ps[i]? = some p)
    (ha : (arrows ps)[i]? = some a) (hs : Side p) : a.height ≠ some 75 := by
  intro h
  by_cases hn : 2 ≤ into ps p.dst
  · obtain ⟨x, hx, -⟩ := C79_heights ps i p a hp ha hs hn
    rw [Arrow.height, hx] at h
    simp only [Option.some.injEq] at h
    have h' : (6 * (into (ps.take i) p.dst : Rat)) + 3 = 5 + 3 * (into ps p.dst : Rat) := by grind
    have h'' : 6 * into (ps.take i) p.dst + 3 = 5 + 3 * into ps p.dst := by exact_mod_cast h'
    omega
  · rw [arrows_get, hp] at ha
    simp only [Option.map_some, Option.some.injEq] at ha
    subst ha
    obtain ⟨h1, h2, h3⟩ := hs
    have h2' : (decide (p.src = .stack) && decide (p.tgt = .stack)) = false := by
      rw [Bool.eq_false_iff]; simpa using h2
    have h0 : into ps p.dst - 1 = 0 := by omega
    simp [renderPtr, h1, h3, h2', Arrow.height, evenlySpaceAround, h0] at h

/-- **C79**: the heads lie on the side of the box when at most four pointers point to it. -/
theorem C79_inside (ps : List Ptr) (i : Nat) (p : Ptr) (a : Arrow) (hp : ps[i]? = some p)
    (ha : (arrows ps)[i]? = some a) (hs : Side p) (hn : 2 ≤ into ps p.dst) (h4 : into ps p.dst ≤ 4) :
    ∃ y, a.height = some y ∧ 0 ≤ y ∧ y ≤ 100 := by
  obtain ⟨x, hx, -⟩ := C79_heights ps i p a hp ha hs hn
  refine ⟨_, by rw [Arrow.height, hx], ?_⟩
  have h1 := into_take_lt ps i (i + 1) p hp (by omega)
  have h2 : into (ps.take (i + 1)) p.dst ≤ into ps p.dst := List.Sublist.countP_le (List.take_sublist _ _)
  have e1 : (into (ps.take i) p.dst : Rat) + 1 ≤ (into ps p.dst : Rat) := by exact_mod_cast Nat.le_trans h1 h2
  have e2 : (into ps p.dst : Rat) ≤ 4 := by exact_mod_cast h4
  have e3 : (0 : Rat) ≤ (into (ps.take i) p.dst : Rat) := by exact_mod_cast Nat.zero_le _
  constructor <;> grind

/-- **C79** (the code does otherwise): with more than four pointers to a box, the arrow of the first one ends above the
box. -/
theorem C79_outside (ps : List Ptr) (i : Nat) (p : Ptr) (a : Arrow) (hp : ps[i]? = some p)
    (ha : (arrows ps)[i]? = some a) (hs : Side p) (h5 : 5 ≤ into ps p.dst) (hf : into (ps.take i) p.dst = 0) :
    ∃ y, a.height = some y ∧ y < 0 := by
  obtain ⟨x, hx, -⟩ := C79_heights ps i p a hp ha hs (by omega)
  refine ⟨_, by rw [Arrow.height, hx], ?_⟩
  rw [hf]
  have e2 : (5 : Rat) ≤ (into ps p.dst : Rat) := by exact_mod_cast h5
  grind

/-- **C79** (the code does otherwise): for the only pointer to a box no height is computed, it is zero divided by
zero. -/
theorem C79_single (ps : List Ptr) (i : Nat) (p : Ptr) (a : Arrow) (hp : ps[i]? = some p)
    (ha : (arrows ps)[i]? = some a) (hs : Side p) (h1 : into ps p.dst = 1) :
    ∃ x, a.anchor = .point x none := by
  rw [arrows_get, hp] at ha
  simp only [Option.map_some, Option.some.injEq] at ha
  subst ha
  obtain ⟨g1, h2, h3⟩ := hs
  have h2' : (decide (p.src = .stack) && decide (p.tgt = .stack)) = false := by
    rw [Bool.eq_false_iff]; simpa using h2
  refine ⟨if p.tgt = .stack then 100 else 0, ?_⟩
  simp [renderPtr, g1, h3, h2', evenlySpaceAround, h1]

/-- **C79**: arrows next to each other in the document have different colours. -/
theorem C79_colors (ps : List Ptr) (i : Nat) (a b : Arrow) (ha : (arrows ps)[i]? = some a)
    (hb : (arrows ps)[i + 1]? = some b) : a.color ≠ b.color := by
  rw [arrows_get] at ha hb
  simp only [Option.map_eq_some_iff] at ha hb
  obtain ⟨p, -, rfl⟩ := ha
  obtain ⟨q, -, rfl⟩ := hb
  simp only [renderPtr, paletteSize]
  omega

/-- **C79**: exactly the arrows from the stack to the heap get a distance at which they turn, and no two arrows get the
same one. -/
theorem C79_turns (ps : List Ptr) (i j : Nat) (p q : Ptr) (a b : Arrow) (hp : ps[i]? = some p) (hq : ps[j]? = some q)
    (ha : (arrows ps)[i]? = some a) (hb : (arrows ps)[j]? = some b) :
    (a.gravity.isSome ↔ p.src = .stack ∧ p.tgt = .heap) ∧
    (a.gravity.isSome → a.gravity = b.gravity → i = j) := by
  rw [arrows_get, hp] at ha
  rw [arrows_get, hq] at hb
  simp only [Option.map_some, Option.some.injEq] at ha hb
  subst ha hb
  simp only [renderPtr]
  constructor
  · split <;> simp_all
  · intro h1 h2
    split at h2
    · split at h2
      · simp only [Option.some.injEq, Prod.mk.injEq, true_and] at h2
        omega
      · simp at h2
    · rw [if_neg (by assumption)] at h1
      simp at h1

/-- **C79** (the code does otherwise): the distance does not count the arrows from the stack to the heap but all arrows,
since the pointers are grouped by the text of an object, which is the same for all: after an arrow within the
stack, the first arrow to the heap turns at 90. -/
theorem C79_all_counted :
    (arrows [⟨0, false, false, .stack, .stack, false⟩, ⟨1, false, false, .stack, .heap, false⟩]).map Arrow.gravity =
      [none, some (60, 90)] := by
  decide +kernel

/-- **C79.** How an arrow is attached: it leaves its pointer on the left exactly when it goes from the heap to the stack;
it is faded exactly when the pointer was moved; it ends at the area below the element for a range, at the right
edge for a target on the stack and at the left edge for a target on the heap. -/
theorem C79_ends (ps : List Ptr) (i : Nat) (p : Ptr) (a : Arrow) (hp : ps[i]? = some p)
    (ha : (arrows ps)[i]? = some a) :
    (a.startLeft = true ↔ p.src = .heap ∧ p.tgt = .stack) ∧ (a.faded = true ↔ p.moved = true) ∧
    (a.anchor = .area ↔ p.ranged = true) ∧
    (∀ x y, a.anchor = .point x y → (x = 100 ∧ p.tgt = .stack) ∨ (x = 0 ∧ p.tgt = .heap)) ∧
    (a.anchor = .element ↔ p.ranged = false ∧ p.bottom = true ∧ ¬(p.src = .stack ∧ p.tgt = .stack)) := by
  rw [arrows_get, hp, Option.map_some, Option.some.injEq] at ha
  subst ha
  obtain ⟨d, r, b, src, tgt, m⟩ := p
  cases r <;> cases b <;> cases src <;> cases tgt <;> simp [renderPtr] <;> (intro x h; exact h.symm)

/-- Three pointers to one box of the heap, at 20, 50 and 80 percent. -/
example : (arrows (List.replicate 3 ⟨1, false, false, .stack, .heap, false⟩)).map Arrow.height =
    [some 20, some 50, some 80] := by
  decide +kernel

/-- A pointer from the heap, a slice and a pointer within the stack to one variable: the middle one leaves a gap. -/
example : (arrows [⟨1, false, false, .heap, .stack, false⟩, ⟨1, true, false, .stack, .stack, true⟩,
      ⟨1, false, false, .stack, .stack, false⟩]).map (fun a => (a.startLeft, a.anchor, a.faded)) =
    [(true, .point 100 (some 20), false), (false, .area, true), (false, .point 100 (some 75), false)] := by
  decide +kernel

end Verif.Frontend.Layout
