import Verif.Overlap.Spec
/-!
# C113: places conflict iff they share memory
-/
namespace Verif.Overlap
open Spec

variable {T : Type}

/-- A step into an array of `n` elements. -/
inductive ArrayElem (n : Nat) : Proj → Prop
  | index {l} : ArrayElem n (.index l)
  | const {o m} : o < n → m ≤ n → ArrayElem n (.constantIndex o m false)
  | sub {lo hi} : hi ≤ n → ArrayElem n (.subslice lo hi false)

/-- A step into a slice. -/
inductive SliceElem : Proj → Prop
  | index {l} : SliceElem (.index l)
  | const {o m} : o < m → SliceElem (.constantIndex o m false)
  | constEnd {o m} : 0 < o → o ≤ m → SliceElem (.constantIndex o m true)
  | sub {lo hi} : SliceElem (.subslice lo hi true)

/-- The first step of a typed projection, by the type. -/
inductive First (K : T → Kind T) (t : T) (e : Proj) (es : List Proj) : Prop
  | deref {s t'} : K t = .ref s t' → e = .deref → Typed K t' es → First K t e es
  | struct {f i} : K t = .struct f → e = .field i → Typed K (f i) es → First K t e es
  | union {f i} : K t = .union f → e = .field i → Typed K (f i) es → First K t e es
  | enum {f v} : K t = .enum f → e = .downcast v → Typed K (f v) es → First K t e es
  | array {n t'} : K t = .array n t' → ArrayElem n e → Typed K t' es → next K t e = t' ∨ es = [] → First K t e es
  | slice {t'} : K t = .slice t' → SliceElem e → Typed K t' es → next K t e = t' ∨ es = [] → First K t e es

theorem typed_first {K : T → Kind T} {t : T} {e : Proj} {es : List Proj} (h : Typed K t (e :: es)) : First K t e es := by
  cases h with
  | deref hk h => exact .deref hk rfl h
  | field hk h => exact .struct hk rfl h
  | union hk h => exact .union hk rfl h
  | downcast hk h => exact .enum hk rfl h
  | indexArray hk h => exact .array hk .index h (.inl (by simp [next, hk]))
  | indexSlice hk h => exact .slice hk .index h (.inl (by simp [next, hk]))
  | constArray hk h1 h2 h => exact .array hk (.const h1 h2) h (.inl (by simp [next, hk]))
  | constSlice hk h1 h => exact .slice hk (.const h1) h (.inl (by simp [next, hk]))
  | constEnd hk h1 h2 h => exact .slice hk (.constEnd h1 h2) h (.inl (by simp [next, hk]))
  | subArray hk h => exact .array hk (.sub h) .nil (.inr rfl)
  | subSlice hk => exact .slice hk .sub .nil (.inr rfl)

theorem array_elems {n : Nat} {e f : Proj} (he : ArrayElem n e) (hf : ArrayElem n f) :
    ∃ b, compareElems e f = some (.when b) ∧ ((∃ k, Selects n e k ∧ Selects n f k) → b = true) := by
  cases he <;> cases hf <;> refine ⟨_, by first | rfl | exact (rfl : some (Overlap.when true) = _), ?_⟩ <;>
    rintro ⟨k, h1, h2⟩ <;> simp only [Selects] at h1 h2 <;> simp <;> omega

theorem slice_elems {e f : Proj} (he : SliceElem e) (hf : SliceElem f) :
    ∃ b, compareElems e f = some (.when b) ∧ ((∃ n k, Selects n e k ∧ Selects n f k) → b = true) := by
  cases he <;> cases hf <;> refine ⟨_, by first | rfl | exact (rfl : some (Overlap.when true) = _), ?_⟩ <;>
    rintro ⟨n, k, h1, h2⟩ <;> simp only [Selects] at h1 h2 <;> simp <;> omega

theorem when_eq {b : Bool} : Overlap.when b = .equalOrDisjoint ↔ b = true := by cases b <;> simp [Overlap.when]

theorem array_meet {n : Nat} {e f : Proj} (he : ArrayElem n e) (hf : ArrayElem n f)
    (h : compareElems e f = some .equalOrDisjoint) (hne : ∀ l, e = .index l ∨ f = .index l → 0 < n)
    (hse : ∀ lo hi b, e = .subslice lo hi b → lo < hi) (hsf : ∀ lo hi b, f = .subslice lo hi b → lo < hi) :
    ∃ k, Selects n e k ∧ Selects n f k := by
  cases he with
  | @index l =>
    have h0 := hne l (.inl rfl)
    cases hf with
    | index => exact ⟨0, h0, h0⟩
    | @const o m h1 h2 => exact ⟨o, h1, h2, rfl, h1⟩
    | @sub lo hi h1 => have := hsf lo hi _ rfl; exact ⟨lo, by simp only [Selects]; omega, by simp only [Selects]; omega⟩
  | @const o m h1 h2 =>
    cases hf with
    | index => exact ⟨o, ⟨h2, rfl, h1⟩, h1⟩
    | @const o' m' h1' h2' =>
      simp only [compareElems, Option.some.injEq, when_eq, beq_iff_eq] at h
      exact ⟨o, ⟨h2, rfl, h1⟩, h2', h, h1⟩
    | @sub lo hi h3 =>
      simp only [compareElems, Option.some.injEq, when_eq, Bool.and_eq_true, decide_eq_true_eq] at h
      exact ⟨o, ⟨h2, rfl, h1⟩, h.1, h.2, h3⟩
  | @sub lo hi h1 =>
    have := hse lo hi _ rfl
    cases hf with
    | index => exact ⟨lo, by simp only [Selects]; omega, by simp only [Selects]; omega⟩
    | @const o m h3 h4 =>
      simp only [compareElems, Option.some.injEq, when_eq, Bool.and_eq_true, decide_eq_true_eq] at h
      exact ⟨o, ⟨h.1, h.2, h1⟩, h4, rfl, h3⟩
    | @sub lo' hi' h3 =>
      have := hsf lo' hi' _ rfl
      simp only [compareElems, Option.some.injEq, when_eq, Bool.not_eq_true', Bool.or_eq_false_iff,
        decide_eq_false_iff_not] at h
      exact ⟨max lo lo', by simp only [Selects]; omega, by simp only [Selects]; omega⟩

theorem slice_meet {e f : Proj} (he : SliceElem e) (hf : SliceElem f) (h : compareElems e f = some .equalOrDisjoint) :
    ∃ n k, Selects n e k ∧ Selects n f k := by
  cases he with
  | index =>
    cases hf with
    | index => exact ⟨1, 0, by simp [Selects], by simp [Selects]⟩
    | @const o m h1 => exact ⟨m, o, h1, Nat.le_refl _, rfl, h1⟩
    | @constEnd o m h1 h2 => exact ⟨m, m - o, by simp only [Selects]; grind, by simp only [Selects]; grind⟩
    | @sub lo hi => exact ⟨lo + hi + 1, lo, by simp only [Selects]; grind, by simp only [Selects]; grind⟩
  | @const o m h1 =>
    cases hf with
    | index => exact ⟨m, o, ⟨Nat.le_refl _, rfl, h1⟩, h1⟩
    | @const o' m' h1' =>
      simp only [compareElems, Option.some.injEq, when_eq, beq_iff_eq] at h
      exact ⟨max m m', o, by simp only [Selects]; grind, by simp only [Selects]; grind⟩
    | @constEnd o' m' h1' h2' =>
      simp only [compareElems, Option.some.injEq, when_eq, decide_eq_true_eq] at h
      exact ⟨o + o', o, by simp only [Selects]; grind, by simp only [Selects]; grind⟩
    | @sub lo hi =>
      simp only [compareElems, Option.some.injEq, when_eq, decide_eq_true_eq] at h
      exact ⟨max m (o + hi + 1), o, by simp only [Selects]; grind, by simp only [Selects]; grind⟩
  | @constEnd o m h1 h2 =>
    cases hf with
    | index => exact ⟨m, m - o, by simp only [Selects]; grind, by simp only [Selects]; grind⟩
    | @const o' m' h1' =>
      simp only [compareElems, Option.some.injEq, when_eq, decide_eq_true_eq] at h
      exact ⟨o + o', o', by simp only [Selects]; grind, by simp only [Selects]; grind⟩
    | @constEnd o' m' h1' h2' =>
      simp only [compareElems, Option.some.injEq, when_eq, beq_iff_eq] at h
      exact ⟨max m m', max m m' - o, by simp only [Selects]; grind, by simp only [Selects]; grind⟩
    | @sub lo hi =>
      simp only [compareElems, Option.some.injEq, when_eq, decide_eq_true_eq] at h
      exact ⟨max m (lo + o), max m (lo + o) - o, by simp only [Selects]; grind, by simp only [Selects]; grind⟩
  | @sub lo hi =>
    cases hf with
    | index => exact ⟨lo + hi + 1, lo, by simp only [Selects]; grind, by simp only [Selects]; grind⟩
    | @const o m h1 =>
      simp only [compareElems, Option.some.injEq, when_eq, decide_eq_true_eq] at h
      exact ⟨max m (o + hi + 1), o, by simp only [Selects]; grind, by simp only [Selects]; grind⟩
    | @constEnd o m h1 h2 =>
      simp only [compareElems, Option.some.injEq, when_eq, decide_eq_true_eq] at h
      exact ⟨max m (lo + o), max m (lo + o) - o, by simp only [Selects]; grind, by simp only [Selects]; grind⟩
    | @sub lo' hi' =>
      exact ⟨lo + lo' + hi + hi' + 1, max lo lo', by simp only [Selects]; grind, by simp only [Selects]; grind⟩

theorem array_compare {K : T → Kind T} {t : T} {n : Nat} {e f : Proj} (he : ArrayElem n e) : compare K t e f = compareElems e f := by
  cases he <;> rfl

theorem slice_compare {K : T → Kind T} {t : T} {e f : Proj} (he : SliceElem e) : compare K t e f = compareElems e f := by
  cases he <;> rfl

theorem remainder_tracked {K : T → Kind T} {p : List Proj} {t : T} (h : Tracked K t p) : remainder K t p = some true := by
  induction p generalizing t with
  | nil => rfl
  | cons e es ih =>
    obtain ⟨h1, h2⟩ := h
    unfold remainder
    split
    · exact absurd ⟨rfl, _, by assumption⟩ h1
    · exact ih h2

theorem total_from {K : T → Kind T} {p q : List Proj} {t : T} (hp : Typed K t p) (hq : Typed K t q) (hr : Tracked K t p) :
    ∃ b, conflictFrom K t p q = some b := by
  induction p generalizing t q with
  | nil => exact ⟨true, by cases q <;> rfl⟩
  | cons b bs ih =>
    cases q with
    | nil => exact ⟨true, remainder_tracked hr⟩
    | cons a as =>
      have hnext : ∀ t', Typed K t' bs → Typed K t' as → next K t b = t' ∨ bs = [] →
          ∃ x, conflictFrom K (next K t b) bs as = some x := by
        rintro t' h1 h2 (rfl | rfl)
        · exact ih h1 h2 hr.2
        · exact ⟨true, by cases as <;> rfl⟩
      have hfin : ∀ t' x, Typed K t' bs → Typed K t' as → next K t b = t' ∨ bs = [] →
          compare K t b a = some (.when x) → ∃ x, conflictFrom K t (b :: bs) (a :: as) = some x := by
        intro t' x h1 h2 h3 h4
        simp only [conflictFrom, h4]
        cases x
        · exact ⟨false, rfl⟩
        · exact hnext t' h1 h2 h3
      cases typed_first hp with
      | @deref s t' hk he h =>
        subst he
        cases typed_first hq with
        | deref hk' he' h' =>
          subst he'
          rw [hk] at hk'; injection hk' with _ h5; subst h5
          exact hnext _ h h' (.inl (by simp [next, hk]))
        | _ => simp_all
      | @struct f i hk he h =>
        subst he
        cases typed_first hq with
        | @struct f' j hk' he' h' =>
          subst he'
          rw [hk] at hk'; injection hk' with h5; subst h5
          by_cases hij : i = j
          · subst hij
            simp only [conflictFrom, compare, if_pos]
            exact hnext _ h h' (.inl (by simp [next, hk]))
          · simp only [conflictFrom, compare, if_neg hij, hk]
            exact ⟨_, rfl⟩
        | _ => simp_all
      | @union f i hk he h =>
        subst he
        cases typed_first hq with
        | @union f' j hk' he' h' =>
          subst he'
          rw [hk] at hk'; injection hk' with h5; subst h5
          by_cases hij : i = j
          · subst hij
            simp only [conflictFrom, compare, if_pos]
            exact hnext _ h h' (.inl (by simp [next, hk]))
          · simp only [conflictFrom, compare, if_neg hij, hk]
            exact ⟨_, rfl⟩
        | _ => simp_all
      | @enum f i hk he h =>
        subst he
        cases typed_first hq with
        | @enum f' j hk' he' h' =>
          subst he'
          rw [hk] at hk'; injection hk' with h5; subst h5
          by_cases hij : i = j
          · subst hij
            simp only [conflictFrom, compare, if_pos]
            exact hnext _ h h' (.inl (by simp [next, hk]))
          · simp only [conflictFrom, compare, if_neg hij, hk]
            exact ⟨_, rfl⟩
        | _ => simp_all
      | @array n t' hk he h hn =>
        cases typed_first hq with
        | array hk' he' h' =>
          rw [hk] at hk'; injection hk' with h4 h5; subst h4; subst h5
          obtain ⟨x, hx, -⟩ := array_elems he he'
          exact hfin _ x h h' hn (by rw [array_compare he, hx])
        | _ => simp_all
      | @slice t' hk he h hn =>
        cases typed_first hq with
        | slice hk' he' h' =>
          rw [hk] at hk'; injection hk' with h5; subst h5
          obtain ⟨x, hx, -⟩ := slice_elems he he'
          exact hfin _ x h h' hn (by rw [slice_compare he, hx])
        | _ => simp_all

theorem alias_deref {K : T → Kind T} {t t' : T} {s : Bool} {c d : List Step} (hk : K t = .ref s t')
    (h : Alias K t (.deref :: c) (.deref :: d)) : Alias K t' c d := by
  cases h with
  | same => exact .same
  | deref hk' h => rw [hk] at hk'; injection hk' with _ h1; subst h1; exact h

theorem alias_struct {K : T → Kind T} {t : T} {f : Nat → T} {i j : Nat} {c d : List Step} (hk : K t = .struct f)
    (h : Alias K t (.field i :: c) (.field j :: d)) : i = j ∧ Alias K (f i) c d := by
  cases h with
  | same => exact ⟨rfl, .same⟩
  | union hk' => simp_all
  | field hk' h => rw [hk] at hk'; injection hk' with h1; subst h1; exact ⟨rfl, h⟩
  | ufield hk' => simp_all

theorem alias_union {K : T → Kind T} {t : T} {f : Nat → T} {i : Nat} {c d : List Step} (hk : K t = .union f)
    (h : Alias K t (.field i :: c) (.field i :: d)) : Alias K (f i) c d := by
  cases h with
  | same => exact .same
  | union _ hne => exact absurd rfl hne
  | field hk' => simp_all
  | ufield hk' h => rw [hk] at hk'; injection hk' with h1; subst h1; exact h

theorem alias_enum {K : T → Kind T} {t : T} {f : Nat → T} {i j : Nat} {c d : List Step} (hk : K t = .enum f)
    (h : Alias K t (.variant i :: c) (.variant j :: d)) : i = j ∧ Alias K (f i) c d := by
  cases h with
  | same => exact ⟨rfl, .same⟩
  | variant hk' h => rw [hk] at hk'; injection hk' with h1; subst h1; exact ⟨rfl, h⟩

theorem alias_array {K : T → Kind T} {t t' : T} {n : Nat} {i j : Nat} {c d : List Step} (hk : K t = .array n t')
    (h : Alias K t (.elem i :: c) (.elem j :: d)) : i = j ∧ Alias K t' c d := by
  cases h with
  | same => exact ⟨rfl, .same⟩
  | array hk' h => rw [hk] at hk'; injection hk' with _ h1; subst h1; exact ⟨rfl, h⟩
  | slice hk' => simp_all

theorem alias_slice {K : T → Kind T} {t t' : T} {i j : Nat} {c d : List Step} (hk : K t = .slice t')
    (h : Alias K t (.elem i :: c) (.elem j :: d)) : i = j ∧ Alias K t' c d := by
  cases h with
  | same => exact ⟨rfl, .same⟩
  | array hk' => simp_all
  | slice hk' h => rw [hk] at hk'; injection hk' with h1; subst h1; exact ⟨rfl, h⟩

theorem in_deref {K : T → Kind T} {len : List Step → Nat} {t t' : T} {s : Bool} {es : List Proj} {c : List Step}
    (hk : K t = .ref s t') (h : In K len t (.deref :: es) c) :
    ∃ c', c = .deref :: c' ∧ In K (fun q => len (.deref :: q)) t' es c' := by
  cases h with
  | deref hk' h => rw [hk] at hk'; injection hk' with _ h1; subst h1; exact ⟨_, rfl, h⟩
  | array hk' => simp_all
  | slice hk' => simp_all

theorem in_struct {K : T → Kind T} {len : List Step → Nat} {t : T} {f : Nat → T} {i : Nat} {es : List Proj} {c : List Step}
    (hk : K t = .struct f ∨ K t = .union f) (h : In K len t (.field i :: es) c) :
    ∃ c', c = .field i :: c' ∧ In K (fun q => len (.field i :: q)) (f i) es c' := by
  cases h with
  | field hk' h =>
    rcases hk with hk | hk
    · rw [hk] at hk'; injection hk' with h1; subst h1; exact ⟨_, rfl, h⟩
    · simp_all
  | union hk' h =>
    rcases hk with hk | hk
    · simp_all
    · rw [hk] at hk'; injection hk' with h1; subst h1; exact ⟨_, rfl, h⟩
  | array hk' => rcases hk with hk | hk <;> simp_all
  | slice hk' => rcases hk with hk | hk <;> simp_all

theorem in_enum {K : T → Kind T} {len : List Step → Nat} {t : T} {f : Nat → T} {i : Nat} {es : List Proj} {c : List Step}
    (hk : K t = .enum f) (h : In K len t (.downcast i :: es) c) :
    ∃ c', c = .variant i :: c' ∧ In K (fun q => len (.variant i :: q)) (f i) es c' := by
  cases h with
  | variant hk' h => rw [hk] at hk'; injection hk' with h1; subst h1; exact ⟨_, rfl, h⟩
  | array hk' => simp_all
  | slice hk' => simp_all

theorem in_array {K : T → Kind T} {len : List Step → Nat} {t t' : T} {n : Nat} {e : Proj} {es : List Proj} {c : List Step}
    (hk : K t = .array n t') (h : In K len t (e :: es) c) :
    ∃ k c', c = .elem k :: c' ∧ Selects n e k ∧ In K (fun q => len (.elem k :: q)) t' es c' := by
  cases h with
  | array hk' hs h => rw [hk] at hk'; injection hk' with h1 h2; subst h1; subst h2; exact ⟨_, _, rfl, hs, h⟩
  | _ => simp_all

theorem in_slice {K : T → Kind T} {len : List Step → Nat} {t t' : T} {e : Proj} {es : List Proj} {c : List Step}
    (hk : K t = .slice t') (h : In K len t (e :: es) c) :
    ∃ k c', c = .elem k :: c' ∧ Selects (len []) e k ∧ In K (fun q => len (.elem k :: q)) t' es c' := by
  cases h with
  | slice hk' hs h => rw [hk] at hk'; injection hk' with h2; subst h2; exact ⟨_, _, rfl, hs, h⟩
  | _ => simp_all

theorem sound_from {K : T → Kind T} {p q : List Proj} {t : T} (hp : Typed K t p) (hq : Typed K t q) (hr : Tracked K t p)
    (hs : Share K t p q) : conflictFrom K t p q = some true := by
  induction p generalizing t q with
  | nil => cases q <;> rfl
  | cons b bs ih =>
    cases q with
    | nil => exact remainder_tracked hr
    | cons a as =>
      obtain ⟨len, c, d, hc, hd, ha⟩ := hs
      have hnext : ∀ t' len' c' d', Typed K t' bs → Typed K t' as → next K t b = t' ∨ bs = [] → In K len' t' bs c' →
          In K len' t' as d' → Alias K t' c' d' → conflictFrom K (next K t b) bs as = some true := by
        rintro t' len' c' d' h1 h2 (rfl | rfl) h3 h4 h5
        · exact ih h1 h2 hr.2 ⟨_, _, _, h3, h4, h5⟩
        · cases as <;> rfl
      cases typed_first hp with
      | @deref s t' hk he h =>
        subst he
        cases typed_first hq with
        | deref hk' he' h' =>
          subst he'
          rw [hk] at hk'; injection hk' with _ h5; subst h5
          obtain ⟨c', rfl, hc'⟩ := in_deref hk hc
          obtain ⟨d', rfl, hd'⟩ := in_deref hk hd
          exact hnext _ _ _ _ h h' (.inl (by simp [next, hk])) hc' hd' (alias_deref hk ha)
        | _ => simp_all
      | @struct f i hk he h =>
        subst he
        cases typed_first hq with
        | @struct f' j hk' he' h' =>
          subst he'
          rw [hk] at hk'; injection hk' with h5; subst h5
          obtain ⟨c', rfl, hc'⟩ := in_struct (.inl hk) hc
          obtain ⟨d', rfl, hd'⟩ := in_struct (.inl hk) hd
          obtain ⟨rfl, ha'⟩ := alias_struct hk ha
          simp only [conflictFrom, compare, if_pos]
          exact hnext _ _ _ _ h h' (.inl (by simp [next, hk])) hc' hd' ha'
        | _ => simp_all
      | @union f i hk he h =>
        subst he
        cases typed_first hq with
        | @union f' j hk' he' h' =>
          subst he'
          rw [hk] at hk'; injection hk' with h5; subst h5
          by_cases hij : i = j
          · subst hij
            obtain ⟨c', rfl, hc'⟩ := in_struct (.inr hk) hc
            obtain ⟨d', rfl, hd'⟩ := in_struct (.inr hk) hd
            simp only [conflictFrom, compare, if_pos]
            exact hnext _ _ _ _ h h' (.inl (by simp [next, hk])) hc' hd' (alias_union hk ha)
          · simp only [conflictFrom, compare, if_neg hij, hk]
        | _ => simp_all
      | @enum f i hk he h =>
        subst he
        cases typed_first hq with
        | @enum f' j hk' he' h' =>
          subst he'
          rw [hk] at hk'; injection hk' with h5; subst h5
          obtain ⟨c', rfl, hc'⟩ := in_enum hk hc
          obtain ⟨d', rfl, hd'⟩ := in_enum hk hd
          obtain ⟨rfl, ha'⟩ := alias_enum hk ha
          simp only [conflictFrom, compare, if_pos]
          exact hnext _ _ _ _ h h' (.inl (by simp [next, hk])) hc' hd' ha'
        | _ => simp_all
      | @array n t' hk he h hn =>
        cases typed_first hq with
        | array hk' he' h' =>
          rw [hk] at hk'; injection hk' with h4 h5; subst h4; subst h5
          obtain ⟨k, c', rfl, hs1, hc'⟩ := in_array hk hc
          obtain ⟨k', d', rfl, hs2, hd'⟩ := in_array hk hd
          obtain ⟨rfl, ha'⟩ := alias_array hk ha
          obtain ⟨x, hx, hx'⟩ := array_elems he he'
          rw [hx' ⟨k, hs1, hs2⟩] at hx
          simp only [conflictFrom, array_compare he, hx]
          exact hnext _ _ _ _ h h' hn hc' hd' ha'
        | _ => simp_all
      | @slice t' hk he h hn =>
        cases typed_first hq with
        | slice hk' he' h' =>
          rw [hk] at hk'; injection hk' with h5; subst h5
          obtain ⟨k, c', rfl, hs1, hc'⟩ := in_slice hk hc
          obtain ⟨k', d', rfl, hs2, hd'⟩ := in_slice hk hd
          obtain ⟨rfl, ha'⟩ := alias_slice hk ha
          obtain ⟨x, hx, hx'⟩ := slice_elems he he'
          rw [hx' ⟨_, k, hs1, hs2⟩] at hx
          simp only [conflictFrom, slice_compare he, hx]
          exact hnext _ _ _ _ h h' hn hc' hd' ha'
        | _ => simp_all

/-- The lengths at a slice and below its parts. -/
def lens (n : Nat) (sub : Step → List Step → Nat) : List Step → Nat
  | [] => n
  | s :: q => sub s q

theorem index_selective {K : T → Kind T} {t t' : T} {n : Nat} (hk : K t = .array n t') {e : Proj} (h : Selective K t e) {l : Nat}
    (he : e = .index l) : 0 < n := by
  subst he; exact h n t' hk

theorem sub_selective {K : T → Kind T} {t : T} {n : Nat} {e : Proj} (h : Selective K t e) (hn : ArrayElem n e) {lo hi : Nat} {b : Bool}
    (he : e = .subslice lo hi b) : lo < hi := by
  subst he
  cases hn with
  | sub => exact h

/-- A place whose steps select something contains a cell. -/
theorem filled_cell {K : T → Kind T} {p : List Proj} {t : T} (hp : Typed K t p) (hf : Filled K t p) : ∃ len c, In K len t p c := by
  induction p generalizing t with
  | nil => exact ⟨fun _ => 0, [], .rest⟩
  | cons e es ih =>
    obtain ⟨h1, h2⟩ := hf
    cases typed_first hp with
    | @deref s t' hk he h =>
      subst he
      simp only [next, hk] at h2
      obtain ⟨len, c, hc⟩ := ih h h2
      exact ⟨lens 0 fun _ => len, .deref :: c, .deref hk hc⟩
    | @struct f i hk he h =>
      subst he
      simp only [next, hk] at h2
      obtain ⟨len, c, hc⟩ := ih h h2
      exact ⟨lens 0 fun _ => len, .field i :: c, .field hk hc⟩
    | @union f i hk he h =>
      subst he
      simp only [next, hk] at h2
      obtain ⟨len, c, hc⟩ := ih h h2
      exact ⟨lens 0 fun _ => len, .field i :: c, .union hk hc⟩
    | @enum f i hk he h =>
      subst he
      simp only [next, hk] at h2
      obtain ⟨len, c, hc⟩ := ih h h2
      exact ⟨lens 0 fun _ => len, .variant i :: c, .variant hk hc⟩
    | @array n t' hk he h hn =>
      have hsub : ∃ len c, In K len t' es c := by
        rcases hn with rfl | rfl
        · exact ih h h2
        · exact ⟨fun _ => 0, [], .rest⟩
      obtain ⟨len, c, hc⟩ := hsub
      have hsel : ∃ k, Selects n e k := by
        cases he with
        | index => exact ⟨0, h1 n t' hk⟩
        | @const o m h3 h4 => exact ⟨o, h4, rfl, h3⟩
        | @sub lo hi h3 => exact ⟨lo, Nat.le_refl _, h1, h3⟩
      obtain ⟨k, hsel⟩ := hsel
      exact ⟨lens 0 fun _ => len, .elem k :: c, .array hk hsel hc⟩
    | @slice t' hk he h hn =>
      have hsub : ∃ len c, In K len t' es c := by
        rcases hn with rfl | rfl
        · exact ih h h2
        · exact ⟨fun _ => 0, [], .rest⟩
      obtain ⟨len, c, hc⟩ := hsub
      have hsel : ∃ n k, Selects n e k := by
        cases he with
        | index => exact ⟨1, 0, Nat.zero_lt_one⟩
        | @const o m h3 => exact ⟨m, o, Nat.le_refl _, rfl, h3⟩
        | @constEnd o m h3 h4 => exact ⟨m, m - o, Nat.le_refl _, by omega, by omega⟩
        | @sub lo hi => exact ⟨lo + hi + 1, lo, Nat.le_refl _, by omega⟩
      obtain ⟨n, k, hsel⟩ := hsel
      exact ⟨lens n fun _ => len, .elem k :: c, .slice hk hsel hc⟩

theorem complete_from {K : T → Kind T} {p q : List Proj} {t : T} (hp : Typed K t p) (hq : Typed K t q) (hfp : Filled K t p)
    (hfq : Filled K t q) (h : conflictFrom K t p q = some true) : Share K t p q := by
  induction p generalizing t q with
  | nil => obtain ⟨len, c, hc⟩ := filled_cell hq hfq; exact ⟨len, c, c, .rest, hc, .same⟩
  | cons b bs ih =>
    cases q with
    | nil => obtain ⟨len, c, hc⟩ := filled_cell hp hfp; exact ⟨len, c, c, hc, .rest, .same⟩
    | cons a as =>
      have hnext : ∀ t', Typed K t' bs → Typed K t' as → (next K t b = t' ∨ bs = []) → (next K t a = t' ∨ as = []) →
          conflictFrom K (next K t b) bs as = some true → Share K t' bs as := by
        intro t' h1 h2 h3 h4 h5
        have hb : Filled K t' bs := by
          rcases h3 with rfl | rfl
          · exact hfp.2
          · trivial
        have ha : Filled K t' as := by
          rcases h4 with rfl | rfl
          · exact hfq.2
          · trivial
        refine ih h1 h2 hb ha ?_
        rcases h3 with rfl | rfl
        · exact h5
        · cases as <;> rfl
      cases typed_first hp with
      | @deref s t' hk he hb =>
        subst he
        cases typed_first hq with
        | deref hk' he' ha =>
          subst he'
          rw [hk] at hk'; injection hk' with _ h5; subst h5
          obtain ⟨len, c, d, h1, h2, h3⟩ := hnext _ hb ha (.inl (by simp [next, hk])) (.inl (by simp [next, hk])) h
          exact ⟨lens 0 fun _ => len, _, _, .deref hk h1, .deref hk h2, .deref hk h3⟩
        | _ => simp_all
      | @struct f i hk he hb =>
        subst he
        cases typed_first hq with
        | @struct f' j hk' he' ha =>
          subst he'
          rw [hk] at hk'; injection hk' with h5; subst h5
          by_cases hij : i = j
          · subst hij
            simp only [conflictFrom, compare, if_pos] at h
            obtain ⟨len, c, d, h1, h2, h3⟩ := hnext _ hb ha (.inl (by simp [next, hk])) (.inl (by simp [next, hk])) h
            exact ⟨lens 0 fun _ => len, _, _, .field hk h1, .field hk h2, .field hk h3⟩
          · simp [conflictFrom, compare, if_neg hij, hk] at h
        | _ => simp_all
      | @union f i hk he hb =>
        subst he
        cases typed_first hq with
        | @union f' j hk' he' ha =>
          subst he'
          rw [hk] at hk'; injection hk' with h5; subst h5
          by_cases hij : i = j
          · subst hij
            simp only [conflictFrom, compare, if_pos] at h
            obtain ⟨len, c, d, h1, h2, h3⟩ := hnext _ hb ha (.inl (by simp [next, hk])) (.inl (by simp [next, hk])) h
            exact ⟨lens 0 fun _ => len, _, _, .union hk h1, .union hk h2, .ufield hk h3⟩
          · have hfp' := hfp.2
            have hfq' := hfq.2
            simp only [next, hk] at hfp' hfq'
            obtain ⟨len1, c, h1⟩ := filled_cell hb hfp'
            obtain ⟨len2, d, h2⟩ := filled_cell ha hfq'
            refine ⟨lens 0 fun s => if s = .field i then len1 else len2, .field i :: c, .field j :: d, .union hk ?_, .union hk ?_,
              .union hk hij⟩
            · simpa [lens] using h1
            · have : j ≠ i := fun h => hij h.symm
              simpa [lens, this] using h2
        | _ => simp_all
      | @enum f i hk he hb =>
        subst he
        cases typed_first hq with
        | @enum f' j hk' he' ha =>
          subst he'
          rw [hk] at hk'; injection hk' with h5; subst h5
          by_cases hij : i = j
          · subst hij
            simp only [conflictFrom, compare, if_pos] at h
            obtain ⟨len, c, d, h1, h2, h3⟩ := hnext _ hb ha (.inl (by simp [next, hk])) (.inl (by simp [next, hk])) h
            exact ⟨lens 0 fun _ => len, _, _, .variant hk h1, .variant hk h2, .variant hk h3⟩
          · simp [conflictFrom, compare, if_neg hij, hk] at h
        | _ => simp_all
      | @array n t' hk he hb hn =>
        cases typed_first hq with
        | array hk' he' ha hn' =>
          rw [hk] at hk'; injection hk' with h4 h5; subst h4; subst h5
          obtain ⟨x, hx, -⟩ := array_elems he he'
          simp only [conflictFrom, array_compare he, hx] at h
          cases x with
          | false => simp [Overlap.when] at h
          | true =>
            obtain ⟨k, hs1, hs2⟩ := array_meet he he' hx
              (fun l hl => hl.elim (index_selective hk hfp.1) (index_selective hk hfq.1))
              (fun _ _ _ h => sub_selective hfp.1 he h) (fun _ _ _ h => sub_selective hfq.1 he' h)
            obtain ⟨len, c, d, h1, h2, h3⟩ := hnext _ hb ha hn hn' h
            exact ⟨lens 0 fun _ => len, _, _, .array hk hs1 h1, .array hk hs2 h2, .array hk h3⟩
        | _ => simp_all
      | @slice t' hk he hb hn =>
        cases typed_first hq with
        | slice hk' he' ha hn' =>
          rw [hk] at hk'; injection hk' with h5; subst h5
          obtain ⟨x, hx, -⟩ := slice_elems he he'
          simp only [conflictFrom, slice_compare he, hx] at h
          cases x with
          | false => simp [Overlap.when] at h
          | true =>
            obtain ⟨n, k, hs1, hs2⟩ := slice_meet he he' hx
            obtain ⟨len, c, d, h1, h2, h3⟩ := hnext _ hb ha hn hn' h
            exact ⟨lens n fun _ => len, _, _, .slice hk hs1 h1, .slice hk hs2 h2, .slice hk h3⟩
        | _ => simp_all

/-! ## The theorems -/

/-- **C113 (answers).** On well-typed places of which the borrowed one is not behind a shared reference, the comparison does
not panic. -/
theorem C113_total {D : Decls T} {b a : Place} (hb : TypedPlace D b) (ha : TypedPlace D a) (ht : TrackedPlace D b) :
    ∃ x, placesConflict D b a = some x := by
  unfold placesConflict
  split
  · rename_i h
    unfold TypedPlace at ha
    rw [← h] at ha
    exact total_from hb ha ht
  · exact ⟨false, rfl⟩

/-- **C113 (nothing is missed).** Places that may share memory conflict. -/
theorem C113_never_misses {D : Decls T} {b a : Place} (hb : TypedPlace D b) (ha : TypedPlace D a) (ht : TrackedPlace D b)
    (hs : Shares D b a) : placesConflict D b a = some true := by
  unfold placesConflict
  obtain ⟨h, hs⟩ := hs
  rw [if_pos h]
  unfold TypedPlace at ha
  rw [← h] at ha
  exact sound_from hb ha ht hs

/-- **C113.** Two places conflict iff they may share memory, except for elements of empty arrays. -/
theorem C113_shares_memory_partial {D : Decls T} {b a : Place} (hb : TypedPlace D b) (ha : TypedPlace D a) (ht : TrackedPlace D b)
    (hfb : FilledPlace D b) (hfa : FilledPlace D a) : placesConflict D b a = some true ↔ Shares D b a := by
  refine ⟨fun h => ?_, C113_never_misses hb ha ht⟩
  unfold placesConflict at h
  split at h
  · rename_i hl
    unfold TypedPlace at ha
    unfold FilledPlace at hfa
    rw [← hl] at ha hfa
    exact ⟨hl, complete_from hb ha hfb hfa h⟩
  · simp at h

/-- **C113 (order).** Which of the two is borrowed does not matter. -/
theorem C113_symmetric {D : Decls T} {b a : Place} (hb : TypedPlace D b) (ha : TypedPlace D a) (htb : TrackedPlace D b)
    (hta : TrackedPlace D a) (hfb : FilledPlace D b) (hfa : FilledPlace D a) :
    placesConflict D b a = placesConflict D a b := by
  have hsym : ∀ {K : T → Kind T} {t : T} {c d : List Step}, Alias K t c d → Alias K t d c := by
    intro K t c d h
    induction h with
    | same => exact .same
    | union h1 h2 => exact .union h1 (fun h => h2 h.symm)
    | deref h1 _ ih => exact .deref h1 ih
    | field h1 _ ih => exact .field h1 ih
    | ufield h1 _ ih => exact .ufield h1 ih
    | variant h1 _ ih => exact .variant h1 ih
    | array h1 _ ih => exact .array h1 ih
    | slice h1 _ ih => exact .slice h1 ih
  have hshare : ∀ {b a : Place}, Shares D b a → Shares D a b := by
    rintro b a ⟨h, len, c, d, h1, h2, h3⟩
    rw [h] at h1 h2 h3
    exact ⟨h.symm, len, d, c, h2, h1, hsym h3⟩
  obtain ⟨x, hx⟩ := C113_total hb ha htb
  obtain ⟨y, hy⟩ := C113_total ha hb hta
  have h1 := C113_shares_memory_partial hb ha htb hfb hfa
  have h2 := C113_shares_memory_partial ha hb hta hfa hfb
  rw [hx] at h1 ⊢
  rw [hy] at h2 ⊢
  cases x <;> cases y <;> simp_all

theorem in_prefix {K : T → Kind T} {es : List Proj} {p : List Proj} {len : List Step → Nat} {t : T} {c : List Step}
    (h : In K len t (p ++ es) c) : In K len t p c := by
  induction p generalizing len t c with
  | nil => exact .rest
  | cons e p ih =>
    cases h with
    | deref hk h => exact .deref hk (ih h)
    | field hk h => exact .field hk (ih h)
    | union hk h => exact .union hk (ih h)
    | variant hk h => exact .variant hk (ih h)
    | array hk hs h => exact .array hk hs (ih h)
    | slice hk hs h => exact .slice hk hs (ih h)

/-- **C113 (parts and wholes).** A loan of a place conflicts with each place that it is a part of, and with each of its
parts. -/
theorem C113_parts {D : Decls T} {l : Nat} {p es : List Proj} (ht : TrackedPlace D ⟨l, p ++ es⟩) (hp : TypedPlace D ⟨l, p⟩)
    (hb : TypedPlace D ⟨l, p ++ es⟩) (hf : FilledPlace D ⟨l, p ++ es⟩) :
    placesConflict D ⟨l, p⟩ ⟨l, p ++ es⟩ = some true ∧ placesConflict D ⟨l, p ++ es⟩ ⟨l, p⟩ = some true := by
  obtain ⟨len, c, hc⟩ := filled_cell hb hf
  have htp : ∀ (p : List Proj) t, Tracked D.kind t (p ++ es) → Tracked D.kind t p := by
    intro p
    induction p with
    | nil => intro t _; trivial
    | cons e p ih => intro t h; exact ⟨h.1, ih _ h.2⟩
  exact ⟨C113_never_misses hp hb (htp p _ ht) ⟨rfl, len, c, c, in_prefix hc, hc, .same⟩,
    C113_never_misses hb hp ht ⟨rfl, len, c, c, hc, in_prefix hc, .same⟩⟩

/-- **C113 (siblings).** Loans of different fields of a struct, or of parts of them, do not conflict. -/
theorem C113_siblings {D : Decls T} {l i j : Nat} {p es fs : List Proj} (hne : i ≠ j)
    (hb : TypedPlace D ⟨l, p ++ .field i :: es⟩) (ha : TypedPlace D ⟨l, p ++ .field j :: fs⟩)
    (ht : TrackedPlace D ⟨l, p ++ .field i :: es⟩)
    (hs : ∃ f, D.kind (p.foldl (next D.kind) (D.ty l)) = .struct f) :
    placesConflict D ⟨l, p ++ .field i :: es⟩ ⟨l, p ++ .field j :: fs⟩ = some false := by
  obtain ⟨f, hs⟩ := hs
  simp only [placesConflict, if_pos]
  have key : ∀ (p : List Proj) t, D.kind (p.foldl (next D.kind) t) = .struct f → ∀ x,
      conflictFrom D.kind t (p ++ .field i :: es) (p ++ .field j :: fs) = some x → x = false := by
    intro p
    induction p with
    | nil =>
      intro t h x hx
      simp only [List.foldl_nil] at h
      simp [conflictFrom, compare, hne, h] at hx
      exact hx
    | cons e p ih =>
      intro t h x hx
      simp only [List.cons_append, conflictFrom] at hx
      split at hx
      · simp at hx
      · rename_i hc
        exfalso
        cases e with
        | constantIndex o m b => cases b <;> simp [compare, compareElems, Overlap.when] at hc
        | subslice lo hi b =>
          cases b
          · simp only [compare, compareElems, Overlap.when, Option.some.injEq] at hc
            split at hc <;> simp at hc
          · simp [compare, compareElems] at hc
        | _ => simp [compare, compareElems] at hc
      · simpa using hx.symm
      · exact ih _ h x hx
  obtain ⟨x, hx⟩ := total_from hb ha ht
  rw [key p _ hs x hx] at hx
  exact hx

/-! ## Examples and exceptions -/

/-- Some types, by number: 0 an atom, 1 a struct with a field of type 2 and others of type 0, 2 an array of 3 atoms, 3 a
slice of atoms, 4 a shared reference to type 1, 5 an exclusive reference to type 3, 6 an empty array, 7 a union, 8 an
enum whose variants are of type 1. -/
def sample : Nat → Kind Nat
  | 1 => .struct fun i => if i = 0 then 2 else 0
  | 2 => .array 3 0
  | 3 => .slice 0
  | 4 => .ref true 1
  | 5 => .ref false 3
  | 6 => .array 0 0
  | 7 => .union fun _ => 1
  | 8 => .enum fun _ => 1
  | _ => .leaf

/-- Variable `n` is of type `n`. -/
def sampleDecls : Decls Nat := { kind := sample, ty := fun l => l }

example : placesConflict sampleDecls ⟨1, [.field 0, .index 9]⟩ ⟨1, [.field 0, .constantIndex 2 3 false]⟩ = some true := by decide
example : placesConflict sampleDecls ⟨1, [.field 0, .constantIndex 1 3 false]⟩ ⟨1, [.field 0, .constantIndex 2 3 false]⟩ = some false := by
  decide
example : placesConflict sampleDecls ⟨1, [.field 0]⟩ ⟨1, [.field 1]⟩ = some false := by decide
example : placesConflict sampleDecls ⟨7, [.field 0, .field 0]⟩ ⟨7, [.field 1, .field 1]⟩ = some true := by decide
example : placesConflict sampleDecls ⟨8, [.downcast 0, .field 0]⟩ ⟨8, [.downcast 1, .field 0]⟩ = some false := by decide
/-- The first of at least three elements is not the last of them; the second may be the last but one. -/
example : placesConflict sampleDecls ⟨5, [.deref, .constantIndex 0 3 false]⟩ ⟨5, [.deref, .constantIndex 1 1 true]⟩ = some false ∧
    placesConflict sampleDecls ⟨5, [.deref, .constantIndex 1 3 false]⟩ ⟨5, [.deref, .constantIndex 2 2 true]⟩ = some true := by decide
/-- The hypotheses of `C113_shares_memory_partial` hold of places like these. -/
example : TypedPlace sampleDecls ⟨1, [.field 0, .index 9]⟩ ∧ TrackedPlace sampleDecls ⟨1, [.field 0, .index 9]⟩ ∧
    FilledPlace sampleDecls ⟨1, [.field 0, .index 9]⟩ := by
  refine ⟨.field (f := fun i => if i = 0 then 2 else 0) rfl (.indexArray (n := 3) (t' := 0) rfl .nil), ⟨?_, ?_, trivial⟩, trivial, ?_, trivial⟩
  · simp
  · simp
  · intro n t' h
    simp only [next, sampleDecls, sample] at h
    injection h with h
    omega

/-- **C113 (negation: empty arrays).** Elements of an empty array conflict, although they have no memory to share. -/
theorem C113_empty_array : ∃ (D : Decls Nat) (p : Place), TypedPlace D p ∧ TrackedPlace D p ∧ placesConflict D p p = some true ∧
    ¬ Shares D p p := by
  refine ⟨sampleDecls, ⟨6, [.index 0]⟩, .indexArray (n := 0) (t' := 0) rfl .nil, ⟨by simp, trivial⟩, by decide, ?_⟩
  rintro ⟨-, len, c, d, h, -, -⟩
  obtain ⟨k, c', -, hs, -⟩ := in_array (K := sample) (t := 6) (n := 0) (t' := 0) (e := .index 0) rfl h
  exact absurd hs (Nat.not_lt_zero k)

/-- **C113 (negation: behind shared references).** Comparing a place behind a shared reference with the reference itself
panics. -/
theorem C113_behind_shared : ∃ (D : Decls Nat) (b a : Place), TypedPlace D b ∧ TypedPlace D a ∧ placesConflict D b a = none :=
  ⟨sampleDecls, ⟨4, [.deref, .field 0]⟩, ⟨4, []⟩,
    .deref (s := true) (t' := 1) rfl (.field (f := fun i => if i = 0 then 2 else 0) rfl .nil), .nil, by decide⟩

end Verif.Overlap
