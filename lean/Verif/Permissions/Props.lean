import Verif.Permissions.Spec
/-!
# C22, C27, C28, C58
-/
namespace Verif.Permissions
open Spec

/-! ## C22 -/

/-- **C22.** Read, write and own follow from the facts. -/
theorem C22_permissions (d : Data) :
    (d.permissions.read = true ↔ d.isLive = true ∧ d.pathMoved = none ∧ d.pathUninitialized = false ∧
      d.loanReadRefined = none) ∧
    (d.permissions.write = true ↔ d.permissions.read = true ∧ d.typeWriteable = true ∧
      d.loanWriteRefined = none) ∧
    (d.permissions.drop = true ↔ d.permissions.read = true ∧ d.typeDroppable = true ∧
      d.loanDropRefined = none) := by
  obtain ⟨td, tw, tc, live, un, mv, lr, lw, ld⟩ := d
  cases td <;> cases tw <;> cases live <;> cases un <;> cases mv <;> cases lr <;> cases lw <;> cases ld <;>
    simp [Data.permissions, Data.permissionsIgnoreLiveness, Perms.bottom]

/-- **C22 (liveness).** Ignoring liveness differs only for dead places, which have nothing. -/
theorem C22_liveness (d : Data) :
    (d.isLive = true → d.permissions = d.permissionsIgnoreLiveness) ∧
    (d.isLive = false → d.permissions = ⟨false, false, false⟩) ∧
    d.permissionsIgnoreLiveness = { d with isLive := true }.permissions := by
  refine ⟨fun h => by simp [Data.permissions, h], fun h => by simp [Data.permissions, h, Perms.bottom], ?_⟩
  simp [Data.permissions, Data.permissionsIgnoreLiveness]

/-- **C22 (order).** Neither write nor own without read. -/
theorem C22_read_needed (d : Data) :
    (d.permissions.write = true → d.permissions.read = true) ∧
    (d.permissions.drop = true → d.permissions.read = true) :=
  ⟨fun h => ((C22_permissions d).2.1.1 h).1, fun h => ((C22_permissions d).2.2.1 h).1⟩

/-- Non-vacuity: all three, and a shared borrow that removes write and own. -/
example : (constData true).permissions = ⟨true, true, true⟩ ∧
    { constData true with loanWriteRefined := some 3, loanDropRefined := some 3 }.permissions =
      ⟨true, false, false⟩ := by decide

/-- **C22 (printed form).** Different permissions are printed differently. -/
theorem C22_text (p q : Perms) (h : p.text = q.text) : p = q := by
  obtain ⟨a, b, c⟩ := p
  obtain ⟨x, y, z⟩ := q
  revert a b c x y z
  decide

/-! ## C27 -/

theorem mem_iterProjections {es pre : List Elem} {e : Elem} :
    (pre, e) ∈ iterProjections es ↔ ∃ suf, es = pre ++ e :: suf := by
  unfold iterProjections
  simp only [List.mem_map, Prod.mk.injEq, Prod.exists]
  constructor
  · rintro ⟨a, i, h1, rfl, rfl⟩
    have h2 := List.mem_zipIdx_iff_getElem?.1 h1
    simp only at h2
    obtain ⟨hlt, he⟩ := List.getElem?_eq_some_iff.1 h2
    exact ⟨es.drop (i + 1), by rw [← he, ← List.drop_eq_getElem_cons hlt, List.take_append_drop]⟩
  · rintro ⟨suf, rfl⟩
    refine ⟨e, pre.length, ?_, by simp, rfl⟩
    rw [List.mem_zipIdx_iff_getElem?]
    simp

theorem isIndirect_iff {es : List Elem} : isIndirect es = true ↔ ∃ pre suf, es = pre ++ .deref :: suf := by
  unfold isIndirect
  simp only [List.any_eq_true, decide_eq_true_eq]
  constructor
  · rintro ⟨e, h, rfl⟩; exact List.mem_iff_append.1 h
  · rintro ⟨pre, suf, rfl⟩; exact ⟨_, by simp, rfl⟩

theorem neverWrite_iff {d : Decls} {p : Place} : neverWrite d p = true ↔
    (isIndirect p.projection = false ∧ d.isMut p.local_ = false) ∨
    ∃ pre suf, p.projection = pre ++ .deref :: suf ∧ derefBlocksWrite d p.local_ pre = true := by
  unfold neverWrite declaredReadonly
  rw [Bool.or_eq_true, Bool.and_eq_true, Bool.not_eq_true', Bool.not_eq_true', List.any_eq_true]
  apply or_congr Iff.rfl
  simp only [List.mem_filterMap, Option.ite_none_right_eq_some, Option.some.injEq, Prod.exists]
  constructor
  · rintro ⟨x, ⟨a, b, h1, rfl, rfl⟩, h2⟩
    obtain ⟨suf, h3⟩ := mem_iterProjections.1 h1
    exact ⟨a, suf, h3, h2⟩
  · rintro ⟨pre, suf, h1, h2⟩
    exact ⟨pre, ⟨pre, .deref, mem_iterProjections.2 ⟨suf, h1⟩, rfl, rfl⟩, h2⟩

/-- The specification's state after a prefix. -/
def mutState (d : Decls) (l : Nat) (pre : List Elem) : Ty × Bool × Bool :=
  pre.foldl mutStep (d.ty l, d.isMut l, true)

theorem mutStep_ty (s : Ty × Bool × Bool) (e : Elem) : (mutStep s e).1 = projTy s.1 e := by
  obtain ⟨t, m⟩ := s
  unfold mutStep
  split <;> simp_all [projTy]

theorem mutState_ty (d : Decls) (l : Nat) (pre : List Elem) :
    (mutState d l pre).1 = tyFrom (d.ty l) pre := by
  have : ∀ (pre : List Elem) (s : Ty × Bool × Bool), (pre.foldl mutStep s).1 = tyFrom s.1 pre := by
    intro pre
    induction pre with
    | nil => intro s; rfl
    | cons e pre ih =>
      intro s
      simp only [List.foldl_cons, ih, mutStep_ty, tyFrom]
  exact this pre _

theorem mutState_snoc (d : Decls) (l : Nat) (pre : List Elem) (e : Elem) :
    mutState d l (pre ++ [e]) = mutStep (mutState d l pre) e := by
  simp [mutState, List.foldl_append]

/-- Induction along the projections of a place. -/
theorem along {es : List Elem} (P : List Elem → Prop) (hstep : ∀ pre e suf, es = pre ++ e :: suf → P pre → P (pre ++ [e]))
    {pre suf : List Elem} (h : es = pre ++ suf) (hp : P pre) : P es := by
  induction suf generalizing pre with
  | nil => simpa [h] using hp
  | cons e suf ih =>
    exact ih (pre := pre ++ [e]) (by simp [h]) (hstep pre e suf h hp)

theorem mutStep_not_deref {s : Ty × Bool × Bool} {e : Elem} (h : e ≠ .deref) : (mutStep s e).2 = s.2 := by
  unfold mutStep
  split <;> simp_all

/-- **C27 (write).** A path without raw-pointer dereference is writable only if the declaration makes it
mutable. -/
theorem C27_write (d : Decls) (p : Place) (hraw : ¬ DerefsRaw d p)
    (h : (maxPermissions d p).write = true) : RustMutable d p := by
  have hn : neverWrite d p = false := by simpa [maxPermissions, writeEnabled] using h
  have hn' : ¬ neverWrite d p = true := by simp [hn]
  rw [neverWrite_iff] at hn'
  have hblock : ∀ pre suf, p.projection = pre ++ .deref :: suf → derefBlocksWrite d p.local_ pre = false := by
    intro pre suf h1
    cases h2 : derefBlocksWrite d p.local_ pre with
    | false => rfl
    | true => exact absurd (.inr ⟨pre, suf, h1, h2⟩) hn'
  show (mutState d p.local_ p.projection).2.1 = true
  cases hm : d.isMut p.local_ with
  | true =>
    have := along (es := p.projection) (fun pre => (mutState d p.local_ pre).2 = (true, true)) (by
      intro pre e suf he hp
      rw [mutState_snoc]
      by_cases hd : e = .deref
      · subst hd
        have hb := hblock pre suf he
        have hty := mutState_ty d p.local_ pre
        unfold derefBlocksWrite at hb
        have hr : ∀ m t, tyFrom (d.ty p.local_) pre ≠ .ptr m t := fun m t h0 => hraw ⟨pre, suf, m, t, he, h0⟩
        cases ht : tyFrom (d.ty p.local_) pre with
        | ref m t =>
          rw [ht] at hb
          simp only [Bool.not_eq_false'] at hb
          subst hb
          simp [mutStep, hty, ht, hp]
        | ptr m t => exact absurd ht (hr m t)
        | _ => simp [mutStep, hty, ht, hp]
      · rw [mutStep_not_deref hd]; exact hp) (pre := []) (suf := p.projection) (by simp) (by simp [mutState, hm])
    rw [this]
  | false =>
    have := along (es := p.projection)
      (fun pre => (mutState d p.local_ pre).2 = (isIndirect pre, true)) (by
      intro pre e suf he hp
      rw [mutState_snoc]
      by_cases hd : e = .deref
      · subst hd
        have hb := hblock pre suf he
        have hty := mutState_ty d p.local_ pre
        unfold derefBlocksWrite declaredReadonly at hb
        have hi : isIndirect (pre ++ [Elem.deref]) = true := isIndirect_iff.2 ⟨pre, [], rfl⟩
        rw [hi]
        cases ht : tyFrom (d.ty p.local_) pre with
        | ref m t =>
          rw [ht] at hb
          simp only [Bool.not_eq_false'] at hb
          subst hb
          unfold mutStep
          simp [hty, ht, hp]
        | _ => rw [ht] at hb; simp [hm] at hb
      · rw [mutStep_not_deref hd, hp]
        have : isIndirect (pre ++ [e]) = isIndirect pre := by simp [isIndirect, hd]
        rw [this]) (pre := []) (suf := p.projection) (by simp) (by simp [mutState, hm, isIndirect])
    rw [this]
    cases hi : isIndirect p.projection with
    | true => rfl
    | false => exact absurd (.inl ⟨hi, hm⟩) hn'

/-- **C27 (shared references).** A path behind a shared reference is never writable. -/
theorem C27_shared (d : Decls) (l : Nat) (pre suf : List Elem) (t : Ty)
    (h : tyFrom (d.ty l) pre = .ref false t) :
    (maxPermissions d ⟨l, pre ++ .deref :: suf⟩).write = false := by
  have : neverWrite d ⟨l, pre ++ .deref :: suf⟩ = true :=
    neverWrite_iff.2 (.inr ⟨pre, suf, rfl, by simp [derefBlocksWrite, h]⟩)
  simp [maxPermissions, writeEnabled, this]

theorem stays_immutable {d : Decls} {p : Place} (hraw : ¬ DerefsRaw d p) {pre suf : List Elem}
    (h : p.projection = pre ++ suf) (hs : (mutState d p.local_ pre).2 = (false, false)) :
    (mutState d p.local_ p.projection).2 = (false, false) := by
  refine along (es := p.projection) (fun pre => (mutState d p.local_ pre).2 = (false, false)) ?_ h hs
  intro pre e suf he hp
  rw [mutState_snoc]
  by_cases hd : e = .deref
  · subst hd
    have hty := mutState_ty d p.local_ pre
    have hr : ∀ m t, tyFrom (d.ty p.local_) pre ≠ .ptr m t := fun m t h0 => hraw ⟨pre, suf, m, t, he, h0⟩
    cases ht : tyFrom (d.ty p.local_) pre with
    | ref m t => cases m <;> simp [mutStep, hty, ht, hp]
    | ptr m t => exact absurd ht (hr m t)
    | _ => simp [mutStep, hty, ht, hp]
  · rw [mutStep_not_deref hd]; exact hp

/-- **C27 (write, exact).** Where only references are dereferenced, or the variable is `mut` and no raw
pointer is dereferenced, the maximum is exactly the declared mutability. Missing from exactness for all
places: `C27_box_behind_mut_ref`, `C27_raw_pointer`. -/
theorem C27_write_exact_partial (d : Decls) (p : Place) (hraw : ¬ DerefsRaw d p)
    (hbox : d.isMut p.local_ = true ∨ ¬ DerefsNonRef d p) :
    (maxPermissions d p).write = true ↔ RustMutable d p := by
  refine ⟨C27_write d p hraw, fun hm => ?_⟩
  cases hn : neverWrite d p with
  | false => simp [maxPermissions, writeEnabled, hn]
  | true =>
    exfalso
    have hm' : (mutState d p.local_ p.projection).2.1 = true := hm
    rcases neverWrite_iff.1 hn with ⟨h1, h2⟩ | ⟨pre, suf, h1, h2⟩
    · have := along (es := p.projection) (fun pre => (mutState d p.local_ pre).2 = (false, true)) (by
        intro pre e suf he hp
        rw [mutState_snoc]
        have hd : e ≠ .deref := by
          rintro rfl
          have := isIndirect_iff.2 ⟨pre, suf, he⟩
          rw [h1] at this; cases this
        rw [mutStep_not_deref hd]; exact hp) (pre := []) (suf := p.projection) (by simp) (by simp [mutState, h2])
      rw [this] at hm'; cases hm'
    · have hty := mutState_ty d p.local_ pre
      unfold derefBlocksWrite declaredReadonly at h2
      cases ht : tyFrom (d.ty p.local_) pre with
      | ref m t =>
        rw [ht] at h2
        simp only [Bool.not_eq_true'] at h2
        subst h2
        have : (mutState d p.local_ (pre ++ [Elem.deref])).2 = (false, false) := by
          rw [mutState_snoc]; unfold mutStep; simp [hty, ht]
        have := stays_immutable hraw (suf := suf) (by simp [h1]) this
        rw [this] at hm'; cases hm'
      | _ =>
        rw [ht] at h2
        simp only [Bool.not_eq_true'] at h2
        rcases hbox with hb | hb
        · rw [h2] at hb; cases hb
        · exact hb ⟨pre, suf, h1, by simp [ht]⟩

/-- **C27 (own).** A path may be owned only if the declaration allows moving out of it. -/
theorem C27_own (d : Decls) (p : Place) (h : (maxPermissions d p).drop = true) : RustMovable d p := by
  simp only [maxPermissions, dropEnabled, Bool.and_eq_true, Bool.not_eq_true'] at h
  obtain ⟨⟨h1, h2⟩, h3⟩ := h
  intro pre suf e he
  have hmem : (pre, e) ∈ iterProjections p.projection := mem_iterProjections.2 ⟨suf, he⟩
  have hd : e ≠ .deref := by
    rintro rfl
    have := isIndirect_iff.2 ⟨pre, suf, he⟩
    rw [h1] at this; cases this
  have ha : isArrayElem e = false := by
    rw [List.any_eq_false] at h2
    simpa using h2 _ hmem
  have hdt : ∀ id, tyFrom (d.ty p.local_) pre ≠ .adt id true := by
    intro id h0
    unfold adtPrefixWithDtor at h3
    rw [List.any_eq_false] at h3
    have := h3 (e, pre.length) (by rw [List.mem_zipIdx_iff_getElem?]; simp [he])
    simp [he, h0] at this
  split <;> simp_all [isArrayElem]

/-- **C27 (points).** At every point the permissions of a path, whose type facts are the declared ones,
are included in the maximum. -/
theorem C27_at_point (d : Decls) (p : Place) (x : Data) (hw : x.typeWriteable = writeEnabled d p)
    (hd : x.typeDroppable = dropEnabled d p) : Le x.permissions (maxPermissions d p) := by
  refine ⟨fun _ => rfl, fun h => ?_, fun h => ?_⟩
  · rw [← show x.typeWriteable = (maxPermissions d p).write from hw]
    exact ((C22_permissions x).2.1.1 h).2.1
  · rw [← show x.typeDroppable = (maxPermissions d p).drop from hd]
    exact ((C22_permissions x).2.2.1 h).2.1

theorem tyFrom_inside {t u : Ty} {es : List Elem} (h : Inside t es u) : tyFrom t es = u := by
  have snoc : ∀ es e, tyFrom t (es ++ [e]) = projTy (tyFrom t es) e := fun es e => by simp [tyFrom]
  induction h with
  | whole => rfl
  | ref _ ih => rw [snoc, ih]; rfl
  | ptr _ ih => rw [snoc, ih]; rfl
  | box _ ih => rw [snoc, ih]; rfl
  | field i v _ ih => rw [snoc]; cases tyFrom t _ <;> rfl
  | index l _ ih => rw [snoc, ih]; rfl
  | constant o _ ih => rw [snoc, ih]; rfl
  | run lo hi _ ih => rw [snoc, ih]; rfl
  | variant v _ ih => rw [snoc, ih]; rfl

/-- **C27 (inside).** For places inside a variable: behind a shared reference nothing is writable; and a
place that is reached through `&mut` references only, at least through one of them, is writable whatever
is said about the variable. -/
theorem C27_inside (d : Decls) (l : Nat) :
    (∀ pre suf t, Inside (d.ty l) pre (.ref false t) →
      (maxPermissions d ⟨l, pre ++ .deref :: suf⟩).write = false) ∧
    (∀ es, .deref ∈ es → (∀ pre suf, es = pre ++ .deref :: suf → ∃ t, Inside (d.ty l) pre (.ref true t)) →
      (maxPermissions d ⟨l, es⟩).write = true) := by
  refine ⟨fun pre suf t h => C27_shared d l pre suf t (tyFrom_inside h), fun es hd h => ?_⟩
  cases hn : neverWrite d ⟨l, es⟩ with
  | false => simp [maxPermissions, writeEnabled, hn]
  | true =>
    exfalso
    rcases neverWrite_iff.1 hn with ⟨h1, _⟩ | ⟨pre, suf, h1, h2⟩
    · obtain ⟨pre, suf, he⟩ := List.append_of_mem hd
      have := isIndirect_iff.2 ⟨pre, suf, he⟩
      simp only at h1
      rw [h1] at this; cases this
    · obtain ⟨t, ht⟩ := h pre suf h1
      simp [derefBlocksWrite, tyFrom_inside ht] at h2

/-- Non-vacuity: `*a[i]` for `a : [&T]` and for `a : [&mut T]`. -/
example (t : Ty) : Inside (.array (.ref false t)) [.index 1] (.ref false t) ∧
    Inside (.array (.ref true t)) [.index 1] (.ref true t) := ⟨.index 1 .whole, .index 1 .whole⟩

def sampleDecls (t : Ty) (m : Bool) : Decls := ⟨fun _ => t, fun _ => m⟩

/-- **C27 is false: raw pointers.** Data behind a `*const` pointer held in a `mut` variable counts as
writable. -/
theorem C27_raw_pointer :
    let d := sampleDecls (.ptr false (.other 0)) true
    (maxPermissions d ⟨0, [.deref]⟩).write = true ∧ ¬ RustMutable d ⟨0, [.deref]⟩ := by
  refine ⟨by decide, ?_⟩
  unfold RustMutable
  decide

/-- The maximum is too small for boxes behind `&mut` in an immutable variable: `fn f(x: &mut Box<i32>)`
may assign `**x`. -/
theorem C27_box_behind_mut_ref :
    let d := sampleDecls (.ref true (.box (.other 0))) false
    (maxPermissions d ⟨0, [.deref, .deref]⟩).write = false ∧ RustMutable d ⟨0, [.deref, .deref]⟩ := by
  refine ⟨by decide, ?_⟩
  unfold RustMutable
  decide

/-- The maximum is too small for the content of a box, which Rust allows to move out. -/
theorem C27_box_content :
    let d := sampleDecls (.box (.other 0)) true
    (maxPermissions d ⟨0, [.deref]⟩).drop = false ∧ RustMovable d ⟨0, [.deref]⟩ := by
  refine ⟨by decide, ?_⟩
  intro pre suf e h
  cases pre with
  | nil =>
    simp only [List.nil_append, List.cons.injEq] at h
    obtain ⟨rfl, -⟩ := h
    simp [tyFrom, sampleDecls]
  | cons a pre => simp at h

/-- Non-vacuity: `x.0` for `mut x`, `*x` for `x : &mut T`, not `*x` for `x : &T`. -/
example : (maxPermissions (sampleDecls (.adt 1 false) true) ⟨0, [.field 0 (.other 0)]⟩) = ⟨true, true, true⟩ ∧
    (maxPermissions (sampleDecls (.ref true (.other 0)) false) ⟨0, [.deref]⟩) = ⟨true, true, false⟩ ∧
    (maxPermissions (sampleDecls (.ref false (.other 0)) true) ⟨0, [.deref]⟩) = ⟨true, false, false⟩ ∧
    (maxPermissions (sampleDecls (.adt 1 true) true) ⟨0, [.field 0 (.other 0)]⟩) = ⟨true, true, false⟩ := by
  decide

/-! ## C28 -/

/-- **C28 (permissions).** The join of two permission sets is their intersection, it reports a change
iff the value changed, and it is commutative, associative and idempotent. -/
theorem C28_permissions (p q r : Perms) :
    ((p.join q).1.read = true ↔ p.read = true ∧ q.read = true) ∧
    ((p.join q).1.write = true ↔ p.write = true ∧ q.write = true) ∧
    ((p.join q).1.drop = true ↔ p.drop = true ∧ q.drop = true) ∧
    ((p.join q).2 = true ↔ (p.join q).1 ≠ p) ∧
    (p.join q).1 = (q.join p).1 ∧ ((p.join q).1.join r).1 = (p.join (q.join r).1).1 ∧
    p.join p = (p, false) ∧ p.join .all = (p, false) ∧ (p.join .bottom).1 = .bottom := by
  obtain ⟨a, b, c⟩ := p
  obtain ⟨x, y, z⟩ := q
  obtain ⟨u, v, w⟩ := r
  revert a b c x y z u v w
  decide

section
variable {P : Type} [DecidableEq P]

theorem get_append (d e : Domain P) (p : P) :
    Domain.get (d ++ e) p = (d.get p).or (e.get p) := by
  unfold Domain.get
  rw [List.find?_append]
  cases List.find? (fun e => decide (e.1 = p)) d <;> simp

theorem get_cons (x : P × Data) (d : Domain P) (p : P) :
    Domain.get (x :: d) p = if x.1 = p then some x.2 else d.get p := by
  unfold Domain.get
  rw [List.find?_cons]
  by_cases h : x.1 = p <;> simp [h]

/-- **C28 (domains: what the merge does).** The merge keeps every place of the left state with its
data, and adds the places only the right state has; when it reports no change the state is unchanged.
Missing: places of both states get the left data, not the permissions held on both sides
(`C28_not_a_join`), and a change may be reported although there is none (`C28_false_change`). -/
theorem C28_domain_partial (a b : Domain P) (p : P) :
    (a.join b).1.get p = (a.get p).or (b.get p) ∧ ((a.join b).2 = false → (a.join b).1 = a) := by
  induction b generalizing a with
  | nil => exact ⟨by simp [Domain.join, Domain.get], fun _ => rfl⟩
  | cons x b ih =>
    obtain ⟨place, perms⟩ := x
    simp only [Domain.join]
    cases hg : a.get place with
    | some mine =>
      refine ⟨?_, fun h => ?_⟩
      · rw [(ih a).1, get_cons]
        by_cases hp : place = p
        · subst hp; simp [hg]
        · simp [hp]
      · simp only [Bool.or_eq_false_iff] at h
        exact (ih a).2 h.2
    | none =>
      refine ⟨?_, fun h => by simp at h⟩
      rw [(ih _).1, get_append, get_cons]
      by_cases hp : place = p
      · subst hp; simp [hg, get_cons]
      · simp [hp, get_cons, Domain.get]

/-- **C28 (domains: idempotent).** -/
theorem C28_domain_idempotent (a : Domain P) (hk : (a.map Prod.fst).Nodup) : a.join a = (a, false) := by
  have hself : ∀ x ∈ a, a.get x.1 = some x.2 := by
    induction a with
    | nil => simp
    | cons y a ih =>
      intro x hx
      rw [get_cons]
      simp only [List.map_cons, List.nodup_cons] at hk
      rcases List.mem_cons.1 hx with rfl | hx
      · simp
      · have : y.1 ≠ x.1 := fun h => hk.1 (by rw [h]; exact List.mem_map_of_mem hx)
        rw [if_neg this]
        exact ih hk.2 x hx
  have : ∀ b : Domain P, (∀ x ∈ b, a.get x.1 = some x.2) → a.join b = (a, false) := by
    intro b
    induction b with
    | nil => intro _; rfl
    | cons x b ih =>
      intro h
      obtain ⟨place, perms⟩ := x
      have h1 := h (place, perms) (by simp)
      simp only at h1
      simp only [Domain.join, h1, ih (fun y hy => h y (by simp [hy])),
        (C28_permissions perms.permissions perms.permissions ⟨true, true, true⟩).2.2.2.2.2.2]
      rfl
  exact this a hself
end

/-- A place that can be read, and the same place moved. -/
def readable : Data := constData true
def moved : Data := { constData true with pathMoved := some 0 }

/-- **C28 is false: not a join.** Merging a state where a place is readable with one where it is moved
leaves it readable; the other way round it is moved. So the merge is not commutative and does not give the
permissions held on both sides. -/
theorem C28_not_a_join :
    let a : Domain Nat := [(0, readable)]
    let b : Domain Nat := [(0, moved)]
    ((a.join b).1.get 0).map Data.permissions = some ⟨true, true, true⟩ ∧
    ((b.join a).1.get 0).map Data.permissions = some ⟨false, false, false⟩ := by decide

/-- **C28 is false: change reported without change.** A fixpoint computation using this merge would
never end. -/
theorem C28_false_change :
    let a : Domain Nat := [(0, readable)]
    let b : Domain Nat := [(0, moved)]
    a.join b = (a, true) := by decide

/-! ## C58 -/

section
variable {P : Type} [DecidableEq P] (ops : PlaceOps P)

/-- Invariant of the table: the reverse lookup lists, in order, exactly the paths of a variable. -/
def Table.Ok (ops : PlaceOps P) (t : Table P) : Prop :=
  ∀ k i, i ∈ t.rev k ↔ ∃ p, t.places[i]? = some p ∧ ops.localOf p = k

theorem newPath_ok {t : Table P} (h : t.Ok ops) (p : P) : (t.newPath ops p).2.Ok ops := by
  intro k i
  simp only [Table.newPath]
  have key : ∀ q, (t.places ++ [ops.normalize p])[i]? = some q ↔
      (t.places[i]? = some q) ∨ (i = t.places.length ∧ q = ops.normalize p) := by
    intro q
    rcases Nat.lt_trichotomy i t.places.length with hi | hi | hi
    · rw [List.getElem?_append_left hi]
      have : i ≠ t.places.length := by omega
      simp [this]
    · subst hi
      simp [eq_comm]
    · rw [List.getElem?_eq_none (by simp; omega), List.getElem?_eq_none (by omega)]
      have : i ≠ t.places.length := by omega
      simp [this]
  simp only [key]
  by_cases hk : k = ops.localOf (ops.normalize p)
  · rw [if_pos hk]
    simp only [List.mem_append, List.mem_singleton, h k i]
    constructor
    · rintro (⟨q, h1, h2⟩ | rfl)
      · exact ⟨q, .inl h1, h2⟩
      · exact ⟨_, .inr ⟨rfl, rfl⟩, hk.symm⟩
    · rintro ⟨q, h1 | ⟨h1, -⟩, h2⟩
      · exact .inl ⟨q, h1, h2⟩
      · exact .inr h1
  · rw [if_neg hk, h k i]
    constructor
    · rintro ⟨q, h1, h2⟩; exact ⟨q, .inl h1, h2⟩
    · rintro ⟨q, h1 | ⟨h1, rfl⟩, h2⟩
      · exact ⟨q, h1, h2⟩
      · exact absurd h2.symm hk

theorem register_ok {t : Table P} (h : t.Ok ops) (ps : List P) :
    (t.register ops ps).2.Ok ops ∧
      (t.register ops ps).2.places = t.places ++ ps.map ops.normalize ∧
      (t.register ops ps).1 = (List.range ps.length).map (· + t.places.length) := by
  induction ps generalizing t with
  | nil => exact ⟨h, by simp [Table.register], by simp [Table.register]⟩
  | cons p ps ih =>
    obtain ⟨h1, h2, h3⟩ := ih (newPath_ok ops h p)
    refine ⟨h1, ?_, ?_⟩
    · simp only [Table.register, h2]
      simp [Table.newPath]
    · simp only [Table.register, h3]
      simp only [Table.newPath, List.length_append, List.length_singleton, List.length_cons,
        List.range_succ_eq_map, List.map_cons, List.map_map, Nat.zero_add, List.cons.injEq, true_and]
      apply List.map_congr_left
      intro i _
      simp only [Function.comp_apply, List.length_nil]
      omega

theorem empty_ok : (Table.empty : Table P).Ok ops := by
  intro k i; simp [Table.empty]

/-- **C58.** After registering any list of places: looking up a registered place (up to normalisation)
gives a path; that path denotes the normalised place; two places have the same path iff they normalise to
the same place; a place that was not registered has no path. -/
theorem C58_identity (ps : List P) :
    let t := (Table.empty.register ops ps).2
    (∀ p, (∃ i, t.placeToPath ops p = some i) ↔ ∃ q ∈ ps, ops.normalize q = ops.normalize p) ∧
    (∀ p i, t.placeToPath ops p = some i → t.pathToPlace i = some (ops.normalize p)) ∧
    (∀ p q i, t.placeToPath ops p = some i →
      (t.placeToPath ops q = some i ↔ ops.normalize p = ops.normalize q)) := by
  obtain ⟨h1, h2, -⟩ := register_ok ops (empty_ok ops) ps
  generalize (Table.empty.register ops ps).2 = t at h1 h2
  simp only [Table.empty, List.nil_append] at h2
  have hval : ∀ p i, t.placeToPath ops p = some i → t.pathToPlace i = some (ops.normalize p) := by
    intro p i h
    simpa using List.find?_some h
  refine ⟨fun p => ⟨?_, ?_⟩, hval, fun p q i h => ⟨fun h' => ?_, fun h' => ?_⟩⟩
  · rintro ⟨i, hi⟩
    have := hval p i hi
    unfold Table.pathToPlace at this
    rw [h2] at this
    obtain ⟨q, hq, hq'⟩ := List.mem_map.1 (List.mem_of_getElem? this)
    exact ⟨q, hq, hq'⟩
  · rintro ⟨q, hq, hq'⟩
    have hm : ops.normalize p ∈ t.places := by rw [h2, ← hq']; exact List.mem_map_of_mem hq
    obtain ⟨i, hi, hi'⟩ := List.getElem_of_mem hm
    have hmem : i ∈ t.rev (ops.localOf (ops.normalize p)) :=
      (h1 _ i).2 ⟨_, by rw [List.getElem?_eq_getElem hi, hi'], rfl⟩
    cases hf : t.placeToPath ops p with
    | some j => exact ⟨j, rfl⟩
    | none =>
      unfold Table.placeToPath at hf
      rw [List.find?_eq_none] at hf
      have := hf i hmem
      simp [Table.pathToPlace, List.getElem?_eq_getElem hi, hi'] at this
  · have a := hval p i h
    have b := hval q i h'
    rw [a] at b
    exact Option.some.inj b
  · unfold Table.placeToPath at h ⊢
    rw [← h']
    exact h

/-- **C58 (registered paths).** Each registered place keeps the path it was given, in the sense that the
path denotes the normalised place for ever; but a place registered twice gets two paths, of which
look-ups return the first. -/
theorem C58_registered (ps : List P) (k : Nat) (p : P) (h : ps[k]? = some p) :
    let r := Table.empty.register ops ps
    ∃ i, r.1[k]? = some i ∧ r.2.pathToPlace i = some (ops.normalize p) := by
  obtain ⟨-, h2, h3⟩ := register_ok ops (empty_ok ops) ps
  have hk := (List.getElem?_eq_some_iff.1 h).1
  refine ⟨k, ?_, ?_⟩
  · rw [h3]
    simp [Table.empty, List.getElem?_map, List.getElem?_range hk]
  · simp only [Table.pathToPlace, h2]
    simp [Table.empty, List.getElem?_map, h]

/-- **C58 (two paths for one place).** -/
theorem C58_duplicate :
    let ops : PlaceOps Nat := ⟨id, fun _ => 0⟩
    let r := (Table.empty : Table Nat).register ops [5, 6, 5]
    r.1 = [0, 1, 2] ∧ r.2.pathToPlace 2 = some 5 ∧ r.2.placeToPath ops 5 = some 0 := by decide

end

theorem pointsBefore_succ {stmts : List Nat} {b : Nat} (h : b < stmts.length) :
    pointsBefore stmts (b + 1) = pointsBefore stmts b + (stmts[b] + 1) * 2 := by
  unfold pointsBefore
  rw [List.take_add_one, List.getElem?_eq_getElem h, List.map_append, List.sum_append]
  simp only [Option.toList_some, List.map_cons, List.map_nil, List.sum_cons, List.sum_nil, Nat.add_zero]

theorem pointsBefore_mono {stmts : List Nat} {a b : Nat} (h : a ≤ b) :
    pointsBefore stmts a ≤ pointsBefore stmts b := by
  induction b with
  | zero => have : a = 0 := by omega
            subst this; exact Nat.le_refl _
  | succ b ih =>
    by_cases hb : a = b + 1
    · subst hb; exact Nat.le_refl _
    · have := ih (by omega)
      by_cases hl : b < stmts.length
      · rw [pointsBefore_succ hl]; omega
      · have : pointsBefore stmts (b + 1) = pointsBefore stmts b := by
          unfold pointsBefore
          rw [List.take_of_length_le (by omega), List.take_of_length_le (by omega)]
        omega

theorem pointToLocation_of {stmts : List Nat} {b i k : Nat} (hb : b < stmts.length) (hi : i ≤ stmts[b])
    (hk : k < 2) : pointToLocation stmts (pointsBefore stmts b + i * 2 + k) = some (b, i) := by
  have hfind : (List.range stmts.length).reverse.find?
      (fun c => decide (pointsBefore stmts c ≤ pointsBefore stmts b + i * 2 + k)) = some b := by
    rw [List.find?_eq_some_iff_append]
    refine ⟨by simp; omega, (List.range' (b + 1) (stmts.length - (b + 1))).reverse,
      (List.range b).reverse, ?_, ?_⟩
    · have : List.range stmts.length = List.range b ++ b :: List.range' (b + 1) (stmts.length - (b + 1)) := by
        rw [List.range_eq_range', List.range_eq_range']
        have h1 : stmts.length = b + (stmts.length - b) := by omega
        rw [h1, ← List.range'_append_1]
        congr 1
        have h2 : b + (stmts.length - b) - b = (b + (stmts.length - b) - (b + 1)) + 1 := by omega
        have h3 : stmts.length - b = (b + (stmts.length - b) - (b + 1)) + 1 := by omega
        rw [Nat.zero_add]
        conv => lhs; rw [h3]
        rw [List.range'_succ]
      rw [this]
      simp
    · intro c hc
      simp only [List.mem_reverse, List.mem_range'_1] at hc
      have h1 := pointsBefore_mono (stmts := stmts) (a := b + 1) (b := c) (by omega)
      rw [pointsBefore_succ hb] at h1
      simp only [Bool.not_eq_eq_eq_not, Bool.not_true, decide_eq_false_iff_not]
      have : i * 2 ≤ stmts[b] * 2 := by omega
      omega
  unfold pointToLocation
  rw [hfind]
  simp only [Option.map_some, Option.some.injEq, Prod.mk.injEq, true_and]
  omega

/-- **C58 (points).** Each location of the body has two points, which convert back to it; hence no point
belongs to two locations. -/
theorem C58_points (stmts : List Nat) (b i : Nat) (hb : b < stmts.length) (hi : i ≤ stmts[b]) :
    pointToLocation stmts (startIndex stmts (b, i)) = some (b, i) ∧
    pointToLocation stmts (midIndex stmts (b, i)) = some (b, i) ∧
    ∀ b' i' (hb' : b' < stmts.length), i' ≤ stmts[b'] →
      startIndex stmts (b, i) ≠ midIndex stmts (b', i') ∧
      (startIndex stmts (b, i) = startIndex stmts (b', i') → (b, i) = (b', i')) := by
  have h1 : ∀ b i (hb : b < stmts.length), i ≤ stmts[b] →
      pointToLocation stmts (startIndex stmts (b, i)) = some (b, i) :=
    fun b i hb hi => pointToLocation_of hb hi (k := 0) (by omega)
  have h2 : ∀ b i (hb : b < stmts.length), i ≤ stmts[b] →
      pointToLocation stmts (midIndex stmts (b, i)) = some (b, i) :=
    fun b i hb hi => pointToLocation_of hb hi (k := 1) (by omega)
  refine ⟨h1 b i hb hi, h2 b i hb hi, fun b' i' hb' hi' => ⟨fun h => ?_, fun h => ?_⟩⟩
  · have h3 := h1 b i hb hi
    rw [h, h2 b' i' hb' hi'] at h3
    simp only [Option.some.injEq, Prod.mk.injEq] at h3
    obtain ⟨rfl, rfl⟩ := h3
    simp only [startIndex, midIndex] at h
    omega
  · have h3 := h1 b i hb hi
    rw [h, h1 b' i' hb' hi'] at h3
    exact (Option.some.inj h3).symm

/-- Non-vacuity: three blocks, the middle one empty. -/
example : (List.range 12).map (pointToLocation [1, 0, 2]) =
    [some (0, 0), some (0, 0), some (0, 1), some (0, 1), some (1, 0), some (1, 0), some (2, 0), some (2, 0),
      some (2, 1), some (2, 1), some (2, 2), some (2, 2)] := by decide

end Verif.Permissions
