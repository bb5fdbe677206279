import Verif.Value.Spec
import Batteries.Data.List.Basic
/-!
# Lemmas about the reader
-/
namespace Verif.Value
open Spec

theorem bind_ok {ε σ α β : Type} {x : EStateM ε σ α} {f : α → EStateM ε σ β} {s : σ} {b : β} {s' : σ} :
    (x >>= f) s = .ok b s' ↔ ∃ a s₁, x s = .ok a s₁ ∧ f a s₁ = .ok b s' := by
  show EStateM.bind x f s = _ ↔ _
  unfold EStateM.bind
  cases x s with
  | ok a s₁ =>
    constructor
    · intro h; exact ⟨a, s₁, rfl, h⟩
    · rintro ⟨a', s', h, h'⟩; simp only [EStateM.Result.ok.injEq] at h; obtain ⟨rfl, rfl⟩ := h; exact h'
  | error e s₁ => simp

theorem bind_error {ε σ α β : Type} {x : EStateM ε σ α} {f : α → EStateM ε σ β} {s : σ} {e : ε} {s' : σ} :
    (x >>= f) s = .error e s' ↔
      x s = .error e s' ∨ ∃ a s₁, x s = .ok a s₁ ∧ f a s₁ = .error e s' := by
  show EStateM.bind x f s = _ ↔ _
  unfold EStateM.bind
  cases x s with
  | ok a s₁ =>
    constructor
    · intro h; exact .inr ⟨a, s₁, rfl, h⟩
    · rintro (h | ⟨a', s', h, h'⟩)
      · simp at h
      · simp only [EStateM.Result.ok.injEq] at h; obtain ⟨rfl, rfl⟩ := h; exact h'
  | error e s₁ => simp

theorem pure_ok {ε σ α : Type} {a : α} {s : σ} {b : α} {s' : σ} :
    (pure a : EStateM ε σ α) s = .ok b s' ↔ a = b ∧ s = s' := by
  show EStateM.pure a s = _ ↔ _
  unfold EStateM.pure
  simp

theorem pure_error {ε σ α : Type} {a : α} {s : σ} {e : ε} {s' : σ} :
    ¬ (pure a : EStateM ε σ α) s = .error e s' := by
  show ¬ EStateM.pure a s = _
  unfold EStateM.pure
  simp

theorem throw_ok {ε σ α : Type} {e : ε} {s : σ} {b : α} {s' : σ} :
    ¬ (throw e : EStateM ε σ α) s = .ok b s' := by
  show ¬ EStateM.throw e s = _
  unfold EStateM.throw
  simp

theorem throw_error {ε σ α : Type} {e e' : ε} {s s' : σ} :
    (throw e : EStateM ε σ α) s = .error e' s' ↔ e = e' ∧ s = s' := by
  show EStateM.throw e s = _ ↔ _
  unfold EStateM.throw
  simp

theorem get_bind {ε σ β : Type} {f : σ → EStateM ε σ β} {s : σ} : (get >>= f) s = f s s := rfl

/-! ## Order of maps -/

/-- The map of a reader state. -/
def mapOf (s : MemMap) : Map :=
  { slot := s.slots, loc := s.loc, label := fun a => s.remap.findIdx? (· == a) }

/-- `m'` knows at least what `m` knows. -/
structure MapLe (m m' : Map) : Prop where
  slot : m'.slot = m.slot
  loc : ∀ a x, m.loc a = some x → m'.loc a = some x
  label : ∀ a i, m.label a = some i → m'.label a = some i

theorem MapLe.refl (m : Map) : MapLe m m := ⟨rfl, fun _ _ h => h, fun _ _ h => h⟩

theorem MapLe.trans {m₁ m₂ m₃ : Map} (h : MapLe m₁ m₂) (h' : MapLe m₂ m₃) : MapLe m₁ m₃ :=
  ⟨h'.slot.trans h.slot, fun a x hx => h'.loc a x (h.loc a x hx),
    fun a i hi => h'.label a i (h.label a i hi)⟩

theorem showsPtr_mono {mem : Mem} {m m' : Map} (h : MapLe m m') {p v} (hd : ShowsPtr mem m p v) :
    ShowsPtr mem m' p v := by
  cases hd with
  | drawn h1 h2 h3 => exact .drawn h1 (h.loc _ _ h2) h3
  | hidden h1 h2 h3 h4 => exact .hidden h1 h2 (by rw [h.slot]; exact h3) (h.label _ _ h4)

mutual
theorem depicts_mono {mem : Mem} {m m' : Map} (h : MapLe m m') :
    ∀ {ks o v}, Depicts mem m ks o v → Depicts mem m' ks o v
  | _, _, _, .prim => .prim
  | _, _, _, .uninit => .uninit
  | _, _, _, .box hd => .box (depicts_mono h hd)
  | _, _, _, .tuple hd => .tuple (depictsAll_mono h hd)
  | _, _, _, .adt hd => .adt (depictsFields_mono h hd)
  | _, _, _, .closure hd => .closure (depictsAll_mono h hd)
  | _, _, _, .arrayAll h1 h2 h3 => .arrayAll h1 h2 (fun i w hw => depicts_mono h (h3 i w hw))
  | _, _, _, .arrayOnly h1 h2 h3 h4 =>
    .arrayOnly h1 h2 (fun i w hw => depicts_mono h (h3 i w hw)) (depicts_mono h h4)
  | _, _, _, .str hd => .str (showsPtr_mono h hd)
  | _, _, _, .ptr h1 hd => .ptr h1 (showsPtr_mono h hd)
  | _, _, _, .dangling h1 h2 h3 => .dangling h1 h2 (h.label _ _ h3)
  | _, _, _, .wild h1 h2 => .wild h1 h2
theorem depictsAll_mono {mem : Mem} {m m' : Map} (h : MapLe m m') :
    ∀ {ks o v}, DepictsAll mem m ks o v → DepictsAll mem m' ks o v
  | _, _, _, .nil => .nil
  | _, _, _, .cons h1 h2 => .cons (depicts_mono h h1) (depictsAll_mono h h2)
theorem depictsFields_mono {mem : Mem} {m m' : Map} (h : MapLe m m') :
    ∀ {ks o v}, DepictsFields mem m ks o v → DepictsFields mem m' ks o v
  | _, _, _, .nil => .nil
  | _, _, _, .skip h1 => .skip (depictsFields_mono h h1)
  | _, _, _, .cons h1 h2 => .cons (depicts_mono h h1) (depictsFields_mono h h2)
end

theorem showsArray_mono {n : Nat} {P Q : Nat → MValue → Prop} (h : ∀ i w, P i w → Q i w) {v}
    (hs : ShowsArray n P v) : ShowsArray n Q v := by
  rcases hs with ⟨h1, vs, h2, h3, h4⟩ | ⟨h1, vs, l, h2, h3, h4, h5⟩
  · exact .inl ⟨h1, vs, h2, h3, fun i w hw => h i w (h4 i w hw)⟩
  · exact .inr ⟨h1, vs, l, h2, h3, fun i w hw => h i w (h4 i w hw), h _ _ h5⟩

theorem showsContent_mono {mem : Mem} {m m' : Map} (h : MapLe m m') {ks a off ty v}
    (hd : ShowsContent mem m ks a off ty v) : ShowsContent mem m' ks a off ty v := by
  cases hd with
  | value h0 h1 h2 => exact .value h0 h1 (depicts_mono h h2)
  | elems h0 h1 => exact .elems h0 (showsArray_mono (fun _ _ => depicts_mono h) h1)
  | chars h0 h1 => exact .chars h0 h1

theorem cellShows_mono {mem : Mem} {R} {m m' : Map} (h : MapLe m m') {a ly v}
    (hd : CellShows mem R m a ly v) : CellShows mem R m' a ly v := by
  obtain ⟨ks, p, off, h1, h2, h3, h4⟩ := hd
  exact ⟨ks, p, off, h1, h2, showsContent_mono h h3, h4⟩

theorem headerKind_eq (ks : List HeapKind) (h : AdtHeader) : headerKind ks h = opens ks h := by
  cases h with
  | string len => cases len <;> rfl
  | vec len el =>
    cases len <;> cases ks with
    | nil => rfl
    | cons k ks => cases k <;> rfl
  | _ => rfl

theorem label_eq (h : AdtHeader) : h.label = title h := by cases h <;> rfl

theorem toM_eq (k : HeapKind) : k.toM = mark k := by cases k <;> rfl

theorem contentTy_cellTy (ks : List HeapKind) (ty : Ty) : ContentTy ks ty (cellTy ks ty) := by
  unfold cellTy
  split
  · rename_i h; exact .elems h
  · rename_i h; exact .value fun len el => h len el

/-! ## Invariant -/

/-- Invariant of the memory map. -/
structure Inv (mem : Mem) (R : List HeapKind → Ptr → Prop) (order : List AllocId) (s : MemMap) : Prop where
  len : order.length = s.heap.length
  cell : ∀ (i : Nat) a, order[i]? = some a → ∃ ly, s.loc a = some (.heap i, ly)
  heap : ∀ a i ly, s.loc a = some (.heap i, ly) → order[i]? = some a ∧ mem.kind a = some .machine
  stack : ∀ a f n ly, s.loc a = some (.stack f n, ly) →
    s.slots a = some (f, n, ly) ∧ mem.kind a = some .stack
  shows : ∀ (i : Nat) a v, order[i]? = some a → s.heap[i]? = some v →
    ∀ ly, s.loc a = some (.heap i, ly) → CellShows mem R (mapOf s) a ly v
  labels : s.remap.Nodup

/-- What a computation adds: more heap, more locations — only of rank below `r` — and more labels. -/
structure Ext (rank : AllocId → Nat) (r : Nat) (s s' : MemMap) : Prop where
  le : MapLe (mapOf s) (mapOf s')
  heap : s.heap <+: s'.heap
  new : ∀ c, s.loc c = none → s'.loc c ≠ none → rank c < r

theorem Ext.refl (rank : AllocId → Nat) (r : Nat) (s : MemMap) : Ext rank r s s :=
  ⟨.refl _, List.prefix_refl _, fun _ h h' => absurd h h'⟩

theorem Ext.trans {rank : AllocId → Nat} {r : Nat} {s₁ s₂ s₃ : MemMap} (h : Ext rank r s₁ s₂)
    (h' : Ext rank r s₂ s₃) : Ext rank r s₁ s₃ := by
  refine ⟨h.le.trans h'.le, h.heap.trans h'.heap, fun c h1 h3 => ?_⟩
  cases h2 : s₂.loc c with
  | none => exact h'.new c h2 h3
  | some x => exact h.new c h1 (by simp [h2])

theorem Ext.weaken {rank : AllocId → Nat} {r r' : Nat} {s s' : MemMap} (h : Ext rank r s s')
    (hr : r ≤ r') : Ext rank r' s s' :=
  ⟨h.le, h.heap, fun c h1 h2 => Nat.lt_of_lt_of_le (h.new c h1 h2) hr⟩

/-- Specification of a computation: it keeps the invariant, only extends, and its result satisfies
`Q` in the final map. -/
def Sound (mem : Mem) (R : List HeapKind → Ptr → Prop) (rank : AllocId → Nat) (r : Nat) {α : Type} (x : M α) (Q : Map → α → Prop) : Prop :=
  ∀ order s v s', Inv mem R order s → x s = .ok v s' →
    ∃ order', Inv mem R order' s' ∧ Ext rank r s s' ∧ Q (mapOf s') v

theorem Sound.pure {mem : Mem} {R} {rank r} {α : Type} {a : α} {Q : Map → α → Prop} (h : ∀ m, Q m a) :
    Sound mem R rank r (pure a) Q := by
  intro order s v s' hI hx
  obtain ⟨rfl, rfl⟩ := pure_ok.1 hx
  exact ⟨order, hI, .refl _ _ _, h _⟩

theorem Sound.throw {mem : Mem} {R} {rank r} {α : Type} {e : Err} {Q : Map → α → Prop} :
    Sound mem R rank r (throw e) Q :=
  fun _ _ _ _ _ hx => absurd hx throw_ok

theorem Sound.bind {mem : Mem} {R} {rank r} {α β : Type} {x : M α} {f : α → M β} {P : Map → α → Prop}
    {Q : Map → β → Prop} (hx : Sound mem R rank r x P)
    (hf : ∀ a m₀, P m₀ a → Sound mem R rank r (f a) (fun m b => MapLe m₀ m → Q m b)) :
    Sound mem R rank r (x >>= f) Q := by
  intro order s b s' hI h
  obtain ⟨a, s₁, h1, h2⟩ := bind_ok.1 h
  obtain ⟨o1, hI1, he1, hP⟩ := hx order s a s₁ hI h1
  obtain ⟨o2, hI2, he2, hQ⟩ := hf a _ hP o1 s₁ b s' hI1 h2
  exact ⟨o2, hI2, he1.trans he2, hQ he2.le⟩

theorem Sound.mono {mem : Mem} {R} {rank r} {α : Type} {x : M α} {P Q : Map → α → Prop}
    (h : Sound mem R rank r x P) (hpq : ∀ m a, P m a → Q m a) : Sound mem R rank r x Q := by
  intro order s v s' hI hx
  obtain ⟨o, h1, h2, h3⟩ := h order s v s' hI hx
  exact ⟨o, h1, h2, hpq _ _ h3⟩

theorem Sound.weaken {mem : Mem} {R} {rank r r'} {α : Type} {x : M α} {P : Map → α → Prop}
    (h : Sound mem R rank r x P) (hr : r ≤ r') : Sound mem R rank r' x P := by
  intro order s v s' hI hx
  obtain ⟨o, h1, h2, h3⟩ := h order s v s' hI hx
  exact ⟨o, h1, h2.weaken hr, h3⟩

/-! ## Labels -/

theorem findIdx?_append_some {l l' : List AllocId} {a : AllocId} {i : Nat}
    (h : l.findIdx? (· == a) = some i) : (l ++ l').findIdx? (· == a) = some i := by
  rw [List.findIdx?_append, h]; rfl

theorem label_unique {l : List AllocId} {a b : AllocId} {i : Nat}
    (ha : l.findIdx? (· == a) = some i) (hb : l.findIdx? (· == b) = some i) : a = b := by
  rw [List.findIdx?_eq_some_iff_getElem] at ha hb
  obtain ⟨h1, h2, -⟩ := ha
  obtain ⟨h3, h4, -⟩ := hb
  simp only [beq_iff_eq] at h2 h4
  rw [← h2, ← h4]

theorem remap_sound (mem : Mem) (R) (rank : AllocId → Nat) (r : Nat) (a : AllocId) :
    Sound mem R rank r (remapAllocId a) (fun m i => m.label a = some i) := by
  intro order s i s' hI h
  unfold remapAllocId at h
  split at h
  · rename_i j hj
    simp only [EStateM.Result.ok.injEq] at h
    obtain ⟨rfl, rfl⟩ := h
    exact ⟨order, hI, .refl _ _ _, hj⟩
  · rename_i hj
    simp only [EStateM.Result.ok.injEq] at h
    obtain ⟨rfl, rfl⟩ := h
    have hnot : a ∉ s.remap := by
      rw [List.findIdx?_eq_none_iff] at hj
      intro hm; have := hj a hm; simp at this
    have hle : MapLe (mapOf s) (mapOf { s with remap := s.remap ++ [a] }) :=
      ⟨rfl, fun _ _ h => h, fun b j hb => findIdx?_append_some hb⟩
    refine ⟨order, ⟨hI.len, hI.cell, hI.heap, hI.stack, ?_, ?_⟩, ⟨hle, List.prefix_refl _, fun _ h h' => absurd h h'⟩, ?_⟩
    · intro i b v hb hv ly hl; exact cellShows_mono hle (hI.shows i b v hb hv ly hl)
    · rw [List.nodup_append]
      refine ⟨hI.labels, by simp, ?_⟩
      intro x hx y hy
      simp only [List.mem_singleton] at hy
      subst hy
      rintro rfl
      exact hnot hx
    · simp only [mapOf]
      rw [List.findIdx?_append, hj]
      simp

/-! ## Arrays -/

theorem mapRange_sound {mem : Mem} {R} {rank r} {mk : Nat → M MValue} {Q : Nat → Map → MValue → Prop}
    (hQ : ∀ i m m' v, MapLe m m' → Q i m v → Q i m' v) (count : Nat) :
    ∀ start, (∀ i, start ≤ i → i < start + count → Sound mem R rank r (mk i) (Q i)) →
    Sound mem R rank r (mapRange mk start count)
      (fun m vs => vs.length = count ∧ ∀ j w, vs[j]? = some w → Q (start + j) m w) := by
  induction count with
  | zero => intro start _; exact .pure (fun m => ⟨rfl, by simp⟩)
  | succ c ih =>
    intro start h
    unfold mapRange
    refine Sound.bind (h start (Nat.le_refl _) (by omega)) ?_
    intro v m₀ hv
    refine Sound.bind (ih (start + 1) (fun i h1 h2 => h i (by omega) (by omega))) ?_
    intro vs m₁ hvs
    refine Sound.pure ?_
    intro m h1 h0
    refine ⟨by simp [hvs.1], ?_⟩
    intro j w hj
    cases j with
    | zero =>
      simp only [List.getElem?_cons_zero, Option.some.injEq] at hj
      subst hj
      exact hQ _ _ _ _ h0 hv
    | succ j =>
      simp only [List.getElem?_cons_succ] at hj
      have := hvs.2 j w hj
      rw [Nat.add_right_comm, Nat.add_assoc] at this
      exact hQ _ _ _ _ h1 this

/-- An abbreviated array shows elements related by `P`. -/
def ShowsAbbr (n : Nat) (P : Nat → MValue → Prop) (v : Abbreviated MValue) : Prop :=
  (n ≤ 12 ∧ ∃ vs, v = .all vs ∧ vs.length = n ∧ ∀ i w, vs[i]? = some w → P i w) ∨
  (12 < n ∧ ∃ vs l, v = .only vs l ∧ vs.length = 11 ∧ (∀ i w, vs[i]? = some w → P i w) ∧ P (n - 1) l)

theorem showsAbbr_array {n : Nat} {P : Nat → MValue → Prop} {v} (h : ShowsAbbr n P v) :
    ShowsArray n P (.ofAbbreviated v) := by
  rcases h with ⟨h1, vs, rfl, h⟩ | ⟨h1, vs, l, rfl, h⟩
  · exact .inl ⟨h1, vs, rfl, h⟩
  · exact .inr ⟨h1, vs, l, rfl, h⟩

theorem abbreviated_sound {mem : Mem} {R} {rank r} {mk : Nat → M MValue} {Q : Nat → Map → MValue → Prop}
    (hQ : ∀ i m m' v, MapLe m m' → Q i m v → Q i m' v) (n : Nat)
    (h : ∀ i, i < n → Sound mem R rank r (mk i) (Q i)) :
    Sound mem R rank r (Abbreviated.new n mk) (fun m v => ShowsAbbr n (fun i => Q i m) v) := by
  unfold Abbreviated.new
  by_cases hn : n ≤ abbrevMax
  · rw [if_pos hn]
    refine Sound.bind (mapRange_sound hQ n 0 (fun i _ hi => h i (by omega))) ?_
    intro vs m₀ hvs
    refine Sound.pure ?_
    intro m hm
    refine .inl ⟨hn, vs, rfl, hvs.1, fun i w hw => ?_⟩
    have := hvs.2 i w hw
    rw [Nat.zero_add] at this
    exact hQ _ _ _ _ hm this
  · rw [if_neg hn]
    have hn' : 12 < n := Nat.lt_of_not_le hn
    refine Sound.bind (mapRange_sound hQ (abbrevMax - 1) 0
      (fun i _ hi => h i (by simp only [abbrevMax] at hi; omega))) ?_
    intro vs m₀ hvs
    refine Sound.bind (h (n - 1) (by omega)) ?_
    intro l m₁ hl
    refine Sound.pure ?_
    intro m h1 h0
    refine .inr ⟨hn', vs, l, rfl, hvs.1, fun i w hw => ?_, hQ _ _ _ _ h1 hl⟩
    have := hvs.2 i w hw
    rw [Nat.zero_add] at this
    exact hQ _ _ _ _ h0 this

theorem depicts_array {mem : Mem} {m : Map} {ks} {n : Nat} {elt : Nat → Op} {v}
    (h : ShowsArray n (fun i => Depicts mem m ks (elt i)) v) : Depicts mem m ks (.array n elt) v := by
  rcases h with ⟨h1, vs, rfl, h2, h3⟩ | ⟨h1, vs, l, rfl, h2, h3, h4⟩
  · exact .arrayAll h1 h2 h3
  · exact .arrayOnly h1 h2 h3 h4

/-! ## Operands -/

/-- The pointer reader is sound for every pointer whose target has rank below `r`. -/
def PtrSound (mem : Mem) (R : List HeapKind → Ptr → Prop) (rank : AllocId → Nat) (r : Nat) (rp : List HeapKind → Ptr → M MValue) : Prop :=
  ∀ ks p, R ks p → (∀ b o, p.target = some (b, o) → rank b < r) →
    Sound mem R rank r (rp ks p) (fun m v => ShowsPtr mem m p v)

mutual
theorem readOp_sound {mem : Mem} {R} {rank r} {rp : List HeapKind → Ptr → M MValue}
    (hrp : PtrSound mem R rank r rp) :
    ∀ (ks : List HeapKind) (o : Op), (∀ ks' p, OccursIn ks' p ks o → R ks' p ∧ ∀ b off, p.target = some (b, off) → rank b < r) →
      Sound mem R rank r (readOp rp ks o) (fun m v => Depicts mem m ks o v)
  | ks, .prim _, _ => by unfold readOp; exact .pure fun _ => .prim
  | ks, .uninit, _ => by unfold readOp; exact .pure fun _ => .uninit
  | ks, .fault, _ => by unfold readOp; exact .throw
  | ks, .unsupported, _ => by unfold readOp; exact .throw
  | ks, .box inner, h => by
    unfold readOp
    refine Sound.bind (readOp_sound hrp _ inner (by simpa only [OccursIn] using h)) ?_
    intro v m₀ hv
    exact .pure fun m hm => .box (depicts_mono hm hv)
  | ks, .tuple fs, h => by
    unfold readOp
    refine Sound.bind (readOps_sound hrp _ fs (by simpa only [OccursIn] using h)) ?_
    intro v m₀ hv
    exact .pure fun m hm => .tuple (depictsAll_mono hm hv)
  | ks, .adt hd fs, h => by
    unfold readOp
    refine Sound.bind (readFields_sound hrp _ fs (by simpa only [OccursIn, headerKind_eq] using h)) ?_
    intro v m₀ hv
    rw [headerKind_eq, label_eq, funext toM_eq]
    rw [headerKind_eq] at hv
    exact .pure fun m hm => .adt (depictsFields_mono hm hv)
  | ks, .closure name names env, h => by
    unfold readOp
    refine Sound.bind (readOps_sound hrp _ env (by simpa only [OccursIn] using h)) ?_
    intro v m₀ hv
    exact .pure fun m hm => .closure (depictsAll_mono hm hv)
  | ks, .array n elt, h => by
    unfold readOp
    refine Sound.bind (abbreviated_sound (Q := fun i m v => Depicts mem m ks (elt i) v)
      (fun i m m' v hm hv => depicts_mono hm hv) n (fun i hi => ?_)) ?_
    · exact readOp_sound hrp ks (elt i) (fun ks' p hp => h ks' p (by
        simp only [OccursIn]; exact ⟨i, hi, hp⟩))
    · intro v m₀ hv
      exact .pure fun m hm => depicts_array (showsArray_mono (fun _ _ => depicts_mono hm) (showsAbbr_array hv))
  | ks, .str p, h => by
    unfold readOp
    have h' := h ks p (by simp [OccursIn])
    exact (hrp ks p h'.1 h'.2).mono fun m v hv => .str hv
  | ks, .ptr p, h => by
    unfold readOp
    by_cases ha : p.accessOk = true
    · rw [if_neg (by simp [ha])]
      have h' := h ks p (by simp [OccursIn, ha])
      exact (hrp ks p h'.1 h'.2).mono fun m v hv => .ptr ha hv
    · rw [if_pos (by simpa using ha)]
      have ha' : p.accessOk = false := by simpa using ha
      cases ht : p.target with
      | none => exact .pure fun _ => .wild ha' ht
      | some t =>
        obtain ⟨a, off⟩ := t
        refine Sound.bind (remap_sound mem R rank r a) ?_
        intro i m₀ hi
        exact .pure fun m hm => .dangling ha' ht (hm.label _ _ hi)
theorem readOps_sound {mem : Mem} {R} {rank r} {rp : List HeapKind → Ptr → M MValue}
    (hrp : PtrSound mem R rank r rp) :
    ∀ (ks : List HeapKind) (os : Ops), (∀ ks' p, OccursInOps ks' p ks os → R ks' p ∧ ∀ b off, p.target = some (b, off) → rank b < r) →
      Sound mem R rank r (readOps rp ks os) (fun m vs => DepictsAll mem m ks os vs)
  | ks, .nil, _ => by unfold readOps; exact .pure fun _ => .nil
  | ks, .cons o os, h => by
    unfold readOps
    simp only [OccursInOps] at h
    refine Sound.bind (readOp_sound hrp ks o (fun ks' p hp => h ks' p (.inl hp))) ?_
    intro v m₀ hv
    refine Sound.bind (readOps_sound hrp ks os (fun ks' p hp => h ks' p (.inr hp))) ?_
    intro vs m₁ hvs
    exact .pure fun m h1 h0 => .cons (depicts_mono h0 hv) (depictsAll_mono h1 hvs)
theorem readFields_sound {mem : Mem} {R} {rank r} {rp : List HeapKind → Ptr → M MValue}
    (hrp : PtrSound mem R rank r rp) :
    ∀ (ks : List HeapKind) (fs : OpFields), (∀ ks' p, OccursInFields ks' p ks fs → R ks' p ∧ ∀ b off, p.target = some (b, off) → rank b < r) →
      Sound mem R rank r (readFields rp ks fs) (fun m vs => DepictsFields mem m ks fs vs)
  | ks, .nil, _ => by unfold readFields; exact .pure fun _ => .nil
  | ks, .cons n zst o fs, h => by
    unfold readFields
    simp only [OccursInFields] at h
    cases zst with
    | true =>
      rw [if_pos rfl]
      exact (readFields_sound hrp ks fs (fun ks' p hp => h ks' p (.inr hp))).mono
        fun m v hv => .skip hv
    | false =>
      rw [if_neg (by simp)]
      refine Sound.bind (readOp_sound hrp ks o (fun ks' p hp => h ks' p (.inl ⟨rfl, hp⟩))) ?_
      intro v m₀ hv
      refine Sound.bind (readFields_sound hrp ks fs (fun ks' p hp => h ks' p (.inr hp))) ?_
      intro vs m₁ hvs
      exact .pure fun m h1 h0 => .cons (depicts_mono h0 hv) (depictsFields_mono h1 hvs)
end

/-! ## Allocations -/

theorem toChar_some {w w' : MValue} (h : toChar w = some w') :
    ∃ c, w = .prim (.uint c) ∧ w' = .prim (.char c) := by
  unfold toChar at h
  split at h
  · simp only [Option.some.injEq] at h; exact ⟨_, rfl, h.symm⟩
  · simp at h

theorem mapM_toChar {vs vs' : List MValue} (h : vs.mapM toChar = some vs') :
    vs'.length = vs.length ∧ ∀ (i : Nat) w', vs'[i]? = some w' → ∃ w, vs[i]? = some w ∧ toChar w = some w' := by
  induction vs generalizing vs' with
  | nil => simp at h; subst h; simp
  | cons v vs ih =>
    simp only [List.mapM_cons, Option.bind_eq_bind, Option.bind_eq_some_iff, Option.pure_def,
      Option.some.injEq] at h
    obtain ⟨c, hc, cs, hcs, rfl⟩ := h
    obtain ⟨h1, h2⟩ := ih hcs
    refine ⟨by simp [h1], ?_⟩
    intro i w' hi
    cases i with
    | zero =>
      simp only [List.getElem?_cons_zero, Option.some.injEq] at hi
      subst hi
      exact ⟨v, by simp, hc⟩
    | succ i => simpa using h2 i w' (by simpa using hi)

theorem uint_of_depicts {mem : Mem} {m : Map} {ks} {o : Op} {c : Nat}
    (h : Depicts mem m ks o (.prim (.uint c))) : o = .prim (.uint c) := by
  generalize hv : MValue.prim (.uint c) = v at h
  cases h with
  | prim => simp only [MValue.prim.injEq] at hv; rw [← hv]
  | str h => cases h <;> simp at hv
  | ptr _ h => cases h <;> simp at hv
  | _ => simp at hv

theorem readAlloc_sound {mem : Mem} {R} {rank : AllocId → Nat} {rp : List HeapKind → Ptr → M MValue}
    (hac : Acyclic mem R rank)
    (hR : ∀ ks p a off o ks' q, R ks p → p.target = some (a, off) → Content mem ks a off p.ty o →
      OccursIn ks' q ks o → R ks' q)
    (a : AllocId) (hrp : PtrSound mem R rank (rank a) rp) (ks : List HeapKind) (p : Ptr)
    (off : Nat) (hp : R ks p) (ht : p.target = some (a, off)) :
    Sound mem R rank (rank a) (readAlloc rp mem ks a off p.ty)
      (fun m v => CellShows mem R m a (cellTy ks p.ty) v) := by
  have key : ∀ o, Content mem ks a off p.ty o → ∀ ks' q, OccursIn ks' q ks o →
      R ks' q ∧ ∀ b off', q.target = some (b, off') → rank b < rank a := fun o ho ks' q hq =>
    ⟨hR ks p a off o ks' q hp ht ho hq, fun b off' hb => hac ks p a off o ks' q b off' hp ht ho hq hb⟩
  refine Sound.mono (P := fun m v => ShowsContent mem m ks a off p.ty v) ?_
    (fun m v hv => ⟨ks, p, off, hp, ht, hv, contentTy_cellTy ks p.ty⟩)
  generalize p.ty = ty at key ⊢
  unfold readAlloc
  split
  · rename_i len hks
    refine Sound.bind (abbreviated_sound
      (Q := fun i m v => Depicts mem m ks (mem.at_ a (off + ty.size * i) ty) v)
      (fun i m m' v hm hv => depicts_mono hm hv) len (fun i hi => ?_)) ?_
    · exact readOp_sound hrp ks _ (key _ (.char hks hi))
    · intro arr m₀ harr
      cases hc : charsOf arr with
      | none => exact .throw
      | some cs =>
        refine .pure fun m hm => .chars hks (showsAbbr_array ?_)
        rcases harr with ⟨h1, vs, rfl, h2, h3⟩ | ⟨h1, vs, l, rfl, h2, h3, h4⟩
        · simp only [charsOf, Option.map_eq_some_iff] at hc
          obtain ⟨vs', hvs', rfl⟩ := hc
          obtain ⟨h5, h6⟩ := mapM_toChar hvs'
          refine .inl ⟨h1, vs', rfl, by omega, ?_⟩
          intro i w' hi
          obtain ⟨w, hw, hcw⟩ := h6 i w' hi
          obtain ⟨c, rfl, rfl⟩ := toChar_some hcw
          exact ⟨c, uint_of_depicts (h3 i _ hw), rfl⟩
        · simp only [charsOf] at hc
          split at hc
          · rename_i vs' l' hvs' hl'
            simp only [Option.some.injEq] at hc
            subst hc
            obtain ⟨h5, h6⟩ := mapM_toChar hvs'
            refine .inr ⟨h1, vs', l', rfl, by omega, ?_, ?_⟩
            · intro i w' hi
              obtain ⟨w, hw, hcw⟩ := h6 i w' hi
              obtain ⟨c, rfl, rfl⟩ := toChar_some hcw
              exact ⟨c, uint_of_depicts (h3 i _ hw), rfl⟩
            · obtain ⟨c, rfl, rfl⟩ := toChar_some hl'
              exact ⟨c, uint_of_depicts h4, rfl⟩
          · simp at hc
  · rename_i len el hks
    refine Sound.bind (abbreviated_sound
      (Q := fun i m v => Depicts mem m ks (mem.at_ a (off + el.size * i) el) v)
      (fun i m m' v hm hv => depicts_mono hm hv) len (fun i hi => ?_)) ?_
    · exact readOp_sound hrp ks _ (key _ (.elem hks hi))
    · intro arr m₀ harr
      exact .pure fun m hm => .elems hks (showsArray_mono (fun _ _ => depicts_mono hm) (showsAbbr_array harr))
  · rename_i h1 h2
    have h1' : ∀ len, ks.head? ≠ some (.string len) := fun len h => h1 len h
    have h2' : ∀ len el, ks.head? ≠ some (.vec len el) := fun len el h => h2 len el h
    exact (readOp_sound hrp ks _ (key _ (.value h1' h2'))).mono fun m v hv => .value h1' h2' hv

theorem pointerValue_sound {mem : Mem} {R} {rank r} {a off} {p : Ptr} (hp : p.target = some (a, off)) :
    Sound mem R rank r (pointerValue mem a off p) (fun m v => ShowsPtr mem m p v) := by
  intro order s v s' hI h
  unfold pointerValue at h
  split at h
  · simp at h
  · rename_i seg ly hl
    split at h
    · simp at h
    · rename_i parts hparts
      simp only [EStateM.Result.ok.injEq] at h
      obtain ⟨rfl, rfl⟩ := h
      exact ⟨order, hI, .refl _ _ _, .drawn hp hl hparts⟩

/-- Registering a new allocation whose contents are shown by `v`. -/
theorem register_sound {mem : Mem} {R} {rank : AllocId → Nat} {a : AllocId} {ks ty v order s x s'}
    (hI : Inv mem R order s) (hnew : s.loc a = none) (hv : CellShows mem R (mapOf s) a (cellTy ks ty) v)
    (h : register mem ks a ty v s = .ok x s') :
    ∃ order', Inv mem R order' s' ∧ Ext rank (rank a + 1) s s' ∧
      (∀ w, x = some w → ∃ i, w = .unallocated (some i) ∧ mem.kind a = some .stack ∧
        (mapOf s').slot a = none ∧ (mapOf s').label a = some i) := by
  unfold register at h
  split at h
  · simp at h
  · simp at h
  · rename_i hk
    split at h
    · rename_i f n ly hsl
      simp only [EStateM.Result.ok.injEq] at h
      obtain ⟨rfl, rfl⟩ := h
      have hle : MapLe (mapOf s) (mapOf { s with
          loc := fun b => if b = a then some (.stack f n, ly) else s.loc b }) := by
        refine ⟨rfl, fun b x hb => ?_, fun _ _ h => h⟩
        simp only [mapOf] at hb ⊢
        rw [if_neg (by rintro rfl; rw [hnew] at hb; simp at hb)]
        exact hb
      refine ⟨order, ⟨hI.len, ?_, ?_, ?_, ?_, hI.labels⟩, ⟨hle, List.prefix_refl _, ?_⟩, by simp⟩
      · intro i b hb
        obtain ⟨ly', h'⟩ := hI.cell i b hb
        exact ⟨ly', hle.loc b _ h'⟩
      · intro b i ly' hb
        by_cases hba : b = a
        · subst hba; simp at hb
        · exact hI.heap b i ly' (by simpa [hba] using hb)
      · intro b f' n' ly' hb
        by_cases hba : b = a
        · subst hba
          simp only [if_true, Option.some.injEq, Prod.mk.injEq, MSeg.stack.injEq] at hb
          obtain ⟨⟨rfl, rfl⟩, rfl⟩ := hb
          exact ⟨hsl, hk⟩
        · exact hI.stack b f' n' ly' (by simpa [hba] using hb)
      · intro i b w hb hw ly' hl
        by_cases hba : b = a
        · subst hba; simp at hl
        · exact cellShows_mono hle (hI.shows i b w hb hw ly' (by simpa [hba] using hl))
      · intro c h1 h2
        by_cases hca : c = a
        · subst hca; omega
        · simp only [hca, if_false] at h2; exact absurd h1 h2
    · rename_i hsl
      split at h
      · rename_i i s₁ hr
        simp only [EStateM.Result.ok.injEq] at h
        obtain ⟨rfl, rfl⟩ := h
        obtain ⟨o', h1, h2, h3⟩ := remap_sound mem R rank (rank a + 1) a order s i s₁ hI hr
        refine ⟨o', h1, h2, fun w hw => ?_⟩
        simp only [Option.some.injEq] at hw
        exact ⟨i, hw.symm, hk, by rw [h2.le.slot]; exact hsl, h3⟩
      · simp at h
  · rename_i hk
    generalize cellTy ks ty = ly at h hv
    simp only [EStateM.Result.ok.injEq] at h
    obtain ⟨rfl, rfl⟩ := h
    have hle : MapLe (mapOf s) (mapOf { s with
        heap := s.heap ++ [v],
        loc := fun b => if b = a then some (.heap s.heap.length, ly) else s.loc b }) := by
      refine ⟨rfl, fun b x hb => ?_, fun _ _ h => h⟩
      simp only [mapOf] at hb ⊢
      rw [if_neg (by rintro rfl; rw [hnew] at hb; simp at hb)]
      exact hb
    refine ⟨order ++ [a], ⟨by simp [hI.len], ?_, ?_, ?_, ?_, hI.labels⟩, ⟨hle, by simp, ?_⟩, by simp⟩
    · intro i b hb
      rcases Nat.lt_or_ge i order.length with hi | hi
      · rw [List.getElem?_append_left hi] at hb
        obtain ⟨ly', h'⟩ := hI.cell i b hb
        exact ⟨ly', hle.loc b _ h'⟩
      · rw [List.getElem?_append_right hi] at hb
        have hi0 : i - order.length = 0 := by
          by_cases h0 : i - order.length = 0
          · exact h0
          · rw [List.getElem?_eq_none (by simp; omega)] at hb; simp at hb
        rw [hi0] at hb
        simp only [List.getElem?_cons_zero, Option.some.injEq] at hb
        subst hb
        have : i = s.heap.length := by rw [← hI.len]; omega
        exact ⟨ly, by simp [this]⟩
    · intro b i ly' hb
      by_cases hba : b = a
      · subst hba
        simp only [if_true, Option.some.injEq, Prod.mk.injEq, MSeg.heap.injEq] at hb
        obtain ⟨rfl, -⟩ := hb
        exact ⟨by rw [← hI.len]; simp, hk⟩
      · obtain ⟨h1, h2⟩ := hI.heap b i ly' (by simpa [hba] using hb)
        refine ⟨?_, h2⟩
        have : i < order.length := by
          rcases Nat.lt_or_ge i order.length with h' | h'
          · exact h'
          · rw [List.getElem?_eq_none h'] at h1; simp at h1
        rw [List.getElem?_append_left this]; exact h1
    · intro b f' n' ly' hb
      by_cases hba : b = a
      · subst hba; simp at hb
      · exact hI.stack b f' n' ly' (by simpa [hba] using hb)
    · intro i b w hb hw ly' hl
      rcases Nat.lt_or_ge i order.length with hi | hi
      · rw [List.getElem?_append_left hi] at hb
        rw [List.getElem?_append_left (by rw [← hI.len]; exact hi)] at hw
        have hba : b ≠ a := by
          rintro rfl
          obtain ⟨ly'', h'⟩ := hI.cell i b hb
          rw [hnew] at h'; simp at h'
        exact cellShows_mono hle (hI.shows i b w hb hw ly' (by simpa [hba] using hl))
      · rw [List.getElem?_append_right hi] at hb
        rw [List.getElem?_append_right (by rw [← hI.len]; exact hi)] at hw
        have hi0 : i - order.length = 0 := by
          by_cases h0 : i - order.length = 0
          · exact h0
          · rw [List.getElem?_eq_none (by simp; omega)] at hb; simp at hb
        rw [hi0] at hb
        rw [← hI.len, hi0] at hw
        simp only [List.getElem?_cons_zero, Option.some.injEq] at hb hw
        subst hb hw
        simp only [if_true, Option.some.injEq, Prod.mk.injEq] at hl
        obtain ⟨-, rfl⟩ := hl
        exact cellShows_mono hle hv
    · intro c h1 h2
      by_cases hca : c = a
      · subst hca; omega
      · simp only [hca, if_false] at h2; exact absurd h1 h2

theorem readPtr_sound {mem : Mem} {R} {rank : AllocId → Nat} (hac : Acyclic mem R rank)
    (hR : ∀ ks p a off o ks' q, R ks p → p.target = some (a, off) → Content mem ks a off p.ty o →
      OccursIn ks' q ks o → R ks' q) (fuel : Nat) :
    ∀ r, PtrSound mem R rank r (readPtr mem fuel) := by
  induction fuel with
  | zero => intro r ks p _ _; unfold readPtr; exact .throw
  | succ fuel ih =>
    intro r ks p hRp hp
    unfold readPtr
    split
    · exact .throw
    · rename_i a off ht
      have hra := hp a off ht
      intro order s v s' hI h
      rw [get_bind] at h
      by_cases hl : (s.loc a).isSome = true
      · rw [if_pos hl] at h
        exact pointerValue_sound ht order s v s' hI h
      · rw [if_neg hl] at h
        have hnew : s.loc a = none := by simpa using hl
        obtain ⟨w, s₁, h1, h2⟩ := bind_ok.1 h
        obtain ⟨o1, hI1, he1, hw⟩ := readAlloc_sound hac hR a (ih (rank a)) ks p off hRp ht order s w s₁ hI h1
        have hnew1 : s₁.loc a = none := by
          cases hx : s₁.loc a with
          | none => rfl
          | some x => exact absurd (he1.new a hnew (by simp [hx])) (by omega)
        obtain ⟨x, s₂, h3, h4⟩ := bind_ok.1 h2
        obtain ⟨o2, hI2, he2, hx⟩ := register_sound (rank := rank) hI1 hnew1 hw h3
        have he12 : Ext rank r s s₂ := (he1.weaken (by omega)).trans (he2.weaken (by omega))
        cases x with
        | some w' =>
          obtain ⟨rfl, rfl⟩ := pure_ok.1 h4
          obtain ⟨i, rfl, hk, hs, hlab⟩ := hx w' rfl
          exact ⟨o2, hI2, he12, .hidden ht hk hs hlab⟩
        | none =>
          obtain ⟨o3, hI3, he3, hv⟩ := pointerValue_sound (rank := rank) (r := r) ht o2 s₂ v s' hI2 h4
          exact ⟨o3, hI3, he12.trans he3, hv⟩

theorem inv_start (mem : Mem) (R) (slots) : Inv mem R [] (startMap slots) where
  len := rfl
  cell := by simp
  heap := by simp [startMap]
  stack := by simp [startMap]
  shows := by simp
  labels := by simp [startMap]

theorem readAll_sound {mem : Mem} {R} {rank : AllocId → Nat} (hac : Acyclic mem R rank)
    (hR : ∀ ks p a off o ks' q, R ks p → p.target = some (a, off) → Content mem ks a off p.ty o →
      OccursIn ks' q ks o → R ks' q) (fuel : Nat) (r : Nat)
    (os : List Op) (hr : ∀ o ∈ os, ∀ ks p, OccursIn ks p [] o → R ks p ∧
      ∀ b off, p.target = some (b, off) → rank b < r) :
    Sound mem R rank r (readAll mem fuel os) (fun m vs => List.Forall₂ (Depicts mem m []) os vs) := by
  induction os with
  | nil => unfold readAll; exact .pure fun _ => .nil
  | cons o os ih =>
    unfold readAll
    refine Sound.bind (readOp_sound (readPtr_sound hac hR fuel r) [] o (hr o (by simp))) ?_
    intro v m₀ hv
    refine Sound.bind (ih (fun o' ho' => hr o' (by simp [ho']))) ?_
    intro vs m₁ hvs
    refine .pure fun m h1 h0 => .cons (depicts_mono h0 hv) ?_
    clear ih hr
    induction hvs with
    | nil => exact .nil
    | cons hx _ ih => exact .cons (depicts_mono h1 hx) ih

/-! ## Termination -/

/-- The computation never overflows the stack. -/
def Safe {α : Type} (x : M α) : Prop := ∀ s s', x s ≠ .error .stackOverflow s'

theorem Safe.pure {α : Type} {a : α} : Safe (pure a : M α) := fun _ _ h => pure_error h

theorem Safe.throw {α : Type} {e : Err} (h : e ≠ .stackOverflow) : Safe (throw e : M α) := by
  intro s s' hx
  exact h (throw_error.1 hx).1

theorem Safe.bind {α β : Type} {x : M α} {f : α → M β} (hx : Safe x) (hf : ∀ a, Safe (f a)) :
    Safe (x >>= f) := by
  intro s s' h
  rcases bind_error.1 h with h | ⟨a, s₁, -, h⟩
  · exact hx _ _ h
  · exact hf a _ _ h

theorem safe_remap (a : AllocId) : Safe (remapAllocId a) := by
  intro s s' h
  unfold remapAllocId at h
  split at h <;> simp at h

theorem safe_mapRange {mk : Nat → M MValue} (count : Nat) :
    ∀ start, (∀ i, start ≤ i → i < start + count → Safe (mk i)) → Safe (mapRange mk start count) := by
  induction count with
  | zero => intro _ _; exact .pure
  | succ c ih =>
    intro start h
    unfold mapRange
    exact (h start (Nat.le_refl _) (by omega)).bind fun _ =>
      (ih (start + 1) (fun i h1 h2 => h i (by omega) (by omega))).bind fun _ => .pure

theorem safe_abbreviated {mk : Nat → M MValue} (n : Nat) (h : ∀ i, i < n → Safe (mk i)) :
    Safe (Abbreviated.new n mk) := by
  unfold Abbreviated.new
  by_cases hn : n ≤ abbrevMax
  · rw [if_pos hn]
    exact (safe_mapRange n 0 (fun i _ hi => h i (by omega))).bind fun _ => .pure
  · rw [if_neg hn]
    have hn' : 12 < n := Nat.lt_of_not_le hn
    exact (safe_mapRange _ 0 (fun i _ hi => h i (by simp only [abbrevMax] at hi; omega))).bind fun _ =>
      (h (n - 1) (by omega)).bind fun _ => .pure

mutual
theorem readOp_safe {rp : List HeapKind → Ptr → M MValue} :
    ∀ (ks : List HeapKind) (o : Op), (∀ ks' p, OccursIn ks' p ks o → Safe (rp ks' p)) → Safe (readOp rp ks o)
  | ks, .prim _, _ => by unfold readOp; exact .pure
  | ks, .uninit, _ => by unfold readOp; exact .pure
  | ks, .fault, _ => by unfold readOp; exact .throw (by simp)
  | ks, .unsupported, _ => by unfold readOp; exact .throw (by simp)
  | ks, .box inner, h => by
    unfold readOp
    exact (readOp_safe _ inner (by simpa only [OccursIn] using h)).bind fun _ => .pure
  | ks, .tuple fs, h => by
    unfold readOp
    exact (readOps_safe _ fs (by simpa only [OccursIn] using h)).bind fun _ => .pure
  | ks, .adt hd fs, h => by
    unfold readOp
    exact (readFields_safe _ fs (by simpa only [OccursIn, headerKind_eq] using h)).bind fun _ => .pure
  | ks, .closure name names env, h => by
    unfold readOp
    exact (readOps_safe _ env (by simpa only [OccursIn] using h)).bind fun _ => .pure
  | ks, .array n elt, h => by
    unfold readOp
    refine (safe_abbreviated n (fun i hi => ?_)).bind fun _ => .pure
    exact readOp_safe ks (elt i) (fun ks' p hp => h ks' p (by simp only [OccursIn]; exact ⟨i, hi, hp⟩))
  | ks, .str p, h => by unfold readOp; exact h ks p (by simp [OccursIn])
  | ks, .ptr p, h => by
    unfold readOp
    by_cases ha : p.accessOk = true
    · rw [if_neg (by simp [ha])]; exact h ks p (by simp [OccursIn, ha])
    · rw [if_pos (by simpa using ha)]
      cases p.target with
      | none => exact .pure
      | some t => exact (safe_remap _).bind fun _ => .pure
theorem readOps_safe {rp : List HeapKind → Ptr → M MValue} :
    ∀ (ks : List HeapKind) (os : Ops), (∀ ks' p, OccursInOps ks' p ks os → Safe (rp ks' p)) → Safe (readOps rp ks os)
  | ks, .nil, _ => by unfold readOps; exact .pure
  | ks, .cons o os, h => by
    unfold readOps
    simp only [OccursInOps] at h
    exact (readOp_safe ks o (fun ks' p hp => h ks' p (.inl hp))).bind fun _ =>
      (readOps_safe ks os (fun ks' p hp => h ks' p (.inr hp))).bind fun _ => .pure
theorem readFields_safe {rp : List HeapKind → Ptr → M MValue} :
    ∀ (ks : List HeapKind) (fs : OpFields), (∀ ks' p, OccursInFields ks' p ks fs → Safe (rp ks' p)) → Safe (readFields rp ks fs)
  | ks, .nil, _ => by unfold readFields; exact .pure
  | ks, .cons n zst o fs, h => by
    unfold readFields
    simp only [OccursInFields] at h
    cases zst with
    | true => exact readFields_safe ks fs (fun ks' p hp => h ks' p (.inr hp))
    | false => exact (readOp_safe ks o (fun ks' p hp => h ks' p (.inl ⟨rfl, hp⟩))).bind fun _ =>
        (readFields_safe ks fs (fun ks' p hp => h ks' p (.inr hp))).bind fun _ => .pure
end

theorem readAlloc_safe {mem : Mem} {rp : List HeapKind → Ptr → M MValue} (ks : List HeapKind) (a off ty)
    (h : ∀ o, Content mem ks a off ty o → ∀ ks' p, OccursIn ks' p ks o → Safe (rp ks' p)) :
    Safe (readAlloc rp mem ks a off ty) := by
  unfold readAlloc
  split
  · rename_i hks
    refine (safe_abbreviated _ (fun i hi => readOp_safe ks _ (h _ (.char hks hi)))).bind fun arr => ?_
    split
    · exact .pure
    · exact .throw (by simp)
  · rename_i hks
    exact (safe_abbreviated _ (fun i hi => readOp_safe ks _ (h _ (.elem hks hi)))).bind fun _ => .pure
  · rename_i h1 h2
    exact readOp_safe ks _ (h _ (.value (fun len h => h1 len h) (fun len el h => h2 len el h)))

theorem readPtr_safe {mem : Mem} {R} {rank : AllocId → Nat} (hac : Acyclic mem R rank)
    (hR : ∀ ks p a off o ks' q, R ks p → p.target = some (a, off) → Content mem ks a off p.ty o →
      OccursIn ks' q ks o → R ks' q) (fuel : Nat) :
    ∀ ks p, R ks p → (∀ b o, p.target = some (b, o) → rank b + 1 < fuel) → 0 < fuel → Safe (readPtr mem fuel ks p) := by
  induction fuel with
  | zero => intro _ _ _ _ h; omega
  | succ fuel ih =>
    intro ks p hRp hp _
    unfold readPtr
    split
    · exact .throw (by simp)
    · rename_i a off ht
      have hra := hp a off ht
      have hpv : Safe (pointerValue mem a off p) := by
        intro s s' h
        unfold pointerValue at h
        split at h
        · simp at h
        · split at h <;> simp at h
      intro s s' h
      rw [get_bind] at h
      split at h
      · exact hpv s s' h
      · refine Safe.bind (readAlloc_safe ks a off p.ty ?_) (fun v => ?_) s s' h
        · intro o ho ks' q hq
          have hlt : ∀ b off', q.target = some (b, off') → rank b < rank a := fun b off' hb =>
            hac ks p a off o ks' q b off' hRp ht ho hq hb
          cases hqt : q.target with
          | none =>
            cases fuel with
            | zero => omega
            | succ f => unfold readPtr; rw [hqt]; exact .throw (by simp)
          | some t =>
            obtain ⟨b, o₁⟩ := t
            have := hlt b o₁ hqt
            refine ih ks' q (hR ks p a off o ks' q hRp ht ho hq) (fun b' o' hb' => ?_) (by omega)
            rw [hqt] at hb'
            simp only [Option.some.injEq, Prod.mk.injEq] at hb'
            obtain ⟨rfl, rfl⟩ := hb'
            omega
        · refine Safe.bind ?_ fun x => ?_
          · intro s s' h
            unfold register at h
            split at h
            · simp at h
            · simp at h
            · split at h
              · simp at h
              · split at h
                · simp at h
                · rename_i e s₁ he
                  simp only [EStateM.Result.error.injEq] at h
                  obtain ⟨rfl, rfl⟩ := h
                  exact safe_remap a _ _ he
            · simp at h
          · cases x with
            | some w => exact .pure
            | none => exact hpv

/-! ## Bounds -/

theorem exists_bound {P : Nat → Nat → Prop} (hP : ∀ i r r', P i r → r ≤ r' → P i r') (n : Nat)
    (h : ∀ i, i < n → ∃ r, P i r) : ∃ r, ∀ i, i < n → P i r := by
  induction n with
  | zero => exact ⟨0, by omega⟩
  | succ n ih =>
    obtain ⟨r₁, h1⟩ := ih (fun i hi => h i (by omega))
    obtain ⟨r₂, h2⟩ := h n (by omega)
    refine ⟨max r₁ r₂, fun i hi => ?_⟩
    rcases Nat.lt_or_ge i n with h' | h'
    · exact hP i r₁ _ (h1 i h') (Nat.le_max_left _ _)
    · have : i = n := by omega
      subst this
      exact hP i r₂ _ h2 (Nat.le_max_right _ _)

mutual
theorem op_bound (rank : AllocId → Nat) : ∀ (ks : List HeapKind) (o : Op),
    ∃ r, ∀ ks' p, OccursIn ks' p ks o → ∀ b off, p.target = some (b, off) → rank b < r
  | _, .prim _ => ⟨0, by simp [OccursIn]⟩
  | _, .uninit => ⟨0, by simp [OccursIn]⟩
  | _, .fault => ⟨0, by simp [OccursIn]⟩
  | _, .unsupported => ⟨0, by simp [OccursIn]⟩
  | ks, .box o => by simpa only [OccursIn] using op_bound rank (.box :: ks) o
  | ks, .tuple os => by simpa only [OccursIn] using ops_bound rank ks os
  | ks, .adt h fs => by simpa only [OccursIn] using fields_bound rank ((opens ks h).toList ++ ks) fs
  | ks, .closure _ _ os => by simpa only [OccursIn] using ops_bound rank ks os
  | ks, .array n elt => by
    obtain ⟨r, hr⟩ := exists_bound
      (P := fun i r => ∀ ks' p, OccursIn ks' p ks (elt i) → ∀ b off, p.target = some (b, off) → rank b < r)
      (fun i r r' h hle ks' p h1 b off h2 => Nat.lt_of_lt_of_le (h ks' p h1 b off h2) hle) n
      (fun i _ => op_bound rank ks (elt i))
    refine ⟨r, fun ks' p h => ?_⟩
    simp only [OccursIn] at h
    obtain ⟨i, hi, h⟩ := h
    exact hr i hi ks' p h
  | ks, .str p => by
    cases ht : p.target with
    | none => exact ⟨0, by simp only [OccursIn]; rintro _ _ ⟨rfl, -⟩ b off h; simp [ht] at h⟩
    | some t =>
      refine ⟨rank t.1 + 1, ?_⟩
      simp only [OccursIn]
      rintro _ _ ⟨rfl, -⟩ b off h
      simp only [ht, Option.some.injEq] at h
      simp [h]
  | ks, .ptr p => by
    cases ht : p.target with
    | none => exact ⟨0, by simp only [OccursIn]; rintro _ _ ⟨rfl, -⟩ b off h; simp [ht] at h⟩
    | some t =>
      refine ⟨rank t.1 + 1, ?_⟩
      simp only [OccursIn]
      rintro _ _ ⟨rfl, -⟩ b off h
      simp only [ht, Option.some.injEq] at h
      simp [h]
theorem ops_bound (rank : AllocId → Nat) : ∀ (ks : List HeapKind) (os : Ops),
    ∃ r, ∀ ks' p, OccursInOps ks' p ks os → ∀ b off, p.target = some (b, off) → rank b < r
  | _, .nil => ⟨0, by simp [OccursInOps]⟩
  | ks, .cons o os => by
    obtain ⟨r₁, h1⟩ := op_bound rank ks o
    obtain ⟨r₂, h2⟩ := ops_bound rank ks os
    refine ⟨max r₁ r₂, fun ks' p h b off hb => ?_⟩
    simp only [OccursInOps] at h
    rcases h with h | h
    · exact Nat.lt_of_lt_of_le (h1 ks' p h b off hb) (Nat.le_max_left _ _)
    · exact Nat.lt_of_lt_of_le (h2 ks' p h b off hb) (Nat.le_max_right _ _)
theorem fields_bound (rank : AllocId → Nat) : ∀ (ks : List HeapKind) (fs : OpFields),
    ∃ r, ∀ ks' p, OccursInFields ks' p ks fs → ∀ b off, p.target = some (b, off) → rank b < r
  | _, .nil => ⟨0, by simp [OccursInFields]⟩
  | ks, .cons _ zst o fs => by
    obtain ⟨r₁, h1⟩ := op_bound rank ks o
    obtain ⟨r₂, h2⟩ := fields_bound rank ks fs
    refine ⟨max r₁ r₂, fun ks' p h b off hb => ?_⟩
    simp only [OccursInFields] at h
    rcases h with ⟨-, h⟩ | h
    · exact Nat.lt_of_lt_of_le (h1 ks' p h b off hb) (Nat.le_max_left _ _)
    · exact Nat.lt_of_lt_of_le (h2 ks' p h b off hb) (Nat.le_max_right _ _)
end

theorem roots_bound (rank : AllocId → Nat) (roots : List Op) :
    ∃ r, ∀ o ∈ roots, ∀ ks p, OccursIn ks p [] o → ∀ b off, p.target = some (b, off) → rank b < r := by
  induction roots with
  | nil => exact ⟨0, by simp⟩
  | cons o os ih =>
    obtain ⟨r₁, h1⟩ := op_bound rank [] o
    obtain ⟨r₂, h2⟩ := ih
    refine ⟨max r₁ r₂, fun o' ho' ks p h b off hb => ?_⟩
    rcases List.mem_cons.1 ho' with rfl | ho'
    · exact Nat.lt_of_lt_of_le (h1 ks p h b off hb) (Nat.le_max_left _ _)
    · exact Nat.lt_of_lt_of_le (h2 o' ho' ks p h b off hb) (Nat.le_max_right _ _)

/-! ## Pointers in values -/

/-- A segment that is drawn in the map. -/
def Drawn (m : Map) (seg : MSeg) : Prop := ∃ a ly, m.loc a = some (seg, ly)

theorem showsPtr_ptr {mem : Mem} {m : Map} {p v seg} (h : ShowsPtr mem m p v) (hp : HasPtr v seg) :
    Drawn m seg := by
  cases h with
  | drawn _ h2 _ => cases hp; exact ⟨_, _, h2⟩
  | hidden => cases hp

mutual
theorem depicts_ptr {mem : Mem} {m : Map} :
    ∀ {ks o v}, Depicts mem m ks o v → ∀ {seg}, HasPtr v seg → Drawn m seg
  | _, _, _, .prim, _, h => by cases h
  | _, _, _, .uninit, _, h => by cases h
  | _, _, _, .box hd, _, h => by
    cases h with
    | adt hm hp =>
      simp only [List.mem_singleton, Prod.mk.injEq] at hm
      obtain ⟨rfl, rfl⟩ := hm
      exact depicts_ptr hd hp
  | _, _, _, .tuple hd, _, h => by cases h with | tuple hm hp => exact depictsAll_ptr hd _ hm hp
  | _, _, _, .adt hd, _, h => by cases h with | adt hm hp => exact depictsFields_ptr hd _ _ hm hp
  | _, _, _, .closure hd, _, h => by
    cases h with | adt hm hp => exact depictsAll_ptr hd _ (List.of_mem_zip hm).2 hp
  | _, _, _, .arrayAll _ _ h3, _, h => by
    cases h with
    | all hm hp =>
      obtain ⟨i, hi⟩ := List.getElem?_of_mem hm
      exact depicts_ptr (h3 i _ hi) hp
  | _, _, _, .arrayOnly _ _ h3 h4, _, h => by
    cases h with
    | only hm hp =>
      obtain ⟨i, hi⟩ := List.getElem?_of_mem hm
      exact depicts_ptr (h3 i _ hi) hp
    | last hp => exact depicts_ptr h4 hp
  | _, _, _, .str hd, _, h => showsPtr_ptr hd h
  | _, _, _, .ptr _ hd, _, h => showsPtr_ptr hd h
  | _, _, _, .dangling _ _ _, _, h => by cases h
  | _, _, _, .wild _ _, _, h => by cases h
theorem depictsAll_ptr {mem : Mem} {m : Map} :
    ∀ {ks o vs}, DepictsAll mem m ks o vs → ∀ {seg}, ∀ v ∈ vs, HasPtr v seg → Drawn m seg
  | _, _, _, .nil => by simp
  | _, _, _, .cons h1 h2 => by
    intro v hv hp
    rcases List.mem_cons.1 hv with rfl | hv
    · exact depicts_ptr h1 hp
    · exact depictsAll_ptr h2 v hv hp
theorem depictsFields_ptr {mem : Mem} {m : Map} :
    ∀ {ks o vs}, DepictsFields mem m ks o vs → ∀ {seg} x v, (x, v) ∈ vs → HasPtr v seg → Drawn m seg
  | _, _, _, .nil => by simp
  | _, _, _, .skip h => fun x v hv hp => depictsFields_ptr h x v hv hp
  | _, _, _, .cons h1 h2 => by
    intro x v hv hp
    rcases List.mem_cons.1 hv with hv | hv
    · simp only [Prod.mk.injEq] at hv
      obtain ⟨rfl, rfl⟩ := hv
      exact depicts_ptr h1 hp
    · exact depictsFields_ptr h2 x v hv hp
end

theorem showsArray_ptr {n : Nat} {P : Nat → MValue → Prop} {v seg} (h : ShowsArray n P v)
    (hp : HasPtr v seg) : ∃ i w, P i w ∧ HasPtr w seg := by
  rcases h with ⟨_, vs, rfl, _, h⟩ | ⟨_, vs, l, rfl, _, h, h'⟩
  · cases hp with
    | all hm hp =>
      obtain ⟨i, hi⟩ := List.getElem?_of_mem hm
      exact ⟨i, _, h i _ hi, hp⟩
  · cases hp with
    | only hm hp =>
      obtain ⟨i, hi⟩ := List.getElem?_of_mem hm
      exact ⟨i, _, h i _ hi, hp⟩
    | last hp => exact ⟨_, _, h', hp⟩

theorem cellShows_ptr {mem : Mem} {R} {m : Map} {a ly v seg} (h : CellShows mem R m a ly v)
    (hp : HasPtr v seg) : Drawn m seg := by
  obtain ⟨ks, p, off, -, -, h, -⟩ := h
  cases h with
  | chars _ h =>
    obtain ⟨i, w, ⟨c, -, rfl⟩, hw⟩ := showsArray_ptr h hp
    cases hw
  | elems _ h =>
    obtain ⟨i, w, hd, hw⟩ := showsArray_ptr h hp
    exact depicts_ptr hd hw
  | value _ _ h => exact depicts_ptr h hp

end Verif.Value
