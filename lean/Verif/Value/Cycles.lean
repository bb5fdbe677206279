import Verif.Value.Props
/-!
# C60: memory that is never read

`Followed` are the pointers that reading meets: as `Spec.Reached`, but only through elements that are shown.
-/
namespace Verif.Value
open Verif.Value.Spec

/-! ## Specification -/

mutual
/-- The pointer occurs in a part of the operand that is shown, and is followed; `ks'` are the containers around it. -/
def ShownIn (ks' : List HeapKind) (p : Ptr) (ks : List HeapKind) : Op → Prop
  | .box o => ShownIn ks' p (.box :: ks) o
  | .tuple os => ShownInOps ks' p ks os
  | .adt h fs => ShownInFields ks' p ((opens ks h).toList ++ ks) fs
  | .closure _ _ os => ShownInOps ks' p ks os
  | .array n elt => ∃ i ∈ shownIndices n, ShownIn ks' p ks (elt i)
  | .str q => p = q ∧ ks' = ks
  | .ptr q => p = q ∧ ks' = ks ∧ q.accessOk = true
  | _ => False
/-- The pointer occurs in one of the operands. -/
def ShownInOps (ks' : List HeapKind) (p : Ptr) (ks : List HeapKind) : Ops → Prop
  | .nil => False
  | .cons o os => ShownIn ks' p ks o ∨ ShownInOps ks' p ks os
/-- The pointer occurs in one of the fields that are shown. -/
def ShownInFields (ks' : List HeapKind) (p : Ptr) (ks : List HeapKind) : OpFields → Prop
  | .nil => False
  | .cons _ zst o fs => (zst = false ∧ ShownIn ks' p ks o) ∨ ShownInFields ks' p ks fs
end

/-- What is shown behind a pointer to type `ty` at an address, in a container. -/
inductive ShownContent (mem : Mem) (ks : List HeapKind) (a : AllocId) (off : Nat) (ty : Ty) : Op → Prop
  | char {len i} : ks.head? = some (.string len) → i ∈ shownIndices len →
      ShownContent mem ks a off ty (mem.at_ a (off + ty.size * i) ty)
  | elem {len el i} : ks.head? = some (.vec len el) → i ∈ shownIndices len →
      ShownContent mem ks a off ty (mem.at_ a (off + el.size * i) el)
  | value : (∀ len, ks.head? ≠ some (.string len)) → (∀ len el, ks.head? ≠ some (.vec len el)) →
      ShownContent mem ks a off ty (mem.at_ a off ty)

/-- Behind the pointer `p` a pointer to allocation `b` is shown and followed. -/
def LeadsTo (mem : Mem) (ks : List HeapKind) (p : Ptr) (b : AllocId) : Prop :=
  ∃ a off o ks' q off', p.target = some (a, off) ∧ ShownContent mem ks a off p.ty o ∧ ShownIn ks' q ks o ∧
    q.target = some (b, off')

/-- The pointers that are met in reading the variables `roots`. -/
inductive Followed (mem : Mem) (roots : List Op) : List HeapKind → Ptr → Prop
  | root {o ks p} : o ∈ roots → ShownIn ks p [] o → Followed mem roots ks p
  | step {ks p a off o ks' q} : Followed mem roots ks p → p.target = some (a, off) →
      ShownContent mem ks a off p.ty o → ShownIn ks' q ks o → Followed mem roots ks' q

/-- Every pointer that is met and goes into the allocations `S` leads back into `S`. -/
def Trap (mem : Mem) (roots : List Op) (S : AllocId → Prop) : Prop :=
  ∀ ks p a off, Followed mem roots ks p → p.target = some (a, off) → S a → ∃ b, S b ∧ LeadsTo mem ks p b

/-- Allocation `a` holds a pointer to allocation `b` that is met. -/
def Next (mem : Mem) (roots : List Op) (a b : AllocId) : Prop :=
  ∃ ks p off, Followed mem roots ks p ∧ p.target = some (a, off) ∧ LeadsTo mem ks p b

/-- All pointers to one allocation lead to the same allocations: nothing is seen through one type and not seen through
another. -/
def Uniform (mem : Mem) (roots : List Op) : Prop :=
  ∀ ks p ks' p' a off off' b, Followed mem roots ks p → Followed mem roots ks' p' →
    p.target = some (a, off) → p'.target = some (a, off') → LeadsTo mem ks p b → LeadsTo mem ks' p' b

/-- One or more steps. -/
inductive Steps (mem : Mem) (roots : List Op) : AllocId → AllocId → Prop
  | one {a b} : Next mem roots a b → Steps mem roots a b
  | more {a b c} : Next mem roots a b → Steps mem roots b c → Steps mem roots a c

/-! ## Proof -/

/-- No allocation of `S` is known. -/
def NoLoc (S : AllocId → Prop) (s : MemMap) : Prop := ∀ a, S a → s.loc a = none

/-- Success keeps `S` unknown and implies `Q`. -/
def Avoids (S : AllocId → Prop) {α : Type} (Q : Prop) (x : M α) : Prop :=
  ∀ s v s', NoLoc S s → x s = .ok v s' → NoLoc S s' ∧ Q

theorem Avoids.pure {S} {α : Type} {a : α} {Q : Prop} (h : Q) : Avoids S Q (pure a : M α) := by
  intro s v s' hs hx
  obtain ⟨-, rfl⟩ := pure_ok.1 hx
  exact ⟨hs, h⟩

theorem Avoids.throw {S} {α : Type} {e : Err} {Q : Prop} : Avoids S Q (throw e : M α) :=
  fun _ _ _ _ hx => absurd hx throw_ok

theorem Avoids.bind {S} {α β : Type} {P Q R : Prop} {x : M α} {f : α → M β} (hx : Avoids S P x)
    (hf : ∀ a, Avoids S Q (f a)) (h : P → Q → R) : Avoids S R (x >>= f) := by
  intro s v s' hs hb
  obtain ⟨a, s₁, h1, h2⟩ := bind_ok.1 hb
  obtain ⟨h3, h4⟩ := hx _ _ _ hs h1
  obtain ⟨h5, h6⟩ := hf a _ _ _ h3 h2
  exact ⟨h5, h h4 h6⟩

theorem avoids_remap (S) (a : AllocId) : Avoids S True (remapAllocId a) := by
  intro s v s' hs h
  unfold remapAllocId at h
  split at h
  · simp only [EStateM.Result.ok.injEq] at h
    obtain ⟨-, rfl⟩ := h
    exact ⟨hs, trivial⟩
  · simp only [EStateM.Result.ok.injEq] at h
    obtain ⟨-, rfl⟩ := h
    exact ⟨hs, trivial⟩

theorem avoids_reads {S} {mk : Nat → M MValue} {Q : Nat → Prop} {is : List Nat} {s vs s'}
    (hm : ∀ i ∈ is, Avoids S (Q i) (mk i)) (h : Reads mk is s vs s') (hs : NoLoc S s) :
    NoLoc S s' ∧ ∀ i ∈ is, Q i := by
  induction h with
  | nil => exact ⟨hs, by simp⟩
  | cons h1 _ ih =>
    rename_i i is _ _ _ _ _ _
    obtain ⟨h3, h4⟩ := hm i (by simp) _ _ _ hs h1
    obtain ⟨h5, h6⟩ := ih (fun j hj => hm j (by simp [hj])) h3
    refine ⟨h5, fun j hj => ?_⟩
    rcases List.mem_cons.1 hj with rfl | hj
    · exact h4
    · exact h6 j hj

theorem avoids_abbreviated {S} {mk : Nat → M MValue} {Q : Nat → Prop} (n : Nat)
    (hm : ∀ i ∈ shownIndices n, Avoids S (Q i) (mk i)) :
    Avoids S (∀ i ∈ shownIndices n, Q i) (Abbreviated.new n mk) := by
  intro s v s' hs h
  exact avoids_reads hm ((C15_shown mk n s v s').1 h).1 hs

/-- The pointer does not go into `S`. -/
def Clear (S : AllocId → Prop) (p : Ptr) : Prop := ∀ a off, p.target = some (a, off) → ¬ S a

mutual
theorem readOp_avoids {S} {rp : List HeapKind → Ptr → M MValue} :
    ∀ (ks : List HeapKind) (o : Op), (∀ ks' p, ShownIn ks' p ks o → Avoids S (Clear S p) (rp ks' p)) →
      Avoids S (∀ ks' p, ShownIn ks' p ks o → Clear S p) (readOp rp ks o)
  | ks, .prim _, _ => by unfold readOp; exact .pure (by simp [ShownIn])
  | ks, .uninit, _ => by unfold readOp; exact .pure (by simp [ShownIn])
  | ks, .fault, _ => by unfold readOp; exact .throw
  | ks, .unsupported, _ => by unfold readOp; exact .throw
  | ks, .box inner, h => by
    unfold readOp
    simp only [ShownIn] at h ⊢
    exact (readOp_avoids _ inner h).bind (fun _ => .pure trivial) fun h _ => h
  | ks, .tuple fs, h => by
    unfold readOp
    simp only [ShownIn] at h ⊢
    exact (readOps_avoids _ fs h).bind (fun _ => .pure trivial) fun h _ => h
  | ks, .adt hd fs, h => by
    unfold readOp
    simp only [ShownIn, ← headerKind_eq] at h ⊢
    exact (readFields_avoids _ fs h).bind (fun _ => .pure trivial) fun h _ => h
  | ks, .closure name names env, h => by
    unfold readOp
    simp only [ShownIn] at h ⊢
    exact (readOps_avoids _ env h).bind (fun _ => .pure trivial) fun h _ => h
  | ks, .array n elt, h => by
    unfold readOp
    simp only [ShownIn] at h ⊢
    refine (avoids_abbreviated n (fun i hi =>
      readOp_avoids ks (elt i) (fun ks' p hp => h ks' p ⟨i, hi, hp⟩))).bind (fun _ => .pure trivial) ?_
    rintro h _ ks' p ⟨i, hi, hp⟩
    exact h i hi ks' p hp
  | ks, .str p, h => by
    unfold readOp
    simp only [ShownIn] at h ⊢
    intro s v s' hs hx
    obtain ⟨h1, h2⟩ := h ks p ⟨rfl, rfl⟩ s v s' hs hx
    refine ⟨h1, ?_⟩
    rintro ks' q ⟨rfl, -⟩
    exact h2
  | ks, .ptr p, h => by
    unfold readOp
    simp only [ShownIn] at h ⊢
    by_cases ha : p.accessOk = true
    · rw [if_neg (by simp [ha])]
      intro s v s' hs hx
      obtain ⟨h1, h2⟩ := h ks p ⟨rfl, rfl, ha⟩ s v s' hs hx
      refine ⟨h1, ?_⟩
      rintro ks' q ⟨rfl, -, -⟩
      exact h2
    · rw [if_pos (by simpa using ha)]
      have hq : ∀ ks' q, q = p ∧ ks' = ks ∧ p.accessOk = true → Clear S q := fun _ _ h => absurd h.2.2 ha
      cases p.target with
      | none => exact .pure hq
      | some t => exact (avoids_remap S _).bind (fun _ => .pure hq) fun _ h => h
theorem readOps_avoids {S} {rp : List HeapKind → Ptr → M MValue} :
    ∀ (ks : List HeapKind) (os : Ops), (∀ ks' p, ShownInOps ks' p ks os → Avoids S (Clear S p) (rp ks' p)) →
      Avoids S (∀ ks' p, ShownInOps ks' p ks os → Clear S p) (readOps rp ks os)
  | ks, .nil, _ => by unfold readOps; exact .pure (by simp [ShownInOps])
  | ks, .cons o os, h => by
    unfold readOps
    simp only [ShownInOps] at h ⊢
    exact (readOp_avoids ks o (fun ks' p hp => h ks' p (.inl hp))).bind (fun _ =>
      (readOps_avoids ks os (fun ks' p hp => h ks' p (.inr hp))).bind (fun _ => .pure trivial) fun h _ => h)
      fun h1 h2 ks' p hp => hp.elim (h1 ks' p) (h2 ks' p)
theorem readFields_avoids {S} {rp : List HeapKind → Ptr → M MValue} :
    ∀ (ks : List HeapKind) (fs : OpFields),
      (∀ ks' p, ShownInFields ks' p ks fs → Avoids S (Clear S p) (rp ks' p)) →
      Avoids S (∀ ks' p, ShownInFields ks' p ks fs → Clear S p) (readFields rp ks fs)
  | ks, .nil, _ => by unfold readFields; exact .pure (by simp [ShownInFields])
  | ks, .cons n zst o fs, h => by
    unfold readFields
    simp only [ShownInFields] at h ⊢
    cases zst with
    | true =>
      intro s v s' hs hx
      obtain ⟨h1, h2⟩ := readFields_avoids ks fs (fun ks' p hp => h ks' p (.inr hp)) s v s' hs hx
      refine ⟨h1, ?_⟩
      rintro ks' p (⟨h3, -⟩ | h3)
      · cases h3
      · exact h2 ks' p h3
    | false =>
      exact (readOp_avoids ks o (fun ks' p hp => h ks' p (.inl ⟨rfl, hp⟩))).bind (fun _ =>
        (readFields_avoids ks fs (fun ks' p hp => h ks' p (.inr hp))).bind (fun _ => .pure trivial) fun h _ => h)
        fun h1 h2 ks' p hp => hp.elim (fun hp => h1 ks' p hp.2) (h2 ks' p)
end

theorem readAlloc_avoids {S} {mem : Mem} {rp : List HeapKind → Ptr → M MValue} (ks : List HeapKind) (a off ty)
    (h : ∀ o, ShownContent mem ks a off ty o → ∀ ks' p, ShownIn ks' p ks o → Avoids S (Clear S p) (rp ks' p)) :
    Avoids S (∀ o, ShownContent mem ks a off ty o → ∀ ks' p, ShownIn ks' p ks o → Clear S p)
      (readAlloc rp mem ks a off ty) := by
  unfold readAlloc
  split
  · rename_i len hks
    refine (avoids_abbreviated _ (fun i hi => readOp_avoids ks _ (h _ (.char hks hi)))).bind
      (Q := True) (fun arr => ?_) ?_
    · split
      · exact .pure trivial
      · exact .throw
    · intro h1 _ o ho
      cases ho with
      | char h2 h3 => rw [hks] at h2; cases h2; exact h1 _ h3
      | elem h2 h3 => rw [hks] at h2; cases h2
      | value h2 h3 => exact absurd hks (h2 _)
  · rename_i len el hks
    refine (avoids_abbreviated _ (fun i hi => readOp_avoids ks _ (h _ (.elem hks hi)))).bind
      (fun arr => .pure trivial) ?_
    intro h1 _ o ho
    cases ho with
    | char h2 h3 => rw [hks] at h2; cases h2
    | elem h2 h3 => rw [hks] at h2; cases h2; exact h1 _ h3
    | value h2 h3 => exact absurd hks (h3 _ _)
  · rename_i h1 h2
    have hv : ShownContent mem ks a off ty (mem.at_ a off ty) :=
      .value (fun len h => h1 len h) (fun len el h => h2 len el h)
    intro s v s' hs hx
    obtain ⟨h3, h4⟩ := readOp_avoids ks _ (h _ hv) s v s' hs hx
    refine ⟨h3, ?_⟩
    intro o ho
    cases ho with
    | char h5 _ => exact absurd h5 (fun h => h1 _ h)
    | elem h5 _ => exact absurd h5 (fun h => h2 _ _ h)
    | value => exact h4

theorem avoids_pointerValue {S} {mem : Mem} {a off} {p : Ptr} : Avoids S True (pointerValue mem a off p) := by
  intro s v s' hs h
  unfold pointerValue at h
  split at h
  · cases h
  · split at h
    · cases h
    · simp only [EStateM.Result.ok.injEq] at h
      obtain ⟨-, rfl⟩ := h
      exact ⟨hs, trivial⟩

theorem avoids_register {S : AllocId → Prop} {mem : Mem} {ks a ty v} (ha : ¬ S a) :
    Avoids S True (register mem ks a ty v) := by
  intro s x s' hs h
  have key : ∀ t : MemMap, (∀ b, b ≠ a → t.loc b = s.loc b) → NoLoc S t := by
    intro t ht b hb
    rw [ht b (fun hc => ha (hc ▸ hb))]
    exact hs b hb
  unfold register at h
  split at h
  · cases h
  · cases h
  · split at h
    · simp only [EStateM.Result.ok.injEq] at h
      obtain ⟨-, rfl⟩ := h
      exact ⟨key _ fun b hb => by simp [hb], trivial⟩
    · split at h
      · rename_i s₁ hr
        simp only [EStateM.Result.ok.injEq] at h
        obtain ⟨-, rfl⟩ := h
        exact avoids_remap S a _ _ _ hs hr
      · cases h
  · simp only [EStateM.Result.ok.injEq] at h
    obtain ⟨-, rfl⟩ := h
    exact ⟨key _ fun b hb => by simp [hb], trivial⟩

theorem readPtr_avoids {mem : Mem} {roots : List Op} {S : AllocId → Prop} (hS : Trap mem roots S) (fuel : Nat) :
    ∀ ks p, Followed mem roots ks p → Avoids S (Clear S p) (readPtr mem fuel ks p) := by
  induction fuel with
  | zero => intro ks p _; unfold readPtr; exact .throw
  | succ fuel ih =>
    intro ks p hp
    unfold readPtr
    split
    · exact .throw
    · rename_i a off ht
      have hclear : ¬ S a → Clear S p := by
        intro h b off' hb
        rw [ht] at hb
        cases hb
        exact h
      intro s v s' hs h
      rw [get_bind] at h
      split at h
      · rename_i hl
        refine ⟨(avoids_pointerValue s v s' hs h).1, hclear fun ha => ?_⟩
        rw [hs a ha] at hl
        cases hl
      · obtain ⟨w, s₁, h1, h2⟩ := bind_ok.1 h
        obtain ⟨h3, h4⟩ := readAlloc_avoids ks a off p.ty
          (fun o ho ks' q hq => ih ks' q (.step hp ht ho hq)) s w s₁ hs h1
        have ha : ¬ S a := by
          intro ha
          obtain ⟨b, hb, a', off', o, ks', q, offb, h5, h6, h7, h8⟩ := hS ks p a off hp ht ha
          rw [ht] at h5
          cases h5
          exact h4 o h6 ks' q h7 b offb h8 hb
        obtain ⟨x, s₂, h5, h6⟩ := bind_ok.1 h2
        obtain ⟨h7, -⟩ := avoids_register ha s₁ x s₂ h3 h5
        refine ⟨?_, hclear ha⟩
        cases x with
        | some x => obtain ⟨-, rfl⟩ := pure_ok.1 h6; exact h7
        | none => exact (avoids_pointerValue s₂ v s' h7 h6).1

/-- **C60 (never read).** If every pointer into some allocations leads back into them, and a variable shows a pointer into
them, then the step is never read, whatever the size of the stack. -/
theorem C60_never (mem : Mem) (roots : List Op) (S : AllocId → Prop) (hS : Trap mem roots S)
    (hr : ∃ o ∈ roots, ∃ ks p a off, ShownIn ks p [] o ∧ p.target = some (a, off) ∧ S a) (fuel : Nat) (slots vs s') :
    readAll mem fuel roots (startMap slots) ≠ .ok vs s' := by
  have step : ∀ os : List Op, (∀ o ∈ os, o ∈ roots) →
      Avoids S (∀ o ∈ os, ∀ ks p, ShownIn ks p [] o → Clear S p) (readAll mem fuel os) := by
    intro os
    induction os with
    | nil => intro _; unfold readAll; exact .pure (by simp)
    | cons o os ih =>
      intro h
      unfold readAll
      refine (readOp_avoids [] o fun ks p hp => readPtr_avoids hS fuel ks p (.root (h o (by simp)) hp)).bind
        (fun _ => (ih fun o' ho => h o' (by simp [ho])).bind (fun _ => .pure trivial) fun h _ => h) ?_
      intro h1 h2 o' ho
      rcases List.mem_cons.1 ho with rfl | ho
      · exact h1
      · exact h2 o' ho
  intro h
  obtain ⟨-, hc⟩ := step roots (fun _ h => h) (startMap slots) vs s' (fun _ _ => rfl) h
  obtain ⟨o, ho, ks, p, a, off, h1, h2, h3⟩ := hr
  exact hc o ho ks p h1 a off h2 h3

/-- **C60 (cycles).** If all pointers to an allocation see the same in it, and a pointer that is met goes to an allocation
from which pointers lead back to it, then the step is never read. -/
theorem C60_cycle_never (mem : Mem) (roots : List Op) (hu : Uniform mem roots) (c : AllocId)
    (hc : Steps mem roots c c) (hm : ∃ ks p off, Followed mem roots ks p ∧ p.target = some (c, off))
    (fuel : Nat) (slots vs s') : readAll mem fuel roots (startMap slots) ≠ .ok vs s' := by
  refine C60_never mem roots (fun b => Steps mem roots b c) ?_ ?_ fuel slots vs s'
  · intro ks p a off hp ht ha
    obtain ⟨b, hn, hb⟩ : ∃ b, Next mem roots a b ∧ Steps mem roots b c := by
      cases ha with
      | one h => exact ⟨c, h, hc⟩
      | more h h' => exact ⟨_, h, h'⟩
    obtain ⟨ks', p', off', h1, h2, h3⟩ := hn
    exact ⟨b, hb, hu ks' p' ks p a off' off b h1 hp h2 ht h3⟩
  · have key : ∀ ks p, Followed mem roots ks p → ∀ b off, p.target = some (b, off) → Steps mem roots b c →
        ∃ o ∈ roots, ∃ ks p a off, ShownIn ks p [] o ∧ p.target = some (a, off) ∧ Steps mem roots a c := by
      intro ks p hp
      induction hp with
      | root h1 h2 => exact fun b off h3 h4 => ⟨_, h1, _, _, b, off, h2, h3, h4⟩
      | step h1 h2 h3 h4 ih =>
        intro b off h5 h6
        exact ih _ _ h2 (.more ⟨_, _, _, h1, h2, _, _, _, _, _, _, h2, h3, h4, h5⟩ h6)
    obtain ⟨ks, p, off, h1, h2⟩ := hm
    exact key ks p h1 c off h2 hc

/-- **C60 (string literals).** A `str` stands for a pointer to itself.  So memory that is met only as `str`, outside strings and
vectors, such as a literal, is never read. -/
theorem C60_literal_never (mem : Mem) (roots : List Op) (a : AllocId)
    (h : ∀ ks p off, Followed mem roots ks p → p.target = some (a, off) →
      (ks = [] ∨ ks.head? matches some .box) ∧ ∃ q off', mem.at_ a off p.ty = .str q ∧ q.target = some (a, off'))
    (hr : ∃ o ∈ roots, ∃ ks p off, ShownIn ks p [] o ∧ p.target = some (a, off)) (fuel : Nat) (slots vs s') :
    readAll mem fuel roots (startMap slots) ≠ .ok vs s' := by
  refine C60_never mem roots (· = a) ?_ ?_ fuel slots vs s'
  · rintro ks p b off hp ht rfl
    obtain ⟨h1, q, off', h2, h3⟩ := h ks p off hp ht
    refine ⟨b, rfl, b, off, .str q, ks, q, off', ht, ?_, ?_, h3⟩
    · rw [← h2]
      refine .value ?_ ?_
      · intro len hc
        rcases h1 with rfl | h1
        · cases hc
        · simp [hc] at h1
      · intro len el hc
        rcases h1 with rfl | h1
        · cases hc
        · simp [hc] at h1
    · simp [ShownIn]
  · obtain ⟨o, ho, ks, p, off, h1, h2⟩ := hr
    exact ⟨o, ho, ks, p, a, off, h1, h2, rfl⟩

/-! ## Memory without cycles -/

theorem safe_shown {mk : Nat → M MValue} (n : Nat) (h : ∀ i ∈ shownIndices n, Safe (mk i)) :
    Safe (Abbreviated.new n mk) := by
  intro s s' he
  obtain ⟨before, i, after, vs, s₁, h1, -, h3⟩ := (C15_first_error mk n s _ s').1 he
  exact h i (by rw [h1]; simp) _ _ h3

mutual
theorem readOp_safe' {rp : List HeapKind → Ptr → M MValue} :
    ∀ (ks : List HeapKind) (o : Op), (∀ ks' p, ShownIn ks' p ks o → Safe (rp ks' p)) → Safe (readOp rp ks o)
  | ks, .prim _, _ => by unfold readOp; exact .pure
  | ks, .uninit, _ => by unfold readOp; exact .pure
  | ks, .fault, _ => by unfold readOp; exact .throw (by simp)
  | ks, .unsupported, _ => by unfold readOp; exact .throw (by simp)
  | ks, .box inner, h => by
    unfold readOp
    exact (readOp_safe' _ inner (by simpa only [ShownIn] using h)).bind fun _ => .pure
  | ks, .tuple fs, h => by
    unfold readOp
    exact (readOps_safe' _ fs (by simpa only [ShownIn] using h)).bind fun _ => .pure
  | ks, .adt hd fs, h => by
    unfold readOp
    exact (readFields_safe' _ fs (by simpa only [ShownIn, headerKind_eq] using h)).bind fun _ => .pure
  | ks, .closure name names env, h => by
    unfold readOp
    exact (readOps_safe' _ env (by simpa only [ShownIn] using h)).bind fun _ => .pure
  | ks, .array n elt, h => by
    unfold readOp
    refine (safe_shown n (fun i hi => ?_)).bind fun _ => .pure
    exact readOp_safe' ks (elt i) (fun ks' p hp => h ks' p (by simp only [ShownIn]; exact ⟨i, hi, hp⟩))
  | ks, .str p, h => by unfold readOp; exact h ks p (by simp [ShownIn])
  | ks, .ptr p, h => by
    unfold readOp
    by_cases ha : p.accessOk = true
    · rw [if_neg (by simp [ha])]; exact h ks p (by simp [ShownIn, ha])
    · rw [if_pos (by simpa using ha)]
      cases p.target with
      | none => exact .pure
      | some t => exact (safe_remap _).bind fun _ => .pure
theorem readOps_safe' {rp : List HeapKind → Ptr → M MValue} :
    ∀ (ks : List HeapKind) (os : Ops), (∀ ks' p, ShownInOps ks' p ks os → Safe (rp ks' p)) → Safe (readOps rp ks os)
  | ks, .nil, _ => by unfold readOps; exact .pure
  | ks, .cons o os, h => by
    unfold readOps
    simp only [ShownInOps] at h
    exact (readOp_safe' ks o (fun ks' p hp => h ks' p (.inl hp))).bind fun _ =>
      (readOps_safe' ks os (fun ks' p hp => h ks' p (.inr hp))).bind fun _ => .pure
theorem readFields_safe' {rp : List HeapKind → Ptr → M MValue} :
    ∀ (ks : List HeapKind) (fs : OpFields), (∀ ks' p, ShownInFields ks' p ks fs → Safe (rp ks' p)) →
      Safe (readFields rp ks fs)
  | ks, .nil, _ => by unfold readFields; exact .pure
  | ks, .cons n zst o fs, h => by
    unfold readFields
    simp only [ShownInFields] at h
    cases zst with
    | true => exact readFields_safe' ks fs (fun ks' p hp => h ks' p (.inr hp))
    | false => exact (readOp_safe' ks o (fun ks' p hp => h ks' p (.inl ⟨rfl, hp⟩))).bind fun _ =>
        (readFields_safe' ks fs (fun ks' p hp => h ks' p (.inr hp))).bind fun _ => .pure
end

theorem readAlloc_safe' {mem : Mem} {rp : List HeapKind → Ptr → M MValue} (ks : List HeapKind) (a off ty)
    (h : ∀ o, ShownContent mem ks a off ty o → ∀ ks' p, ShownIn ks' p ks o → Safe (rp ks' p)) :
    Safe (readAlloc rp mem ks a off ty) := by
  unfold readAlloc
  split
  · rename_i hks
    refine (safe_shown _ (fun i hi => readOp_safe' ks _ (h _ (.char hks hi)))).bind fun arr => ?_
    split
    · exact .pure
    · exact .throw (by simp)
  · rename_i hks
    exact (safe_shown _ (fun i hi => readOp_safe' ks _ (h _ (.elem hks hi)))).bind fun _ => .pure
  · rename_i h1 h2
    exact readOp_safe' ks _ (h _ (.value (fun len h => h1 len h) (fun len el h => h2 len el h)))

theorem safe_pointerValue {mem : Mem} {a off} {p : Ptr} : Safe (pointerValue mem a off p) := by
  intro s s' h
  unfold pointerValue at h
  split at h
  · simp at h
  · split at h <;> simp at h

theorem safe_register {mem : Mem} {ks a ty v} : Safe (register mem ks a ty v) := by
  intro s s' h
  unfold register at h
  split at h
  · simp at h
  · simp at h
  · split at h
    · simp at h
    · split at h
      · simp at h
      · rename_i e s₁ he
        simp only [EStateM.Result.error.injEq] at h
        obtain ⟨rfl, rfl⟩ := h
        exact safe_remap a _ _ he
  · simp at h

theorem readPtr_safe' {mem : Mem} {roots : List Op} {rank : AllocId → Nat}
    (hr : ∀ a b, Next mem roots a b → rank b < rank a) (fuel : Nat) :
    ∀ ks p, Followed mem roots ks p → (∀ b o, p.target = some (b, o) → rank b + 1 < fuel) → 0 < fuel →
      Safe (readPtr mem fuel ks p) := by
  induction fuel with
  | zero => intro _ _ _ _ h; omega
  | succ fuel ih =>
    intro ks p hp hb _
    unfold readPtr
    split
    · exact .throw (by simp)
    · rename_i a off ht
      have hra := hb a off ht
      intro s s' h
      rw [get_bind] at h
      split at h
      · exact safe_pointerValue s s' h
      · refine Safe.bind (readAlloc_safe' ks a off p.ty ?_) (fun v => ?_) s s' h
        · intro o ho ks' q hq
          refine ih ks' q (.step hp ht ho hq) (fun b off' hqt => ?_) (by omega)
          have := hr a b ⟨ks, p, off, hp, ht, a, off, o, ks', q, off', ht, ho, hq, hqt⟩
          omega
        · refine Safe.bind safe_register fun x => ?_
          cases x with
          | some w => exact .pure
          | none => exact safe_pointerValue

/-- The number of allocations of the list to which pointers lead. -/
noncomputable def depth (mem : Mem) (roots : List Op) (L : List AllocId) (a : AllocId) : Nat :=
  open Classical in (L.filter fun b => decide (Steps mem roots a b)).length

theorem steps_trans {mem roots a b c} (h : Steps mem roots a b) (h' : Steps mem roots b c) : Steps mem roots a c := by
  induction h with
  | one h => exact .more h h'
  | more h _ ih => exact .more h (ih h')

theorem filter_lt {p q : AllocId → Bool} {L : List AllocId} (h : ∀ x, p x = true → q x = true) {b : AllocId}
    (hb : b ∈ L) (hq : q b = true) (hp : p b = false) : (L.filter p).length < (L.filter q).length := by
  induction L with
  | nil => cases hb
  | cons x L ih =>
    have hle : (L.filter p).length ≤ (L.filter q).length := by
      clear ih hb
      induction L with
      | nil => simp
      | cons y L ih =>
        simp only [List.filter_cons]
        have := h y
        cases hy : p y <;> cases hy' : q y <;> simp_all <;> omega
    simp only [List.filter_cons]
    rcases List.mem_cons.1 hb with rfl | hb
    · simp only [hp, hq, if_true, Bool.false_eq_true, if_false, List.length_cons]
      omega
    · have h1 := ih hb
      have := h x
      cases hy : p x <;> cases hy' : q x <;> simp_all <;> omega

/-- **C60 (no cycles).** If no allocation leads back to itself and the variables lead to finitely many allocations, then with
a stack of a certain size, or a larger one, reading does not recurse too deep. -/
theorem C60_ends (mem : Mem) (roots : List Op) (L : List AllocId)
    (hL : ∀ ks p a off, Followed mem roots ks p → p.target = some (a, off) → a ∈ L)
    (hc : ∀ a, ¬ Steps mem roots a a) (fuel : Nat) (hf : L.length + 1 < fuel) (s s') :
    readAll mem fuel roots s ≠ .error .stackOverflow s' := by
  have hr : ∀ a b, Next mem roots a b → depth mem roots L b < depth mem roots L a := by
    intro a b h
    refine filter_lt (b := b) ?_ ?_ (by simpa using Steps.one h) (by simpa using hc b)
    · intro x hx
      simp only [decide_eq_true_eq] at hx ⊢
      exact .more h hx
    · obtain ⟨ks, p, off, h1, h2, a', off', o, ks', q, offb, h3, h4, h5, h6⟩ := h
      exact hL ks' q b offb (.step h1 h3 h4 h5) h6
  have hd : ∀ a, depth mem roots L a ≤ L.length := fun a => List.length_filter_le _ _
  have : ∀ os : List Op, (∀ o ∈ os, o ∈ roots) → Safe (readAll mem fuel os) := by
    intro os
    induction os with
    | nil => intro _; unfold readAll; exact .pure
    | cons o os ih =>
      intro hos
      unfold readAll
      refine Safe.bind (readOp_safe' [] o ?_) fun v => (ih (fun o' h => hos o' (by simp [h]))).bind fun _ => .pure
      intro ks p hp
      exact readPtr_safe' hr fuel ks p (.root (hos o (by simp)) hp)
        (fun b _ _ => by have := hd b; omega) (by omega)
  exact this roots (fun _ h => h) s s'

/-! ## Examples -/

/-- A variable that holds the pointer of a cycle, or a string literal, is never read. -/
example (fuel : Nat) (slots vs s') : readAll selfMem fuel [.ptr selfPtr] (startMap slots) ≠ .ok vs s' := by
  have hall : ∀ ks p, Followed selfMem [.ptr selfPtr] ks p → ks = [] ∧ p = selfPtr := by
    intro ks p h
    induction h with
    | root h1 h2 =>
      simp only [List.mem_singleton] at h1
      subst h1
      exact ⟨h2.2.1, h2.1⟩
    | step h1 h2 h3 h4 ih =>
      obtain ⟨rfl, rfl⟩ := ih
      cases h3 with
      | char h _ => cases h
      | elem h _ => cases h
      | value => exact ⟨h4.2.1, h4.1⟩
  have hl : LeadsTo selfMem [] selfPtr 0 := ⟨0, 0, .ptr selfPtr, [], selfPtr, 0, rfl, .value (by simp) (by simp), ⟨rfl, rfl, rfl⟩, rfl⟩
  have hf : Followed selfMem [.ptr selfPtr] [] selfPtr := .root (o := .ptr selfPtr) (by simp) ⟨rfl, rfl, rfl⟩
  refine C60_cycle_never selfMem [.ptr selfPtr] ?_ 0 (.one ⟨[], selfPtr, 0, hf, rfl, hl⟩) ⟨[], selfPtr, 0, hf, rfl⟩ _ _ _ _
  intro ks p ks' p' a off off' b h1 h2 _ _ h5
  obtain ⟨rfl, rfl⟩ := hall _ _ h1
  obtain ⟨rfl, rfl⟩ := hall _ _ h2
  exact h5

end Verif.Value
