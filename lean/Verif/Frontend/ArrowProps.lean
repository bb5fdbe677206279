import Verif.Frontend.DiagramProps
/-!
# C55, C72: arrows end where they should
-/
namespace Verif.Frontend

open Verif.Value Verif.Value.Spec

theorem not_showsPtr_only {mem : Mem} {m : Map} {p : Ptr} {vs : List MValue} {l : MValue}
    (h : ShowsPtr mem m p (.only vs l)) : False := by cases h

theorem depictsAll_get {mem : Mem} {m : Map} {ks : List HeapKind} : ∀ {os : Ops} {vs : List MValue},
    DepictsAll mem m ks os vs → ∀ {v : MValue}, v ∈ vs → ∃ o, Depicts mem m ks o v
  | _, _, .nil, _, hv => by cases hv
  | _, _, .cons h1 h2, v, hv => by
    rcases List.mem_cons.1 hv with rfl | hv
    · exact ⟨_, h1⟩
    · exact depictsAll_get h2 hv

theorem depictsFields_get {mem : Mem} {m : Map} {ks : List HeapKind} : ∀ {fs : OpFields} {vs : FieldList},
    DepictsFields mem m ks fs vs → ∀ {x : String × MValue}, x ∈ vs → ∃ o, Depicts mem m ks o x.2
  | _, _, .nil, _, hv => by cases hv
  | _, _, .skip h, _, hv => depictsFields_get h hv
  | _, _, .cons h1 h2, v, hv => by
    rcases List.mem_cons.1 hv with rfl | hv
    · exact ⟨_, h1⟩
    · exact depictsFields_get h2 hv

theorem depicts_part {mem : Mem} {m : Map} {vs : List MValue} {l u : MValue} (hp : Part (.only vs l) u) :
    ∀ {ks : List HeapKind} {o : Op}, Depicts mem m ks o u → vs.length ≤ 100 := by
  induction hp with
  | here =>
    intro ks o h
    cases h with
    | arrayOnly h1 h2 _ _ => omega
    | str h => exact absurd h (fun h => by cases h)
    | ptr _ h => exact absurd h (fun h => by cases h)
  | tuple hv _ ih =>
    intro ks o h
    cases h with
    | tuple h => obtain ⟨o', h'⟩ := depictsAll_get h hv; exact ih h'
    | str h => exact absurd h (fun h => by cases h)
    | ptr _ h => exact absurd h (fun h => by cases h)
  | all hv _ ih =>
    intro ks o h
    cases h with
    | arrayAll _ _ h => obtain ⟨i, hi⟩ := List.getElem?_of_mem hv; exact ih (h i _ hi)
    | str h => exact absurd h (fun h => by cases h)
    | ptr _ h => exact absurd h (fun h => by cases h)
  | only hv _ ih =>
    intro ks o h
    cases h with
    | arrayOnly _ _ h _ => obtain ⟨i, hi⟩ := List.getElem?_of_mem hv; exact ih (h i _ hi)
    | str h => exact absurd h (fun h => by cases h)
    | ptr _ h => exact absurd h (fun h => by cases h)
  | last _ ih =>
    intro ks o h
    cases h with
    | arrayOnly _ _ _ h => exact ih h
    | str h => exact absurd h (fun h => by cases h)
    | ptr _ h => exact absurd h (fun h => by cases h)
  | adt hx _ ih =>
    intro ks o h
    cases h with
    | box h =>
      rw [List.mem_singleton] at hx
      subst hx
      exact ih h
    | adt h => obtain ⟨o', h'⟩ := depictsFields_get h hx; exact ih h'
    | closure h =>
      obtain ⟨o', h'⟩ := depictsAll_get h (List.of_mem_zip (a := _) (b := _) hx).2
      exact ih h'
    | str h => exact absurd h (fun h => by cases h)
    | ptr _ h => exact absurd h (fun h => by cases h)

/-- A value that depicts an operand keeps few elements of a long array. -/
theorem depicts_short {mem : Mem} {m : Map} {ks : List HeapKind} {o : Op} {v : MValue} (h : Depicts mem m ks o v) :
    Short v := fun _ _ hp => depicts_part hp h

theorem short_prim (x : Prim) : Short (.prim x) := fun _ _ hp => by cases hp

theorem showsArray_short {n : Nat} {P : Nat → MValue → Prop} {v : MValue} (h : ShowsArray n P v)
    (hP : ∀ i w, P i w → Short w) : Short v := by
  rcases h with ⟨_, vs, rfl, _, h⟩ | ⟨_, vs, l, rfl, hl, h, hlast⟩
  · intro us u hp
    cases hp with
    | all hv hp =>
      obtain ⟨i, hi⟩ := List.getElem?_of_mem hv
      exact hP _ _ (h i _ hi) us u hp
  · intro us u hp
    cases hp with
    | here => omega
    | only hv hp =>
      obtain ⟨i, hi⟩ := List.getElem?_of_mem hv
      exact hP _ _ (h i _ hi) us u hp
    | last hp => exact hP _ _ hlast us u hp

theorem content_short {mem : Mem} {m : Map} {ks : List HeapKind} {a : AllocId} {off : Nat} {ty : Ty} {v : MValue}
    (h : ShowsContent mem m ks a off ty v) : Short v := by
  cases h with
  | chars _ h => exact showsArray_short h (fun i w ⟨_, _, hw⟩ => hw ▸ short_prim _)
  | elems _ h => exact showsArray_short h (fun i w hw => depicts_short hw)
  | value _ _ h => exact depicts_short h

theorem depictsAll_at {mem : Mem} {m : Map} {ks : List HeapKind} : ∀ {os : Ops} {vs : List MValue},
    DepictsAll mem m ks os vs → ∀ {i : Nat} {o : Op}, opAt os i = some o → ∃ v, vs[i]? = some v ∧ Depicts mem m ks o v
  | _, _, .nil, i, o, h => by simp [opAt] at h
  | _, _, .cons h1 h2, i, o, h => by
    cases i with
    | zero => simp only [opAt, Option.some.injEq] at h; subst h; exact ⟨_, rfl, h1⟩
    | succ i => simpa using depictsAll_at h2 (by simpa [opAt] using h)

theorem depictsFields_at {mem : Mem} {m : Map} {ks : List HeapKind} : ∀ {fs : OpFields} {vs : FieldList},
    DepictsFields mem m ks fs vs → ∀ {i : Nat} {o : Op}, fieldAt fs i = some (true, o) →
      ∃ x v, vs[i]? = some (x, v) ∧ Depicts mem m ks o v
  | _, _, .nil, i, o, h => by simp [fieldAt] at h
  | _, _, .skip h', i, o, h => by
    cases i with
    | zero => simp [fieldAt] at h
    | succ i =>
      simp only [fieldAt, Bool.not_true, Bool.false_and, Option.map_eq_some_iff] at h
      obtain ⟨x, _, hx⟩ := h
      cases hx
  | _, _, .cons h1 h2, i, o, h => by
    cases i with
    | zero => simp only [fieldAt, Option.some.injEq, Prod.mk.injEq] at h; obtain ⟨_, rfl⟩ := h; exact ⟨_, _, rfl, h1⟩
    | succ i =>
      simp only [fieldAt, Bool.not_false, Bool.true_and, Option.map_eq_some_iff] at h
      obtain ⟨⟨b, o'⟩, hx, he⟩ := h
      cases he
      simpa using depictsFields_at h2 hx

/-- What is drawn at a direct path depicts what is in memory there. -/
theorem direct_shown {concrete : Bool} {mem : Mem} {m : Map} {ks ks' : List HeapKind} {o o' : Op} {comps : List Comp}
    (hd : Direct concrete ks o comps ks' o') : ∀ {v : MValue}, Depicts mem m ks o v →
      ∃ w, Shown concrete v comps w ∧ Depicts mem m ks' o' w := by
  induction hd with
  | here => intro v h; exact ⟨v, .here, h⟩
  | tuple ho _ ih =>
    intro v h
    cases h with
    | tuple h =>
      obtain ⟨u, hu, hd⟩ := depictsAll_at h ho
      obtain ⟨w, hw, hdw⟩ := ih hd
      exact ⟨w, .tuple hu hw, hdw⟩
  | @closure ks n ns env i o r ks' o' ho hlen hn _ ih =>
    intro v h
    cases h with
    | closure h =>
      obtain ⟨u, hu, hd⟩ := depictsAll_at h ho
      obtain ⟨w, hw, hdw⟩ := ih hd
      refine ⟨w, .adt ?_ (x := ns[i]) (v := u) ?_ hw, hdw⟩
      · rcases hn with hn | hn
        · exact .inl ⟨rfl, hn⟩
        · exact .inr hn
      · rw [List.getElem?_zip_eq_some]
        exact ⟨List.getElem?_eq_getElem hlen, hu⟩
  | box hc _ ih =>
    intro v h
    cases h with
    | box h =>
      obtain ⟨w, hw, hdw⟩ := ih h
      exact ⟨w, .adt (.inr hc) rfl hw, hdw⟩
  | adt hf hp _ ih =>
    intro v h
    cases h with
    | adt h =>
      obtain ⟨x, u, hu, hd⟩ := depictsFields_at h hf
      obtain ⟨w, hw, hdw⟩ := ih hd
      refine ⟨w, .adt ?_ hu hw, hdw⟩
      rcases hp with ⟨h1, h2⟩ | hc
      · rw [h1]
        exact .inl ⟨rfl, h2⟩
      · exact .inr hc
  | @array ks n elt i r ks' o' hi hlim _ ih =>
    intro v h
    cases h with
    | arrayAll hn hlen h =>
      obtain ⟨w, hw, hdw⟩ := ih (h i _ (List.getElem?_eq_getElem (by omega)))
      exact ⟨w, .all (List.getElem?_eq_getElem (by omega)) hw, hdw⟩
    | arrayOnly hn hlen h _ =>
      obtain ⟨w, hw, hdw⟩ := ih (h i _ (List.getElem?_eq_getElem (by omega)))
      exact ⟨w, .only (List.getElem?_eq_getElem (by omega)) hw, hdw⟩

/-! ## C55 -/

/-- A pointer's target has an element: the value at the start of the path is drawn and depicts an operand, and the
path from there is direct; or the value is the content of a vector or string and the path starts with an element
that is drawn. -/
inductive Target (concrete : Bool) (frames : List (List (String × MValue))) (heap : List MValue) (mem : Mem) (m : Map) :
    Cls → (MValue → Prop) → Prop
  | value {seg v ks o comps ks' o'} : DrawnAt frames heap seg v → Depicts mem m ks o v →
      Direct concrete ks o comps ks' o' → Target concrete frames heap mem m ⟨seg, comps⟩ (Depicts mem m ks' o')
  | whole {seg v n P} : DrawnAt frames heap seg v → ShowsArray n P v →
      Target concrete frames heap mem m ⟨seg, []⟩ (ShowsArray n P)
  | element {seg v n P i} : DrawnAt frames heap seg v → ShowsArray n P v → i < n → (n ≤ 12 ∨ i < 11) →
      Target concrete frames heap mem m ⟨seg, [.index i]⟩ (P i)
  | inside {seg v n P i ks o comps ks' o'} : DrawnAt frames heap seg v → ShowsArray n P v → i < n →
      (n ≤ 12 ∨ i < 11) → (∀ w, P i w → Depicts mem m ks o w) → Direct concrete ks o comps ks' o' →
      Target concrete frames heap mem m ⟨seg, .index i :: comps⟩ (Depicts mem m ks' o')

theorem showsArray_at {concrete : Bool} {n : Nat} {P : Nat → MValue → Prop} {v : MValue} (h : ShowsArray n P v)
    {i : Nat} (hi : i < n) (hlim : n ≤ 12 ∨ i < 11) : ∃ w, P i w ∧
      ∀ {comps u}, Shown concrete w comps u → Shown concrete v (.index i :: comps) u := by
  rcases h with ⟨_, vs, rfl, hlen, h⟩ | ⟨_, vs, l, rfl, hlen, h, _⟩
  · have hg : vs[i]? = some (vs[i]'(by omega)) := List.getElem?_eq_getElem (by omega)
    exact ⟨_, h i _ hg, fun hs => .all hg hs⟩
  · have hg : vs[i]? = some (vs[i]'(by omega)) := List.getElem?_eq_getElem (by omega)
    exact ⟨_, h i _ hg, fun hs => .only hg hs⟩

theorem target_cell {concrete : Bool} {fuel : Nat} {frames : List (List (String × MValue))} {heap : List MValue}
    {mem : Mem} {m : Map} {items : List Item} (h : renderStep concrete fuel frames heap = .ok items) {c : Cls}
    {Q : MValue → Prop} (ht : Target concrete frames heap mem m c Q) : ∃ w, .cell c w ∈ items ∧ Q w := by
  cases ht with
  | value hd hdep hdir =>
    obtain ⟨w, hw, hdw⟩ := direct_shown hdir hdep
    exact ⟨w, step_shown h hd hw, hdw⟩
  | whole hd hs => exact ⟨_, step_shown h hd .here, hs⟩
  | element hd hs hi hlim =>
    obtain ⟨w, hw, hsh⟩ := showsArray_at (concrete := concrete) hs hi hlim
    exact ⟨w, step_shown h hd (hsh .here), hw⟩
  | inside hd hs hi hlim hP hdir =>
    obtain ⟨w, hw, hsh⟩ := showsArray_at (concrete := concrete) hs hi hlim
    obtain ⟨u, hu, hdu⟩ := direct_shown hdir (hP w hw)
    exact ⟨u, step_shown h hd (hsh hu), hdu⟩

/-- C55 (partial: for direct paths): the element an arrow must point to exists in the rendered step, and what is
drawn in it depicts the part of memory that the path leads to. -/
theorem C55_endpoint_partial {concrete : Bool} {fuel : Nat} {frames : List (List (String × MValue))}
    {heap : List MValue} {mem : Mem} {m : Map} {items : List Item}
    (h : renderStep concrete fuel frames heap = .ok items) {c : Cls} {Q : MValue → Prop}
    (ht : Target concrete frames heap mem m c Q) :
    (∃ w, .cell c w ∈ items ∧ Q w) ∧ ∃ w, query items c = .ok w := by
  obtain ⟨w, hw, hq⟩ := target_cell h ht
  exact ⟨⟨w, hw, hq⟩, query_ok hw⟩

theorem arrowEnds_ok {items : List Item} : ∀ (l : List Item),
    (∀ to range, .ptr to range ∈ l → (∃ v, query items to = .ok v) ∧ ∀ r, range = some r → ∃ v, query items r = .ok v) →
    ∃ ends, arrowEnds items l = .ok ends := by
  intro l
  induction l with
  | nil => intro _; exact ⟨[], rfl⟩
  | cons x r ih =>
    intro h
    obtain ⟨rest, hrest⟩ := ih (fun to range hm => h to range (List.mem_cons_of_mem _ hm))
    cases x with
    | cell c v => exact ⟨rest, hrest⟩
    | ptr to range =>
      obtain ⟨⟨v, hv⟩, hr⟩ := h to range List.mem_cons_self
      cases range with
      | none => exact ⟨(v, none) :: rest, by simp only [arrowEnds, hv, hrest]⟩
      | some c =>
        obtain ⟨w, hw⟩ := hr c rfl
        exact ⟨(v, some w) :: rest, by simp only [arrowEnds, hv, hw, hrest]⟩

/-- C55 (partial: for direct paths): if every pointer leads along a direct path, the step is drawn with all its
arrows. -/
theorem C55_drawn_partial {concrete : Bool} {fuel : Nat} {frames : List (List (String × MValue))}
    {heap : List MValue} {mem : Mem} {m : Map} {items : List Item}
    (h : renderStep concrete fuel frames heap = .ok items)
    (hp : ∀ to range, .ptr to range ∈ items → (∃ Q, Target concrete frames heap mem m to Q) ∧
      ∀ r, range = some r → ∃ Q, Target concrete frames heap mem m r Q) :
    ∃ ends, drawStep concrete fuel frames heap = .ok (items, ends) := by
  obtain ⟨ends, he⟩ := arrowEnds_ok items (items := items) (fun to range hm => by
    obtain ⟨⟨Q, hQ⟩, hr⟩ := hp to range hm
    refine ⟨(C55_endpoint_partial h hQ).2, fun r hr' => ?_⟩
    obtain ⟨Q', hQ'⟩ := hr r hr'
    exact (C55_endpoint_partial h hQ').2)
  exact ⟨ends, by simp only [drawStep, h, he]⟩

/-! ## C72 -/

/-- What an item of the document is when it is a pointer. -/
def pointerOf : Item → Option (Cls × Option Cls)
  | .ptr to range => some (to, range)
  | .cell _ _ => none

/-- An end drawn for a pointer: the value in an element of the pointer's class. -/
def EndsAt (items : List Item) (p : Cls × Option Cls) (e : MValue × Option MValue) : Prop :=
  .cell p.1 e.1 ∈ items ∧
    ((p.2 = none ∧ e.2 = none) ∨ ∃ r w, p.2 = some r ∧ e.2 = some w ∧ .cell r w ∈ items)

theorem arrowEnds_spec {items : List Item} : ∀ (l : List Item) (ends : List (MValue × Option MValue)),
    arrowEnds items l = .ok ends → List.Forall₂ (EndsAt items) (l.filterMap pointerOf) ends := by
  intro l
  induction l with
  | nil => intro ends h; cases h; exact .nil
  | cons x r ih =>
    intro ends h
    cases x with
    | cell c v => exact ih ends h
    | ptr to range =>
      simp only [arrowEnds] at h
      split at h
      · cases h
      · rename_i v hv
        split at h
        · split at h
          · cases h
          · rename_i rest hrest
            cases h
            exact .cons ⟨query_mem hv, .inl ⟨rfl, rfl⟩⟩ (ih _ hrest)
        · rename_i c
          split at h
          · cases h
          · rename_i w hw
            split at h
            · cases h
            · rename_i rest hrest
              cases h
              exact .cons ⟨query_mem hv, .inr ⟨c, w, rfl, rfl, query_mem hw⟩⟩ (ih _ hrest)

/-- C72: when a step is drawn, every pointer in it has an arrow, in the order of the pointers, and the arrow ends at
an element of the pointer's class. -/
theorem C72_every_pointer {concrete : Bool} {fuel : Nat} {frames : List (List (String × MValue))}
    {heap : List MValue} {items : List Item} {ends : List (MValue × Option MValue)}
    (h : drawStep concrete fuel frames heap = .ok (items, ends)) :
    List.Forall₂ (EndsAt items) (items.filterMap pointerOf) ends := by
  simp only [drawStep] at h
  split at h
  · cases h
  · split at h
    · cases h
    · rename_i e he
      cases h
      exact arrowEnds_spec _ _ he

/-- C72 (partial: for direct paths and frames whose variables have different names): an arrow ends at the element that
depicts the part of memory the pointer's path leads to, and at no other. -/
theorem C72_right_cell_partial {concrete : Bool} {fuel : Nat} {frames : List (List (String × MValue))}
    {heap : List MValue} {mem : Mem} {m : Map} {items : List Item}
    (h : renderStep concrete fuel frames heap = .ok items) (hn : NamesDiffer frames)
    (hs : ∀ seg v, DrawnAt frames heap seg v → (∃ ks o, Depicts mem m ks o v) ∨ ∃ ks a off ty, ShowsContent mem m ks a off ty v)
    {c : Cls} {Q : MValue → Prop} (ht : Target concrete frames heap mem m c Q) {w : MValue}
    (hw : .cell c w ∈ items) : Q w ∧ query items c = .ok w := by
  have hnd := step_classes h (fun seg v hd => by
    rcases hs seg v hd with ⟨ks, o, h⟩ | ⟨ks, a, off, ty, h⟩
    · exact depicts_short h
    · exact content_short h) hn
  obtain ⟨u, hu, hq⟩ := target_cell h ht
  have := unique_cell hnd hu hw
  subst this
  obtain ⟨w', hw'⟩ := query_ok hu
  have := unique_cell hnd hu (query_mem hw')
  subst this
  exact ⟨hq, hw'⟩

/-! ## The class of a pointer -/

/-- A component as the path of a pointer has it. -/
def Comp.part : Comp → PSeg
  | .field i => .field i
  | .index i => .index i

theorem map_part (comps : List Comp) :
    (comps.map Comp.part).map compOf = comps := by
  rw [List.map_map]
  conv => rhs; rw [← List.map_id comps]
  apply List.map_congr_left
  intro c _
  cases c <;> rfl

/-- C55: a path of fields and elements is the class of the arrow's end, except that a path to the first element of an
array leads to the whole array. -/
theorem C55_path (seg : MSeg) (comps : List Comp) :
    (comps.getLast? ≠ some (.index 0) → pointerTo seg (comps.map Comp.part) = (⟨seg, comps⟩, none)) ∧
      pointerTo seg ((comps ++ [Comp.index 0]).map Comp.part) = (⟨seg, comps⟩, none) := by
  constructor
  · intro h
    have h1 : (comps.map Comp.part).getLast? ≠ some (.index 0) := by
      rw [List.getLast?_map]
      intro he
      rw [Option.map_eq_some_iff] at he
      obtain ⟨c, hc, hp⟩ := he
      cases c with
      | field i => cases hp
      | index i => cases hp; exact h hc
    have h2 : ∀ lo hi, (comps.map Comp.part).getLast? ≠ some (.subslice lo hi) := by
      intro lo hi he
      rw [List.getLast?_map, Option.map_eq_some_iff] at he
      obtain ⟨c, _, hp⟩ := he
      cases c <;> cases hp
    unfold pointerTo
    dsimp only
    rw [if_neg h1, map_part]
    split
    · rename_i lo hi he
      exact absurd he (h2 _ hi)
    · rfl
  · unfold pointerTo
    have h1 : ((comps ++ [Comp.index 0]).map Comp.part).getLast? = some (.index 0) := by simp [Comp.part]
    dsimp only
    rw [h1, if_pos rfl, show ((comps ++ [Comp.index 0]).map Comp.part).dropLast = comps.map Comp.part by simp, map_part]

/-- C55: a pointer to a range of elements leads from the first to the last of them. -/
theorem C55_range (seg : MSeg) (comps : List Comp) (lo hi : Nat) :
    pointerTo seg (comps.map Comp.part ++ [.subslice lo hi]) =
      (⟨seg, comps ++ [.index lo]⟩, some ⟨seg, comps ++ [.index hi]⟩) := by
  unfold pointerTo
  have h1 : (comps.map Comp.part ++ [PSeg.subslice lo hi]).getLast? = some (.subslice lo hi) := by simp
  dsimp only
  rw [h1, if_neg (by simp), List.map_append, map_part]
  simp [compOf]

/-! ## Class names -/

theorem digitOf_ne (n : Nat) : digitOf n ≠ '-' := by
  unfold digitOf
  have : n % 10 < 10 := Nat.mod_lt _ (by decide)
  generalize n % 10 = k at this
  have : k = 0 ∨ k = 1 ∨ k = 2 ∨ k = 3 ∨ k = 4 ∨ k = 5 ∨ k = 6 ∨ k = 7 ∨ k = 8 ∨ k = 9 := by omega
  rcases this with rfl | rfl | rfl | rfl | rfl | rfl | rfl | rfl | rfl | rfl <;> decide

theorem digitOf_inj {a b : Nat} (h : digitOf a = digitOf b) : a % 10 = b % 10 := by
  unfold digitOf at h
  have ha : a % 10 < 10 := Nat.mod_lt _ (by decide)
  have hb : b % 10 < 10 := Nat.mod_lt _ (by decide)
  generalize a % 10 = k at *
  generalize b % 10 = l at *
  have hall : ∀ k < 10, ∀ l < 10, Char.ofNat (48 + k) = Char.ofNat (48 + l) → k = l := by decide
  exact hall k ha l hb h

theorem decimal_ne (n : Nat) : '-' ∉ decimal n := by
  induction n using decimal.induct with
  | case1 n h =>
    rw [decimal, dif_pos h, List.mem_singleton]
    exact fun he => digitOf_ne n he.symm
  | case2 n h ih =>
    rw [decimal, dif_neg h, List.mem_append, List.mem_singleton]
    rintro (h' | h')
    · exact ih h'
    · exact digitOf_ne n h'.symm

theorem decimal_ne_nil (n : Nat) : decimal n ≠ [] := by
  rw [decimal]
  split <;> simp

theorem decimal_small {n : Nat} (h : n < 10) : decimal n = [digitOf n] := by rw [decimal, dif_pos h]

theorem decimal_big {n : Nat} (h : ¬n < 10) : decimal n = decimal (n / 10) ++ [digitOf n] := by rw [decimal, dif_neg h]

theorem decimal_inj : ∀ (a b : Nat), decimal a = decimal b → a = b := by
  intro a
  induction a using decimal.induct with
  | case1 a h =>
    intro b hb
    rw [decimal_small h] at hb
    by_cases h' : b < 10
    · rw [decimal_small h'] at hb
      have := digitOf_inj (List.cons.inj hb).1
      omega
    · rw [decimal_big h'] at hb
      obtain ⟨h1, _⟩ := List.append_inj' (s₁ := []) (show [] ++ [digitOf a] = _ from hb) rfl
      exact absurd h1.symm (decimal_ne_nil _)
  | case2 a h ih =>
    intro b hb
    rw [decimal_big h] at hb
    by_cases h' : b < 10
    · rw [decimal_small h'] at hb
      obtain ⟨h1, _⟩ := List.append_inj' (s₂ := []) (show _ = [] ++ [digitOf b] from hb) rfl
      exact absurd h1 (decimal_ne_nil _)
    · rw [decimal_big h'] at hb
      obtain ⟨h1, h2⟩ := List.append_inj' hb rfl
      have := ih _ h1
      have := digitOf_inj (List.cons.inj h2).1
      omega

/-- Text up to a dash, and the rest. -/
theorem cut {a b r s : List Char} (ha : '-' ∉ a) (hb : '-' ∉ b) (hr : r = [] ∨ ∃ t, r = '-' :: t)
    (hs : s = [] ∨ ∃ t, s = '-' :: t) (h : a ++ r = b ++ s) : a = b ∧ r = s := by
  induction a generalizing b with
  | nil =>
    cases b with
    | nil => exact ⟨rfl, h⟩
    | cons c b =>
      exfalso
      rw [List.nil_append] at h
      rcases hr with rfl | ⟨t, rfl⟩
      · cases h
      · have := (List.cons.inj h).1
        exact hb (by rw [this]; exact List.mem_cons_self)
  | cons c a ih =>
    cases b with
    | nil =>
      exfalso
      rw [List.nil_append] at h
      rcases hs with rfl | ⟨t, rfl⟩
      · cases h
      · have := (List.cons.inj h).1
        exact ha (by rw [← this]; exact List.mem_cons_self)
    | cons d b =>
      obtain ⟨h1, h2⟩ := List.cons.inj h
      obtain ⟨h3, h4⟩ := ih (fun h => ha (List.mem_cons_of_mem _ h)) (fun h => hb (List.mem_cons_of_mem _ h)) h2
      exact ⟨by rw [h1, h3], h4⟩

theorem comps_dash (l : List Comp) : l.flatMap Comp.name = [] ∨ ∃ t, l.flatMap Comp.name = '-' :: t := by
  cases l with
  | nil => exact .inl rfl
  | cons c r => cases c <;> exact .inr ⟨_, rfl⟩

theorem comps_inj : ∀ (l k : List Comp), l.flatMap Comp.name = k.flatMap Comp.name → l = k := by
  intro l
  induction l with
  | nil =>
    intro k h
    cases k with
    | nil => rfl
    | cons c k => cases c <;> cases h
  | cons c l ih =>
    intro k h
    cases k with
    | nil => cases c <;> cases h
    | cons d k =>
      cases c with
      | field i =>
        cases d with
        | field j =>
          simp only [List.flatMap_cons, Comp.name, List.append_assoc] at h
          obtain ⟨h1, h2⟩ := cut (decimal_ne i) (decimal_ne j) (comps_dash l) (comps_dash k)
            (List.append_cancel_left h)
          rw [decimal_inj _ _ h1, ih k h2]
        | index j => simp [List.flatMap_cons, Comp.name] at h
      | index i =>
        cases d with
        | index j =>
          simp only [List.flatMap_cons, Comp.name, List.append_assoc] at h
          obtain ⟨h1, h2⟩ := cut (decimal_ne i) (decimal_ne j) (comps_dash l) (comps_dash k)
            (List.append_cancel_left h)
          rw [decimal_inj _ _ h1, ih k h2]
        | field j => simp [List.flatMap_cons, Comp.name] at h

/-- The variable's name has no dash (no identifier has one). -/
def NoDash : MSeg → Prop
  | .stack _ n => '-' ∉ n.toList
  | .heap _ => True

/-- C72: elements at different paths have different class names. -/
theorem C72_names (c d : Cls) (hc : NoDash c.seg) (hd : NoDash d.seg) (h : c.name = d.name) : c = d := by
  obtain ⟨cs, cc⟩ := c
  obtain ⟨ds, dc⟩ := d
  simp only [Cls.name] at h
  cases cs with
  | stack f n =>
    cases ds with
    | heap i => simp at h
    | stack g k =>
      simp only [List.append_assoc] at h
      have h' := List.append_cancel_left h
      obtain ⟨h1, h2⟩ := cut (decimal_ne f) (decimal_ne g) (.inr ⟨_, rfl⟩) (.inr ⟨_, rfl⟩) h'
      obtain ⟨h3, h4⟩ := cut (r := cc.flatMap Comp.name) (s := dc.flatMap Comp.name) hc hd (comps_dash cc)
        (comps_dash dc) (List.cons.inj h2).2
      rw [decimal_inj _ _ h1, comps_inj _ _ h4, String.toList_inj.1 h3]
  | heap i =>
    cases ds with
    | stack g k => simp at h
    | heap j =>
      simp only [List.append_assoc] at h
      have h' := List.append_cancel_left h
      obtain ⟨h1, h2⟩ := cut (decimal_ne i) (decimal_ne j) (comps_dash cc) (comps_dash dc) h'
      rw [decimal_inj _ _ h1, comps_inj _ _ h2]

/-! ## Where the claims fail, and examples -/

namespace Witness

def num (n : Nat) : MValue := .prim (.int n)
def nums (n : Nat) : List MValue := (List.range n).map num

/-- The values at the ends of the arrows, or the error. -/
def ends (frames : List (List (String × MValue))) (heap : List MValue) : Except RErr (List (MValue × Option MValue)) :=
  (drawStep false 20 frames heap).map Prod.snd

end Witness

open Witness

/-- C55 fails: the twelfth of thirteen elements of an array is not drawn, so an arrow to it has no end and the whole
diagram is lost. -/
theorem C55_abbreviated :
    Valid [] (.array 13 (fun i => .prim (.int i))) [.index 11] [] (.prim (.int 11)) ∧
    (∀ mem m, Depicts mem m [] (.array 13 (fun i => .prim (.int i))) (.only (nums 11) (num 12))) ∧
    ends [[("a", .only (nums 11) (num 12)), ("p", .pointer (.stack 0 "a") [.index 11] none)]] [] = .error .noEnd := by
  refine ⟨.array (by decide) .here, ?_, rfl⟩
  intro mem m
  refine .arrayOnly (by decide) rfl ?_ .prim
  intro i w h
  simp only [nums, List.getElem?_map, Option.map_eq_some_iff] at h
  obtain ⟨k, hk, rfl⟩ := h
  rw [List.getElem?_range] at hk
  · cases hk
    exact .prim
  · have := (List.getElem?_eq_some_iff.1 hk).1
    simpa using this

/-- C55 fails: a slice that ends at an element that is left out has no second end, and the whole diagram is lost;
also a slice of a whole long vector, whose last element is drawn, but under another number. -/
theorem C55_slice_lost :
    ends [[("s", .pointer (.heap 0) [.subslice 0 13] (some 14))]] [.only (nums 11) (num 15)] = .error .noEnd ∧
    ends [[("s", .pointer (.heap 0) [.subslice 0 15] (some 16))]] [.only (nums 11) (num 15)] = .error .noEnd := by
  exact ⟨rfl, rfl⟩

/-- C55 fails: fields are numbered as declared in a pointer's path, but as drawn in the diagram, where zero-sized
fields are left out: an arrow to the field after a zero-sized one has no end. -/
theorem C55_zero_sized :
    Valid [] (.adt (.struct "S") (.cons "m" true (.tuple .nil) (.cons "x" false (.prim (.int 5)) .nil))) [.field 1] []
      (.prim (.int 5)) ∧
    (∀ mem m, Depicts mem m [] (.adt (.struct "S") (.cons "m" true (.tuple .nil) (.cons "x" false (.prim (.int 5)) .nil)))
      (.adt "S" none [("x", num 5)] none)) ∧
    ends [[("s", .adt "S" none [("x", num 5)] none), ("p", .pointer (.stack 0 "s") [.field 1] none)]] []
      = .error .noEnd :=
  ⟨.adt (b := false) rfl .here, fun _ _ => .adt (h := .struct "S") (.skip (.cons .prim .nil)), rfl⟩

/-- C55 fails: a program's own struct named `Iter` that has no field `ptr` cannot be drawn. -/
theorem C55_iter_name :
    (∀ mem m, Depicts mem m [] (.adt (.struct "Iter") (.cons "n" false (.prim (.int 5)) .nil))
      (.adt "Iter" none [("n", num 5)] none)) ∧
    ends [[("it", .adt "Iter" none [("n", num 5)] none)]] [] = .error .noField :=
  ⟨fun _ _ => .adt (h := .struct "Iter") (.cons .prim .nil), rfl⟩

/-- C72 fails: an arrow to a field after a zero-sized field ends at the next field. -/
theorem C72_zero_sized :
    Valid [] (.adt (.struct "S") (.cons "m" true (.tuple .nil) (.cons "x" false (.prim (.int 5))
      (.cons "y" false (.prim (.int 6)) .nil)))) [.field 1] [] (.prim (.int 5)) ∧
    (∀ mem m, Depicts mem m [] (.adt (.struct "S") (.cons "m" true (.tuple .nil) (.cons "x" false (.prim (.int 5))
      (.cons "y" false (.prim (.int 6)) .nil)))) (.adt "S" none [("x", num 5), ("y", num 6)] none)) ∧
    ends [[("s", .adt "S" none [("x", num 5), ("y", num 6)] none), ("p", .pointer (.stack 0 "s") [.field 1] none)]] []
      = .ok [(num 6, none)] :=
  ⟨.adt (b := false) rfl .here, fun _ _ => .adt (h := .struct "S") (.skip (.cons .prim (.cons .prim .nil))), rfl⟩

/-- C72 fails: the last element of a long array is always drawn as number 100, so an arrow to element 100 of a longer
array ends at the last element. -/
theorem C72_element_100 :
    ends [[("a", .only (nums 11) (num 199)), ("p", .pointer (.stack 0 "a") [.index 100] none)]] []
      = .ok [(num 199, none)] := rfl

/-- C72 fails: with a shadowed variable, an arrow to the second variable of the name ends at the first. The path of a
variable has only its frame and its name. -/
theorem C72_shadowed :
    ends [[("x", num 1), ("x", num 2), ("p", .pointer (.stack 0 "x") [] none)]] [] = .ok [(num 1, none)] := rfl

/-- C55, C72: a string, a slice of it and a reference to the second field of a tuple. -/
example : ends [[("t", .tuple [num 1, num 2]), ("s", .pointer (.heap 0) [.subslice 1 2] (some 2)),
      ("p", .pointer (.stack 0 "t") [.field 1] none)]] [.all [.prim (.char 97), .prim (.char 98), .prim (.char 99)]]
    = .ok [(.prim (.char 98), some (.prim (.char 99))), (num 2, none)] := rfl

/-- C55: the hypotheses can be met: an arrow to the second field of a tuple. -/
example : Target false [[("t", .tuple [num 1, num 2])]] [] ⟨fun _ => none, fun _ => 0, fun _ _ _ => .uninit⟩
    ⟨fun _ => none, fun _ => none, fun _ => none⟩ ⟨.stack 0 "t", [.field 1]⟩
    (Depicts ⟨fun _ => none, fun _ => 0, fun _ _ _ => .uninit⟩ ⟨fun _ => none, fun _ => none, fun _ => none⟩ []
      (.prim (.int 2))) :=
  .value (.stack (f := [("t", .tuple [num 1, num 2])]) rfl List.mem_cons_self)
    (.tuple (os := .cons (.prim (.int 1)) (.cons (.prim (.int 2)) .nil)) (.cons .prim (.cons .prim .nil)))
    (.tuple rfl .here)

/-- C72: names. -/
example : (Cls.name ⟨.stack 10 "x", [.field 1, .index 12]⟩) = "stack-10-x-field-1-index-12".toList := by
  decide +kernel

end Verif.Frontend
