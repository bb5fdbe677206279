import Verif.Frontend.DiagramSpec
/-!
# C55, C72: the ends of arrows
-/
namespace Verif.Frontend

open Verif.Value Verif.Value.Spec

/-! ## Rendering a list of cells -/

theorem classes_append (a b : List Item) : classes (a ++ b) = classes a ++ classes b := by
  simp [classes]

theorem mem_classes {items : List Item} {c : Cls} : c ∈ classes items ↔ ∃ v, .cell c v ∈ items := by
  simp only [classes, List.mem_filterMap]
  constructor
  · rintro ⟨x, hx, h⟩
    cases x with
    | cell d v => cases h; exact ⟨v, hx⟩
    | ptr _ _ => cases h
  · rintro ⟨v, h⟩
    exact ⟨_, h, rfl⟩

/-- All classes extend `p` by at least one component. -/
def Below (p : Cls) (items : List Item) : Prop :=
  ∀ c ∈ classes items, ∃ x r, c = ⟨p.seg, p.comps ++ x :: r⟩

theorem cellsFrom_spec {rec_ : Cls → MValue → Except RErr (List Item)}
    (hrec : ∀ p v items, Short v → rec_ p v = .ok items → Below p items ∧ (classes items).Nodup)
    {mk : Nat → Comp} (hmk : ∀ i j, mk i = mk j → i = j) {p : Cls} :
    ∀ (vs : List MValue) (i : Nat) (items : List Item), (∀ v ∈ vs, Short v) →
      cellsFrom rec_ p mk i vs = .ok items →
      (∀ c ∈ classes items, ∃ j r, i ≤ j ∧ j < i + vs.length ∧ c = ⟨p.seg, p.comps ++ mk j :: r⟩) ∧
      (classes items).Nodup := by
  intro vs
  induction vs with
  | nil =>
    intro i items _ h
    cases h
    simp [classes]
  | cons v r ih =>
    intro i items hs h
    simp only [cellsFrom] at h
    split at h
    · cases h
    · rename_i inner hinner
      split at h
      · cases h
      · rename_i rest hrest
        cases h
        obtain ⟨h1, h2⟩ := ih (i + 1) rest (fun w hw => hs w (List.mem_cons_of_mem _ hw)) hrest
        obtain ⟨hb, hn⟩ := hrec _ _ _ (hs v List.mem_cons_self) hinner
        have hcl : classes (.cell (p.push (mk i)) v :: (inner ++ rest)) =
            p.push (mk i) :: (classes inner ++ classes rest) := by
          simp [classes]
        refine ⟨?_, ?_⟩
        · rw [hcl]
          intro c hc
          rcases List.mem_cons.1 hc with rfl | hc
          · exact ⟨i, [], Nat.le_refl _, by simp, rfl⟩
          · rcases List.mem_append.1 hc with hc | hc
            · obtain ⟨x, q, rfl⟩ := hb c hc
              exact ⟨i, x :: q, Nat.le_refl _, by simp, by simp [Cls.push]⟩
            · obtain ⟨j, q, hj1, hj2, rfl⟩ := h1 c hc
              exact ⟨j, q, by omega, by simp; omega, rfl⟩
        · rw [hcl, List.nodup_cons, List.nodup_append]
          refine ⟨?_, hn, h2, ?_⟩
          · intro hc
            rcases List.mem_append.1 hc with hc | hc
            · obtain ⟨x, q, he⟩ := hb _ hc
              have := congrArg (fun c : Cls => c.comps.length) he
              simp [Cls.push] at this
            · obtain ⟨j, q, hj1, _, he⟩ := h1 _ hc
              have := congrArg Cls.comps he
              simp only [Cls.push] at this
              have := List.append_cancel_left this
              have := hmk i j (by simpa using (List.cons.inj this).1)
              omega
          · intro a ha b hb' hab
            obtain ⟨x, q, rfl⟩ := hb a ha
            obtain ⟨j, q', hj1, _, he⟩ := h1 b hb'
            rw [← hab] at he
            have := congrArg Cls.comps he
            simp only [Cls.push, List.append_assoc, List.singleton_append] at this
            have := List.append_cancel_left this
            have := hmk i j (List.cons.inj this).1
            omega

theorem field_inj (i j : Nat) (h : Comp.field i = Comp.field j) : i = j := by cases h; rfl

theorem index_inj (i j : Nat) (h : Comp.index i = Comp.index j) : i = j := by cases h; rfl

theorem below_of {mk : Nat → Comp} {p : Cls} {items : List Item} {i n : Nat}
    (h : ∀ c ∈ classes items, ∃ j r, i ≤ j ∧ j < n ∧ c = ⟨p.seg, p.comps ++ mk j :: r⟩) : Below p items := by
  intro c hc
  obtain ⟨j, r, _, _, rfl⟩ := h c hc
  exact ⟨_, _, rfl⟩

theorem Short.part {v w : MValue} (h : Short v) (hp : ∀ u, Part u w → Part u v) : Short w :=
  fun vs l hw => h vs l (hp _ hw)

theorem readField_part {fs gs : FieldList} {k : String} (h : readField fs k = .ok gs) :
    ∀ x ∈ gs, ∀ u, Part u x.2 → ∃ y ∈ fs, Part u y.2 := by
  unfold readField at h
  split at h
  · cases h
  · rename_i m va' gs' kd' hf
    cases h
    intro x hx u hu
    exact ⟨_, List.mem_of_find?_eq_some hf, .adt hx hu⟩
  · cases h

theorem readFieldsOf_part : ∀ (ks : List String) (fs gs : FieldList),
    readFieldsOf fs ks = .ok gs → ∀ x ∈ gs, ∀ u, Part u x.2 → ∃ y ∈ fs, Part u y.2 := by
  intro ks
  induction ks with
  | nil =>
    intro fs gs h x hx u hu
    cases h
    exact ⟨x, hx, hu⟩
  | cons k r ih =>
    intro fs gs h x hx u hu
    simp only [readFieldsOf] at h
    split at h
    · cases h
    · rename_i hs hk
      obtain ⟨y, hy, hu'⟩ := ih hs gs h x hx u hu
      exact readField_part hk y hy u hu'

theorem specialPtr_part {fs : FieldList} {kind : Option MKind} {v : MValue}
    (h : specialPtr fs kind = .ok (some v)) : ∀ u, Part u v → ∃ y ∈ fs, Part u y.2 := by
  unfold specialPtr at h
  split at h
  · cases h
  · split at h
    · cases h
    · rename_i gs hgs
      split at h
      · cases h
      · rename_i w hw
        cases h
        unfold firstField at hw
        split at hw
        · cases hw
        · cases hw
          intro u hu
          exact readFieldsOf_part _ _ _ hgs _ List.mem_cons_self u hu

theorem specialPtr_none {fs : FieldList} {kind : Option MKind}
    (h : specialPtr fs kind = .ok none) : kind = none := by
  unfold specialPtr at h
  split at h
  · rfl
  · split at h
    · cases h
    · split at h <;> cases h

/-- Every element drawn for a value has a class of its own below the value's class. -/
theorem render_spec (concrete : Bool) : ∀ (fuel : Nat) (p : Cls) (v : MValue) (items : List Item), Short v →
    render concrete fuel p v = .ok items → Below p items ∧ (classes items).Nodup := by
  intro fuel
  induction fuel with
  | zero => intro p v items _ h; cases h
  | succ fuel ih =>
    intro p v items hs h
    -- a list of cells all of whose values are parts
    have hcells : ∀ (mk : Nat → Comp) (_ : ∀ i j, mk i = mk j → i = j) (vs : List MValue) (i : Nat) (its : List Item),
        (∀ w ∈ vs, Short w) → cellsFrom (render concrete fuel) p mk i vs = .ok its →
        (∀ c ∈ classes its, ∃ j r, i ≤ j ∧ j < i + vs.length ∧ c = ⟨p.seg, p.comps ++ mk j :: r⟩) ∧
          (classes its).Nodup := by
      intro mk hmk vs i its hw h
      exact cellsFrom_spec (fun q u its hu h => ih q u its hu h) hmk vs i its hw h
    simp only [render] at h
    split at h
    · cases h; exact ⟨by simp [Below, classes], by simp [classes]⟩
    · cases h; exact ⟨by simp [Below, classes], by simp [classes]⟩
    · rename_i vs
      obtain ⟨h1, h2⟩ := hcells .field field_inj vs 0 items (fun w hw => hs.part (fun u hu => .tuple hw hu)) h
      exact ⟨below_of h1, h2⟩
    · rename_i vs
      obtain ⟨h1, h2⟩ := hcells .index index_inj vs 0 items (fun w hw => hs.part (fun u hu => .all hw hu)) h
      exact ⟨below_of h1, h2⟩
    · rename_i vs l
      split at h
      · cases h
      · rename_i a ha
        split at h
        · cases h
        · rename_i b hb
          cases h
          obtain ⟨h1, h2⟩ := hcells .index index_inj vs 0 a (fun w hw => hs.part (fun u hu => .only hw hu)) ha
          obtain ⟨h3, h4⟩ := hcells .index index_inj [l] 100 b
            (fun w hw => hs.part (fun u hu => .last (by rw [← List.mem_singleton.1 hw]; exact hu))) hb
          have hlen : vs.length ≤ 100 := hs vs l .here
          constructor
          · intro c hc
            rw [classes_append, List.mem_append] at hc
            rcases hc with hc | hc
            · exact below_of h1 c hc
            · exact below_of h3 c hc
          · rw [classes_append, List.nodup_append]
            refine ⟨h2, h4, ?_⟩
            intro x hx y hy hxy
            obtain ⟨j, r, _, hj, rfl⟩ := h1 x hx
            obtain ⟨j', r', hj', _, he⟩ := h3 y hy
            rw [← hxy] at he
            have := congrArg Cls.comps he
            have := List.append_cancel_left this
            have := index_inj j j' (List.cons.inj this).1
            omega
    · cases h
      exact ⟨by simp [Below, classes], by simp [classes]⟩
    · rename_i name va fs kind
      split at h
      · cases h
      · rename_i sp hsp
        split at h
        · rename_i ptr hptr
          have : sp = some ptr := by
            cases concrete <;> simp_all
          subst this
          refine ih p ptr items (hs.part ?_) h
          intro u hu
          obtain ⟨y, hy, hu'⟩ := specialPtr_part hsp u hu
          exact .adt hy hu'
        · split at h
          · split at h
            · cases h
            · rename_i gs hgs
              split at h
              · cases h
              · rename_i ptr hptr
                refine ih p ptr items (hs.part ?_) h
                intro u hu
                unfold firstField at hptr
                split at hptr
                · cases hptr
                · cases hptr
                  obtain ⟨y, hy, hu'⟩ := readField_part hgs _ List.mem_cons_self u hu
                  exact .adt hy hu'
          · obtain ⟨h1, h2⟩ := hcells .field field_inj (fs.map Prod.snd) 0 items (by
              intro w hw
              obtain ⟨x, hx, rfl⟩ := List.mem_map.1 hw
              exact hs.part (fun u hu => .adt hx hu)) h
            exact ⟨below_of h1, h2⟩

theorem cellsFrom_get {rec_ : Cls → MValue → Except RErr (List Item)} {mk : Nat → Comp} {p : Cls} :
    ∀ (vs : List MValue) (i : Nat) (items : List Item), cellsFrom rec_ p mk i vs = .ok items →
      ∀ (k : Nat) (v : MValue), vs[k]? = some v → ∃ inner, rec_ (p.push (mk (i + k))) v = .ok inner ∧
        (.cell (p.push (mk (i + k))) v) ∈ items ∧ ∀ x ∈ inner, x ∈ items := by
  intro vs
  induction vs with
  | nil => intro i items h k v hv; simp at hv
  | cons v r ih =>
    intro i items h
    simp only [cellsFrom] at h
    split at h
    · cases h
    · rename_i inner hinner
      split at h
      · cases h
      · rename_i rest hrest
        cases h
        intro k w hw
        cases k with
        | zero =>
          cases hw
          exact ⟨inner, by simpa using hinner, by simp, fun x hx =>
            List.mem_cons_of_mem _ (List.mem_append_left _ hx)⟩
        | succ k =>
          obtain ⟨inner', h4, h5, h6⟩ := ih (i + 1) rest hrest k w (by simpa using hw)
          have he : i + 1 + k = i + (k + 1) := by omega
          rw [he] at h4 h5
          exact ⟨inner', h4, List.mem_cons_of_mem _ (List.mem_append_right _ h5),
            fun x hx => List.mem_cons_of_mem _ (List.mem_append_right _ (h6 x hx))⟩

theorem shown_step {concrete : Bool} {w : MValue} {c : Comp} {v' : MValue} {r : List Comp} {fuel : Nat} {p : Cls}
    {items inner : List Item} (hs : Shown concrete v' r w)
    (ih : ∀ (fuel : Nat) (p : Cls) (items : List Item), render concrete fuel p v' = .ok items → r ≠ [] →
      .cell ⟨p.seg, p.comps ++ r⟩ w ∈ items)
    (hr : render concrete fuel (p.push c) v' = .ok inner) (hc : .cell (p.push c) v' ∈ items)
    (hin : ∀ x ∈ inner, x ∈ items) : .cell ⟨p.seg, p.comps ++ c :: r⟩ w ∈ items := by
  by_cases hnil : r = []
  · subst hnil
    cases hs
    exact hc
  · have := hin _ (ih fuel _ inner hr hnil)
    simpa [Cls.push] using this

/-- The part of a drawn value at a path is drawn in an element with that path as its class. -/
theorem render_shown {concrete : Bool} {v w : MValue} {comps : List Comp} (hsh : Shown concrete v comps w) :
    ∀ (fuel : Nat) (p : Cls) (items : List Item), render concrete fuel p v = .ok items → comps ≠ [] →
      .cell ⟨p.seg, p.comps ++ comps⟩ w ∈ items := by
  induction hsh with
  | here => intro fuel p items _ h; exact absurd rfl h
  | tuple hv hs ih =>
    intro fuel p items h _
    cases fuel with
    | zero => cases h
    | succ fuel =>
      simp only [render] at h
      obtain ⟨inner, h1, h2, h3⟩ := cellsFrom_get _ _ _ h _ _ hv
      rw [Nat.zero_add] at h1 h2
      exact shown_step hs ih h1 h2 h3
  | all hv hs ih =>
    intro fuel p items h _
    cases fuel with
    | zero => cases h
    | succ fuel =>
      simp only [render] at h
      obtain ⟨inner, h1, h2, h3⟩ := cellsFrom_get _ _ _ h _ _ hv
      rw [Nat.zero_add] at h1 h2
      exact shown_step hs ih h1 h2 h3
  | only hv hs ih =>
    intro fuel p items h _
    cases fuel with
    | zero => cases h
    | succ fuel =>
      simp only [render] at h
      split at h
      · cases h
      · rename_i a ha
        split at h
        · cases h
        · cases h
          obtain ⟨inner, h1, h2, h3⟩ := cellsFrom_get _ _ _ ha _ _ hv
          rw [Nat.zero_add] at h1 h2
          exact List.mem_append_left _ (shown_step hs ih h1 h2 h3)
  | adt hplain hf hs ih =>
    intro fuel p items h _
    cases fuel with
    | zero => cases h
    | succ fuel =>
      simp only [render] at h
      split at h
      · cases h
      · rename_i sp hsp
        have hnone : (if concrete then none else sp) = none := by
          rcases hplain with ⟨hk, _⟩ | hc
          · subst hk
            simp only [specialPtr] at hsp
            cases hsp
            simp
          · simp [hc]
        rw [hnone] at h
        dsimp only at h
        rw [if_neg (by
          rintro ⟨h1, h2⟩
          rcases hplain with ⟨_, hk⟩ | hc
          · exact hk h1
          · rw [hc] at h2; cases h2)] at h
        obtain ⟨inner, h1, h2, h3⟩ := cellsFrom_get _ _ _ h _ _ (by rw [List.getElem?_map, hf]; rfl)
        rw [Nat.zero_add] at h1 h2
        exact shown_step hs ih h1 h2 h3

/-! ## What can be drawn -/

theorem find_split {fs : FieldList} {k : String} {x : String × MValue} (h : fs.find? (fun f => k == f.1) = some x) :
    ∃ pre post, fs = pre ++ x :: post ∧ x.1 = k ∧ ∀ y ∈ pre, y.1 ≠ k := by
  rw [List.find?_eq_some_iff_append] at h
  obtain ⟨h1, pre, post, rfl, h2⟩ := h
  refine ⟨pre, post, rfl, ?_, ?_⟩
  · have := eq_of_beq h1
    exact this.symm
  · intro y hy he
    have := h2 y hy
    rw [he] at this
    simp at this

theorem find_of_split {pre post : FieldList} {k : String} {v : MValue} (h : ∀ y ∈ pre, y.1 ≠ k) :
    (pre ++ (k, v) :: post).find? (fun f => k == f.1) = some (k, v) := by
  rw [List.find?_eq_some_iff_append]
  refine ⟨by simp, pre, post, rfl, ?_⟩
  intro y hy
  have := h y hy
  simp only [Bool.not_eq_true', beq_eq_false_iff_ne, ne_eq]
  exact fun he => this he.symm

theorem readFieldsOf_through : ∀ (ks : List String) (fs gs : FieldList),
    readFieldsOf fs ks = .ok gs ↔ Through fs ks gs := by
  intro ks
  induction ks with
  | nil =>
    intro fs gs
    constructor
    · intro h; cases h; exact .here
    · intro h; cases h; rfl
  | cons k r ih =>
    intro fs gs
    constructor
    · intro h
      simp only [readFieldsOf, readField] at h
      split at h
      · cases h
      · rename_i hs hk
        split at hk
        · cases hk
        · rename_i m va gs' kd hf
          cases hk
          obtain ⟨pre, post, rfl, hkm, hpre⟩ := find_split hf
          dsimp only at hkm
          subst hkm
          exact .step hpre ((ih _ _).1 h)
        · cases hk
    · intro h
      cases h with
      | step hpre ht =>
        simp only [readFieldsOf, readField, find_of_split hpre]
        exact (ih _ _).2 ht

theorem holds_iff {k : MKind} {ks : List String} : Holds k ks ↔ specialPath k = ks := by
  constructor
  · intro h; cases h <;> rfl
  · rintro rfl; cases k <;> constructor

theorem cellsFrom_ok {rec_ : Cls → MValue → Except RErr (List Item)} {p : Cls} {mk : Nat → Comp} :
    ∀ (vs : List MValue) (i : Nat), (∃ items, cellsFrom rec_ p mk i vs = .ok items) ↔
      ∀ (k : Nat) (v : MValue), vs[k]? = some v → ∃ its, rec_ (p.push (mk (i + k))) v = .ok its := by
  intro vs
  induction vs with
  | nil => intro i; simp [cellsFrom]
  | cons v r ih =>
    intro i
    constructor
    · rintro ⟨items, h⟩ k w hw
      obtain ⟨inner, h1, _, _⟩ := cellsFrom_get _ _ _ h k w hw
      exact ⟨inner, h1⟩
    · intro h
      obtain ⟨a, ha⟩ := h 0 v rfl
      obtain ⟨b, hb⟩ := (ih (i + 1)).2 (fun k w hw => by
        have := h (k + 1) w (by simpa using hw)
        rwa [show i + (k + 1) = i + 1 + k by omega] at this)
      exact ⟨.cell (p.push (mk i)) v :: (a ++ b), by
        simp only [Nat.add_zero] at ha
        simp only [cellsFrom, ha, hb]⟩

theorem cellsFrom_all {rec_ : Cls → MValue → Except RErr (List Item)} {Q : MValue → Prop}
    (hQ : ∀ p v, (∃ its, rec_ p v = .ok its) ↔ Q v) {p : Cls} {mk : Nat → Comp} (vs : List MValue) (i : Nat) :
    (∃ items, cellsFrom rec_ p mk i vs = .ok items) ↔ ∀ v ∈ vs, Q v := by
  rw [cellsFrom_ok]
  constructor
  · intro h v hv
    obtain ⟨k, hk⟩ := List.getElem?_of_mem hv
    exact (hQ _ _).1 (h k v hk)
  · intro h k v hk
    exact (hQ _ _).2 (h v (List.mem_of_getElem? hk))

/-- C55: a value is drawn, whatever its class, iff its containers have the expected fields; otherwise rendering
throws and the whole diagram is lost. -/
theorem C55_draws (concrete : Bool) : ∀ (n : Nat) (p : Cls) (v : MValue),
    (∃ items, render concrete n p v = .ok items) ↔ Drawable concrete n v := by
  intro n
  induction n with
  | zero =>
    intro p v
    constructor
    · rintro ⟨_, h⟩; cases h
    · intro h; cases h
  | succ n ih =>
    intro p v
    cases v with
    | prim x => exact ⟨fun _ => .prim, fun _ => ⟨[], rfl⟩⟩
    | unallocated i => exact ⟨fun _ => .unallocated, fun _ => ⟨[], rfl⟩⟩
    | pointer seg parts r => exact ⟨fun _ => .pointer, fun _ => ⟨_, rfl⟩⟩
    | tuple vs =>
      simp only [render]
      rw [cellsFrom_all ih]
      exact ⟨fun h => .tuple h, fun h => by cases h; assumption⟩
    | all vs =>
      simp only [render]
      rw [cellsFrom_all ih]
      exact ⟨fun h => .all h, fun h => by cases h; assumption⟩
    | only vs l =>
      constructor
      · rintro ⟨items, h⟩
        simp only [render] at h
        split at h
        · cases h
        · rename_i a ha
          split at h
          · cases h
          · rename_i b hb
            refine .only ((cellsFrom_all ih vs 0).1 ⟨a, ha⟩) ?_
            exact (cellsFrom_all ih [l] 100).1 ⟨b, hb⟩ l (by simp)
      · intro h
        cases h with
        | only h1 h2 =>
          obtain ⟨a, ha⟩ := (cellsFrom_all (p := p) (mk := .index) ih vs 0).2 h1
          obtain ⟨b, hb⟩ := (cellsFrom_all (p := p) (mk := .index) ih [l] 100).2 (by simpa using h2)
          exact ⟨a ++ b, by simp only [render, ha, hb]⟩
    | adt name va fs kind =>
      cases kind with
      | none =>
        constructor
        · rintro ⟨items, h⟩
          simp only [render, specialPtr, ite_self] at h
          split at h
          · rename_i hc
            obtain ⟨rfl, hc⟩ := hc
            split at h
            · cases h
            · rename_i gs hgs
              split at h
              · cases h
              · rename_i ptr hptr
                unfold firstField at hptr
                split at hptr
                · cases hptr
                · rename_i f r
                  cases hptr
                  refine .iter hc (gs := r) (x := f.1) ((readFieldsOf_through _ _ _).1 ?_) ((ih _ _).1 ⟨_, h⟩)
                  simp only [readFieldsOf, hgs]
          · rename_i hc
            refine .struct ?_ ?_
            · by_cases hn : name = "Iter"
              · right
                cases concrete with
                | true => rfl
                | false => exact absurd ⟨hn, rfl⟩ hc
              · exact .inl hn
            · intro y hy
              exact (cellsFrom_all ih _ 0).1 ⟨_, h⟩ _ (List.mem_map_of_mem hy)
        · intro h
          simp only [render, specialPtr, ite_self]
          cases h with
          | iter hc ht hd =>
            rw [if_pos ⟨rfl, hc⟩]
            have := (readFieldsOf_through _ _ _).2 ht
            simp only [readFieldsOf] at this
            split at this
            · cases this
            · rename_i hs hk
              cases this
              simp only [hk, firstField]
              exact (ih _ _).2 hd
          | struct hn hd =>
            rw [if_neg (by
              rintro ⟨h1, h2⟩
              rcases hn with hn | hn
              · exact hn h1
              · rw [hn] at h2; cases h2)]
            exact (cellsFrom_all ih _ 0).2 (by
              intro v hv
              obtain ⟨y, hy, rfl⟩ := List.mem_map.1 hv
              exact hd y hy)
      | some k =>
        constructor
        · rintro ⟨items, h⟩
          simp only [render, specialPtr] at h
          split at h
          · cases h
          · rename_i sp hsp
            split at hsp
            · cases hsp
            · rename_i gs hgs
              split at hsp
              · cases hsp
              · rename_i w hw
                cases hsp
                unfold firstField at hw
                split at hw
                · cases hw
                · rename_i f r
                  cases hw
                  have ht := (readFieldsOf_through _ _ _).1 hgs
                  cases concrete with
                  | false => exact .container (x := f.1) (gs := r) (holds_iff.2 rfl) ht rfl ((ih _ _).1 ⟨_, h⟩)
                  | true =>
                    refine .container' (x := f.1) (gs := r) (holds_iff.2 rfl) ht rfl ?_
                    simp only [if_true, Bool.true_eq_false, and_false, if_false] at h
                    intro y hy
                    exact (cellsFrom_all ih _ 0).1 ⟨_, h⟩ _ (List.mem_map_of_mem hy)
        · intro h
          cases h with
          | container hk ht hc hd =>
            rw [holds_iff] at hk
            have := (readFieldsOf_through _ _ _).2 ht
            rw [← hk] at this
            subst hc
            simp only [render, specialPtr, this, firstField]
            exact (ih _ _).2 hd
          | container' hk ht hc hd =>
            rw [holds_iff] at hk
            have := (readFieldsOf_through _ _ _).2 ht
            rw [← hk] at this
            subst hc
            simp only [render, specialPtr, this, firstField, if_true, Bool.true_eq_false, and_false, if_false]
            exact (cellsFrom_all ih _ 0).2 (by
              intro v hv
              obtain ⟨y, hy, rfl⟩ := List.mem_map.1 hv
              exact hd y hy)

/-! ## A step -/

theorem renderLocals_get {concrete : Bool} {fuel frame : Nat} : ∀ (f : List (String × MValue)) (items : List Item),
    renderLocals concrete fuel frame f = .ok items → ∀ n v, (n, v) ∈ f →
      ∃ inner, render concrete fuel ⟨.stack frame n, []⟩ v = .ok inner ∧ .cell ⟨.stack frame n, []⟩ v ∈ items ∧
        ∀ x ∈ inner, x ∈ items := by
  intro f
  induction f with
  | nil => intro items _ n v h; cases h
  | cons a r ih =>
    obtain ⟨m, w⟩ := a
    intro items h n v hm
    simp only [renderLocals] at h
    split at h
    · cases h
    · rename_i inner hi
      split at h
      · cases h
      · rename_i rest hr
        cases h
        rcases List.mem_cons.1 hm with he | hm
        · cases he
          exact ⟨inner, hi, by simp, fun x hx => by simp [hx]⟩
        · obtain ⟨inner', h1, h2, h3⟩ := ih rest hr n v hm
          exact ⟨inner', h1, by simp [h2], fun x hx => by simp [h3 x hx]⟩

theorem renderStack_get {concrete : Bool} {fuel : Nat} : ∀ (frames : List (List (String × MValue))) (i : Nat)
    (items : List Item), renderStack concrete fuel i frames = .ok items → ∀ k f n v, frames[k]? = some f →
      (n, v) ∈ f → ∃ inner, render concrete fuel ⟨.stack (i + k) n, []⟩ v = .ok inner ∧
        .cell ⟨.stack (i + k) n, []⟩ v ∈ items ∧ ∀ x ∈ inner, x ∈ items := by
  intro frames
  induction frames with
  | nil => intro i items _ k f n v h; simp at h
  | cons g r ih =>
    intro i items h k f n v hk hm
    simp only [renderStack] at h
    split at h
    · cases h
    · rename_i a ha
      split at h
      · cases h
      · rename_i b hb
        cases h
        cases k with
        | zero =>
          cases hk
          obtain ⟨inner, h1, h2, h3⟩ := renderLocals_get _ _ ha n v hm
          exact ⟨inner, h1, List.mem_append_left _ h2, fun x hx => List.mem_append_left _ (h3 x hx)⟩
        | succ k =>
          obtain ⟨inner, h1, h2, h3⟩ := ih (i + 1) b hb k f n v (by simpa using hk) hm
          rw [show i + 1 + k = i + (k + 1) by omega] at h1 h2
          exact ⟨inner, h1, List.mem_append_right _ h2, fun x hx => List.mem_append_right _ (h3 x hx)⟩

theorem renderHeap_get {concrete : Bool} {fuel : Nat} : ∀ (heap : List MValue) (i : Nat) (items : List Item),
    renderHeap concrete fuel i heap = .ok items → ∀ k v, heap[k]? = some v →
      ∃ inner, render concrete fuel ⟨.heap (i + k), []⟩ v = .ok inner ∧ .cell ⟨.heap (i + k), []⟩ v ∈ items ∧
        ∀ x ∈ inner, x ∈ items := by
  intro heap
  induction heap with
  | nil => intro i items _ k v h; simp at h
  | cons w r ih =>
    intro i items h k v hk
    simp only [renderHeap] at h
    split at h
    · cases h
    · rename_i inner hi
      split at h
      · cases h
      · rename_i rest hr
        cases h
        cases k with
        | zero => cases hk; exact ⟨inner, hi, by simp, fun x hx => by simp [hx]⟩
        | succ k =>
          obtain ⟨inner', h1, h2, h3⟩ := ih (i + 1) rest hr k v (by simpa using hk)
          rw [show i + 1 + k = i + (k + 1) by omega] at h1 h2
          exact ⟨inner', h1, by simp [h2], fun x hx => by simp [h3 x hx]⟩

/-- In a rendered step every part of a value that is drawn at a path has an element with that path. -/
theorem step_shown {concrete : Bool} {fuel : Nat} {frames : List (List (String × MValue))} {heap : List MValue}
    {items : List Item} (h : renderStep concrete fuel frames heap = .ok items) {seg : MSeg} {v w : MValue}
    {comps : List Comp} (hd : DrawnAt frames heap seg v) (hs : Shown concrete v comps w) :
    .cell ⟨seg, comps⟩ w ∈ items := by
  have key : ∃ inner, render concrete fuel ⟨seg, []⟩ v = .ok inner ∧ .cell ⟨seg, []⟩ v ∈ items ∧
      ∀ x ∈ inner, x ∈ items := by
    simp only [renderStep] at h
    split at h
    · cases h
    · rename_i a ha
      split at h
      · cases h
      · rename_i b hb
        cases h
        cases hd with
        | stack hf hm =>
          obtain ⟨inner, h1, h2, h3⟩ := renderStack_get _ _ _ ha _ _ _ _ hf hm
          rw [Nat.zero_add] at h1 h2
          exact ⟨inner, h1, List.mem_append_left _ h2, fun x hx => List.mem_append_left _ (h3 x hx)⟩
        | heap hv =>
          obtain ⟨inner, h1, h2, h3⟩ := renderHeap_get _ _ _ hb _ _ hv
          rw [Nat.zero_add] at h1 h2
          exact ⟨inner, h1, List.mem_append_right _ h2, fun x hx => List.mem_append_right _ (h3 x hx)⟩
  obtain ⟨inner, h1, h2, h3⟩ := key
  by_cases hnil : comps = []
  · subst hnil
    cases hs
    exact h2
  · have := h3 _ (render_shown hs _ _ _ h1 hnil)
    simpa using this

theorem classes_cons (c : Cls) (v : MValue) (items : List Item) :
    classes (.cell c v :: items) = c :: classes items := by
  simp [classes]

theorem block_spec {seg : MSeg} {inner rest : List Item} {v : MValue}
    (hb : Below ⟨seg, []⟩ inner) (hn : (classes inner).Nodup) (hr : (classes rest).Nodup)
    (hrest : ∀ c ∈ classes rest, c.seg ≠ seg) :
    (∀ c ∈ classes (.cell ⟨seg, []⟩ v :: (inner ++ rest)), c.seg = seg ∨ c ∈ classes rest) ∧
      (classes (.cell ⟨seg, []⟩ v :: (inner ++ rest))).Nodup := by
  rw [classes_cons, classes_append]
  constructor
  · intro c hc
    rcases List.mem_cons.1 hc with rfl | hc
    · exact .inl rfl
    · rcases List.mem_append.1 hc with hc | hc
      · obtain ⟨x, r, rfl⟩ := hb c hc
        exact .inl rfl
      · exact .inr hc
  · rw [List.nodup_cons, List.nodup_append]
    refine ⟨?_, hn, hr, ?_⟩
    · intro hc
      rcases List.mem_append.1 hc with hc | hc
      · obtain ⟨x, r, he⟩ := hb _ hc
        have := congrArg Cls.comps he
        simp at this
      · exact hrest _ hc rfl
    · rintro a ha b hb' rfl
      obtain ⟨x, r, he⟩ := hb _ ha
      refine hrest _ hb' ?_
      rw [he]

theorem renderLocals_classes {concrete : Bool} {fuel frame : Nat} : ∀ (f : List (String × MValue))
    (items : List Item), renderLocals concrete fuel frame f = .ok items → (∀ x ∈ f, Short x.2) →
      (f.map Prod.fst).Nodup →
      (∀ c ∈ classes items, ∃ n, n ∈ f.map Prod.fst ∧ c.seg = .stack frame n) ∧ (classes items).Nodup := by
  intro f
  induction f with
  | nil => intro items h _ _; cases h; simp [classes]
  | cons a r ih =>
    obtain ⟨m, w⟩ := a
    intro items h hs hn
    simp only [renderLocals] at h
    split at h
    · cases h
    · rename_i inner hi
      split at h
      · cases h
      · rename_i rest hr
        cases h
        simp only [List.map_cons, List.nodup_cons] at hn
        obtain ⟨h1, h2⟩ := ih rest hr (fun x hx => hs x (List.mem_cons_of_mem _ hx)) hn.2
        obtain ⟨h3, h4⟩ := render_spec concrete _ _ _ _ (hs _ List.mem_cons_self) hi
        obtain ⟨h5, h6⟩ := block_spec (v := w) h3 h4 h2 (by
          intro c hc he
          obtain ⟨n, hn', he'⟩ := h1 c hc
          rw [he'] at he
          cases he
          exact hn.1 hn')
        refine ⟨?_, h6⟩
        intro c hc
        rcases h5 c hc with he | hc
        · exact ⟨m, by simp, he⟩
        · obtain ⟨n, hn', he'⟩ := h1 c hc
          exact ⟨n, by simp only [List.map_cons, List.mem_cons]; exact .inr hn', he'⟩

theorem renderStack_classes {concrete : Bool} {fuel : Nat} : ∀ (frames : List (List (String × MValue))) (i : Nat)
    (items : List Item), renderStack concrete fuel i frames = .ok items → (∀ f ∈ frames, ∀ x ∈ f, Short x.2) →
      NamesDiffer frames →
      (∀ c ∈ classes items, ∃ k n, i ≤ k ∧ c.seg = .stack k n) ∧ (classes items).Nodup := by
  intro frames
  induction frames with
  | nil => intro i items h _ _; cases h; simp [classes]
  | cons g r ih =>
    intro i items h hs hn
    simp only [renderStack] at h
    split at h
    · cases h
    · rename_i a ha
      split at h
      · cases h
      · rename_i b hb
        cases h
        obtain ⟨h1, h2⟩ := renderLocals_classes _ _ ha (hs g List.mem_cons_self) (hn g List.mem_cons_self)
        obtain ⟨h3, h4⟩ := ih (i + 1) b hb (fun f hf => hs f (List.mem_cons_of_mem _ hf))
          (fun f hf => hn f (List.mem_cons_of_mem _ hf))
        rw [classes_append]
        constructor
        · intro c hc
          rcases List.mem_append.1 hc with hc | hc
          · obtain ⟨n, _, he⟩ := h1 c hc
            exact ⟨i, n, Nat.le_refl _, he⟩
          · obtain ⟨k, n, hk, he⟩ := h3 c hc
            exact ⟨k, n, by omega, he⟩
        · rw [List.nodup_append]
          refine ⟨h2, h4, ?_⟩
          rintro c hc d hd rfl
          obtain ⟨n, _, he⟩ := h1 c hc
          obtain ⟨k, n', hk, he'⟩ := h3 c hd
          rw [he] at he'
          cases he'
          omega

theorem renderHeap_classes {concrete : Bool} {fuel : Nat} : ∀ (heap : List MValue) (i : Nat) (items : List Item),
    renderHeap concrete fuel i heap = .ok items → (∀ v ∈ heap, Short v) →
      (∀ c ∈ classes items, ∃ k, i ≤ k ∧ c.seg = .heap k) ∧ (classes items).Nodup := by
  intro heap
  induction heap with
  | nil => intro i items h _; cases h; simp [classes]
  | cons w r ih =>
    intro i items h hs
    simp only [renderHeap] at h
    split at h
    · cases h
    · rename_i inner hi
      split at h
      · cases h
      · rename_i rest hr
        cases h
        obtain ⟨h1, h2⟩ := ih (i + 1) rest hr (fun x hx => hs x (List.mem_cons_of_mem _ hx))
        obtain ⟨h3, h4⟩ := render_spec concrete _ _ _ _ (hs _ List.mem_cons_self) hi
        obtain ⟨h5, h6⟩ := block_spec (v := w) h3 h4 h2 (by
          intro c hc he
          obtain ⟨k, hk, he'⟩ := h1 c hc
          rw [he'] at he
          cases he
          omega)
        refine ⟨?_, h6⟩
        intro c hc
        rcases h5 c hc with he | hc
        · exact ⟨i, Nat.le_refl _, he⟩
        · obtain ⟨k, hk, he'⟩ := h1 c hc
          exact ⟨k, by omega, he'⟩

/-- In a rendered step no two elements have the same class, unless a frame has two variables of one name. -/
theorem step_classes {concrete : Bool} {fuel : Nat} {frames : List (List (String × MValue))} {heap : List MValue}
    {items : List Item} (h : renderStep concrete fuel frames heap = .ok items)
    (hs : ∀ seg v, DrawnAt frames heap seg v → Short v) (hn : NamesDiffer frames) : (classes items).Nodup := by
  simp only [renderStep] at h
  split at h
  · cases h
  · rename_i a ha
    split at h
    · cases h
    · rename_i b hb
      cases h
      obtain ⟨h1, h2⟩ := renderStack_classes _ _ _ ha (by
        intro f hf x hx
        obtain ⟨i, hi⟩ := List.getElem?_of_mem hf
        exact hs _ _ (.stack hi (n := x.1) (v := x.2) hx)) hn
      obtain ⟨h3, h4⟩ := renderHeap_classes _ _ _ hb (by
        intro v hv
        obtain ⟨i, hi⟩ := List.getElem?_of_mem hv
        exact hs _ _ (.heap hi))
      rw [classes_append, List.nodup_append]
      refine ⟨h2, h4, ?_⟩
      rintro c hc d hd rfl
      obtain ⟨k, n, _, he⟩ := h1 c hc
      obtain ⟨k', _, he'⟩ := h3 c hd
      rw [he] at he'
      cases he'

theorem query_mem {items : List Item} {c : Cls} {v : MValue} (h : query items c = .ok v) : .cell c v ∈ items := by
  unfold query at h
  split at h
  · rename_i w hw
    cases h
    obtain ⟨x, hx, he⟩ := List.exists_of_findSome?_eq_some hw
    cases x with
    | cell d u =>
      simp only at he
      split at he
      · cases he
        rename_i hd
        rw [← hd]
        exact hx
      · cases he
    | ptr _ _ => cases he
  · cases h

theorem query_ok {items : List Item} {c : Cls} {v : MValue} (h : .cell c v ∈ items) : ∃ w, query items c = .ok w := by
  unfold query
  split
  · exact ⟨_, rfl⟩
  · rename_i hnone
    rw [List.findSome?_eq_none_iff] at hnone
    have := hnone _ h
    simp at this

theorem unique_cell : ∀ {items : List Item} {c : Cls} {v w : MValue}, (classes items).Nodup → .cell c v ∈ items →
    .cell c w ∈ items → v = w := by
  intro items
  induction items with
  | nil => intro c v w _ h; cases h
  | cons x r ih =>
    intro c v w hn hv hw
    cases x with
    | ptr a b =>
      simp only [List.mem_cons, reduceCtorEq, false_or] at hv hw
      exact ih (by simpa [classes] using hn) hv hw
    | cell d u =>
      rw [classes_cons, List.nodup_cons] at hn
      simp only [List.mem_cons, Item.cell.injEq] at hv hw
      rcases hv with ⟨rfl, rfl⟩ | hv
      · rcases hw with ⟨_, rfl⟩ | hw
        · rfl
        · exact absurd (mem_classes.2 ⟨w, hw⟩) hn.1
      · rcases hw with ⟨rfl, rfl⟩ | hw
        · exact absurd (mem_classes.2 ⟨v, hv⟩) hn.1
        · exact ih hn.2 hv hw

end Verif.Frontend
