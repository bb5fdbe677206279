import Verif.Frontend.TraceSpec
/-!
# C52, C75: markers and diagrams of a trace
-/
namespace Verif.Frontend

/-! ## Sorting -/

section
variable {β : Type} (key : β → Nat)

theorem insertBy_perm (x : β) (l : List β) : (insertBy key x l).Perm (x :: l) := by
  induction l with
  | nil => exact .refl _
  | cons y r ih =>
    unfold insertBy
    split
    · exact .refl _
    · exact (ih.cons y).trans (.swap x y r)

theorem sortBy_perm (l : List β) : (sortBy key l).Perm l := by
  induction l with
  | nil => exact .refl _
  | cons x r ih => exact (insertBy_perm key x _).trans (ih.cons x)

theorem insertBy_sorted (x : β) (l : List β) (h : l.Pairwise (fun a b => key a ≤ key b)) :
    (insertBy key x l).Pairwise (fun a b => key a ≤ key b) := by
  induction l with
  | nil => simp [insertBy]
  | cons y r ih =>
    rw [List.pairwise_cons] at h
    unfold insertBy
    split
    · rename_i hxy
      refine List.pairwise_cons.2 ⟨?_, List.pairwise_cons.2 h⟩
      intro z hz
      rcases List.mem_cons.1 hz with rfl | hz
      · exact hxy
      · exact Nat.le_trans hxy (h.1 z hz)
    · rename_i hxy
      refine List.pairwise_cons.2 ⟨?_, ih h.2⟩
      intro z hz
      rcases List.mem_cons.1 ((insertBy_perm key x r).mem_iff.1 hz) with rfl | hz
      · omega
      · exact h.1 z hz

theorem sortBy_sorted (l : List β) : (sortBy key l).Pairwise (fun a b => key a ≤ key b) := by
  induction l with
  | nil => exact .nil
  | cons x r ih => exact insertBy_sorted key x _ ih

theorem insertBy_filter (k : Nat) (x : β) (l : List β) :
    (insertBy key x l).filter (fun a => key a = k) = (x :: l).filter (fun a => key a = k) := by
  induction l with
  | nil => rfl
  | cons y r ih =>
    unfold insertBy
    split
    · rfl
    · rename_i hxy
      rw [List.filter_cons, ih]
      simp only [List.filter_cons, decide_eq_true_eq]
      by_cases h1 : key x = k <;> by_cases h2 : key y = k <;> simp [h1, h2]
      omega

theorem sortBy_filter (k : Nat) (l : List β) :
    (sortBy key l).filter (fun a => key a = k) = l.filter (fun a => key a = k) := by
  induction l with
  | nil => rfl
  | cons x r ih =>
    rw [sortBy, insertBy_filter, List.filter_cons, List.filter_cons, ih]

end

/-! ## Finding the step of a mark -/

theorem markHere_true {doc : List Char} {m : Nat} {s : TStep} (h : markHere doc m s = .ok true) :
    Covers doc m s := by
  unfold markHere posOf at h
  cases hf : s.frames.getLast? with
  | none => simp [hf] at h
  | some f =>
    cases ha : linecol doc f.bodyStart with
    | none => simp [hf, ha] at h
    | some a =>
      cases hb : linecol doc f.bodyEnd <;> cases hc : linecol doc f.locStart <;>
        by_cases hle : a ≤ m <;> simp [hf, ha, hb, hc, hle] at h
      exact ⟨f, hf, a, _, _, ha, hb, hc, hle, h.1, h.2⟩

theorem markHere_false {doc : List Char} {m : Nat} {s : TStep} (h : markHere doc m s = .ok false) :
    ¬ Covers doc m s := by
  rintro ⟨f, hf, a, b, c, ha, hb, hc, h1, h2, h3⟩
  simp [markHere, posOf, hf, ha, hb, hc, h1, h2, h3] at h

theorem markHere_ok {doc : List Char} {s : TStep} (h : InDoc doc s) (m : Nat) :
    ∃ b, markHere doc m s = .ok b := by
  obtain ⟨f, hf, ⟨a, ha⟩, ⟨b, hb⟩, ⟨c, hc⟩, _⟩ := h
  by_cases h1 : a ≤ m <;> simp [markHere, posOf, hf, ha, hb, hc, h1]

theorem findIndex_some {β : Type} {p : β → Except TErr Bool} {l : List β} {i : Nat}
    (h : findIndex p l = .ok (some i)) :
    (∃ x, l[i]? = some x ∧ p x = .ok true) ∧ ∀ j < i, ∃ x, l[j]? = some x ∧ p x = .ok false := by
  induction l generalizing i with
  | nil => simp [findIndex] at h
  | cons x r ih =>
    simp only [findIndex] at h
    split at h
    · cases h
    · rename_i hp
      cases h
      exact ⟨⟨x, rfl, hp⟩, by simp⟩
    · rename_i hp
      split at h
      · cases h
      · cases h
      · rename_i k hk
        cases h
        obtain ⟨h1, h2⟩ := ih hk
        refine ⟨by simpa using h1, ?_⟩
        intro j hj
        cases j with
        | zero => exact ⟨x, rfl, hp⟩
        | succ j => simpa using h2 j (by omega)

theorem findIndex_none {β : Type} {p : β → Except TErr Bool} {l : List β}
    (h : findIndex p l = .ok none) : ∀ x ∈ l, p x = .ok false := by
  induction l with
  | nil => simp
  | cons x r ih =>
    simp only [findIndex] at h
    split at h
    · cases h
    · cases h
    · rename_i hp
      split at h
      · cases h
      · rename_i hk
        intro y hy
        rcases List.mem_cons.1 hy with rfl | hy
        · exact hp
        · exact ih hk y hy
      · cases h

theorem findIndex_ok {β : Type} {p : β → Except TErr Bool} {l : List β}
    (h : ∀ x ∈ l, ∃ b, p x = .ok b) : ∃ o, findIndex p l = .ok o := by
  induction l with
  | nil => exact ⟨none, rfl⟩
  | cons x r ih =>
    obtain ⟨o, ho⟩ := ih (fun y hy => h y (List.mem_cons_of_mem _ hy))
    obtain ⟨b, hb⟩ := h x List.mem_cons_self
    cases b <;> cases o <;> simp [findIndex, hb, ho]

theorem latest_unique {doc : List Char} {steps : List TStep} {m i j : Nat} (h : Latest doc steps m i)
    (h' : Latest doc steps m j) : i = j := by
  obtain ⟨⟨s, hs, hc⟩, hl⟩ := h
  obtain ⟨⟨s', hs', hc'⟩, hl'⟩ := h'
  rcases Nat.lt_trichotomy i j with h | h | h
  · exact absurd hc' (hl j s' h hs')
  · exact h
  · exact absurd hc (hl' i s h hs)

theorem markStep_ok {doc : List Char} {steps : List TStep} {m k m' : Nat} {s : TStep}
    (h : markStep doc steps m = .ok (k, m', s)) :
    ∃ i, k = i + 1 ∧ m' = m ∧ steps[i]? = some s ∧ Latest doc steps m i := by
  unfold markStep at h
  split at h
  · cases h
  · cases h
  · rename_i r hr
    split at h
    · cases h
    · rename_i s' hs'
      cases h
      obtain ⟨⟨x, hx, hp⟩, hlt⟩ := findIndex_some hr
      rw [hs'] at hx
      cases hx
      have hlen : r < steps.length := by
        have := (List.getElem?_eq_some_iff.1 hs').1
        simpa using this
      rw [List.getElem?_reverse hlen] at hs'
      refine ⟨steps.length - 1 - r, by omega, rfl, hs', ⟨_, hs', markHere_true hp⟩, ?_⟩
      intro j t hj ht
      have hj' : j < steps.length := (List.getElem?_eq_some_iff.1 ht).1
      obtain ⟨y, hy, hpy⟩ := hlt (steps.length - 1 - j) (by omega)
      rw [List.getElem?_reverse (by omega)] at hy
      have : steps.length - 1 - (steps.length - 1 - j) = j := by omega
      rw [this, ht] at hy
      cases hy
      exact markHere_false hpy

theorem mapAll_ok {β γ : Type} {f : β → Except TErr γ} {l : List β} {r : List γ} (h : mapAll f l = .ok r) :
    r.length = l.length ∧ ∀ (i : Nat) (x : β), l[i]? = some x → ∃ y, r[i]? = some y ∧ f x = .ok y := by
  induction l generalizing r with
  | nil => cases h; simp
  | cons x t ih =>
    simp only [mapAll] at h
    split at h
    · cases h
    · rename_i y hy
      split at h
      · cases h
      · rename_i ys hys
        cases h
        obtain ⟨h1, h2⟩ := ih hys
        refine ⟨by simp [h1], ?_⟩
        intro i z hz
        cases i with
        | zero => cases hz; exact ⟨y, rfl, hy⟩
        | succ i => simpa using h2 i z (by simpa using hz)

theorem mapAll_all {β γ : Type} {f : β → Except TErr γ} {l : List β} (h : ∀ x ∈ l, ∃ y, f x = .ok y) :
    ∃ r, mapAll f l = .ok r := by
  induction l with
  | nil => exact ⟨[], rfl⟩
  | cons x t ih =>
    obtain ⟨y, hy⟩ := h x List.mem_cons_self
    obtain ⟨r, hr⟩ := ih (fun z hz => h z (List.mem_cons_of_mem _ hz))
    exact ⟨y :: r, by simp [mapAll, hy, hr]⟩

theorem mapAll_err {β γ : Type} {f : β → Except TErr γ} {l : List β} {e : TErr} (h : mapAll f l = .error e) :
    ∃ x ∈ l, f x = .error e := by
  induction l with
  | nil => simp [mapAll] at h
  | cons x t ih =>
    simp only [mapAll] at h
    split at h
    · rename_i e' he
      cases h
      exact ⟨x, List.mem_cons_self, he⟩
    · split at h
      · rename_i he
        cases h
        obtain ⟨z, hz, hf⟩ := ih he
        exact ⟨z, List.mem_cons_of_mem _ hz, hf⟩
      · cases h

/-- The triples that `filterSteps` sorts: they are the marks, each with the key of its latest step. -/
theorem triples {doc : List Char} {steps : List TStep} {marks : List Nat} {l : List (Nat × Nat × TStep)}
    (h : mapAll (markStep doc steps) marks = .ok l) :
    l.map (fun x => x.2.1) = marks ∧
      ∀ x ∈ l, ∃ i, x.1 = i + 1 ∧ steps[i]? = some x.2.2 ∧ Latest doc steps x.2.1 i := by
  obtain ⟨hlen, hat⟩ := mapAll_ok h
  constructor
  · apply List.ext_getElem?
    intro i
    rw [List.getElem?_map]
    cases hm : marks[i]? with
    | none =>
      rw [List.getElem?_eq_none_iff] at hm
      rw [List.getElem?_eq_none_iff.2 (by omega)]
      rfl
    | some m =>
      obtain ⟨⟨k, m', s⟩, hy, hf⟩ := hat i m hm
      obtain ⟨_, _, rfl, _⟩ := markStep_ok hf
      rw [hy]
      rfl
  · intro x hx
    obtain ⟨i, hi, rfl⟩ := List.getElem_of_mem hx
    obtain ⟨⟨k, m', s⟩, hy, hf⟩ := hat i marks[i] (by simp)
    rw [List.getElem?_eq_getElem hi, Option.some.injEq] at hy
    obtain ⟨j, h1, h2, h3, h4⟩ := markStep_ok hf
    rw [hy]
    exact ⟨j, h1, h3, h2 ▸ h4⟩

/-- What is shown for a list of marks: each mark with its latest step, in the order of execution, marks of the
same step in the order of the list. -/
theorem C52_pairs {doc : List Char} {steps : List TStep} {marks ms : List Nat} {ss : List TStep}
    (h : filterSteps doc steps marks = .ok (ms, ss)) :
    ∃ f : Nat → Nat, (∀ m ∈ marks, Latest doc steps m (f m)) ∧
      ms.Perm marks ∧ ms.Pairwise (fun a b => f a ≤ f b) ∧
      (∀ k, ms.filter (fun m => f m = k) = marks.filter (fun m => f m = k)) ∧
      ss.length = ms.length ∧
      ∀ (i m : Nat), ms[i]? = some m → ss[i]? = steps[f m]? := by
  unfold filterSteps at h
  split at h
  · cases h
  · rename_i l hl
    obtain ⟨h1, h2⟩ := triples hl
    simp only [Except.ok.injEq, Prod.mk.injEq] at h
    obtain ⟨rfl, rfl⟩ := h
    classical
    let f : Nat → Nat := fun m => if hm : ∃ i, Latest doc steps m i then hm.choose else 0
    have hf : ∀ m i, Latest doc steps m i → f m = i := by
      intro m i hm
      have hex : ∃ i, Latest doc steps m i := ⟨i, hm⟩
      have : f m = hex.choose := dif_pos hex
      rw [this]
      exact latest_unique hex.choose_spec hm
    have hkey : ∀ x ∈ l, x.1 = f x.2.1 + 1 ∧ steps[f x.2.1]? = some x.2.2 ∧
        Latest doc steps x.2.1 (f x.2.1) := by
      intro x hx
      obtain ⟨i, ha, hb, hc⟩ := h2 x hx
      rw [hf _ _ hc]
      exact ⟨ha, hb, hc⟩
    have hperm := sortBy_perm (fun x : Nat × Nat × TStep => x.1) l
    have hkey' : ∀ x ∈ sortBy (fun x : Nat × Nat × TStep => x.1) l, x.1 = f x.2.1 + 1 ∧
        steps[f x.2.1]? = some x.2.2 := by
      intro x hx
      have := hkey x (hperm.mem_iff.1 hx)
      exact ⟨this.1, this.2.1⟩
    have hfil : ∀ (k : Nat) (q : List (Nat × Nat × TStep)), (∀ x ∈ q, x.1 = f x.2.1 + 1) →
        (q.map (fun x => x.2.1)).filter (fun m => f m = k) =
          (q.filter (fun x => x.1 = k + 1)).map (fun x => x.2.1) := by
      intro k q hq
      rw [List.filter_map]
      congr 1
      apply List.filter_congr
      intro x hx
      have := hq x hx
      simp only [Function.comp, this, Nat.add_right_cancel_iff]
    refine ⟨f, ?_, ?_, ?_, ?_, by simp, ?_⟩
    · intro m hm
      rw [← h1, List.mem_map] at hm
      obtain ⟨x, hx, rfl⟩ := hm
      exact (hkey x hx).2.2
    · have := hperm.map (fun x => x.2.1)
      rwa [h1] at this
    · rw [List.pairwise_map]
      refine (sortBy_sorted (fun x : Nat × Nat × TStep => x.1) l).imp_of_mem ?_
      intro a b ha hb hab
      have h1 := (hkey' a ha).1
      have h2 := (hkey' b hb).1
      omega
    · intro k
      rw [hfil k _ (fun x hx => (hkey' x hx).1), sortBy_filter (fun x : Nat × Nat × TStep => x.1) (k + 1) l,
        ← hfil k l (fun x hx => (hkey x hx).1), h1]
    · intro i m hm
      rw [List.getElem?_map] at hm ⊢
      cases hx : (sortBy (fun x : Nat × Nat × TStep => x.1) l)[i]? with
      | none => rw [hx] at hm; cases hm
      | some x =>
        rw [hx] at hm
        cases hm
        exact (hkey' x (List.mem_of_getElem? hx)).2.symm

/-- If the trace lies in the document, the only error is a mark without a step, and it is reported exactly if
there is such a mark. -/
theorem C52_error {doc : List Char} {steps : List TStep} (hd : ∀ s ∈ steps, InDoc doc s) (marks : List Nat) :
    ((∃ e, filterSteps doc steps marks = .error e) ↔ ∃ m ∈ marks, ∀ s ∈ steps, ¬ Covers doc m s) ∧
      ∀ e, filterSteps doc steps marks = .error e →
        ∃ m ∈ marks, e = .noStep m ∧ ∀ s ∈ steps, ¬ Covers doc m s := by
  have hfind : ∀ m, ∃ o, findIndex (markHere doc m) steps.reverse = .ok o := fun m =>
    findIndex_ok (fun x hx => markHere_ok (hd x (List.mem_reverse.1 hx)) m)
  have hone : ∀ m, (∃ y, markStep doc steps m = .ok y) ∨
      (markStep doc steps m = .error (.noStep m) ∧ ∀ s ∈ steps, ¬ Covers doc m s) := by
    intro m
    obtain ⟨o, ho⟩ := hfind m
    cases o with
    | none =>
      right
      refine ⟨by simp [markStep, ho], ?_⟩
      intro s hs
      exact markHere_false (findIndex_none ho s (List.mem_reverse.2 hs))
    | some r =>
      left
      obtain ⟨⟨x, hx, _⟩, _⟩ := findIndex_some ho
      exact ⟨(steps.length - r, m, x), by simp only [markStep, ho, hx]⟩
  have hsecond : ∀ e, filterSteps doc steps marks = .error e →
        ∃ m ∈ marks, e = .noStep m ∧ ∀ s ∈ steps, ¬ Covers doc m s := by
    intro e he
    unfold filterSteps at he
    split at he
    · rename_i e' hm
      cases he
      obtain ⟨m, hmem, hf⟩ := mapAll_err hm
      rcases hone m with ⟨y, hy⟩ | ⟨hy, hc⟩
      · rw [hy] at hf; cases hf
      · rw [hy] at hf
        cases hf
        exact ⟨m, hmem, rfl, hc⟩
    · cases he
  refine ⟨⟨?_, ?_⟩, hsecond⟩
  · rintro ⟨e, he⟩
    obtain ⟨m, hm, _, hc⟩ := hsecond e he
    exact ⟨m, hm, hc⟩
  · rintro ⟨m, hm, hc⟩
    rcases hr : filterSteps doc steps marks with e | ⟨ms, ss⟩
    · exact ⟨e, rfl⟩
    · obtain ⟨f, hf, _⟩ := C52_pairs hr
      obtain ⟨⟨s, hs, hcov⟩, _⟩ := hf m hm
      exact absurd hcov (hc s (List.mem_of_getElem? hs))

/-- Marker `k` and diagram `k` have the same label, and there are as many markers as diagrams. With marks the
markers are the marks and the diagrams their steps; without marks there is one marker per step, at the end of
the step's location. -/
theorem C52_labels {doc : List Char} {steps : List TStep} {failed : Bool} {marks : List Nat}
    {mk : List Marker} {dg : List Diagram} (h : renderInterpreter doc steps failed marks = .ok (mk, dg)) :
    mk.length = dg.length ∧
    (∀ (k : Nat) (m : Marker), mk[k]? = some m → m.label = k) ∧
    (∀ (k : Nat) (d : Diagram), dg[k]? = some d → d.label = k) ∧
    (marks ≠ [] → filterSteps doc steps marks = .ok (mk.map (·.at_), dg.map (·.step))) ∧
    (marks = [] → dg.map (·.step) = steps ∧
      ∀ (k : Nat) (m : Marker) (s : TStep), mk[k]? = some m → steps[k]? = some s →
        ∃ f, s.frames.getLast? = some f ∧ linecol doc f.locEnd = some m.at_) := by
  unfold renderInterpreter at h
  dsimp only at h
  split at h
  · cases h
  · rename_i places shown hr
    simp only [Except.ok.injEq, Prod.mk.injEq] at h
    obtain ⟨rfl, rfl⟩ := h
    have hmk : (places.mapIdx (fun i m => (⟨m, i, decide (i + 1 = shown.length) && failed⟩ : Marker))).map
        (·.at_) = places := by
      apply List.ext_getElem?
      intro i
      cases hp : places[i]? <;> simp [hp]
    have hdg : (shown.mapIdx (fun i s => (⟨i, s, decide (i + 1 = shown.length) && failed⟩ : Diagram))).map
        (·.step) = shown := by
      apply List.ext_getElem?
      intro i
      cases hp : shown[i]? <;> simp [hp]
    rw [hmk, hdg]
    refine ⟨?_, ?_, ?_, ?_, ?_⟩
    · rw [List.length_mapIdx, List.length_mapIdx]
      split at hr
      · obtain ⟨f, _, _, _, _, hl, _⟩ := C52_pairs hr
        exact hl.symm
      · split at hr
        · cases hr
        · rename_i ps hps
          cases hr
          exact (mapAll_ok hps).1
    · intro k m hm
      rw [List.getElem?_mapIdx] at hm
      cases hp : places[k]? with
      | none => rw [hp] at hm; cases hm
      | some x => rw [hp] at hm; cases hm; rfl
    · intro k m hm
      rw [List.getElem?_mapIdx] at hm
      cases hp : shown[k]? with
      | none => rw [hp] at hm; cases hm
      | some x => rw [hp] at hm; cases hm; rfl
    · intro hne
      rwa [if_pos (List.length_pos_iff.2 hne)] at hr
    · intro he
      rw [if_neg (by simp [he])] at hr
      split at hr
      · cases hr
      · rename_i ps hps
        cases hr
        refine ⟨rfl, ?_⟩
        intro k m s hm hs
        obtain ⟨y, hy, hst⟩ := (mapAll_ok hps).2 k s hs
        rw [List.getElem?_mapIdx, hy] at hm
        cases hm
        unfold stepPlace posOf at hst
        cases hf : s.frames.getLast? with
        | none => simp [hf] at hst
        | some f =>
          cases hp : linecol doc f.locEnd with
          | none => simp [hf, hp] at hst
          | some n =>
            simp [hf, hp] at hst
            exact ⟨f, rfl, by rw [hp, hst]⟩

/-! ## C75: where the error is shown -/

/-- The error is shown exactly at the last marker and diagram, if the run failed. -/
theorem C75_last {doc : List Char} {steps : List TStep} {failed : Bool} {marks : List Nat}
    {mk : List Marker} {dg : List Diagram} (h : renderInterpreter doc steps failed marks = .ok (mk, dg)) :
    (∀ (k : Nat) (m : Marker), mk[k]? = some m → (m.fail = true ↔ failed = true ∧ k + 1 = mk.length)) ∧
    (∀ (k : Nat) (d : Diagram), dg[k]? = some d → (d.error = true ↔ failed = true ∧ k + 1 = dg.length)) := by
  have hlen := (C52_labels h).1
  unfold renderInterpreter at h
  dsimp only at h
  split at h
  · cases h
  · rename_i places shown hr
    simp only [Except.ok.injEq, Prod.mk.injEq] at h
    obtain ⟨rfl, rfl⟩ := h
    rw [List.length_mapIdx, List.length_mapIdx] at hlen
    constructor
    · intro k m hm
      rw [List.getElem?_mapIdx] at hm
      cases hp : places[k]? with
      | none => rw [hp] at hm; cases hm
      | some x =>
        rw [hp] at hm
        cases hm
        rw [List.length_mapIdx, hlen]
        simp [and_comm]
    · intro k m hm
      rw [List.getElem?_mapIdx] at hm
      cases hp : shown[k]? with
      | none => rw [hp] at hm; cases hm
      | some x =>
        rw [hp] at hm
        cases hm
        rw [List.length_mapIdx]
        simp [and_comm]

/-- The run's last step is where it failed. The error is shown there if the code has no marks, and with marks
exactly if the last step is the latest step of some mark (for steps told apart by their number). What is
missing: with marks before the failing step the error is shown at an earlier step (`C75_wrong_step`). -/
theorem C75_at_failure_partial {doc : List Char} {steps : List TStep} {marks : List Nat}
    {mk : List Marker} {dg : List Diagram} (h : renderInterpreter doc steps true marks = .ok (mk, dg))
    (hdist : steps.Nodup) (hne : steps ≠ []) :
    (∃ d ∈ dg, d.error = true ∧ some d.step = steps.getLast?) ↔
      marks = [] ∨ ∃ m ∈ marks, Latest doc steps m (steps.length - 1) := by
  obtain ⟨_, herr⟩ := C75_last h
  obtain ⟨hl1, _, _, hm1, hm2⟩ := C52_labels h
  by_cases hmk : marks = []
  · refine ⟨fun _ => .inl hmk, fun _ => ?_⟩
    obtain ⟨hs, _⟩ := hm2 hmk
    have hdl : dg.length = steps.length := by rw [← hs, List.length_map]
    have hpos : 0 < steps.length := List.length_pos_iff.2 hne
    have hlt : steps.length - 1 < dg.length := by omega
    refine ⟨dg[steps.length - 1], List.getElem_mem _, ?_, ?_⟩
    · exact (herr _ _ (List.getElem?_eq_getElem hlt)).2 ⟨rfl, by omega⟩
    · rw [List.getLast?_eq_getElem?]
      have := congrArg (fun l => l[steps.length - 1]?) hs
      simp only [List.getElem?_map, List.getElem?_eq_getElem hlt, Option.map_some] at this
      exact this
  · have hf := hm1 hmk
    obtain ⟨f, h1, h2, h3, _, h5, h6⟩ := C52_pairs hf
    rw [List.length_map, List.length_map] at h5
    have hpos : 0 < steps.length := List.length_pos_iff.2 hne
    constructor
    · rintro ⟨d, hd, he, hs⟩
      right
      obtain ⟨k, hk, rfl⟩ := List.getElem_of_mem hd
      have hm : (mk.map (·.at_))[k]? = some (mk[k]'(by omega)).at_ := by
        rw [List.getElem?_map, List.getElem?_eq_getElem (by omega)]; rfl
      have h7 := h6 k _ hm
      have hmem : (mk[k]'(by omega)).at_ ∈ marks := h2.mem_iff.1 (List.mem_of_getElem? hm)
      refine ⟨_, hmem, ?_⟩
      have hlat := h1 _ hmem
      obtain ⟨⟨s, hs', _⟩, _⟩ := id hlat
      rw [List.getElem?_map, List.getElem?_eq_getElem hk, Option.map_some, hs, List.getLast?_eq_getElem?] at h7
      have hlt : f (mk[k]'(by omega)).at_ < steps.length := (List.getElem?_eq_some_iff.1 hs').1
      have : steps.length - 1 = f (mk[k]'(by omega)).at_ := by
        have h8 := h7
        rw [List.getElem?_eq_getElem (by omega), List.getElem?_eq_getElem hlt, Option.some.injEq] at h8
        rcases Nat.lt_trichotomy (steps.length - 1) (f (mk[k]'(by omega)).at_) with hx | hx | hx
        · exact absurd h8 ((List.pairwise_iff_getElem.1 hdist) _ _ _ _ hx)
        · exact hx
        · exact absurd h8.symm ((List.pairwise_iff_getElem.1 hdist) _ _ _ _ hx)
      rw [this]
      exact hlat
    · rintro (h | ⟨m, hm, hlat⟩)
      · exact absurd h hmk
      · have hfm : f m = steps.length - 1 := latest_unique (h1 m hm) hlat
        have hm' : m ∈ mk.map (·.at_) := h2.mem_iff.2 hm
        have hmkpos : 0 < mk.length := by
          have := List.length_pos_of_mem hm'
          simpa using this
        have hlt : mk.length - 1 < dg.length := by omega
        refine ⟨dg[mk.length - 1], List.getElem_mem _, ?_, ?_⟩
        · exact (herr _ _ (List.getElem?_eq_getElem hlt)).2 ⟨rfl, by omega⟩
        · have hlast : (mk.map (·.at_))[mk.length - 1]? = some (mk[mk.length - 1]'(by omega)).at_ := by
            rw [List.getElem?_map, List.getElem?_eq_getElem (by omega)]; rfl
          have h7 := h6 _ _ hlast
          have hmem : (mk[mk.length - 1]'(by omega)).at_ ∈ marks := h2.mem_iff.1 (List.mem_of_getElem? hlast)
          have hlt' : f (mk[mk.length - 1]'(by omega)).at_ < steps.length := by
            obtain ⟨⟨s, hs', _⟩, _⟩ := h1 _ hmem
            exact (List.getElem?_eq_some_iff.1 hs').1
          have hge : f m ≤ f (mk[mk.length - 1]'(by omega)).at_ := by
            obtain ⟨j, hj, hje⟩ := List.getElem_of_mem hm'
            rw [List.length_map] at hj
            by_cases hjl : j = mk.length - 1
            · subst hjl
              rw [← hje, List.getElem_map]
              exact Nat.le_refl _
            · have := (List.pairwise_iff_getElem.1 h3) j (mk.length - 1) (by simpa using hj) (by simp; omega)
                (by omega)
              rw [hje, List.getElem_map] at this
              exact this
          have : f (mk[mk.length - 1]'(by omega)).at_ = steps.length - 1 := by omega
          rw [this, List.getElem?_map, List.getElem?_eq_getElem hlt, Option.map_some] at h7
          rw [List.getLast?_eq_getElem?]
          exact h7

/-- Two steps of one function, the second of which fails; a mark after the first only. -/
def twoSteps : List TStep :=
  [⟨[⟨⟨0, 0⟩, ⟨0, 9⟩, ⟨0, 1⟩, ⟨0, 3⟩⟩], 0⟩, ⟨[⟨⟨0, 0⟩, ⟨0, 9⟩, ⟨0, 5⟩, ⟨0, 8⟩⟩], 1⟩]

def nineChars : List Char := ['{', 'a', 'b', ';', ' ', 'c', 'd', 'e', ';', '}']

/-- The error is shown at a step that did not fail. -/
theorem C75_wrong_step : renderInterpreter nineChars twoSteps true [4] =
    .ok ([⟨4, 0, true⟩], [⟨0, twoSteps[0], true⟩]) := by decide

example : renderInterpreter nineChars twoSteps true [9, 4] =
    .ok ([⟨4, 0, false⟩, ⟨9, 1, true⟩], [⟨0, twoSteps[0], false⟩, ⟨1, twoSteps[1], true⟩]) := by decide

example : renderInterpreter nineChars twoSteps true [] =
    .ok ([⟨3, 0, false⟩, ⟨8, 1, true⟩], [⟨0, twoSteps[0], false⟩, ⟨1, twoSteps[1], true⟩]) := by decide

example : filterSteps nineChars twoSteps [9, 1] = .error (.noStep 1) := by decide

/-- Marks at the same step keep the order in which they were given. -/
example : filterSteps nineChars twoSteps [4, 9, 3] =
    .ok ([4, 3, 9], [twoSteps[0], twoSteps[0], twoSteps[1]]) := by decide

end Verif.Frontend
