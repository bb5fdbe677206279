import Verif.Frontend.Permissions
import Verif.Frontend.TraceProps
/-!
# C54, C77, C78: boundaries and highlighted regions
-/
namespace Verif.Frontend

/-! ## C54 -/

theorem uniqBy_spec {β : Type} (key : β → Nat) (l : List β) : ∀ seen : List Nat,
    (uniqBy key l seen).Sublist l ∧
    ((uniqBy key l seen).map key).Nodup ∧
    (∀ x ∈ uniqBy key l seen, key x ∉ seen) ∧
    (∀ x ∈ l, key x ∉ seen → ∃ y ∈ uniqBy key l seen, key y = key x) ∧
    (∀ x ∈ uniqBy key l seen, l.find? (fun y => key y == key x) = some x) := by
  induction l with
  | nil => intro seen; simp [uniqBy]
  | cons x r ih =>
    intro seen
    unfold uniqBy
    split
    · rename_i hs
      have hs' : key x ∈ seen := by simpa using hs
      obtain ⟨h1, h2, h3, h4, h5⟩ := ih seen
      refine ⟨h1.cons x, h2, h3, ?_, ?_⟩
      · intro y hy hn
        rcases List.mem_cons.1 hy with rfl | hy
        · exact absurd hs' hn
        · exact h4 y hy hn
      · intro y hy
        rw [List.find?_cons_of_neg, h5 y hy]
        simp only [beq_iff_eq]
        intro he
        exact h3 y hy (he ▸ hs')
    · rename_i hs
      have hs' : key x ∉ seen := by simpa using hs
      obtain ⟨h1, h2, h3, h4, h5⟩ := ih (key x :: seen)
      refine ⟨h1.cons_cons x, ?_, ?_, ?_, ?_⟩
      · rw [List.map_cons, List.nodup_cons]
        refine ⟨?_, h2⟩
        intro hm
        obtain ⟨y, hy, he⟩ := List.mem_map.1 hm
        exact h3 y hy (by rw [he]; exact List.mem_cons_self)
      · intro y hy
        rcases List.mem_cons.1 hy with rfl | hy
        · exact hs'
        · exact fun h => h3 y hy (List.mem_cons_of_mem _ h)
      · intro y hy hn
        rcases List.mem_cons.1 hy with rfl | hy
        · exact ⟨y, List.mem_cons_self, rfl⟩
        · by_cases he : key y = key x
          · exact ⟨x, List.mem_cons_self, he.symm⟩
          · obtain ⟨z, hz, hk⟩ := h4 y hy (by simp [he, hn])
            exact ⟨z, List.mem_cons_of_mem _ hz, hk⟩
      · intro y hy
        rcases List.mem_cons.1 hy with rfl | hy
        · rw [List.find?_cons_of_pos]
          simp
        · rw [List.find?_cons_of_neg, h5 y hy]
          simp only [beq_iff_eq]
          intro he
          exact h3 y hy (by rw [← he]; exact List.mem_cons_self)

/-- The boundaries drawn: different positions, each position that has a boundary, and the first reported. -/
theorem C54_drawn {doc : List Char} {results : List (List Bnd)} {ds : List (Nat × Bnd)}
    (h : drawnBoundaries doc results = .ok ds) :
    (ds.map (·.1)).Nodup ∧ (ds.map (·.2)).Sublist results.flatten ∧
    (∀ b ∈ results.flatten, ∃ n, linecol doc b.location = some n ∧ n ∈ ds.map (·.1)) ∧
    (∀ n b, (n, b) ∈ ds →
      results.flatten.find? (fun c => linecol doc c.location == some n) = some b) := by
  unfold drawnBoundaries at h
  split at h
  · cases h
  · rename_i l hl
    cases h
    have hone : ∀ (bs : List Bnd) (q : List (Nat × Bnd)), boundaryDecos doc bs = .ok q →
        q.map (·.2) = bs ∧ ∀ x ∈ q, linecol doc x.2.location = some x.1 := by
      intro bs q hq
      obtain ⟨hlen, hat⟩ := mapAll_ok hq
      have hat' : ∀ (i : Nat) (b : Bnd), bs[i]? = some b →
          ∃ n, q[i]? = some (n, b) ∧ linecol doc b.location = some n := by
        intro i b hb
        obtain ⟨y, hy, hf⟩ := hat i b hb
        unfold posOf at hf
        cases hp : linecol doc b.location with
        | none => simp [hp] at hf
        | some n =>
          simp [hp] at hf
          exact ⟨n, by rw [hf]; exact hy, rfl⟩
      constructor
      · apply List.ext_getElem?
        intro i
        rw [List.getElem?_map]
        cases hb : bs[i]? with
        | none =>
          rw [List.getElem?_eq_none_iff] at hb
          rw [List.getElem?_eq_none_iff.2 (by omega)]
          rfl
        | some b =>
          obtain ⟨n, h1, _⟩ := hat' i b hb
          rw [h1]; rfl
      · intro x hx
        obtain ⟨i, hi, rfl⟩ := List.getElem_of_mem hx
        obtain ⟨n, h1, h2⟩ := hat' i bs[i] (by simp)
        rw [List.getElem?_eq_getElem hi, Option.some.injEq] at h1
        rw [h1]
        exact h2
    have hall : l.flatten.map (·.2) = results.flatten ∧ ∀ x ∈ l.flatten, linecol doc x.2.location = some x.1 := by
      induction results generalizing l with
      | nil => cases hl; simp
      | cons bs r ih =>
        simp only [mapAll] at hl
        split at hl
        · cases hl
        · rename_i q hq
          split at hl
          · cases hl
          · rename_i qs hqs
            cases hl
            obtain ⟨h1, h2⟩ := hone bs q hq
            obtain ⟨h3, h4⟩ := ih qs hqs
            refine ⟨by simp [h1, h3], ?_⟩
            intro x hx
            rw [List.flatten_cons, List.mem_append] at hx
            exact hx.elim (h2 x) (h4 x)
    obtain ⟨ha, hb⟩ := hall
    obtain ⟨h1, h2, _, h4, h5⟩ := uniqBy_spec (fun d : Nat × Bnd => d.1) l.flatten []
    refine ⟨h2, ?_, ?_, ?_⟩
    · rw [← ha]
      exact h1.map _
    · intro b hbm
      rw [← ha, List.mem_map] at hbm
      obtain ⟨x, hx, rfl⟩ := hbm
      obtain ⟨y, hy, he⟩ := h4 x hx (by simp)
      exact ⟨x.1, hb x hx, List.mem_map.2 ⟨y, hy, he⟩⟩
    · intro n b hm
      have h6 := h5 (n, b) hm
      rw [← ha, List.find?_map]
      have : l.flatten.find? ((fun c : Bnd => linecol doc c.location == some n) ∘ fun x => x.2) = some (n, b) := by
        rw [← h6]
        have hcongr : ∀ (q : List (Nat × Bnd)), (∀ x ∈ q, linecol doc x.2.location = some x.1) →
            q.find? ((fun c : Bnd => linecol doc c.location == some n) ∘ fun x => x.2) =
              q.find? (fun y => y.1 == n) := by
          intro q hq
          induction q with
          | nil => rfl
          | cons z t ih =>
            have hz := hq z List.mem_cons_self
            rw [List.find?_cons, List.find?_cons, ih (fun x hx => hq x (List.mem_cons_of_mem _ hx))]
            simp [hz]
        exact hcongr _ hb
      rw [this]
      rfl

/-- If all positions are in the document the boundaries are drawn. -/
theorem C54_defined {doc : List Char} {results : List (List Bnd)}
    (h : ∀ b ∈ results.flatten, ∃ n, linecol doc b.location = some n) :
    ∃ ds, drawnBoundaries doc results = .ok ds := by
  have : ∃ l, mapAll (boundaryDecos doc) results = .ok l := by
    apply mapAll_all
    intro bs hbs
    apply mapAll_all
    intro b hb
    obtain ⟨n, hn⟩ := h b (List.mem_flatten.2 ⟨bs, hbs, hb⟩)
    exact ⟨(n, b), by simp [posOf, hn]⟩
  obtain ⟨l, hl⟩ := this
  exact ⟨uniqBy (fun d => d.1) l.flatten [], by simp only [drawnBoundaries, hl]⟩

/-- Two boundaries at one place in two bodies: the second, though violated, is not drawn. -/
theorem C54_second_lost : ∃ (b c : Bnd), c.expWrite = true ∧ c.actWrite = false ∧
    drawnBoundaries ['x', ';'] [[b], [c]] = .ok [(0, b)] :=
  ⟨⟨⟨0, 0⟩, true, false, false, true, false, false, none⟩,
   ⟨⟨0, 0⟩, true, true, false, true, false, false, none⟩, rfl, rfl, by decide⟩

/-! ## C77 -/

/-- A letter is drawn iff the permission is expected, and as missing iff it is absent (for flow: iff there is a
violation); the letters come in the order R, W, O, F. -/
theorem C77_letters (b : Bnd) :
    (∀ m, (Letter.R, m) ∈ bndIcons b ↔ b.expRead = true ∧ m = !b.actRead) ∧
    (∀ m, (Letter.W, m) ∈ bndIcons b ↔ b.expWrite = true ∧ m = !b.actWrite) ∧
    (∀ m, (Letter.O, m) ∈ bndIcons b ↔ b.expDrop = true ∧ m = !b.actDrop) ∧
    (∀ m, (Letter.F, m) ∈ bndIcons b ↔ b.flow = some m) ∧
    ((bndIcons b).map (·.1)).Sublist [.R, .W, .O, .F] := by
  obtain ⟨_, r, w, d, r', w', d', f⟩ := b
  have hm : ∀ x : Letter × Bool, x ∈ bndIcons ⟨⟨0, 0⟩, r, w, d, r', w', d', f⟩ ↔
      x ∈ (if r then [(Letter.R, !r')] else []) ++ (if w then [(Letter.W, !w')] else []) ++
        (if d then [(Letter.O, !d')] else []) ++ (match f with | some v => [(Letter.F, v)] | none => []) := by
    intro x
    cases r <;> cases w <;> cases d <;> rcases f with _ | f <;> simp [bndIcons]
  refine ⟨?_, ?_, ?_, ?_, ?_⟩
  · intro m
    refine (hm _).trans ?_
    cases r <;> cases w <;> cases d <;> rcases f with _ | f <;> simp
  · intro m
    refine (hm _).trans ?_
    cases r <;> cases w <;> cases d <;> rcases f with _ | f <;> simp
  · intro m
    refine (hm _).trans ?_
    cases r <;> cases w <;> cases d <;> rcases f with _ | f <;> simp
  · intro m
    refine (hm _).trans ?_
    cases r <;> cases w <;> cases d <;> rcases f with _ | f <;> simp [eq_comm (a := m)]
  · cases r <;> cases w <;> cases d <;> rcases f with _ | f <;> simp [bndIcons] <;> decide

/-- The size given to the style sheet is the number of letters. -/
theorem C77_size (b : Bnd) : numDisplayed b = (bndIcons b).length := by
  obtain ⟨_, r, w, d, r', w', d', f⟩ := b
  cases r <;> cases w <;> cases d <;> cases f <;> rfl

/-- Some letter is drawn as missing iff an expected permission is absent or the flow is violated. -/
theorem C77_violation (b : Bnd) : (∃ l, (l, true) ∈ bndIcons b) ↔
    (b.expRead = true ∧ b.actRead = false) ∨ (b.expWrite = true ∧ b.actWrite = false) ∨
      (b.expDrop = true ∧ b.actDrop = false) ∨ b.flow = some true := by
  obtain ⟨hR, hW, hO, hF, _⟩ := C77_letters b
  constructor
  · rintro ⟨l, hl⟩
    cases l
    · exact .inl (by simpa using (hR true).1 hl)
    · exact .inr (.inl (by simpa using (hW true).1 hl))
    · exact .inr (.inr (.inl (by simpa using (hO true).1 hl)))
    · exact .inr (.inr (.inr ((hF true).1 hl)))
  · rintro (h | h | h | h)
    · exact ⟨.R, (hR true).2 (by simpa using h)⟩
    · exact ⟨.W, (hW true).2 (by simpa using h)⟩
    · exact ⟨.O, (hO true).2 (by simpa using h)⟩
    · exact ⟨.F, (hF true).2 h⟩

example : bndIcons ⟨⟨0, 0⟩, true, true, false, true, false, true, some true⟩ =
    [(.R, false), (.W, true), (.F, true)] := by decide

/-! ## C78 -/

theorem factsLoop_tags (points : Nat → Option Rng) (l : List (Nat × List Rng)) : ∀ n,
    (factsLoop points n l).flatMap (fun e => [e.refinerTag, e.regionTag]) = List.range' n (2 * l.length) := by
  induction l with
  | nil => intro n; rfl
  | cons x r ih =>
    intro n
    obtain ⟨k, rs⟩ := x
    simp only [factsLoop, List.flatMap_cons, ih, List.length_cons]
    have : 2 * (r.length + 1) = 2 * r.length + 1 + 1 := by omega
    rw [this, List.range'_succ, List.range'_succ]
    rfl

/-- All names given to the entries are different. -/
theorem allFacts_tags (os : List Out) : ∀ n, ∃ m,
    ((allFacts n os).flatMap (fun f => f.loans ++ f.moves)).flatMap (fun e => [e.refinerTag, e.regionTag]) =
      List.range' n m := by
  induction os with
  | nil => intro n; exact ⟨0, rfl⟩
  | cons o r ih =>
    intro n
    obtain ⟨m, hm⟩ := ih (n + 2 * o.loanRegions.length + 2 * o.moveRegions.length)
    refine ⟨2 * o.loanRegions.length + (2 * o.moveRegions.length + m), ?_⟩
    simp only [allFacts, List.flatMap_cons, List.flatMap_append, factsLoop_tags, hm]
    rw [List.append_assoc, ← List.range'_append_1, ← List.range'_append_1]

theorem nodup_flatMap_pair {l : List FactEntry}
    (h : (l.flatMap (fun e => [e.refinerTag, e.regionTag])).Nodup) {pre post : List FactEntry} {e : FactEntry}
    (hl : l = pre ++ e :: post) :
    e.refinerTag ≠ e.regionTag ∧ ∀ x ∈ pre ++ post, x.refinerTag ≠ e.refinerTag ∧ x.refinerTag ≠ e.regionTag ∧
      x.regionTag ≠ e.refinerTag ∧ x.regionTag ≠ e.regionTag := by
  subst hl
  simp only [List.flatMap_append, List.flatMap_cons, List.nodup_append, List.nodup_cons, List.mem_append,
    List.mem_flatMap, List.mem_cons, List.not_mem_nil, or_false] at h
  obtain ⟨_, ⟨h1, _, h2⟩, h3⟩ := h
  refine ⟨fun he => h1.1 he, ?_⟩
  intro x hx
  rcases List.mem_append.1 hx with hx | hx
  · exact ⟨h3 _ ⟨x, hx, .inl rfl⟩ _ (.inl (.inl rfl)), h3 _ ⟨x, hx, .inl rfl⟩ _ (.inl (.inr rfl)),
      h3 _ ⟨x, hx, .inr rfl⟩ _ (.inl (.inl rfl)), h3 _ ⟨x, hx, .inr rfl⟩ _ (.inl (.inr rfl))⟩
  · exact ⟨Ne.symm (h2 _ (.inl rfl) _ ⟨x, hx, .inl rfl⟩), Ne.symm (h2 _ (.inr rfl) _ ⟨x, hx, .inl rfl⟩),
      Ne.symm (h2 _ (.inl rfl) _ ⟨x, hx, .inr rfl⟩), Ne.symm (h2 _ (.inr rfl) _ ⟨x, hx, .inr rfl⟩)⟩

section
variable {T : Type} [DecidableEq T] {tag : Nat → T} {doc : List Char}

theorem markEls_spec {t : T} {rs : List Rng} {xs : List (El T)} (h : markEls doc t rs = .ok xs) :
    (∀ x ∈ xs, x.tag = t) ∧
      xs.map (fun x => (some x.from_, some x.to_)) = rs.map (fun r => (linecol doc r.1, linecol doc r.2)) := by
  induction rs generalizing xs with
  | nil => cases h; simp
  | cons r rs ih =>
    simp only [markEls] at h
    split at h
    · cases h
    · rename_i x hx
      split at h
      · cases h
      · rename_i ys hys
        cases h
        obtain ⟨h1, h2⟩ := ih hys
        unfold markEl at hx
        split at hx
        · rename_i a b ha hb
          split at hx
          · cases hx
            refine ⟨?_, ?_⟩
            · intro y hy
              rcases List.mem_cons.1 hy with rfl | hy
              · rfl
              · exact h1 y hy
            · simp [h2, ha, hb]
          · cases hx
        · cases hx

theorem entryEls_spec {e : FactEntry} {xs : List (El T)} (h : entryEls tag doc e = .ok xs) :
    ∃ p x ys, e.point = some p ∧ xs = x :: ys ∧ x.tag = tag e.refinerTag ∧
      (some x.from_, some x.to_) = (linecol doc p.1, linecol doc p.2) ∧ (∀ y ∈ ys, y.tag = tag e.regionTag) ∧
      ys.map (fun x => (some x.from_, some x.to_)) =
        (e.ranges.filter (fun r => r.1 != r.2)).map (fun r => (linecol doc r.1, linecol doc r.2)) := by
  unfold entryEls at h
  split at h
  · cases h
  · rename_i p hp
    split at h
    · cases h
    · rename_i x hx
      split at h
      · cases h
      · rename_i ys hys
        cases h
        obtain ⟨h1, h2⟩ := markEls_spec hys
        unfold markEl at hx
        split at hx
        · rename_i a b ha hb
          split at hx
          · cases hx
            exact ⟨p, _, ys, hp, rfl, rfl, by simp [ha, hb], h1, h2⟩
          · cases hx
        · cases hx

theorem entriesEls_append {l r : List FactEntry} {xs : List (El T)} (h : entriesEls tag doc (l ++ r) = .ok xs) :
    ∃ a b, xs = a ++ b ∧ entriesEls tag doc l = .ok a ∧ entriesEls tag doc r = .ok b := by
  induction l generalizing xs with
  | nil => exact ⟨[], xs, rfl, rfl, h⟩
  | cons e l ih =>
    simp only [List.cons_append, entriesEls] at h
    split at h
    · cases h
    · rename_i x hx
      split at h
      · cases h
      · rename_i ys hys
        cases h
        obtain ⟨a, b, rfl, h1, h2⟩ := ih hys
        exact ⟨x ++ a, b, by simp, by simp [entriesEls, hx, h1], h2⟩

theorem entriesEls_mem {l : List FactEntry} {xs : List (El T)} (h : entriesEls tag doc l = .ok xs) :
    ∀ x ∈ xs, ∃ e ∈ l, x.tag = tag e.refinerTag ∨ x.tag = tag e.regionTag := by
  induction l generalizing xs with
  | nil => cases h; simp
  | cons e l ih =>
    simp only [entriesEls] at h
    split at h
    · cases h
    · rename_i y hy
      split at h
      · cases h
      · rename_i ys hys
        cases h
        obtain ⟨p, z, zs, _, rfl, h1, _, h2, _⟩ := entryEls_spec hy
        intro x hx
        rcases List.mem_append.1 hx with hx | hx
        · refine ⟨e, List.mem_cons_self, ?_⟩
          rcases List.mem_cons.1 hx with rfl | hx
          · exact .inl h1
          · exact .inr (h2 x hx)
        · obtain ⟨e', he, ht⟩ := ih hys x hx
          exact ⟨e', List.mem_cons_of_mem _ he, ht⟩

/-- The elements with the two names of an entry. -/
theorem entry_highlight (hinj : ∀ a b, tag a = tag b → a = b) {l pre post : List FactEntry} {e : FactEntry}
    (hnd : (l.flatMap (fun e => [e.refinerTag, e.regionTag])).Nodup) (hl : l = pre ++ e :: post)
    {xs : List (El T)} (h : entriesEls tag doc l = .ok xs) :
    ∃ p, e.point = some p ∧
      (xs.filter (fun x => x.tag = tag e.refinerTag) ++ xs.filter (fun x => x.tag = tag e.regionTag)).map
        (fun x => (some x.from_, some x.to_)) =
      (p :: e.ranges.filter (fun r => r.1 != r.2)).map (fun r => (linecol doc r.1, linecol doc r.2)) := by
  obtain ⟨hne, hother⟩ := nodup_flatMap_pair hnd hl
  rw [hl] at h
  obtain ⟨a, b, rfl, ha, hb⟩ := entriesEls_append h
  simp only [entriesEls] at hb
  split at hb
  · cases hb
  · rename_i y hy
    split at hb
    · cases hb
    · rename_i ys hys
      cases hb
      obtain ⟨p, x, zs, hp, rfl, h1, h2, h3, h4⟩ := entryEls_spec hy
      have hno : ∀ (q : List FactEntry) (ws : List (El T)), (∀ z ∈ q, z ∈ pre ++ post) →
          entriesEls tag doc q = .ok ws → ws.filter (fun x => x.tag = tag e.refinerTag) = [] ∧
            ws.filter (fun x => x.tag = tag e.regionTag) = [] := by
        intro q ws hq hws
        have : ∀ w ∈ ws, w.tag ≠ tag e.refinerTag ∧ w.tag ≠ tag e.regionTag := by
          intro w hw
          obtain ⟨z, hz, ht⟩ := entriesEls_mem hws w hw
          obtain ⟨o1, o2, o3, o4⟩ := hother z (hq z hz)
          rcases ht with ht | ht <;> rw [ht]
          · exact ⟨fun h => o1 (hinj _ _ h), fun h => o2 (hinj _ _ h)⟩
          · exact ⟨fun h => o3 (hinj _ _ h), fun h => o4 (hinj _ _ h)⟩
        constructor
        · rw [List.filter_eq_nil_iff]
          intro w hw
          simpa using (this w hw).1
        · rw [List.filter_eq_nil_iff]
          intro w hw
          simpa using (this w hw).2
      obtain ⟨a1, a2⟩ := hno pre a (fun z hz => List.mem_append_left _ hz) ha
      obtain ⟨b1, b2⟩ := hno post ys (fun z hz => List.mem_append_right _ hz) hys
      have z1 : zs.filter (fun x => x.tag = tag e.refinerTag) = [] := by
        rw [List.filter_eq_nil_iff]
        intro w hw
        rw [h3 w hw]
        simp only [decide_eq_true_eq]
        exact fun h => hne (hinj _ _ h).symm
      have z2 : zs.filter (fun x => x.tag = tag e.regionTag) = zs := by
        rw [List.filter_eq_self]
        intro w hw
        simp [h3 w hw]
      have x2 : ¬ tag e.refinerTag = tag e.regionTag := fun h => hne (hinj _ _ h)
      refine ⟨p, hp, ?_⟩
      simp only [List.filter_append, List.filter_cons, a1, a2, b1, b2, z1, z2, h1, x2]
      simp [h4]
      simpa using h2

theorem factsLoop_find (points : Nat → Option Rng) (l : List (Nat × List Rng)) (hnd : (l.map (·.1)).Nodup)
    {k : Nat} {rs : List Rng} (hk : (k, rs) ∈ l) : ∀ n, ∃ e ∈ factsLoop points n l,
      (factsLoop points n l).find? (fun e => e.key == k) = some e ∧ e.point = points k ∧ e.ranges = rs := by
  induction l with
  | nil => cases hk
  | cons x r ih =>
    intro n
    obtain ⟨k', rs'⟩ := x
    rw [List.map_cons, List.nodup_cons] at hnd
    simp only [factsLoop]
    rcases List.mem_cons.1 hk with hk | hk
    · cases hk
      exact ⟨_, List.mem_cons_self, by rw [List.find?_cons_of_pos]; simp, rfl, rfl⟩
    · obtain ⟨e, he, h1, h2, h3⟩ := ih hnd.2 hk (n + 2)
      refine ⟨e, List.mem_cons_of_mem _ he, ?_, h2, h3⟩
      rw [List.find?_cons_of_neg, h1]
      simp only [beq_iff_eq]
      rintro rfl
      exact hnd.1 (List.mem_map.2 ⟨_, hk, rfl⟩)

theorem allFacts_get (os : List Out) : ∀ (n i : Nat) (o : Out), os[i]? = some o →
    ∃ m m', (allFacts n os)[i]? =
      some ⟨factsLoop o.loanPoints m o.loanRegions, factsLoop o.movePoints m' o.moveRegions⟩ := by
  induction os with
  | nil => intro n i o h; simp at h
  | cons x r ih =>
    intro n i o h
    cases i with
    | zero => cases h; exact ⟨_, _, rfl⟩
    | succ i => simpa [allFacts] using ih _ i o (by simpa using h)

/-- While the mouse is over a letter whose loan is `k`, exactly these ranges of the code are highlighted: the
point of the loan `k` of this body and the non-empty ranges of its region. The same for moves. Names are
assumed not to collide. -/
theorem C78_regions (hinj : ∀ a b, tag a = tag b → a = b) (os : List Out) (n : Nat) {els : List (El T)}
    (h : factEls tag doc (allFacts n os) = .ok els) (i : Nat) (o : Out) (ho : os[i]? = some o) :
    ∃ f, (allFacts n os)[i]? = some f ∧
      ((o.loanRegions.map (·.1)).Nodup → ∀ k rs, (k, rs) ∈ o.loanRegions → ∃ p, o.loanPoints k = some p ∧
        (highlighted tag els f.loans (some k)).map (fun x => (some x.from_, some x.to_)) =
          (p :: rs.filter (fun r => r.1 != r.2)).map (fun r => (linecol doc r.1, linecol doc r.2))) ∧
      ((o.moveRegions.map (·.1)).Nodup → ∀ k rs, (k, rs) ∈ o.moveRegions → ∃ p, o.movePoints k = some p ∧
        (highlighted tag els f.moves (some k)).map (fun x => (some x.from_, some x.to_)) =
          (p :: rs.filter (fun r => r.1 != r.2)).map (fun r => (linecol doc r.1, linecol doc r.2))) := by
  obtain ⟨m, m', hf⟩ := allFacts_get os n i o ho
  refine ⟨_, hf, ?_⟩
  have hfm := List.mem_of_getElem? hf
  have hnd : (((allFacts n os).flatMap (fun f => f.loans ++ f.moves)).flatMap
      (fun e => [e.refinerTag, e.regionTag])).Nodup := by
    obtain ⟨c, hc⟩ := allFacts_tags os n
    rw [hc]
    exact List.nodup_range'
  have hgo : ∀ (points : Nat → Option Rng) (regions : List (Nat × List Rng)) (q : Nat),
      (∀ e ∈ factsLoop points q regions, e ∈ (allFacts n os).flatMap (fun f => f.loans ++ f.moves)) →
      (regions.map (·.1)).Nodup → ∀ k rs, (k, rs) ∈ regions → ∃ p, points k = some p ∧
        (highlighted tag els (factsLoop points q regions) (some k)).map (fun x => (some x.from_, some x.to_)) =
          (p :: rs.filter (fun r => r.1 != r.2)).map (fun r => (linecol doc r.1, linecol doc r.2)) := by
    intro points regions q hmem hk k rs hkr
    obtain ⟨e, he, h1, h2, h3⟩ := factsLoop_find points regions hk hkr q
    obtain ⟨pre, post, hsplit⟩ := List.append_of_mem (hmem e he)
    obtain ⟨p, hp, hh⟩ := entry_highlight hinj hnd hsplit h
    refine ⟨p, by rw [← h2, hp], ?_⟩
    rw [← h3]
    simp only [highlighted, tagsOf, h1, Option.map_some]
    exact hh
  constructor
  · exact hgo _ _ m (fun e he => List.mem_flatMap.2 ⟨_, hfm, List.mem_append_left _ he⟩)
  · exact hgo _ _ m' (fun e he => List.mem_flatMap.2 ⟨_, hfm, List.mem_append_right _ he⟩)

end

/-- A letter with no loan and no move highlights nothing. -/
theorem C78_nothing {T : Type} [DecidableEq T] (tag : Nat → T) (els : List (El T)) (es : List FactEntry) :
    highlighted tag els es none = [] := rfl

/-- A loan whose point is an empty range, in any body, makes drawing fail for all bodies. -/
theorem C78_empty_point : ∃ (o o' : Out), factEls id ['a', 'b'] (allFacts 0 [o]) = .ok [⟨0, 0, 1⟩, ⟨1, 1, 2⟩] ∧
    factEls id ['a', 'b'] (allFacts 0 [o, o']) = .error .empty :=
  ⟨⟨fun _ => some (⟨0, 0⟩, ⟨0, 1⟩), [(0, [(⟨0, 1⟩, ⟨0, 2⟩), (⟨0, 1⟩, ⟨0, 1⟩)])], fun _ => none, []⟩,
   ⟨fun _ => some (⟨0, 1⟩, ⟨0, 1⟩), [(0, [])], fun _ => none, []⟩, by decide, by decide⟩

end Verif.Frontend
