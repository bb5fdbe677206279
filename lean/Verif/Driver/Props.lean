import Verif.Driver.Spec
/-!
# Theorems about the error tracker and the output of the plugin (C50, C56, C67)
-/
namespace Verif.Driver

/-! ## The earliest error -/

def errorsOf (ds : List Diag) : List Span := ds.filterMap (fun d => if d.isError then some d.span else none)

theorem minByLo_concat (l : List Span) (x : Span) :
    minByLo (l ++ [x]) = match minByLo l with
      | none => some x
      | some b => some (if x.lo < b.lo then x else b) := by
  cases l with
  | nil => rfl
  | cons s r => simp [minByLo, List.foldl_append]

theorem earliest_unique {ds : List Diag} {a b : Option Span} (ha : Earliest ds a) (hb : Earliest ds b) : a = b := by
  cases a with
  | none =>
    cases b with
    | none => rfl
    | some s =>
      obtain ⟨i, hi, _⟩ := hb
      exact absurd (ha _ (List.mem_of_getElem? hi)) (by simp)
  | some s =>
    obtain ⟨i, hi, h1⟩ := ha
    cases b with
    | none => exact absurd (hb _ (List.mem_of_getElem? hi)) (by simp)
    | some s' =>
      obtain ⟨j, hj, h2⟩ := hb
      have ha := h1 j _ hj rfl
      have hb := h2 i _ hi rfl
      dsimp only at ha hb
      have hlo : s.lo = s'.lo := by omega
      have := ha.2 hlo.symm
      have := hb.2 hlo
      have hij : i = j := by omega
      subst hij
      rw [hi] at hj
      simp only [Option.some.injEq, Diag.mk.injEq, and_true] at hj
      rw [hj]

theorem earliest_min (ds : List Diag) : Earliest ds (minByLo (errorsOf ds)) := by
  induction h : ds.length generalizing ds with
  | zero =>
    rw [List.length_eq_zero_iff] at h
    subst h
    exact fun d hd => absurd hd (by simp)
  | succ n ih =>
    rcases List.eq_nil_or_concat ds with rfl | ⟨init, d, rfl⟩
    · exact absurd h (by simp)
    rw [List.concat_eq_append] at h ⊢
    have ih := ih init (by simpa using h)
    cases he : d.isError with
    | false =>
      have h1 : errorsOf (init ++ [d]) = errorsOf init := by simp [errorsOf, he]
      rw [h1]
      cases hm : minByLo (errorsOf init) with
      | none =>
        rw [hm] at ih
        intro x hx
        rcases List.mem_append.1 hx with hx | hx
        · exact ih x hx
        · rw [List.mem_singleton.1 hx]; exact he
      | some s =>
        rw [hm] at ih
        obtain ⟨i, hi, h2⟩ := ih
        have hlt := (List.getElem?_eq_some_iff.1 hi).1
        refine ⟨i, by rw [List.getElem?_append_left hlt]; exact hi, ?_⟩
        intro j x hj hx
        by_cases hjl : j < init.length
        · rw [List.getElem?_append_left hjl] at hj
          exact h2 j x hj hx
        · rw [List.getElem?_append_right (by omega)] at hj
          have hmem := List.mem_of_getElem? hj
          rw [List.mem_singleton.1 hmem, he] at hx
          exact absurd hx (by simp)
    | true =>
      have h1 : errorsOf (init ++ [d]) = errorsOf init ++ [d.span] := by simp [errorsOf, he]
      have hd : d = ⟨d.span, true⟩ := by cases d; simp_all
      have hlast : (init ++ [d])[init.length]? = some ⟨d.span, true⟩ := by
        rw [List.getElem?_append_right (by omega)]; simpa using hd
      rw [h1, minByLo_concat]
      cases hm : minByLo (errorsOf init) with
      | none =>
        rw [hm] at ih
        refine ⟨init.length, hlast, ?_⟩
        intro j x hj hx
        by_cases hjl : j < init.length
        · rw [List.getElem?_append_left hjl] at hj
          rw [ih x (List.mem_of_getElem? hj)] at hx
          exact absurd hx (by simp)
        · rw [List.getElem?_append_right (by omega)] at hj
          have hmem := List.mem_of_getElem? hj
          rw [List.mem_singleton.1 hmem]
          exact ⟨Nat.le_refl _, fun _ => by omega⟩
      | some s =>
        rw [hm] at ih
        obtain ⟨i, hi, h2⟩ := ih
        have hlt := (List.getElem?_eq_some_iff.1 hi).1
        dsimp only
        split
        · rename_i hlo
          refine ⟨init.length, hlast, ?_⟩
          intro j x hj hx
          by_cases hjl : j < init.length
          · rw [List.getElem?_append_left hjl] at hj
            have := (h2 j x hj hx).1
            exact ⟨by omega, fun h => by omega⟩
          · rw [List.getElem?_append_right (by omega)] at hj
            have hmem := List.mem_of_getElem? hj
            rw [List.mem_singleton.1 hmem]
            exact ⟨Nat.le_refl _, fun _ => by omega⟩
        · rename_i hlo
          refine ⟨i, by rw [List.getElem?_append_left hlt]; exact hi, ?_⟩
          intro j x hj hx
          by_cases hjl : j < init.length
          · rw [List.getElem?_append_left hjl] at hj
            exact h2 j x hj hx
          · rw [List.getElem?_append_right (by omega)] at hj
            have hmem := List.mem_of_getElem? hj
            rw [List.mem_singleton.1 hmem]
            exact ⟨by omega, fun _ => by omega⟩

theorem earliest_iff (ds : List Diag) (a : Option Span) : Earliest ds a ↔ minByLo (errorsOf ds) = a :=
  ⟨fun h => earliest_unique (earliest_min ds) h, fun h => h ▸ earliest_min ds⟩

/-! ## C50: the tracker -/

theorem run_emits (t : Tracker) (ds : List Diag) :
    t.run (ds.map .emit) = { t with diags := t.diags ++ ds } := by
  induction ds generalizing t with
  | nil => simp [Tracker.run]
  | cons d r ih =>
    rw [List.map_cons, show t.run (.emit d :: r.map .emit) = (t.emit d).run (r.map .emit) from rfl, ih]
    simp [Tracker.emit]

/-- **C50.** After any history, the question for a body is answered with the earliest error emitted since the
body was last announced; what was emitted before does not matter. -/
theorem C50_earliest (t : Tracker) (pre : List Event) (b : Nat) (ds : List Diag) (a : Option Span) :
    (t.run (pre ++ .track b :: ds.map .emit)).firstError b = some a ↔ Earliest ds a := by
  have h : t.run (pre ++ .track b :: ds.map .emit) = ⟨ds, some b⟩ := by
    have h1 : t.run (pre ++ .track b :: ds.map .emit) = ((t.run pre).track b).run (ds.map .emit) := by
      simp [Tracker.run, Tracker.step]
    rw [h1, run_emits]
    simp [Tracker.track]
  rw [h, earliest_iff]
  simp [Tracker.firstError, errorsOf]

/-- The question for a body that is not the last announced one panics, whatever was emitted. -/
theorem C50_other_panics (t : Tracker) (pre : List Event) (b b' : Nat) (ds : List Diag) :
    (t.run (pre ++ .track b :: ds.map .emit)).firstError b' = none ↔ b' ≠ b := by
  have h1 : t.run (pre ++ .track b :: ds.map .emit) = ((t.run pre).track b).run (ds.map .emit) := by
    simp [Tracker.run, Tracker.step]
  rw [h1, run_emits]
  simp only [Tracker.track, Tracker.firstError, Option.some.injEq]
  constructor
  · intro h hb
    subst hb
    simp at h
  · intro h
    rw [if_neg (fun hb => h hb.symm)]

/-- Before any announcement the question panics. -/
theorem C50_unannounced_panics (ds : List Diag) (b : Nat) :
    (Tracker.init.run (ds.map .emit)).firstError b = none := by
  rw [run_emits]; rfl

/-- A warning is enough for `errors_exist`, although it is not an error. -/
theorem C50_warnings_counted : ∃ h : List Event, (Tracker.init.run h).errorsExist = true ∧
    (Tracker.init.run h).firstError 1 = some none :=
  ⟨[.track 1, .emit ⟨⟨0, 1⟩, false⟩], rfl, rfl⟩

/-- Two errors with one start: the one emitted first; the warning before them is not an error, and the error of
body 0 is forgotten. -/
example : (Tracker.init.run [.track 0, .emit ⟨⟨1, 2⟩, true⟩, .track 1, .emit ⟨⟨3, 4⟩, false⟩, .emit ⟨⟨9, 10⟩, true⟩,
    .emit ⟨⟨5, 8⟩, true⟩, .emit ⟨⟨5, 6⟩, true⟩]).firstError 1 = some (some ⟨5, 8⟩) := by decide

/-! ## The state of the compiler during the loop -/

/-- What the loop knows after the bodies `before`. -/
def After {α : Type} (c : Compiler α) (before : List Nat) (s : St) : Prop :=
  ∀ q, q ∈ s.checked ↔ ∃ b ∈ before, q ∈ c.needs b

theorem foldl_emit (ds : List Diag) (t : Tracker) : ds.foldl Tracker.emit t = ⟨t.diags ++ ds, t.current⟩ := by
  induction ds generalizing t with
  | nil => simp
  | cons d r ih => simp [ih, Tracker.emit]

theorem foldl_check {α : Type} (c : Compiler α) (qs : List Nat) (s : St) :
    qs.foldl (St.check c) s =
      ⟨⟨s.tracker.diags ++ (qs.filter (fun q => decide (q ∉ s.checked))).eraseDups.flatMap c.diags,
        s.tracker.current⟩, s.checked ++ (qs.filter (fun q => decide (q ∉ s.checked))).eraseDups⟩ := by
  induction qs generalizing s with
  | nil => simp
  | cons q r ih =>
    rw [List.foldl_cons, ih]
    unfold St.check
    split
    · rename_i h
      simp [h]
    · rename_i h
      rw [List.filter_cons_of_pos (by simpa using h), List.eraseDups_cons, foldl_emit]
      have hf : (r.filter (fun x => decide (x ∉ s.checked))).filter (fun b => !b == q) =
          r.filter (fun x => decide (x ∉ s.checked ++ [q])) := by
        rw [List.filter_filter]
        congr 1
        funext x
        by_cases hx : x = q <;> simp [hx]
      rw [hf]
      simp only [List.flatMap_cons, List.append_assoc, List.singleton_append]

/-- How the analysis of `body` ends after those of `before`. -/
def endOf {α : Type} (c : Compiler α) (before : List Nat) (body : Nat) : Outcome α :=
  c.outcome body (minByLo (errorsOf (fresh c before body)))

theorem ends_iff {α : Type} (c : Compiler α) (before : List Nat) (body : Nat) (o : Outcome α) :
    Ends c before body o ↔ o = endOf c before body := by
  unfold Ends endOf
  constructor
  · rintro ⟨a, ha, rfl⟩
    rw [(earliest_iff _ _).1 ha]
  · intro h
    exact ⟨_, earliest_min _, h⟩

theorem analyse_eq {α : Type} {c : Compiler α} {before : List Nat} {s : St} (h : After c before s) (body : Nat) :
    (s.analyse c body).2 = endOf c before body ∧ After c (before ++ [body]) (s.analyse c body).1 := by
  have hf : (c.needs body).filter (fun q => decide (q ∉ s.checked)) =
      (c.needs body).filter (fun q => decide (∀ b ∈ before, q ∉ c.needs b)) := by
    congr 1
    funext q
    rw [decide_eq_decide, h q]
    constructor
    · intro h1 b hb hq; exact h1 ⟨b, hb, hq⟩
    · rintro h1 ⟨b, hb, hq⟩; exact h1 b hb hq
  unfold St.analyse
  simp only [foldl_check, Tracker.track, Tracker.firstError, if_true, List.nil_append, hf]
  refine ⟨rfl, ?_⟩
  intro q
  simp only [List.mem_append, h q, List.mem_eraseDups, List.mem_filter, decide_eq_true_eq, List.mem_singleton]
  constructor
  · rintro (⟨b, hb, hq⟩ | ⟨hq, _⟩)
    · exact ⟨b, .inl hb, hq⟩
    · exact ⟨body, .inr rfl, hq⟩
  · rintro ⟨b, hb | rfl, hq⟩
    · exact .inl ⟨b, hb, hq⟩
    · by_cases h1 : ∃ b ∈ before, q ∈ c.needs b
      · exact .inl h1
      · exact .inr ⟨hq, fun b hb hq' => h1 ⟨b, hb, hq'⟩⟩

/-- The ends of the analyses of `rest` after those of `before`. -/
def endsOf {α : Type} (c : Compiler α) : List Nat → List Nat → List (Outcome α)
  | _, [] => []
  | before, b :: r => endOf c before b :: endsOf c (before ++ [b]) r

theorem endsOf_length {α : Type} (c : Compiler α) (before rest : List Nat) :
    (endsOf c before rest).length = rest.length := by
  induction rest generalizing before with
  | nil => rfl
  | cons b r ih => simp [endsOf, ih]

theorem endsOf_get {α : Type} (c : Compiler α) (before pre : List Nat) (b : Nat) (post : List Nat) :
    (endsOf c before (pre ++ b :: post))[pre.length]? = some (endOf c (before ++ pre) b) := by
  induction pre generalizing before with
  | nil => simp [endsOf]
  | cons x r ih =>
    have := ih (before ++ [x])
    simpa [endsOf] using this

theorem loop_entries {α : Type} {c : Compiler α} {before pre : List Nat} {s : St} (h : After c before s)
    (out : List (Outcome α)) (post : List Nat) (he : ∀ o ∈ endsOf c before pre, o.Entry) :
    ∃ s', After c (before ++ pre) s' ∧ loop c s out (pre ++ post) = loop c s' (out ++ endsOf c before pre) post := by
  induction pre generalizing before s out with
  | nil => exact ⟨s, by simpa using h, by simp [endsOf]⟩
  | cons b r ih =>
    obtain ⟨h1, h2⟩ := analyse_eq h b
    have hb : (endOf c before b).Entry := he _ (by simp [endsOf])
    obtain ⟨s', h3, h4⟩ := ih h2 (out ++ [endOf c before b]) (fun o ho => he o (by simp [endsOf, ho]))
    refine ⟨s', by simpa using h3, ?_⟩
    have hl : loop c s out (b :: r ++ post) = loop c (s.analyse c b).1 (out ++ [endOf c before b]) (r ++ post) := by
      rw [List.cons_append, loop]
      generalize ha : s.analyse c b = p at h1
      obtain ⟨s1, o⟩ := p
      dsimp only at h1
      subst h1
      unfold Outcome.Entry at hb
      cases ho : endOf c before b with
      | fatal => exact absurd ho hb.1
      | panic => exact absurd ho hb.2
      | ok a => rfl
      | buildError a => rfl
      | analysisError a => rfl
    rw [hl, h4]
    simp [endsOf, List.append_assoc]

theorem after_init {α : Type} (c : Compiler α) : After c [] ⟨.init, []⟩ := by
  intro q; simp

theorem entries_of {α : Type} {c : Compiler α} {bodies : List Nat}
    (h : ∀ before b after, bodies = before ++ b :: after → ∀ o, Ends c before b o → o.Entry) :
    ∀ o ∈ endsOf c [] bodies, o.Entry := by
  intro o ho
  obtain ⟨i, hi⟩ := List.mem_iff_getElem?.1 ho
  have hlt : i < bodies.length := by
    rw [← endsOf_length c [] bodies]; exact (List.getElem?_eq_some_iff.1 hi).1
  have hsplit : bodies = bodies.take i ++ bodies[i] :: bodies.drop (i + 1) := by
    rw [List.getElem_cons_drop, List.take_append_drop]
  have hg := endsOf_get c [] (bodies.take i) bodies[i] (bodies.drop (i + 1))
  rw [← hsplit, List.length_take_of_le (Nat.le_of_lt hlt), hi, List.nil_append] at hg
  simp only [Option.some.injEq] at hg
  exact h _ _ _ hsplit o ((ends_iff _ _ _ _).2 hg)

/-! ## C56 -/

/-- **C56.** If no analysis ends the whole run, the output has one entry per body, in the order of the bodies,
and each entry is the result or the error of that body. -/
theorem C56_all {α : Type} (c : Compiler α)
    (h : ∀ before b after, c.bodies = before ++ b :: after → ∀ o, Ends c before b o → o.Entry) :
    ∃ os, runPermissions c true = .results os ∧ os.length = c.bodies.length ∧
      ∀ before b after, c.bodies = before ++ b :: after → ∀ o, os[before.length]? = some o ↔ Ends c before b o := by
  obtain ⟨s', _, h2⟩ := loop_entries (after_init c) [] [] (entries_of h)
  refine ⟨endsOf c [] c.bodies, ?_, endsOf_length _ _ _, ?_⟩
  · simpa [runPermissions, loop] using h2
  · intro before b after hs o
    rw [hs, endsOf_get, ends_iff]
    simp only [List.nil_append, Option.some.injEq]
    exact eq_comm

/-- An entry does not depend on how the other analyses end, errors included. -/
theorem C56_independent {α : Type} (c : Compiler α) (outcome' : Nat → Option Span → Outcome α)
    (h : ∀ b e, (c.outcome b e).Entry) (h' : ∀ b e, (outcome' b e).Entry)
    {before after : List Nat} {b : Nat} (hs : c.bodies = before ++ b :: after)
    (hb : outcome' b = c.outcome b) :
    ∃ os os', runPermissions c true = .results os ∧
      runPermissions { c with outcome := outcome' } true = .results os' ∧
      os[before.length]? = os'[before.length]? := by
  obtain ⟨os, h1, _, h3⟩ := C56_all c (by rintro _ _ _ _ _ ⟨a, _, rfl⟩; exact h _ _)
  obtain ⟨os', h1', _, h3'⟩ := C56_all { c with outcome := outcome' } (by rintro _ _ _ _ _ ⟨a, _, rfl⟩; exact h' _ _)
  refine ⟨os, os', h1, h1', ?_⟩
  apply Option.ext
  intro o
  rw [h3 _ _ _ hs, h3' _ _ _ hs]
  unfold Ends
  rw [show ({ c with outcome := outcome' } : Compiler α).outcome b = c.outcome b from hb]
  rfl

/-- Which kind of entry: a build error iff the body does not type-check; else the first failing part decides;
else both parts are there. -/
theorem C56_kind {β σ : Type} (p : Parts β σ) (e : Option Span) :
    (∀ r, p.run e = .buildError r ↔ p.tainted = true ∧ r = p.range) ∧
    (∀ m, p.run e = .analysisError m ↔ p.tainted = false ∧
      (p.boundaries e = .error m ∨ (∃ b, p.boundaries e = .ok b) ∧ p.steps e = .error m)) ∧
    (∀ b s, p.run e = .ok (b, s) ↔ p.tainted = false ∧ p.boundaries e = .ok b ∧ p.steps e = .ok s) ∧
    (p.run e).Entry := by
  unfold Parts.run Outcome.Entry
  cases p.tainted <;> cases p.boundaries e <;> cases p.steps e <;> simp [eq_comm]

/-- A fatal error during one analysis: the entries of that body and of all later ones are missing, without
any sign of it. -/
theorem C56_fatal {α : Type} (c : Compiler α) {before after : List Nat} {b : Nat}
    (hs : c.bodies = before ++ b :: after)
    (h : ∀ before' b' after', before = before' ++ b' :: after' → ∀ o, Ends c before' b' o → o.Entry)
    (hf : Ends c before b .fatal) :
    ∃ os, runPermissions c true = .results os ∧ os.length = before.length := by
  obtain ⟨s', h1, h2⟩ := loop_entries (after_init c) [] (b :: after) (entries_of h)
  refine ⟨endsOf c [] before, ?_, endsOf_length _ _ _⟩
  rw [runPermissions, if_pos rfl, hs, h2, loop]
  have ha := (analyse_eq h1 b).1
  rw [List.nil_append, ← (ends_iff c before b _).1 hf] at ha
  generalize s'.analyse c b = p at ha
  obtain ⟨s1, o⟩ := p
  dsimp only at ha
  subst ha
  simp

/-- A panic during one analysis: nothing is printed for any body. -/
theorem C56_panic {α : Type} (c : Compiler α) {before after : List Nat} {b : Nat}
    (hs : c.bodies = before ++ b :: after)
    (h : ∀ before' b' after', before = before' ++ b' :: after' → ∀ o, Ends c before' b' o → o.Entry)
    (hf : Ends c before b .panic) : runPermissions c true = .crash := by
  obtain ⟨s', h1, h2⟩ := loop_entries (after_init c) [] (b :: after) (entries_of h)
  rw [runPermissions, if_pos rfl, hs, h2, loop]
  have ha := (analyse_eq h1 b).1
  rw [List.nil_append, ← (ends_iff c before b _).1 hf] at ha
  generalize s'.analyse c b = p at ha
  obtain ⟨s1, o⟩ := p
  dsimp only at ha
  subst ha
  rfl

/-- A program that does not parse: the output is the empty array, as for a program without functions. -/
theorem C56_unparsed {α : Type} (c : Compiler α) : runPermissions c false = .results [] := rfl

/-! ## C50 in the plugin -/

/-- If the analysis of each body checks that body only, the error its result depends on is the earliest error of
its own check.  Missing for the full claim: analyses that check other bodies. -/
theorem C50_own_partial {α : Type} (c : Compiler α) (hn : ∀ b, c.needs b = [b]) {before after : List Nat} {b : Nat}
    (hs : c.bodies = before ++ b :: after) (hd : c.bodies.Nodup) (o : Outcome α) :
    Ends c before b o ↔ ∃ a, Earliest (c.diags b) a ∧ o = c.outcome b a := by
  have hb : b ∉ before := by
    rw [hs, List.nodup_append] at hd
    intro h
    exact hd.2.2 b h b (by simp) rfl
  have : fresh c before b = c.diags b := by
    unfold fresh
    rw [hn]
    have hdec : (∀ x ∈ before, b ∉ c.needs x) := by
      intro x hx hbx
      rw [hn, List.mem_singleton] at hbx
      exact hb (hbx ▸ hx)
    rw [List.filter_cons_of_pos (by simpa using hdec)]
    simp [List.eraseDups_cons]
  unfold Ends
  rw [this]

/-- Body 0 calls body 1, whose return type is opaque: the check of body 1 runs during the analysis of body 0, so
its error is taken for one of body 0, and the analysis of body 1 sees no error. -/
theorem C50_other_body : ∃ c : Compiler (Option Span), c.bodies = [0, 1] ∧ c.diags 0 = [] ∧
    c.diags 1 = [⟨⟨30, 31⟩, true⟩] ∧ (∀ b e, c.outcome b e = .ok e) ∧
    runPermissions c true = .results [.ok (some ⟨30, 31⟩), .ok none] :=
  ⟨⟨[0, 1], fun b => if b = 0 then [0, 1] else [1], fun b => if b = 1 then [⟨⟨30, 31⟩, true⟩] else [],
    fun _ e => .ok e⟩, rfl, rfl, rfl, fun _ _ => rfl, by decide⟩

/-- The error is used only if it lies in the body (or comes from a macro call in it). -/
theorem C50_local (callsite : Span → Span) (outer s : Span) :
    (outer.lo ≤ s.lo ∧ s.hi ≤ outer.hi → asLocal callsite outer s = some s) ∧
    ∀ r, asLocal callsite outer s = some r → outer.lo ≤ r.lo ∧ r.hi ≤ outer.hi := by
  unfold asLocal
  constructor
  · intro h; rw [if_pos h]
  · intro r h
    split at h
    · rename_i hc; simp only [Option.some.injEq] at h; subst h; exact hc
    · dsimp only at h
      split at h
      · rename_i hc; simp only [Option.some.injEq] at h; subst h; exact hc
      · exact absurd h (by simp)

/-- The earliest error is chosen before looking whether it lies in the body: one outside it hides those
inside. -/
theorem C50_outside_hides : ∃ ds : List Diag, ∃ outer : Span,
    (∃ d ∈ ds, d.isError = true ∧ outer.lo ≤ d.span.lo ∧ d.span.hi ≤ outer.hi) ∧
    ∀ a, Earliest ds a → a.bind (asLocal id outer) = none := by
  refine ⟨[⟨⟨0, 1⟩, true⟩, ⟨⟨12, 13⟩, true⟩], ⟨10, 20⟩, ⟨⟨⟨12, 13⟩, true⟩, by simp⟩, ?_⟩
  intro a ha
  rw [← (earliest_iff _ _).1 ha]
  rfl

example : runPermissions (α := Nat) ⟨[4, 2, 7], fun b => [b], fun _ => [], fun b _ =>
    if b = 2 then .analysisError 1 else .ok b⟩ true = .results [.ok 4, .analysisError 1, .ok 7] := by decide

example : runPermissions (α := Nat) ⟨[4, 2, 7], fun b => [b], fun _ => [], fun b _ =>
    if b = 2 then .fatal else .ok b⟩ true = .results [.ok 4] := by decide

/-! ## C67: the interpreter command -/

/-- **C67 (partial).** For a program without errors, one result is printed: the trace, or a build error iff the
interpretation failed. -/
theorem C67_fine_partial {τ : Type} (shouldFail : Bool) (r : Except Nat τ) :
    runInterpreter shouldFail (.fine r) = .results [r.toOption] := by
  cases r <;> rfl

/-- Errors of the borrow checker are ignored exactly on request. -/
theorem C67_requested {τ : Type} (shouldFail : Bool) (r : Except Nat τ) :
    runInterpreter shouldFail (.borrowErrors r) = .results [r.toOption] ↔ shouldFail = true := by
  cases shouldFail <;> cases r <;> simp [runInterpreter, interpCallbackResult, Except.toOption]

/-- A program with any other error, or with borrow errors without the request: nothing is printed. -/
theorem C67_crash {τ : Type} (shouldFail : Bool) (i : Interp τ) :
    runInterpreter shouldFail i = .crash ↔
      i = .otherErrors ∨ (shouldFail = false ∧ ∃ r, i = .borrowErrors r) := by
  cases shouldFail <;> cases i with
  | borrowErrors r => cases r <;> simp [runInterpreter, interpCallbackResult]
  | fine r => cases r <;> simp [runInterpreter, interpCallbackResult]
  | otherErrors => simp [runInterpreter, interpCallbackResult]

end Verif.Driver
