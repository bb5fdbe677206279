import Verif.Frontend.Editor
/-!
# C69, C70, C81: what the page shows belongs to the document
-/
namespace Verif.Frontend.Editor

variable {C : Type}

/-- Everything drawn in the text was computed for the text. -/
structure Right (s : Page C) : Prop where
  steps : ∀ c, s.steps = some c → c = s.doc
  bounds : ∀ c, s.bounds = some c → c = s.doc
  marks : ∀ c, s.marks = some c → c = s.doc

/-- The document a request was sent for. -/
def Req.code : Req C → C
  | .perms c _ _ => c
  | .interp c _ => c

/-- A page that has just been opened shows nothing. -/
theorem right_start (c : C) : Right (start c) := ⟨nofun, nofun, nofun⟩

/-- C70: an edit removes everything drawn in the text. -/
theorem C70_edit (f : Fit C) (pg : Bool) (s : Page C) (c : C) :
    (step f pg s (.edit c)).steps = none ∧ (step f pg s (.edit c)).bounds = none ∧
      (step f pg s (.edit c)).marks = none ∧ (step f pg s (.edit c)).doc = c := ⟨rfl, rfl, rfl, rfl⟩

/-- The events that draw something computed for another text: an answer to a request for another text that still
fits, and, in the playground, a failed answer while the stored decorations are those of another text. -/
inductive Misplaced (f : Fit C) (pg : Bool) (s : Page C) : Event C → Prop
  | perms {i : Nat} {c : C} {st bd : Bool} {r : Reply} (hp : s.pending[i]? = some (.perms c st bd))
      (hr : r = .ok ∨ r = .err) (hc : c ≠ s.doc) (hf : f.fresh c s.doc = true) (hb : st = true ∨ bd = true) :
      Misplaced f pg s (.answer i r)
  | interp {i : Nat} {c : C} {sf : Bool} (hp : s.pending[i]? = some (.interp c sf)) (hc : c ≠ s.doc)
      (hf : f.fresh c s.doc = true) : Misplaced f pg s (.answer i .ok)
  | failed {i : Nat} {c d : C} {st bd : Bool} (hpg : pg = true) (hp : s.pending[i]? = some (.perms c st bd))
      (hd : s.decos = some d) (hc : d ≠ s.doc) (hf : f.again d s.doc = true) (hb : st = true ∨ bd = true) :
      Misplaced f pg s (.answer i .failed)

theorem right_draw {s : Page C} (h : Right s) (c : C) (st bd : Bool) :
    Right (draw s c st bd) ↔ (c = s.doc ∨ (st = false ∧ bd = false)) := by
  constructor
  · intro hr
    cases st with
    | true => exact .inl (hr.steps c rfl)
    | false =>
      cases bd with
      | true => exact .inl (hr.bounds c rfl)
      | false => exact .inr ⟨rfl, rfl⟩
  · intro ho
    refine ⟨fun d hd => ?_, fun d hd => ?_, h.marks⟩
    · cases st with
      | true =>
        have : c = d := Option.some.inj hd
        rcases ho with e | ⟨e, _⟩
        · exact this ▸ e
        · cases e
      | false => cases hd
    · cases bd with
      | true =>
        have : c = d := Option.some.inj hd
        rcases ho with e | ⟨_, e⟩
        · exact this ▸ e
        · cases e
      | false => cases hd

/-- Only what is drawn and the document matter. -/
theorem right_congr {s t : Page C} (h : Right s) (h1 : t.doc = s.doc) (h2 : t.steps = s.steps)
    (h3 : t.bounds = s.bounds) (h4 : t.marks = s.marks) : Right t :=
  ⟨fun c hc => by rw [h1]; exact h.steps c (h2 ▸ hc), fun c hc => by rw [h1]; exact h.bounds c (h3 ▸ hc),
    fun c hc => by rw [h1]; exact h.marks c (h4 ▸ hc)⟩

theorem or_of_not_both {st bd : Bool} (h : ¬ (st = false ∧ bd = false)) : st = true ∨ bd = true := by
  cases st <;> cases bd <;> simp at h ⊢

/-- C70, exactly: an event on a right page leads to a right page unless it is one of the misplaced ones. -/
theorem C70_exact (f : Fit C) (pg : Bool) (s : Page C) (h : Right s) (e : Event C) :
    Right (step f pg s e) ↔ ¬ Misplaced f pg s e := by
  cases e with
  | edit c => exact ⟨fun _ => nofun, fun _ => ⟨nofun, nofun, nofun⟩⟩
  | perms st bd =>
    refine ⟨fun _ => nofun, fun _ => ?_⟩
    simp only [step]
    split
    · exact h
    · exact right_congr h rfl rfl rfl rfl
  | interp p =>
    refine ⟨fun _ => nofun, fun _ => ?_⟩
    simp only [step]
    split
    · exact h
    · exact right_congr h rfl rfl rfl rfl
  | refresh p i => exact ⟨fun _ => nofun, fun _ => right_congr h rfl rfl rfl rfl⟩
  | answer i r =>
    simp only [step]
    cases hq : s.pending[i]? with
    | none =>
      refine ⟨fun _ hm => ?_, fun _ => h⟩
      cases hm with
      | perms hp => rw [hq] at hp; cases hp
      | interp hp => rw [hq] at hp; cases hp
      | failed _ hp => rw [hq] at hp; cases hp
    | some q =>
      dsimp only
      have h' : Right { s with pending := s.pending.eraseIdx i } := right_congr h rfl rfl rfl rfl
      cases q with
      | perms c st bd =>
        have hdraw : ∀ r, (r = .ok ∨ r = .err) →
            (Right (receive f pg { s with pending := s.pending.eraseIdx i } (.perms c st bd) r) ↔
              ¬ Misplaced f pg s (.answer i r)) := by
          intro r hr
          have hrec : receive f pg { s with pending := s.pending.eraseIdx i } (.perms c st bd) r =
              if f.fresh c s.doc then
                draw { s with pending := s.pending.eraseIdx i, stderr := some c, decos := some c } c st bd
              else { s with pending := s.pending.eraseIdx i, stderr := some c } := by
            rcases hr with rfl | rfl <;> rfl
          rw [hrec]
          by_cases hf : f.fresh c s.doc = true
          · rw [if_pos hf]
            refine (right_draw (?_ : Right _) c st bd).trans ?_
            · exact right_congr h rfl rfl rfl rfl
            constructor
            · intro ho hm
              cases hm with
              | perms hp hr' hc _ hb =>
                rw [hq] at hp
                cases hp
                rcases ho with ho | ⟨h1, h2⟩
                · exact hc ho
                · subst h1 h2
                  simp at hb
              | interp hp => rw [hq] at hp; cases hp
              | failed => rcases hr with hr | hr <;> cases hr
            · intro hm
              apply Classical.byContradiction
              intro ho
              rw [not_or] at ho
              exact hm (.perms hq hr ho.1 hf (or_of_not_both ho.2))
          · rw [if_neg hf]
            refine ⟨fun _ hm => ?_, fun _ => right_congr h rfl rfl rfl rfl⟩
            cases hm with
            | perms hp _ _ hf' => rw [hq] at hp; cases hp; exact hf hf'
            | interp hp => rw [hq] at hp; cases hp
            | failed => rcases hr with hr | hr <;> cases hr
        cases r with
        | ok => exact hdraw .ok (.inl rfl)
        | err => exact hdraw .err (.inr rfl)
        | none =>
          refine ⟨fun _ hm => ?_, fun _ => h'⟩
          cases hm with
          | perms _ hr => rcases hr with hr | hr <;> cases hr
        | failed =>
          have hrec : receive f pg { s with pending := s.pending.eraseIdx i } (.perms c st bd) .failed =
              if pg then redraw f { s with pending := s.pending.eraseIdx i, stderr := some c } st bd
              else { s with pending := s.pending.eraseIdx i, stderr := some c } := rfl
          rw [hrec]
          have ht : Right { s with pending := s.pending.eraseIdx i, stderr := some c } :=
            right_congr h rfl rfl rfl rfl
          cases hpg : pg with
          | false =>
            refine ⟨fun _ hm => ?_, fun _ => ht⟩
            cases hm with
            | perms _ hr => rcases hr with hr | hr <;> cases hr
            | failed hpg' => cases hpg'
          | true =>
            rw [if_pos rfl]
            unfold redraw
            dsimp only
            cases hd : s.decos with
            | none =>
              refine ⟨fun _ hm => ?_, fun _ => right_congr h rfl rfl rfl rfl⟩
              cases hm with
              | perms _ hr => rcases hr with hr | hr <;> cases hr
              | failed _ _ hd' => rw [hd] at hd'; cases hd'
            | some d =>
              dsimp only
              by_cases hf : f.again d s.doc = true
              · rw [if_pos hf]
                refine (right_draw (?_ : Right _) d st bd).trans ?_
                · exact right_congr h rfl rfl rfl rfl
                constructor
                · intro ho hm
                  cases hm with
                  | perms _ hr => rcases hr with hr | hr <;> cases hr
                  | failed _ hp hd' hc _ hb =>
                    rw [hd] at hd'
                    cases hd'
                    rw [hq] at hp
                    cases hp
                    rcases ho with ho | ⟨h1, h2⟩
                    · exact hc ho
                    · subst h1 h2
                      simp at hb
                · intro hm
                  apply Classical.byContradiction
                  intro ho
                  rw [not_or] at ho
                  exact hm (.failed rfl hq hd ho.1 hf (or_of_not_both ho.2))
              · rw [if_neg hf]
                refine ⟨fun _ hm => ?_, fun _ => right_congr h rfl rfl rfl rfl⟩
                cases hm with
                | perms _ hr => rcases hr with hr | hr <;> cases hr
                | failed _ _ hd' _ hf' => rw [hd] at hd'; cases hd'; exact hf hf'
      | interp c sf =>
        cases r with
        | none =>
          refine ⟨fun _ hm => ?_, fun _ => h'⟩
          cases hm with
          | perms hp => rw [hq] at hp; cases hp
        | failed =>
          refine ⟨fun _ hm => ?_, fun _ => right_congr h rfl rfl rfl rfl⟩
          cases hm with
          | perms hp => rw [hq] at hp; cases hp
          | failed _ hp => rw [hq] at hp; cases hp
        | err =>
          refine ⟨fun _ hm => ?_, fun _ => right_congr h rfl rfl rfl rfl⟩
          cases hm with
          | perms hp => rw [hq] at hp; cases hp
        | ok =>
          simp only [receive]
          by_cases hf : f.fresh c s.doc = true
          · rw [if_pos hf]
            constructor
            · intro hr hm
              cases hm with
              | perms hp => rw [hq] at hp; cases hp
              | interp hp hc =>
                rw [hq] at hp
                cases hp
                exact hc (hr.marks c rfl)
            · intro hm
              refine ⟨h.steps, h.bounds, fun d hd => ?_⟩
              have : c = d := Option.some.inj hd
              subst this
              apply Classical.byContradiction
              intro hc
              exact hm (.interp hq hc hf)
          · rw [if_neg hf]
            refine ⟨fun _ hm => ?_, fun _ => right_congr h rfl rfl rfl rfl⟩
            cases hm with
            | perms hp => rw [hq] at hp; cases hp
            | interp hp _ hf' => rw [hq] at hp; cases hp; exact hf hf'

/-! ## Calm use -/

/-- Every edit is made while nothing is pending, and no permissions request fails. -/
def Calm (f : Fit C) (pg : Bool) : Page C → List (Event C) → Prop
  | _, [] => True
  | s, e :: es =>
    (match e with
      | .edit _ => s.pending = []
      | .answer _ r => r ≠ .failed
      | _ => True) ∧ Calm f pg (step f pg s e) es

/-- Every pending request is for the document. -/
def Current (s : Page C) : Prop := ∀ q ∈ s.pending, q.code = s.doc

theorem draw_doc (s : Page C) (c : C) (st bd : Bool) : (draw s c st bd).doc = s.doc := rfl

theorem receive_doc (f : Fit C) (pg : Bool) (s : Page C) (q : Req C) (r : Reply) :
    (receive f pg s q r).doc = s.doc ∧ (receive f pg s q r).pending = s.pending := by
  cases q with
  | perms c st bd =>
    cases r <;> simp only [receive] <;> (try unfold redraw) <;> (repeat' split) <;> simp [draw]
  | interp c sf =>
    cases r <;> simp only [receive] <;> (repeat' split) <;> simp [draw]

theorem current_step (f : Fit C) (pg : Bool) {s : Page C} (h : Current s) (e : Event C)
    (hc : ∀ c, e = .edit c → s.pending = []) : Current (step f pg s e) := by
  cases e with
  | edit c =>
    intro q hq
    have := hc c rfl
    simp only [step, this] at hq
    cases hq
  | perms st bd =>
    simp only [step]
    split
    · exact h
    · intro q hq
      simp only [List.mem_append, List.mem_singleton] at hq
      rcases hq with hq | rfl
      · exact h q hq
      · rfl
  | interp p =>
    simp only [step]
    split
    · exact h
    · intro q hq
      simp only [List.mem_append, List.mem_singleton] at hq
      rcases hq with hq | rfl
      · exact h q hq
      · rfl
  | refresh p i =>
    intro q hq
    simp only [step, List.mem_append] at hq
    rcases hq with hq | hq | hq
    · exact h q hq
    · cases p
      · cases hq
      · cases List.mem_singleton.mp hq
        rfl
    · cases i
      · cases hq
      · cases List.mem_singleton.mp hq
        rfl
  | answer i r =>
    simp only [step]
    split
    · exact h
    · rename_i q hq
      intro q' hq'
      obtain ⟨h1, h2⟩ := receive_doc f pg { s with pending := s.pending.eraseIdx i } q r
      rw [h2] at hq'
      rw [h1]
      exact h q' (List.mem_of_mem_eraseIdx hq')

theorem calm_right (f : Fit C) (pg : Bool) (es : List (Event C)) : ∀ s : Page C, Right s → Current s →
    Calm f pg s es → Right (run f pg s es) ∧ Current (run f pg s es) := by
  induction es with
  | nil => exact fun s h hc _ => ⟨h, hc⟩
  | cons e es ih =>
    intro s h hcur hcalm
    obtain ⟨he, hrest⟩ := hcalm
    have hcur' : Current (step f pg s e) := current_step f pg hcur e (fun c hc => by subst hc; exact he)
    have hr : Right (step f pg s e) := by
      rw [C70_exact f pg s h e]
      intro hm
      cases hm with
      | perms hp _ hc => exact hc (hcur _ (List.mem_of_getElem? hp))
      | interp hp hc => exact hc (hcur _ (List.mem_of_getElem? hp))
      | failed => exact he rfl
    exact ih _ hr hcur' hrest

/-- C70 (partial: no edit while a request is pending, and no permissions request fails): everything drawn in the text
was computed for the text, after any number of events. -/
theorem C70_calm_partial (f : Fit C) (pg : Bool) (c : C) (es : List (Event C)) (h : Calm f pg (start c) es) :
    Right (run f pg (start c) es) :=
  (calm_right f pg es _ (right_start c) (fun _ hq => by cases hq) h).1

/-- C70: a good answer for the text is drawn as asked for. -/
theorem C70_drawn (f : Fit C) (pg : Bool) (s : Page C) (i : Nat) (st bd : Bool)
    (hp : s.pending[i]? = some (.perms s.doc st bd)) (hf : f.fresh s.doc s.doc = true) :
    (step f pg s (.answer i .ok)).steps = (if st then some s.doc else none) ∧
      (step f pg s (.answer i .ok)).bounds = (if bd then some s.doc else none) ∧
      (step f pg s (.answer i .ok)).panel = s.panel := by
  simp only [step, hp, receive, hf, if_true, draw, and_self]

/-- C70: a good answer of the interpreter for the text is shown. -/
theorem C70_diagram (f : Fit C) (pg : Bool) (s : Page C) (i : Nat) (sf : Bool)
    (hp : s.pending[i]? = some (.interp s.doc sf)) (hf : f.fresh s.doc s.doc = true) :
    (step f pg s (.answer i .ok)).panel = some s.doc ∧ (step f pg s (.answer i .ok)).marks = some s.doc ∧
      (step f pg s (.answer i .ok)).steps = s.steps ∧ (step f pg s (.answer i .ok)).bounds = s.bounds := by
  simp only [step, hp, receive, hf, if_true, and_self]

/-- C70: in the playground at most one request of each kind is pending. -/
theorem C70_one_each (f : Fit C) (c : C) (es : List (Event C)) (h : ∀ p i, Event.refresh p i ∉ es) :
    ((run f true (start c) es).pending.filter isPerms).length ≤ 1 ∧
      ((run f true (start c) es).pending.filter (fun r => !isPerms r)).length ≤ 1 := by
  have key : ∀ (es : List (Event C)) (s : Page C), (∀ p i, Event.refresh p i ∉ es) →
      ((s.pending.filter isPerms).length ≤ 1 ∧ (s.pending.filter (fun r => !isPerms r)).length ≤ 1) →
      (((run f true s es).pending.filter isPerms).length ≤ 1 ∧
        ((run f true s es).pending.filter (fun r => !isPerms r)).length ≤ 1) := by
    intro es
    induction es with
    | nil => exact fun s _ h => h
    | cons e es ih =>
      intro s hn hs
      refine ih (step f true s e) (fun p i hm => hn p i (List.mem_cons_of_mem _ hm)) ?_
      cases e with
      | edit c => exact hs
      | perms st bd =>
        simp only [step]
        split
        · exact hs
        · rename_i ha
          have h0 : s.pending.filter isPerms = [] := by
            rw [List.filter_eq_nil_iff]
            intro a ham hp
            exact ha (List.any_eq_true.mpr ⟨a, ham, hp⟩)
          simp only [List.filter_append, h0, List.length_append]
          exact ⟨by simp [List.filter_cons]; split <;> simp, by simpa [List.filter_cons, isPerms] using hs.2⟩
      | interp p =>
        simp only [step]
        split
        · exact hs
        · rename_i ha
          have h0 : s.pending.filter (fun r => !isPerms r) = [] := by
            rw [List.filter_eq_nil_iff]
            intro a ham hp
            exact ha (List.any_eq_true.mpr ⟨a, ham, hp⟩)
          simp only [List.filter_append, h0, List.length_append]
          exact ⟨by simpa [List.filter_cons, isPerms] using hs.1, by simp [List.filter_cons]; split <;> simp⟩
      | refresh p i => exact absurd List.mem_cons_self (hn p i)
      | answer i r =>
        simp only [step]
        split
        · exact hs
        · rename_i q hq
          rw [(receive_doc f true _ q r).2]
          have hsub : (s.pending.eraseIdx i).Sublist s.pending := List.eraseIdx_sublist ..
          exact ⟨Nat.le_trans (hsub.filter _).length_le hs.1, Nat.le_trans (hsub.filter _).length_le hs.2⟩
  exact key es (start c) h ⟨Nat.zero_le _, Nat.zero_le _⟩

/-! ## Where the page is wrong -/

/-- C70 fails: an answer that arrives after an edit is drawn into the new text. -/
theorem C70_stale_answer : ∃ (f : Fit Nat) (es : List (Event Nat)),
    (run f true (start 1) es).doc = 2 ∧ (run f true (start 1) es).steps = some 1 :=
  ⟨⟨fun _ _ => true, fun _ _ => true⟩, [.perms true false, .edit 2, .answer 0 .ok], by decide, by decide⟩

/-- C70 fails: a failed request draws the decorations of an earlier text again. -/
theorem C70_failed_redraws : ∃ (f : Fit Nat) (es : List (Event Nat)),
    (run f true (start 1) es).doc = 2 ∧ (run f true (start 1) es).bounds = some 1 :=
  ⟨⟨fun c d => c == d, fun _ _ => true⟩,
    [.perms true true, .answer 0 .ok, .edit 2, .perms false true, .answer 0 .failed], by decide, by decide⟩

/-- C70 fails: the diagram beside the text is not removed by any edit. -/
theorem C70_panel (f : Fit C) (pg : Bool) (s : Page C) (c : C) : (step f pg s (.edit c)).panel = s.panel := rfl

/-- C70: an answer that reports a failure, or that never comes, leaves the markers, the diagram, the stored decorations
and the banner as they are. -/
theorem C70_failed_keeps (f : Fit C) (pg : Bool) (s : Page C) (i : Nat) (r : Reply) (hr : r = .failed ∨ r = .none) :
    let t := step f pg s (.answer i r)
    t.panel = s.panel ∧ t.marks = s.marks ∧ t.banner = s.banner ∧ t.decos = s.decos ∧ t.doc = s.doc := by
  dsimp only
  simp only [step]
  split
  · simp
  · rename_i q _
    rcases hr with rfl | rfl
    · cases q with
      | perms c st bd =>
        simp only [receive]
        split
        · simp only [redraw]
          split
          · simp
          · split <;> simp [draw]
        · simp
      | interp c sf => simp [receive]
    · simp [receive]

theorem receive_banner (f : Fit C) (pg : Bool) (s : Page C) (q : Req C) (r : Reply) (h : s.banner = true) :
    (receive f pg s q r).banner = true := by
  cases q with
  | perms c st bd =>
    cases r <;> simp only [receive] <;> (try unfold redraw) <;> (repeat' split) <;> exact h
  | interp c sf =>
    cases r <;> simp only [receive] <;> (repeat' split) <;> simp [h]

/-- C70 fails: "This code does not compile" stays for ever once it is shown, whatever the text is and whatever the
answers say. -/
theorem C70_banner_stays (f : Fit C) (pg : Bool) (es : List (Event C)) : ∀ s : Page C, s.banner = true →
    (run f pg s es).banner = true := by
  induction es with
  | nil => exact fun s h => h
  | cons e es ih =>
    intro s h
    refine ih (step f pg s e) ?_
    cases e with
    | edit c => exact h
    | perms st bd => simp only [step]; split <;> exact h
    | interp p => simp only [step]; split <;> exact h
    | refresh p i => exact h
    | answer i r =>
      simp only [step]
      split
      · exact h
      · exact receive_banner f pg _ _ r h

/-- C70: the banner appears only with an answer to a run with the box not ticked. -/
theorem C70_banner_appears (f : Fit C) (pg : Bool) (s : Page C) (e : Event C) (h : s.banner = false) :
    (step f pg s e).banner = true ↔
      ∃ i c r, e = .answer i r ∧ s.pending[i]? = some (.interp c true) ∧ (r = .ok ∨ r = .err) := by
  cases e with
  | edit c => simp [step, h]
  | perms st bd => simp only [step]; split <;> simp [h]
  | interp p => simp only [step]; split <;> simp [h]
  | refresh p i => simp [step, h]
  | answer i r =>
    have hE : (∃ i' c r', (Event.answer i r : Event C) = .answer i' r' ∧ s.pending[i']? = some (.interp c true) ∧
        (r' = .ok ∨ r' = .err)) ↔ ∃ c : C, s.pending[i]? = some (.interp c true) ∧ (r = .ok ∨ r = .err) := by
      constructor
      · rintro ⟨i', c, r', he, h1, h2⟩
        cases he
        exact ⟨c, h1, h2⟩
      · rintro ⟨c, h1, h2⟩
        exact ⟨i, c, r, rfl, h1, h2⟩
    rw [hE]
    simp only [step]
    cases hq : s.pending[i]? with
    | none => simp [h]
    | some q =>
      dsimp only
      cases q with
      | perms c st bd =>
        have : (receive f pg { s with pending := s.pending.eraseIdx i } (.perms c st bd) r).banner = false := by
          cases r <;> simp only [receive] <;> (try unfold redraw) <;> (repeat' split) <;> exact h
        simp [this]
      | interp c sf =>
        cases r <;> simp only [receive] <;> (repeat' split) <;> simp [h]

/-- A run of a program that compiles, with the box not ticked: the banner is shown. -/
example : (run (C := Nat) ⟨fun _ _ => true, fun _ _ => true⟩ true (start 1)
    [.interp false, .answer 0 .ok, .interp true, .answer 0 .ok]).banner = true := by decide

/-- A calm run with edits and answers. -/
example : Calm (C := Nat) ⟨fun _ _ => true, fun _ _ => true⟩ true (start 1)
    [.perms true true, .interp true, .answer 0 .ok, .answer 0 .ok, .edit 2, .perms true false, .answer 0 .ok] ∧
    (run (C := Nat) ⟨fun _ _ => true, fun _ _ => true⟩ true (start 1)
      [.perms true true, .interp true, .answer 0 .ok, .answer 0 .ok, .edit 2, .perms true false, .answer 0 .ok]).steps
      = some 2 := by
  refine ⟨⟨trivial, trivial, by decide, by decide, by decide, trivial, by decide, trivial⟩, by decide⟩

/-- Two presses: one request. -/
example : (run (C := Nat) ⟨fun _ _ => true, fun _ _ => true⟩ true (start 1)
    [.perms true true, .perms true true, .interp true, .interp true]).pending.length = 2 := by decide

/-! ## The refresh button of an embedded block -/

/-- Asked for by the refresh button. -/
def Asked (q : Req C) : Prop :=
  match q with
  | .perms _ st bd => st = false ∧ bd = false
  | .interp _ sf => sf = false

/-- C81: every request of the refresh button is for the text in the editor. -/
theorem C81_current (f : Fit C) (pg : Bool) (s : Page C) (p i : Bool) (q : Req C)
    (h : q ∈ (step f pg s (.refresh p i)).pending) : q ∈ s.pending ∨ (q.code = s.doc ∧ Asked q) := by
  simp only [step, List.mem_append] at h
  rcases h with h | h | h
  · exact .inl h
  · cases p
    · cases h
    · cases List.mem_singleton.mp h
      exact .inr ⟨rfl, rfl, rfl⟩
  · cases i
    · cases h
    · cases List.mem_singleton.mp h
      exact .inr ⟨rfl, rfl⟩

/-- C81 fails: a good answer to the refresh button removes the steps and the boundaries instead of showing the new
ones, whatever the block's options are. -/
theorem C81_clears (f : Fit C) (pg : Bool) (s : Page C) (i : Nat) (c : C) (st bd : Bool)
    (hp : s.pending[i]? = some (.perms c st bd)) (hq : Asked (.perms c st bd)) (hf : f.fresh c s.doc = true) :
    (step f pg s (.answer i .ok)).steps = none ∧ (step f pg s (.answer i .ok)).bounds = none := by
  obtain ⟨rfl, rfl⟩ := hq
  simp only [step, hp, receive, hf, if_true, draw]
  exact ⟨rfl, rfl⟩

/-- C81 (partial: the interpreter): a good answer to the refresh button shows the diagram of the text. -/
theorem C81_diagram_partial (f : Fit C) (pg : Bool) (s : Page C) (hpend : s.pending = [])
    (hf : f.fresh s.doc s.doc = true) :
    (run f pg s [.refresh false true, .answer 0 .ok]).panel = some s.doc ∧
      (run f pg s [.refresh false true, .answer 0 .ok]).marks = some s.doc := by
  simp [run, step, hpend, receive, hf]

/-- C81 fails: two presses, and the answer to the first arrives last. -/
theorem C81_out_of_order : ∃ (f : Fit Nat) (es : List (Event Nat)),
    (run f false (start 1) es).doc = 2 ∧ (run f false (start 1) es).pending = [] ∧
      (run f false (start 1) es).panel = some 1 :=
  ⟨⟨fun _ _ => true, fun _ _ => true⟩,
    [.refresh false true, .edit 2, .refresh false true, .answer 1 .ok, .answer 0 .ok], by decide, by decide, by decide⟩

/-! ## The borrow checker box -/

open Verif.Serve

/-- C69 fails: the tool is told that the program should fail whether the box is ticked or not. -/
theorem C69_ignored (code : Text) (passes : Bool) : flag .interpreter (interpRequest code passes) = true := by
  simp [flag, interpRequest]

/-- C69 (partial: the box is not ticked): the tool is told exactly what the box says. -/
theorem C69_unticked_partial (code : Text) (passes : Bool) (h : passes = false) :
    flag .interpreter (interpRequest code passes) = !passes := by
  rw [C69_ignored, h]
  rfl

/-- C69: what is sent for the key is the opposite of the box, so the choice is in the request; the server ignores it. -/
theorem C69_value (code : Text) (passes : Bool) :
    ∃ fields, (interpRequest code passes).config = some (.obj fields) ∧
      fields.lookup ['s', 'h', 'o', 'u', 'l', 'd', 'F', 'a', 'i', 'l'] = some (.bool (!passes)) :=
  ⟨_, rfl, rfl⟩

/-- C69: on the page itself the box decides: with no request for a run pending, pressing the button and getting an answer
shows the banner iff it was there or the box was not ticked. -/
theorem C69_banner {C : Type} (f : Fit C) (pg : Bool) (s : Page C) (passes : Bool) (r : Reply)
    (hr : r = .ok ∨ r = .err) (hp : s.pending.any (fun q => !isPerms q) = false) :
    (step f pg (step f pg s (.interp passes)) (.answer s.pending.length r)).banner = (s.banner || !passes) := by
  have h1 : step f pg s (.interp passes) = { s with pending := s.pending ++ [.interp s.doc (!passes)] } := by
    simp only [step]
    rw [hp]
    rfl
  rw [h1]
  simp only [step, List.getElem?_append_right (Nat.le_refl _), Nat.sub_self, List.getElem?_cons_zero]
  rcases hr with rfl | rfl
  · simp only [receive]
    split <;> rfl
  · rfl

example : (step (C := Nat) ⟨fun _ _ => true, fun _ _ => true⟩ true
    (step ⟨fun _ _ => true, fun _ _ => true⟩ true (start 0) (.interp false)) (.answer 0 .ok)).banner = true := by
  decide

/-- C69: the code sent is the code in the editor. -/
theorem C69_code (code : Text) (passes : Bool) : (interpRequest code passes).code = code := rfl

/-- C69: the server does not tell the tool that the program should fail unless the request has the key. -/
theorem C69_absent (code : Text) (fields : List (Text × Json))
    (h : ∀ x ∈ fields, x.1 ≠ ['s', 'h', 'o', 'u', 'l', 'd', 'F', 'a', 'i', 'l']) :
    flag .interpreter ⟨code, some (.obj fields)⟩ = false ∧ flag .interpreter ⟨code, none⟩ = false := by
  refine ⟨?_, rfl⟩
  simp only [flag, List.any_eq_false]
  intro x hx
  simpa [shouldFailKey] using h x hx

example : flag .interpreter (interpRequest ['f', 'n'] true) = true ∧
    flag .permissions (interpRequest ['f', 'n'] false) = false := by decide

end Verif.Frontend.Editor
