import Verif.Live.Props
/-!
# Errors on the page of the playground

Which errors an operation reports (`renderOperation`, `frontend/packages/aquascope-editor/src/lib.tsx:294-352`) and what the
page does with a report (`frontend/packages/aquascope-standalone/src/index.tsx:52-63,70-91,104-106`).

Simplifications: times are numbers of milliseconds.  A timer fires when it is due, before anything else that happens in
the same millisecond.  An alert is only counted.  A value shown as text is kept as it is; `none` is `undefined`.
-/
namespace Verif.Live
open Verif.Preproc (Json)
open Verif.Wire
open Verif.Serve (Op)

/-- `BackendError` (types.ts:51-61), as the page distinguishes them. -/
inductive Report
  | fileNotFound
  | stderr (text : Option Json)
  | build
  | analysis (msg : Option Json)
  | unknown

def tFileNotFound : List Char := ['F', 'i', 'l', 'e', 'N', 'o', 't', 'F', 'o', 'u', 'n', 'd']
def tServerStderr : List Char := ['S', 'e', 'r', 'v', 'e', 'r', 'S', 't', 'd', 'e', 'r', 'r']

/-- The report for a value under `Err`, by its `type` (index.tsx:71-90). `none`: an exception. -/
def reportOf : Option Json → Option Report
  | none => none
  | some .null => none
  | some j =>
    match tagOf j with
    | none => some .unknown
    | some t =>
      if t = tFileNotFound then some .fileNotFound
      else if t = tServerStderr then some (.stderr (prop j kError))
      else if t = Preproc.kBuildError then some .build
      else if t = vAnalysisError then some (.analysis (prop j fMsg))
      else some .unknown

/-- The loop over the results for the bodies (lib.tsx:346-352); an exception ends it. -/
def bodyReports : List Json → List Report
  | [] => []
  | j :: js =>
    match Embed.okIn j with
    | none => []
    | some (some _) => bodyReports js
    | some none =>
      match reportOf (j.get Preproc.kErr) with
      | none => []
      | some r => r :: bodyReports js

/-- What is reported for an answer, in this order (lib.tsx:294-352). -/
def reports (op : Op) : Seen → List Report
  | .rejected => []
  | .stderr e => [.stderr e]
  | .response j e => .stderr e ::
    (match op with
    | .interpreter =>
      match Embed.okIn j with
      | some none => (reportOf (j.get Preproc.kErr)).toList
      | _ => []
    | .permissions =>
      match j with
      | .arr js => bodyReports js
      | _ => [])

/-- What is on the page. `timers`: when the card for build errors will be removed. -/
structure Cards where
  alerts : Nat
  stderr : Option Json
  build : Bool
  timers : List Nat
  analysis : Bool
  msg : Option Json
  tab : Nat

/-- A page that has just been opened (index.html:54-63). -/
def Cards.start : Cards := ⟨0, none, false, [], false, none, 0⟩

/-- What happens on the page. -/
inductive Happening
  | report (r : Report)
  /-- the card for errors of the analysis is closed -/
  | close
  /-- a tab is chosen -/
  | tab (n : Nat)

/-- The timers that are due (index.tsx:80-83). -/
def Cards.fire (t : Nat) (s : Cards) : Cards :=
  { s with build := s.build && !s.timers.any (fun d => decide (d ≤ t)), timers := s.timers.filter (fun d => decide (t < d)) }

/-- The handler of reports (index.tsx:70-91) and the two kinds of clicks (index.tsx:53-63, 104-106). -/
def Cards.act (t : Nat) (s : Cards) : Happening → Cards
  | .report .fileNotFound => { s with alerts := s.alerts + 1 }
  | .report (.stderr e) => { s with stderr := e }
  | .report .build => { s with tab := 1, build := true, timers := s.timers ++ [t + 5000] }
  | .report (.analysis m) => { s with tab := 1, analysis := true, msg := m }
  | .report .unknown => s
  | .close => { s with analysis := false }
  | .tab n => { s with tab := n }

def Cards.run (es : List (Nat × Happening)) (s : Cards) : Cards := es.foldl (fun s e => (s.fire e.1).act e.1 e.2) s

/-- The page at a time, after what has happened until then. -/
def shown (es : List (Nat × Happening)) (t : Nat) : Cards := (Cards.start.run es).fire t

/-! ## C125 -/

/-- In the order of time, and nothing after `t`. -/
def Until (es : List (Nat × Happening)) (t : Nat) : Prop := es.Pairwise (fun a b => a.1 ≤ b.1) ∧ ∀ e ∈ es, e.1 ≤ t

/-- A build error was reported and no timer of a build error ran out since then. -/
def Lit (es : List (Nat × Happening)) (T : Nat) : Prop :=
  ∃ t, (t, Happening.report .build) ∈ es ∧ ∀ t', (t', Happening.report .build) ∈ es → ¬ (t < t' + 5000 ∧ t' + 5000 ≤ T)

structure Lamp (es : List (Nat × Happening)) (L : Nat) (s : Cards) : Prop where
  build : s.build = true ↔ Lit es L
  timers : ∀ d, d ∈ s.timers ↔ ∃ t, (t, Happening.report .build) ∈ es ∧ d = t + 5000 ∧ L < d

theorem lamp_fire {es : List (Nat × Happening)} {L T : Nat} {s : Cards} (h : Lamp es L s) (hl : ∀ e ∈ es, e.1 ≤ L) (hT : L ≤ T) :
    Lamp es T (s.fire T) := by
  constructor
  · simp only [Cards.fire, Bool.and_eq_true, Bool.not_eq_true', List.any_eq_false, decide_eq_true_eq]
    rw [h.build]
    constructor
    · rintro ⟨⟨t, h1, h2⟩, h3⟩
      refine ⟨t, h1, fun t' h' hc => ?_⟩
      by_cases hL : t' + 5000 ≤ L
      · exact h2 t' h' ⟨hc.1, hL⟩
      · exact h3 _ ((h.timers _).2 ⟨t', h', rfl, by omega⟩) hc.2
    · rintro ⟨t, h1, h2⟩
      refine ⟨⟨t, h1, fun t' h' hc => h2 t' h' ⟨hc.1, by omega⟩⟩, ?_⟩
      intro d hd hle
      obtain ⟨t', h', rfl, hlt⟩ := (h.timers d).1 hd
      exact h2 t' h' ⟨by have := hl _ h1; omega, hle⟩
  · intro d
    simp only [Cards.fire, List.mem_filter, decide_eq_true_eq]
    rw [h.timers d]
    constructor
    · rintro ⟨⟨t, h1, h2, _⟩, h3⟩
      exact ⟨t, h1, h2, h3⟩
    · rintro ⟨t, h1, h2, h3⟩
      exact ⟨⟨t, h1, h2, by omega⟩, h3⟩

theorem lamp_act {es : List (Nat × Happening)} {L : Nat} {s : Cards} (h : Lamp es L s) (e : Happening) :
    Lamp (es ++ [(L, e)]) L (s.act L e) := by
  by_cases he : e = .report .build
  · subst he
    constructor
    · refine ⟨fun _ => ⟨L, by simp, fun t' _ hc => by omega⟩, fun _ => rfl⟩
    · intro d
      simp only [Cards.act, List.mem_append, List.mem_singleton, h.timers d, Prod.mk.injEq]
      constructor
      · rintro (⟨t, h1, h2, h3⟩ | rfl)
        · exact ⟨t, .inl h1, h2, h3⟩
        · exact ⟨L, .inr ⟨rfl, trivial⟩, rfl, by omega⟩
      · rintro ⟨t, h1 | ⟨rfl, _⟩, h2, h3⟩
        · exact .inl ⟨t, h1, h2, h3⟩
        · exact .inr h2
  · have hm : ∀ t, (t, Happening.report .build) ∈ es ++ [(L, e)] ↔ (t, Happening.report .build) ∈ es := by
      intro t
      simp only [List.mem_append, List.mem_singleton, Prod.mk.injEq]
      exact ⟨fun h => h.resolve_right fun h => he h.2.symm, .inl⟩
    have hb : (s.act L e).build = s.build ∧ (s.act L e).timers = s.timers := by
      cases e with
      | report r => cases r <;> first | exact absurd rfl he | exact ⟨rfl, rfl⟩
      | close => exact ⟨rfl, rfl⟩
      | tab n => exact ⟨rfl, rfl⟩
    constructor
    · rw [hb.1, h.build]
      simp only [Lit, hm]
    · intro d
      rw [hb.2, h.timers d]
      simp only [hm]

theorem run_snoc (es : List (Nat × Happening)) (e : Nat × Happening) (s : Cards) :
    s.run (es ++ [e]) = ((s.run es).fire e.1).act e.1 e.2 := by simp [Cards.run]

theorem snoc_rec {α : Type} {P : List α → Prop} (nil : P []) (snoc : ∀ es e, P es → P (es ++ [e])) (es : List α) : P es := by
  have h : ∀ l : List α, P l.reverse := by
    intro l
    induction l with
    | nil => exact nil
    | cons e l ih => rw [List.reverse_cons]; exact snoc _ _ ih
  simpa using h es.reverse

theorem lamp_run (es : List (Nat × Happening)) : ∀ T, Until es T → ∃ L, L ≤ T ∧ (∀ e ∈ es, e.1 ≤ L) ∧ Lamp es L (Cards.start.run es) := by
  induction es using snoc_rec with
  | nil =>
    intro T _
    refine ⟨0, by omega, by simp, ?_, ?_⟩
    · simp [Cards.run, Cards.start, Lit]
    · simp [Cards.run, Cards.start]
  | snoc es e ih =>
    intro T ⟨h1, h2⟩
    rw [List.pairwise_append] at h1
    obtain ⟨h3, _, h4⟩ := h1
    have hle : ∀ x ∈ es, x.1 ≤ e.1 := fun x hx => h4 x hx e (by simp)
    obtain ⟨L, hL, hm, hlamp⟩ := ih e.1 ⟨h3, hle⟩
    refine ⟨e.1, h2 e (by simp), ?_, ?_⟩
    · intro x hx
      rcases List.mem_append.1 hx with hx | hx
      · exact hle x hx
      · rw [List.mem_singleton.1 hx]; omega
    · rw [run_snoc]
      exact lamp_act (lamp_fire hlamp hm hL) e.2

/-- **C125** (exactly). The card for build errors is on the page exactly if a build error was reported such that no build
error, this one or another one, was reported five seconds before a later moment until now. -/
theorem C125_build {es : List (Nat × Happening)} {T : Nat} (h : Until es T) : (shown es T).build = true ↔
    ∃ t, (t, Happening.report .build) ∈ es ∧ ∀ t', (t', Happening.report .build) ∈ es → t' + 5000 ≤ t ∨ T < t' + 5000 := by
  obtain ⟨L, hL, hm, hlamp⟩ := lamp_run es T h
  rw [shown, (lamp_fire hlamp hm hL).build]
  constructor
  · rintro ⟨t, h1, h2⟩
    exact ⟨t, h1, fun t' h' => by have := h2 t' h'; omega⟩
  · rintro ⟨t, h1, h2⟩
    exact ⟨t, h1, fun t' h' hc => by have := h2 t' h'; omega⟩

/-- **C125** (partial: no other build error in the five seconds before). A build error stays on the page for five seconds. -/
theorem C125_five_seconds_partial {es : List (Nat × Happening)} {T t : Nat} (h : Until es T)
    (ht : (t, Happening.report .build) ∈ es) (hno : ∀ t', (t', Happening.report .build) ∈ es → t' < t → t' + 5000 ≤ t)
    (hT : T < t + 5000) : (shown es T).build = true := by
  refine (C125_build h).2 ⟨t, ht, fun t' h' => ?_⟩
  by_cases hlt : t' < t
  · exact .inl (hno t' h' hlt)
  · exact .inr (by omega)

/-- **C125** (the code does otherwise). A build error within five seconds after another one disappears with it. -/
theorem C125_cut_short {es : List (Nat × Happening)} {T t : Nat} (h : Until es T) (ht : (t, Happening.report .build) ∈ es)
    (hT : t + 5000 ≤ T) (hall : ∀ t', (t', Happening.report .build) ∈ es → t' < t + 5000) : (shown es T).build = false := by
  cases hb : (shown es T).build with
  | false => rfl
  | true =>
    obtain ⟨t', h1, h2⟩ := (C125_build h).1 hb
    have := h2 t ht
    have := hall t' h1
    omega

/-- The second of two errors is shown for one second. -/
example : (shown [(0, .report .build), (4000, .report .build)] 4999).build = true ∧
    (shown [(0, .report .build), (4000, .report .build)] 5000).build = false := by decide

theorem fire_same (t : Nat) (s : Cards) : (s.fire t).analysis = s.analysis ∧ (s.fire t).msg = s.msg ∧
    (s.fire t).stderr = s.stderr ∧ (s.fire t).tab = s.tab ∧ (s.fire t).alerts = s.alerts := ⟨rfl, rfl, rfl, rfl, rfl⟩

/-- **C125.** The card for errors of the analysis is on the page exactly if one was reported and the card not closed since. -/
theorem C125_analysis (es : List (Nat × Happening)) (T : Nat) : (shown es T).analysis = true ↔
    ∃ pre t m post, es = pre ++ (t, .report (.analysis m)) :: post ∧ ∀ t', (t', Happening.close) ∉ post := by
  rw [shown, (fire_same _ _).1]
  induction es using snoc_rec with
  | nil => simp [Cards.run, Cards.start]
  | snoc es e ih =>
    obtain ⟨t, e⟩ := e
    rw [run_snoc]
    by_cases he : ∃ m, e = .report (.analysis m)
    · obtain ⟨m, rfl⟩ := he
      exact ⟨fun _ => ⟨es, t, m, [], rfl, by simp⟩, fun _ => rfl⟩
    · by_cases hc : e = .close
      · subst hc
        refine ⟨fun h => absurd h (by simp [Cards.act]), ?_⟩
        rintro ⟨pre, t', m, post, h1, h2⟩
        exfalso
        rcases List.eq_nil_or_concat post with rfl | ⟨post', x, rfl⟩
        · have := List.append_inj_right' h1 rfl
          simp at this
        · rw [List.concat_eq_append] at h1 h2
          rw [← List.cons_append, ← List.append_assoc] at h1
          have := List.append_inj_right' h1 rfl
          simp only [List.cons.injEq, and_true] at this
          exact h2 t (by simp [← this])
      · have hs : (((Cards.start.run es).fire t).act t e).analysis = (Cards.start.run es).analysis := by
          cases e with
          | report r => cases r <;> first | rfl | exact absurd ⟨_, rfl⟩ he
          | close => exact absurd rfl hc
          | tab n => rfl
        rw [hs, ih]
        constructor
        · rintro ⟨pre, t', m, post, rfl, h2⟩
          refine ⟨pre, t', m, post ++ [(t, e)], by simp, fun x hx => ?_⟩
          rcases List.mem_append.1 hx with hx | hx
          · exact h2 x hx
          · simp only [List.mem_singleton, Prod.mk.injEq] at hx
            exact hc hx.2.symm
        · rintro ⟨pre, t', m, post, h1, h2⟩
          rcases List.eq_nil_or_concat post with rfl | ⟨post', x, rfl⟩
          · have := List.append_inj_right' h1 rfl
            simp only [List.cons.injEq, Prod.mk.injEq, and_true] at this
            exact absurd ⟨m, this.2⟩ he
          · rw [List.concat_eq_append] at h1 h2
            rw [← List.cons_append, ← List.append_assoc] at h1
            exact ⟨pre, t', m, post', List.append_inj_left' h1 rfl, fun x hx => h2 x (by simp [hx])⟩

/-- The messages reported. -/
def messages (es : List (Nat × Happening)) : List (Option Json) :=
  es.filterMap fun e => match e.2 with | .report (.analysis m) => some m | _ => none

/-- The outputs reported. -/
def outputs (es : List (Nat × Happening)) : List (Option Json) :=
  es.filterMap fun e => match e.2 with | .report (.stderr m) => some m | _ => none

/-- **C125** (the code does otherwise). Of all messages reported only the last one can be read, and of all outputs the last
one, whichever operation it came from. -/
theorem C125_last (es : List (Nat × Happening)) (T : Nat) :
    (shown es T).msg = ((messages es).getLast?).join ∧ (shown es T).stderr = ((outputs es).getLast?).join := by
  rw [shown, (fire_same _ _).2.1, (fire_same _ _).2.2.1]
  induction es using snoc_rec with
  | nil => exact ⟨rfl, rfl⟩
  | snoc es e ih =>
    obtain ⟨t, e⟩ := e
    rw [run_snoc]
    have hm : ∀ x, messages (es ++ [x]) = messages es ++ messages [x] := fun x => by simp [messages]
    have ho : ∀ x, outputs (es ++ [x]) = outputs es ++ outputs [x] := fun x => by simp [outputs]
    rw [hm, ho]
    generalize messages es = ms at ih ⊢
    generalize outputs es = os at ih ⊢
    cases e with
    | report r =>
      cases r <;> simp [messages, outputs, Cards.act, Cards.fire, ih]
    | close => simp [messages, outputs, Cards.act, Cards.fire, ih]
    | tab n => simp [messages, outputs, Cards.act, Cards.fire, ih]

/-- The tabs chosen: by the reader, or the second one for an error of the build or of the analysis. -/
def choices (es : List (Nat × Happening)) : List Nat :=
  es.filterMap fun e => match e.2 with
    | .tab n => some n
    | .report .build => some 1
    | .report (.analysis _) => some 1
    | _ => none

/-- **C125.** The tab on the page is the one chosen last; every file that was not found gave one alert. -/
theorem C125_tab (es : List (Nat × Happening)) (T : Nat) :
    (shown es T).tab = ((choices es).getLast?).getD 0 ∧
    (shown es T).alerts = es.countP (fun e => match e.2 with | .report .fileNotFound => true | _ => false) := by
  rw [shown, (fire_same _ _).2.2.2.1, (fire_same _ _).2.2.2.2]
  induction es using snoc_rec with
  | nil => exact ⟨rfl, rfl⟩
  | snoc es e ih =>
    obtain ⟨t, e⟩ := e
    rw [run_snoc]
    have hc : ∀ x, choices (es ++ [x]) = choices es ++ choices [x] := fun x => by simp [choices]
    rw [hc, List.countP_append]
    generalize choices es = cs at ih ⊢
    cases e with
    | report r => cases r <;> simp [choices, Cards.act, Cards.fire, ih]
    | close => simp [choices, Cards.act, Cards.fire, ih]
    | tab n => simp [choices, Cards.act, Cards.fire, ih]

example : (shown [(0, .tab 0), (1, .report .build), (2, .report .fileNotFound), (3, .close)] 9).tab = 1 := by decide

/-! ## From the tool to the cards -/

/-- The report for an error of the tool. -/
def WError.report : WError → Report
  | .build _ => .build
  | .analysis m => .analysis (some (.str m))

theorem reportOf_error (e : WError) : reportOf (some (errorJson e)) = some (WError.report e) := by
  cases e with
  | build r => simp (decide := true) [reportOf, errorJson, tagOf, prop_cons, asStr, WError.report]
  | analysis m => simp (decide := true) [reportOf, errorJson, tagOf, prop_cons, asStr, WError.report]

theorem bodyReports_outputs (rs : List (Except WError WOutput)) :
    bodyReports (rs.map (resJson outputJson)) = (errors rs).map WError.report := by
  induction rs with
  | nil => rfl
  | cons r rs ih =>
    cases r with
    | ok o =>
      have : Embed.okIn (resJson outputJson (.ok o)) = some (some (outputJson o)) := by
        simp [Embed.okIn, resJson, List.lookup]
      rw [List.map_cons, bodyReports, this]
      exact ih
    | error e =>
      have h1 : Embed.okIn (resJson outputJson (.error e)) = some none := by
        simp [Embed.okIn, resJson, List.lookup, show (Embed.kOk == Preproc.kErr) = false by decide]
      have h2 : (resJson outputJson (.error e)).get Preproc.kErr = some (errorJson e) := by
        simp [resJson, Preproc.Json.get, List.lookup]
      rw [List.map_cons, bodyReports, h1]
      simp only [h2, reportOf_error]
      rw [ih]
      rfl

/-- **C125.** For the results of the analysis the page reports what was printed as standard error, and then every error of
a body, in their order; nothing else. -/
theorem C125_results {ws : Char → Bool} (hw : Spaces ws) {reqs : List (Op × Serve.Request × Serve.Env)}
    {sched : List (Nat × Nat)} {i : Nat} {r : Serve.Reply} {req : Serve.Request} {env : Serve.Env}
    (hq : reqs[i]? = some (.permissions, req, env)) (h : Serve.Answered (Serve.run ws sched (Serve.initial reqs)) i r)
    (hp : Serve.Prepared ws env) (src : Serve.Error → List Char) {rs : List (Except WError WOutput)} {err : List Char}
    (ht : Serve.ToolEnds .permissions req env (.done (some (printed (outputsJson rs))) (some err))) :
    reports .permissions (look (sent .permissions src r)) = .stderr (some (.str err)) :: (errors rs).map WError.report := by
  have hj := valid_outputs rs
  have hr := (Serve.C51_outputs hq h ⟨true, printed (outputsJson rs), err⟩).2
    ⟨hp, _, _, ht, rfl, rfl, by simp [printed_not_blank hw hj]⟩
  rw [hr, look_ok, if_pos rfl, read_printed hj]
  simp only [reports, outputsJson, bodyReports_outputs]

/-- **C125.** For a trace the page reports what was printed as standard error, and the error if there is no trace. -/
theorem C125_trace (F : Floats) (hF : F.Exact) {ws : Char → Bool} (hw : Spaces ws) {reqs : List (Op × Serve.Request × Serve.Env)}
    {sched : List (Nat × Nat)} {i : Nat} {r : Serve.Reply} {req : Serve.Request} {env : Serve.Env}
    (hq : reqs[i]? = some (.interpreter, req, env)) (h : Serve.Answered (Serve.run ws sched (Serve.initial reqs)) i r)
    (hp : Serve.Prepared ws env) (src : Serve.Error → List Char) {t : Except WError WTrace} {err : List Char}
    (ht : Serve.ToolEnds .interpreter req env (.done (some (printed (resJson (traceJson F) t))) (some err))) :
    reports .interpreter (look (sent .interpreter src r)) = .stderr (some (.str err)) ::
      (match t with | .ok _ => [] | .error e => [WError.report e]) := by
  have hj : Valid (resJson (traceJson F) t) := valid_res (valid_trace F hF) t
  have hr := (Serve.C51_outputs hq h ⟨true, printed (resJson (traceJson F) t), err⟩).2
    ⟨hp, _, _, ht, rfl, rfl, by simp [printed_not_blank hw hj]⟩
  rw [hr, look_ok, if_pos rfl, read_printed hj]
  cases t with
  | ok t =>
    have : Embed.okIn (resJson (traceJson F) (.ok t)) = some (some (traceJson F t)) := by
      simp [Embed.okIn, resJson, List.lookup]
    simp only [reports, this]
  | error e =>
    have h1 : Embed.okIn (resJson (traceJson F) (.error e)) = some none := by
      simp [Embed.okIn, resJson, List.lookup, show (Embed.kOk == Preproc.kErr) = false by decide]
    have h2 : (resJson (traceJson F) (.error e)).get Preproc.kErr = some (errorJson e) := by
      simp [resJson, Preproc.Json.get, List.lookup]
    simp only [reports, h1, h2, reportOf_error, Option.toList]

/-- **C125.** If the tool printed nothing, or only white space, the page reports its standard error, and nothing else. -/
theorem C125_blank {ws : Char → Bool} {reqs : List (Op × Serve.Request × Serve.Env)}
    {sched : List (Nat × Nat)} {i : Nat} {r : Serve.Reply} {op : Op} {req : Serve.Request} {env : Serve.Env}
    (hq : reqs[i]? = some (op, req, env)) (h : Serve.Answered (Serve.run ws sched (Serve.initial reqs)) i r)
    (hp : Serve.Prepared ws env) (src : Serve.Error → List Char) {out err : List Char} (hb : Serve.Blank ws out)
    (ht : Serve.ToolEnds op req env (.done (some out) (some err))) :
    reports op (look (sent op src r)) = [.stderr (some (.str err))] := by
  have hr := (Serve.C51_outputs hq h ⟨false, out, err⟩).2 ⟨hp, _, _, ht, rfl, rfl, by simp [hb]⟩
  rw [hr, look_ok]
  simp only [Bool.false_eq_true, if_false, reports]

/-- Looking at the result for a body throws: it is no object, or there is nothing under `Ok` and `Err`. -/
def Throws (j : Json) : Prop :=
  (∀ fs, j ≠ .obj fs) ∨ ∃ fs, j = .obj fs ∧ fs.lookup Embed.kOk = none ∧
    (fs.lookup Preproc.kErr = none ∨ fs.lookup Preproc.kErr = some .null)

/-- The report for the result of a body without `Ok`. -/
def oneReport : Json → Option Report
  | .obj fs => if fs.lookup Embed.kOk = none then (fs.lookup Preproc.kErr).bind (fun e => reportOf (some e)) else none
  | _ => none

theorem reportOf_none (e : Option Json) : reportOf e = none ↔ e = none ∨ e = some .null := by
  cases e with
  | none => simp [reportOf]
  | some j =>
    have key : (match tagOf j with
        | none => some Report.unknown
        | some t =>
          if t = tFileNotFound then some .fileNotFound
          else if t = tServerStderr then some (.stderr (prop j kError))
          else if t = Preproc.kBuildError then some .build
          else if t = vAnalysisError then some (.analysis (prop j fMsg))
          else some .unknown) ≠ none := by
      cases tagOf j with
      | none => simp
      | some t => dsimp only; (repeat' split) <;> simp
    cases j with
    | null => simp [reportOf]
    | _ => exact ⟨fun h => absurd h key, by simp⟩

/-- **C125.** Whatever an answer contains, the errors of the bodies before the first result that makes the page throw are
reported, in order, and no other one. -/
theorem C125_until (js : List Json) : ∃ pre post, js = pre ++ post ∧ (∀ j ∈ pre, ¬ Throws j) ∧
    (∀ j js, post = j :: js → Throws j) ∧ bodyReports js = pre.filterMap oneReport := by
  induction js with
  | nil => exact ⟨[], [], rfl, by simp, by simp, rfl⟩
  | cons j js ih =>
    have stop : Throws j → bodyReports (j :: js) = [] → ∃ pre post, j :: js = pre ++ post ∧ (∀ j ∈ pre, ¬ Throws j) ∧
        (∀ j js, post = j :: js → Throws j) ∧ bodyReports (j :: js) = pre.filterMap oneReport := by
      intro h1 h2
      refine ⟨[], j :: js, rfl, by simp, ?_, h2⟩
      intro j' js' he
      simp only [List.cons.injEq] at he
      exact he.1 ▸ h1
    have go : ¬ Throws j → bodyReports (j :: js) = (oneReport j).toList ++ bodyReports js →
        ∃ pre post, j :: js = pre ++ post ∧ (∀ j ∈ pre, ¬ Throws j) ∧
        (∀ j js, post = j :: js → Throws j) ∧ bodyReports (j :: js) = pre.filterMap oneReport := by
      intro h1 h2
      obtain ⟨pre, post, a, b, c, d⟩ := ih
      refine ⟨j :: pre, post, by rw [a]; rfl, ?_, c, ?_⟩
      · intro x hx
        rcases List.mem_cons.1 hx with rfl | hx
        · exact h1
        · exact b x hx
      · rw [h2, d]
        cases h : oneReport j with
        | none => rw [List.filterMap_cons_none h]; rfl
        | some r => rw [List.filterMap_cons_some h]; rfl
    cases j with
    | obj fs =>
      cases hok : fs.lookup Embed.kOk with
      | some v =>
        refine go ?_ ?_
        · rintro (h | ⟨fs', h, h', -⟩)
          · exact h fs rfl
          · cases h; rw [hok] at h'; simp at h'
        · simp [bodyReports, Embed.okIn, hok, oneReport]
      | none =>
        have hb : bodyReports (.obj fs :: js) = match reportOf (fs.lookup Preproc.kErr) with
            | none => []
            | some r => r :: bodyReports js := by
          rw [bodyReports]
          simp only [Embed.okIn, hok, Preproc.Json.get]
        cases hr : reportOf (fs.lookup Preproc.kErr) with
        | none =>
          rw [hr] at hb
          exact stop (.inr ⟨fs, rfl, hok, (reportOf_none _).1 hr⟩) hb
        | some r =>
          rw [hr] at hb
          refine go ?_ ?_
          · rintro (h | ⟨fs', h, -, h'⟩)
            · exact h fs rfl
            · cases h; rw [(reportOf_none _).2 h'] at hr; simp at hr
          · rw [hb]
            cases he : fs.lookup Preproc.kErr with
            | none => rw [he] at hr; simp [reportOf] at hr
            | some e => rw [he] at hr; simp [oneReport, hok, he, hr]
    | arr l => exact stop (.inl (by simp)) (by simp [bodyReports, Embed.okIn, Preproc.Json.get, reportOf])
    | _ => exact stop (.inl (by simp)) (by simp [bodyReports, Embed.okIn])

example : bodyReports [.obj [(Preproc.kErr, errorJson (.analysis ['a']))], .obj [(Preproc.kErr, .null)],
    .obj [(Preproc.kErr, errorJson (.analysis ['b']))]] = [.analysis (some (.str ['a']))] := rfl

/-- **C125** (the code does otherwise). If the analysis of several bodies fails, the page shows the card with the message of
the last one only, whatever it showed before. -/
theorem C125_several {es : List (Nat × Happening)} {T : Nat} {rs : List (Except WError WOutput)} {err : List Char} {m : List Char}
    (hl : (errors rs).getLast? = some (.analysis m)) :
    (shown (es ++ (Report.stderr (some (.str err)) :: (errors rs).map WError.report).map (fun r => (T, .report r))) T).msg =
      some (.str m) ∧
    (shown (es ++ (Report.stderr (some (.str err)) :: (errors rs).map WError.report).map (fun r => (T, .report r))) T).analysis =
      true := by
  obtain ⟨init, he⟩ := List.getLast?_eq_some_iff.1 hl
  constructor
  · rw [(C125_last _ _).1, he]
    simp [messages, WError.report]
  · refine (C125_analysis _ _).2 ⟨es ++ (Report.stderr (some (.str err)) :: init.map WError.report).map (fun r => (T, .report r)),
      T, some (.str m), [], ?_, by simp⟩
    rw [he]
    simp [WError.report]

/-- **C125** (the code does otherwise). A later answer without errors leaves the card of an earlier error. -/
theorem C125_stale {es : List (Nat × Happening)} {T : Nat} {rs : List (Except WError WOutput)} {err : List Char}
    (hn : errors rs = []) (h : (shown es T).analysis = true) :
    let s := shown (es ++ (Report.stderr (some (.str err)) :: (errors rs).map WError.report).map (fun r => (T, .report r))) T
    s.analysis = true ∧ s.msg = (shown es T).msg := by
  dsimp only
  rw [hn]
  constructor
  · obtain ⟨pre, t, m, post, rfl, hc⟩ := (C125_analysis es T).1 h
    refine (C125_analysis _ _).2 ⟨pre, t, m, post ++ [(T, .report (.stderr (some (.str err))))], by simp, fun x hx => ?_⟩
    rcases List.mem_append.1 hx with hx | hx
    · exact hc x hx
    · simp at hx
  · rw [(C125_last _ _).1, (C125_last _ _).1]
    simp [messages]

example : (shown [(0, .report (.analysis (some (.str ['a'])))), (0, .report (.analysis (some (.str ['b']))))] 1).msg =
    some (.str ['b']) := rfl

end Verif.Live
