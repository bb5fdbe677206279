import Verif.Serve.Leave
/-! # C139: clients that go away disturb nobody, but their programs run on -/
namespace Verif.Serve

/-! ## Specification -/

/-- The request gets this answer when it is the only one and its client stays. -/
def Alone (ws : Char → Bool) (q : Op × Request × Env) (r : Reply) : Prop :=
  ∃ sched, Answered (run ws sched (initial [q])) 0 r

/-- A client leaves while a program runs for it. -/
def hit (s : Sys) : Act → Nat
  | .leave i =>
    match s.jobs[i]? with
    | some j =>
      match j.phase with
      | .haveDir _ | .written _ => 1
      | _ => 0
    | none => 0
  | _ => 0

/-- How often that happens. -/
def hits (ws : Char → Bool) (s : Sys) : List Act → Nat
  | [] => 0
  | a :: as => hit s a + hits ws (act ws s a) as

/-! ## A request with another environment -/

theorem inv_env {ws : Char → Bool} {reqs : List (Op × Request × Env)} {s : Sys} (hI : Inv ws reqs s) {i : Nat} {j : Job}
    (hj : s.jobs[i]? = some j) {e : Env} (hok : PhaseOk ws s { j with env := e }) :
    Inv ws (reqs.set i (j.op, j.req, e)) { s with jobs := s.jobs.set i { j with env := e } } := by
  have hlt : i < s.jobs.length := (List.getElem?_eq_some_iff.1 hj).1
  have hget : ∀ (k : Nat) (q : Job), (s.jobs.set i { j with env := e })[k]? = some q ↔
      (k = i ∧ q = { j with env := e }) ∨ (k ≠ i ∧ s.jobs[k]? = some q) := by
    intro k q
    by_cases hk : k = i
    · subst hk
      rw [List.getElem?_set_self hlt]
      simp [eq_comm]
    · rw [List.getElem?_set_ne (Ne.symm hk)]
      simp [hk]
  have hback : ∀ (k : Nat) (q : Job), (s.jobs.set i { j with env := e })[k]? = some q →
      ∃ q', s.jobs[k]? = some q' ∧ q'.phase = q.phase := by
    intro k q h
    rcases (hget k q).1 h with ⟨rfl, rfl⟩ | ⟨_, h⟩
    · exact ⟨j, hj, rfl⟩
    · exact ⟨q, h, rfl⟩
  refine ⟨?_, hI.nodup, ?_, ?_, ?_, ?_⟩
  · rw [← hI.same, List.map_set]
  · intro d
    rw [hI.live d]
    constructor
    · rintro ⟨k, q, h, hd⟩
      by_cases hk : k = i
      · subst hk
        rw [hj] at h
        cases h
        exact ⟨k, _, (hget _ _).2 (.inl ⟨rfl, rfl⟩), hd⟩
      · exact ⟨k, q, (hget _ _).2 (.inr ⟨hk, h⟩), hd⟩
    · rintro ⟨k, q, h, hd⟩
      obtain ⟨q', h', hp⟩ := hback k q h
      exact ⟨k, q', h', by rw [hp]; exact hd⟩
  · intro k k' q q' d hk hk' hd hd'
    obtain ⟨a, ha, hpa⟩ := hback k q hk
    obtain ⟨b, hb, hpb⟩ := hback k' q' hk'
    exact hI.own _ _ _ _ d ha hb (by rw [hpa]; exact hd) (by rw [hpb]; exact hd')
  · intro k q hk
    rcases (hget k q).1 hk with ⟨rfl, rfl⟩ | ⟨_, h⟩
    · exact hok
    · exact hI.ok k q h
  · show s.orphans = _
    rw [hI.orphans, List.countP_set hlt]
    have hji : s.jobs[i] = j := by
      rw [List.getElem?_eq_getElem hlt] at hj
      exact Option.some.inj hj
    have ht : TimedOut { j with env := e } = TimedOut j := rfl
    have hle : (if TimedOut j = true then 1 else 0) ≤ s.jobs.countP TimedOut := by
      split
      · rename_i h
        exact List.countP_pos_iff.2 ⟨j, List.mem_of_getElem? hj, h⟩
      · exact Nat.zero_le _
    rw [hji, ht]
    omega

/-- For a request that is not answered there is an environment in which it would be dropped. -/
theorem exists_gone {ws : Char → Bool} {s : Sys} {j : Job} (hok : PhaseOk ws s j) (hp : ∀ r, j.phase ≠ .answered r) :
    ∃ e, PhaseOk ws s { j with env := e } ∧ expected ws j.op j.req e = .dropped := by
  have later : CargoOk ws j.env → expected ws j.op j.req
      { j.env with write := true, sysroot := true, tool := fun _ _ _ => .done none none } = .dropped := by
    rintro ⟨h1, out, err, h2, h3⟩
    simp [expected, h1, h2, h3]
  unfold PhaseOk at hok ⊢
  rcases hph : j.phase with _ | d | d | d | r <;> simp only [hph] at hok ⊢
  · exact ⟨⟨true, .done none none, true, true, fun _ _ _ => .failed⟩, trivial, rfl⟩
  · exact ⟨⟨true, .done none none, true, true, fun _ _ _ => .failed⟩, rfl, rfl⟩
  · exact ⟨{ j.env with write := true, sysroot := true, tool := fun _ _ _ => .done none none }, hok, later hok⟩
  · exact ⟨{ j.env with write := true, sysroot := true, tool := fun _ _ _ => .done none none }, ⟨hok.1, rfl, rfl, hok.2.2.2⟩,
      later hok.1⟩
  · exact absurd hph (hp r)

/-- The request is dropped and its directory removed. -/
theorem inv_drop {ws : Char → Bool} {reqs : List (Op × Request × Env)} {s : Sys} (hI : Inv ws reqs s) {i : Nat} {j : Job}
    (hj : s.jobs[i]? = some j) (hp : ∀ r, j.phase ≠ .answered r) (he : expected ws j.op j.req j.env = .dropped) :
    Inv ws reqs (s.set i j (.answered .dropped) (dropContainer s.files j.phase) 0) := by
  have hnt : TimedOut j = false := by
    unfold TimedOut
    split
    · rename_i h
      exact absurd h (hp _)
    · rfl
  refine inv_set hI hj _ _ _ ?_ ?_ (by simp [Phase.dir]) ?_ he.symm rfl hnt
  · unfold dropContainer
    split
    · rw [keys_remove]; exact hI.nodup.filter _
    · exact hI.nodup
  · intro d
    unfold dropContainer
    split
    · rename_i d' hd
      rw [keys_remove, List.mem_filter, hd]
      simp only [Phase.dir, reduceCtorEq, false_or, bne_iff_ne, ne_eq, Option.some.injEq]
      rw [eq_comm (a := d)]
    · rename_i hd
      rw [hd]
      simp [Phase.dir]
  · intro d _ hne
    unfold dropContainer
    split
    · rename_i d' hd
      exact file_remove _ (fun h => hne (h ▸ hd))
    · rfl

/-! ## The same server with other environments -/

/-- The same, except for the environments of those who left, and `n` more children. -/
structure Sim (left : List Nat) (n : Nat) (s g : Sys) : Prop where
  more : s.orphans = g.orphans + n
  files : s.files = g.files
  len : s.jobs.length = g.jobs.length
  stay : ∀ k, k ∉ left → s.jobs[k]? = g.jobs[k]?
  gone : ∀ k ∈ left, (∃ j, s.jobs[k]? = some j ∧ j.phase = .answered .dropped) ∧ ∃ j, g.jobs[k]? = some j ∧ j.phase = .answered .dropped

theorem sim_set {left : List Nat} {n : Nat} {s g : Sys} (h : Sim left n s g) {i : Nat} (hi : i ∉ left) (j : Job) (p : Phase)
    (f : List (Nat × Option Text)) (o : Nat) :
    Sim left n (s.set i j p f o) (g.set i j p f o) := by
  refine ⟨by simp only [Sys.set, h.more]; omega, rfl, by simp [Sys.set, h.len], fun k hk => ?_, fun k hk => ?_⟩
  · simp only [Sys.set, List.getElem?_set, h.len, h.stay k hk]
  · have : i ≠ k := fun e => hi (e ▸ hk)
    simp only [Sys.set, List.getElem?_set_ne this]
    exact h.gone k hk

theorem sim_step {ws : Char → Bool} {left : List Nat} {n : Nat} {s g s' : Sys} (h : Sim left n s g) {i d : Nat}
    (hs : step ws s i d = some s') : ∃ g', step ws g i d = some g' ∧ Sim left n s' g' := by
  have hi : i ∉ left := by
    intro hk
    obtain ⟨⟨j, hj, hp⟩, -⟩ := h.gone i hk
    simp [step, hj, hp] at hs
  have hfile : ∀ d, s.file d = g.file d := fun d => by unfold Sys.file; rw [h.files]
  unfold step at hs ⊢
  rw [← h.stay i hi]
  cases hj : s.jobs[i]? with
  | none => rw [hj] at hs; exact absurd hs (by simp)
  | some j =>
    rw [hj] at hs
    simp only at hs ⊢
    cases hp : j.phase with
    | start =>
      rw [hp] at hs
      simp only [← h.files] at hs ⊢
      split at hs
      · exact absurd hs (by simp)
      · rename_i hn
        rw [if_neg hn]
        cases hs
        refine ⟨_, rfl, ?_⟩
        unfold stepStart
        rw [← h.files]
        split <;> exact sim_set h hi _ _ _ _
    | haveDir d' =>
      rw [hp] at hs
      cases hs
      refine ⟨_, rfl, ?_⟩
      unfold stepCargo
      rw [← h.files]
      split
      · exact sim_set h hi _ _ _ _
      · exact sim_set h hi _ _ _ _
      · split <;> exact sim_set h hi _ _ _ _
      · exact sim_set h hi _ _ _ _
    | project d' =>
      rw [hp] at hs
      cases hs
      refine ⟨_, rfl, ?_⟩
      unfold stepWrite
      rw [← h.files]
      split
      · split <;> exact sim_set h hi _ _ _ _
      · exact sim_set h hi _ _ _ _
    | written d' =>
      rw [hp] at hs
      cases hs
      refine ⟨_, rfl, ?_⟩
      unfold stepRun
      rw [← h.files, ← hfile]
      split <;> exact sim_set h hi _ _ _ _
    | answered r =>
      rw [hp] at hs
      exact absurd hs (by simp)

/-- What is known after any acts. -/
def Good (ws : Char → Bool) (reqs : List (Op × Request × Env)) (left : List Nat) (n : Nat) (s : Sys) : Prop :=
  ∃ reqs' g, Inv ws reqs' g ∧ Sim left n s g ∧ ∀ k, k ∉ left → reqs'[k]? = reqs[k]?

theorem good_act {ws : Char → Bool} {reqs : List (Op × Request × Env)} {left : List Nat} {n : Nat} {s : Sys} (h : Good ws reqs left n s)
    (a : Act) : ∃ left', Good ws reqs left' (n + hit s a) (act ws s a) ∧ ∀ k ∈ left', k ∈ left ∨ a = .leave k := by
  obtain ⟨reqs', g, hI, hS, hr⟩ := h
  cases a with
  | part i d =>
    refine ⟨left, ?_, fun k hk => .inl hk⟩
    cases hs : step ws s i d with
    | none => exact ⟨reqs', g, hI, by simpa [act, hs, hit] using hS, hr⟩
    | some s' =>
      obtain ⟨g', hg, hS'⟩ := sim_step hS hs
      exact ⟨reqs', g', inv_step hI hg, by simpa [act, hs, hit] using hS', hr⟩
  | leave i =>
    have same : leave s i = s → hit s (.leave i) = 0 → ∃ left', Good ws reqs left' (n + hit s (.leave i)) (act ws s (.leave i)) ∧
        ∀ k ∈ left', k ∈ left ∨ Act.leave i = .leave k :=
      fun e e' => ⟨left, ⟨reqs', g, hI, by rw [act, e, e']; exact hS, hr⟩, fun k hk => .inl hk⟩
    cases hj : s.jobs[i]? with
    | none => exact same (by simp [leave, hj]) (by simp [hit, hj])
    | some j =>
      by_cases hp : ∃ r, j.phase = .answered r
      · obtain ⟨r, hp⟩ := hp
        exact same (by simp [leave, hj, hp]) (by simp [hit, hj, hp])
      · have hp' : ∀ r, j.phase ≠ .answered r := fun r q => hp ⟨r, q⟩
        have hi : i ∉ left := by
          intro hk
          obtain ⟨⟨j', hj', hq⟩, -⟩ := hS.gone i hk
          rw [hj] at hj'
          cases hj'
          exact hp' _ hq
        have hg : g.jobs[i]? = some j := (hS.stay i hi).symm.trans hj
        have hlt := (List.getElem?_eq_some_iff.1 hg).1
        obtain ⟨e, hok, hd⟩ := exists_gone (hI.ok i j hg) hp'
        have h1 := inv_env hI hg hok
        have h2 := inv_drop (j := { j with env := e }) h1 (List.getElem?_set_self hlt) hp' hd
        have hl : leave s i = s.set i j (.answered .dropped) (dropContainer s.files j.phase) j.phase.children := by
          unfold leave
          rw [hj]
          cases hq : j.phase with
          | answered r => exact absurd hq (hp' r)
          | _ => simp [hq]
        refine ⟨i :: left, ⟨_, _, h2, ?_, ?_⟩, ?_⟩
        · rw [act, hl]
          have hh : hit s (.leave i) = j.phase.children := by
            simp only [hit, hj]
            cases hq : j.phase <;> simp [Phase.children]
          refine ⟨by simp only [Sys.set, hS.more, hh]; omega, by simp only [Sys.set, hS.files], by simp [Sys.set, hS.len], fun k hk => ?_, fun k hk => ?_⟩
          · rw [List.mem_cons, not_or] at hk
            simp only [Sys.set, List.getElem?_set_ne (Ne.symm hk.1)]
            exact hS.stay k hk.2
          · by_cases hki : k = i
            · subst hki
              constructor
              · refine ⟨{ j with phase := .answered .dropped }, ?_, rfl⟩
                simp only [Sys.set]
                rw [List.getElem?_set_self (by rw [hS.len]; exact hlt)]
              · refine ⟨{ j with env := e, phase := .answered .dropped }, ?_, rfl⟩
                simp only [Sys.set]
                rw [List.getElem?_set_self (by rw [List.length_set]; exact hlt)]
            · simp only [Sys.set, List.getElem?_set_ne (Ne.symm hki)]
              exact hS.gone k ((List.mem_cons.1 hk).resolve_left hki)
        · intro k hk
          rw [List.mem_cons, not_or] at hk
          rw [List.getElem?_set_ne (Ne.symm hk.1)]
          exact hr k hk.2
        · intro k hk
          rcases List.mem_cons.1 hk with rfl | hk
          · exact .inr rfl
          · exact .inl hk

theorem good_run {ws : Char → Bool} {reqs : List (Op × Request × Env)} : ∀ (as : List Act) {left : List Nat} {n : Nat} {s : Sys},
    Good ws reqs left n s → ∃ left', Good ws reqs left' (n + hits ws s as) (runActs ws as s) ∧ ∀ k ∈ left', k ∈ left ∨ .leave k ∈ as
  | [], left, n, s, h => ⟨left, h, fun k hk => .inl hk⟩
  | a :: as, left, n, s, h => by
    obtain ⟨l1, h1, k1⟩ := good_act h a
    obtain ⟨l2, h2, k2⟩ := good_run as h1
    refine ⟨l2, by rw [Nat.add_assoc] at h2; exact h2, fun k hk => ?_⟩
    rcases k2 k hk with q | q
    · rcases k1 k q with q | q
      · exact .inl q
      · exact .inr (by rw [q]; exact List.mem_cons_self)
    · exact .inr (List.mem_cons_of_mem _ q)

theorem good_initial (ws : Char → Bool) (reqs : List (Op × Request × Env)) : Good ws reqs [] 0 (initial reqs) :=
  ⟨reqs, _, inv_initial ws reqs, ⟨rfl, rfl, rfl, fun _ _ => rfl, by simp⟩, fun _ _ => rfl⟩

/-- **C139 (others).** Whoever goes away and when: a request whose client stays is answered as if it were alone; one whose client
leaves gets that answer, or none. -/
theorem C139_alone {ws : Char → Bool} {reqs : List (Op × Request × Env)} {as : List Act} {i : Nat} {r : Reply}
    {q : Op × Request × Env} (hq : reqs[i]? = some q) (h : Answered (runActs ws as (initial reqs)) i r) :
    Alone ws q r ∨ (.leave i ∈ as ∧ r = .dropped) := by
  obtain ⟨left, ⟨reqs', g, hI, hS, hr⟩, hl⟩ := good_run as (good_initial ws reqs)
  obtain ⟨j, hj, hp⟩ := h
  by_cases hi : i ∈ left
  · obtain ⟨⟨j', hj', hp'⟩, -⟩ := hS.gone i hi
    rw [hj] at hj'
    cases hj'
    rw [hp] at hp'
    cases hp'
    exact .inr ⟨(hl i hi).resolve_left (by simp), rfl⟩
  · rw [hS.stay i hi] at hj
    have hok := hI.ok i j hj
    simp only [PhaseOk, hp] at hok
    have he : reqs'[i]? = some (j.op, j.req, j.env) := by
      rw [← hI.same, List.getElem?_map, hj]
      rfl
    rw [hr i hi, hq] at he
    cases he
    obtain ⟨more, hm⟩ := C51_answers ws [(j.op, j.req, j.env)] []
    obtain ⟨r', hr'⟩ := hm 0 (by simp)
    obtain ⟨q', hq', e⟩ := answered_expected hr'
    cases hq'
    refine .inl ⟨[] ++ more, ?_⟩
    rw [hok]
    rw [e] at hr'
    exact hr'

theorem runActs_length (ws : Char → Bool) : ∀ (as : List Act) (s : Sys), (runActs ws as s).jobs.length = s.jobs.length := by
  intro as
  induction as with
  | nil => intro s; rfl
  | cons a as ih =>
    intro s
    show (runActs ws as (act ws s a)).jobs.length = _
    rw [ih]
    cases a with
    | part i d =>
      cases hs : step ws s i d with
      | none => simp [act, hs]
      | some s' =>
        simp only [act, hs, Option.getD_some]
        unfold step at hs
        split at hs
        · exact absurd hs (by simp)
        · split at hs
          · split at hs
            · exact absurd hs (by simp)
            · cases hs
              unfold stepStart
              split <;> simp [Sys.set]
          · cases hs
            unfold stepCargo
            split
            · simp [Sys.set]
            · simp [Sys.set]
            · split <;> simp [Sys.set]
            · simp [Sys.set]
          · cases hs
            unfold stepWrite
            split
            · split <;> simp [Sys.set]
            · simp [Sys.set]
          · cases hs
            unfold stepRun
            split <;> simp [Sys.set]
          · exact absurd hs (by simp)
    | leave i =>
      simp only [act, leave]
      split
      · rfl
      · split
        · rfl
        · simp [Sys.set]

/-- **C139 (directories).** When every request has been answered or its client has left, no directory remains. -/
theorem C139_clean {ws : Char → Bool} {reqs : List (Op × Request × Env)} {as : List Act}
    (h : ∀ i < reqs.length, (∃ r, Answered (runActs ws as (initial reqs)) i r)) :
    (runActs ws as (initial reqs)).files = [] := by
  obtain ⟨left, ⟨reqs', g, hI, hS, hr⟩, hl⟩ := good_run as (good_initial ws reqs)
  have hn : g.jobs.length = reqs.length := by
    rw [← hS.len, runActs_length]
    simp [initial]
  rw [hS.files]
  rcases hf : g.files with _ | ⟨f, r⟩
  · rfl
  · exfalso
    obtain ⟨i, j, hj, hd⟩ := (hI.live f.1).1 (by rw [hf]; simp)
    have hi : i < reqs.length := by
      rw [← hn]
      exact (List.getElem?_eq_some_iff.1 hj).1
    have hans : ∃ r, j.phase = .answered r := by
      by_cases hk : i ∈ left
      · obtain ⟨-, j', hj', hp'⟩ := hS.gone i hk
        rw [hj] at hj'
        cases hj'
        exact ⟨_, hp'⟩
      · obtain ⟨r, j', hj', hp'⟩ := h i hi
        rw [hS.stay i hk, hj] at hj'
        cases hj'
        exact ⟨r, hp'⟩
    obtain ⟨r, hp⟩ := hans
    rw [hp] at hd
    exact absurd hd (by simp [Phase.dir])

theorem exists_more (ws : Char → Bool) : ∀ (n : Nat) (s : Sys), work s ≤ n →
    ∃ more, (∀ a ∈ more, ∃ i d, a = Act.part i d) ∧ ∀ i < s.jobs.length, ∃ r, Answered (runActs ws more s) i r := by
  intro n
  induction n with
  | zero =>
    intro s hw
    refine ⟨[], by simp, fun i hi => ?_⟩
    have hj : s.jobs[i]? = some s.jobs[i] := List.getElem?_eq_getElem hi
    rcases hp : s.jobs[i].phase with _ | d' | d' | d' | r
    case answered => exact ⟨r, _, hj, hp⟩
    all_goals
      obtain ⟨_, _, _, h⟩ := step_progress ws s hj (by rw [hp]; simp)
      omega
  | succ n ih =>
    intro s hw
    by_cases hall : ∀ i < s.jobs.length, ∃ r, Answered s i r
    · exact ⟨[], by simp, hall⟩
    · obtain ⟨i, hi⟩ := Classical.not_forall.1 hall
      obtain ⟨hi, hna⟩ := Classical.not_imp.1 hi
      have hj : s.jobs[i]? = some s.jobs[i] := List.getElem?_eq_getElem hi
      obtain ⟨d, s', hs, hlt⟩ := step_progress ws s hj (fun r hr => hna ⟨r, _, hj, hr⟩)
      have hact : act ws s (.part i d) = s' := by simp [act, hs]
      obtain ⟨more, hm1, hm2⟩ := ih s' (by omega)
      refine ⟨.part i d :: more, ?_, ?_⟩
      · intro a ha
        rcases List.mem_cons.1 ha with rfl | ha
        · exact ⟨i, d, rfl⟩
        · exact hm1 a ha
      · intro k hk
        have hl : s'.jobs.length = s.jobs.length := by
          have := runActs_length ws [.part i d] s
          rw [← hact]
          exact this
        show ∃ r, Answered (runActs ws more (act ws s (.part i d))) k r
        rw [hact]
        exact hm2 k (by omega)

/-- **C139 (goes on).** Whoever has left, all the others can still be answered, without anybody else leaving. -/
theorem C139_answers (ws : Char → Bool) (reqs : List (Op × Request × Env)) (as : List Act) :
    ∃ more, (∀ a ∈ more, ∃ i d, a = Act.part i d) ∧
      ∀ i < reqs.length, ∃ r, Answered (runActs ws (as ++ more) (initial reqs)) i r := by
  obtain ⟨more, h1, h2⟩ := exists_more ws _ (runActs ws as (initial reqs)) (Nat.le_refl _)
  refine ⟨more, h1, fun i hi => ?_⟩
  have := h2 i (by rw [runActs_length]; simpa [initial] using hi)
  simpa [runActs, List.foldl_append] using this

theorem runActs_leave (ws : Char → Bool) (as : List Act) (i : Nat) (s : Sys) :
    runActs ws (as ++ [.leave i]) s = leave (runActs ws as s) i := by
  simp [runActs, act]

/-- **C139 (at once).** When a client leaves, its request is over and its directory is gone. -/
theorem C139_at_once (ws : Char → Bool) (as : List Act) {s₀ s s' : Sys} (hs : runActs ws as s₀ = s) {i : Nat}
    (hs' : runActs ws (as ++ [.leave i]) s₀ = s') {j : Job} (hj : s.jobs[i]? = some j) :
    (∃ r, Answered s' i r) ∧ ∀ d, j.phase.dir = some d → d ∉ s'.files.map (·.1) := by
  have hlt := (List.getElem?_eq_some_iff.1 hj).1
  rw [runActs_leave, hs] at hs'
  subst hs'
  unfold leave
  rw [hj]
  simp only
  split
  · rename_i r hp
    exact ⟨⟨r, j, hj, hp⟩, fun d hd => absurd hd (by rw [hp]; simp [Phase.dir])⟩
  · refine ⟨⟨.dropped, { j with phase := .answered .dropped }, by simp only [Sys.set]; rw [List.getElem?_set_self hlt], rfl⟩,
      fun d hd => ?_⟩
    simp only [Sys.set, dropContainer, hd, keys_remove]
    simp

/-- **C139 is false: programs run on, exactly.** What runs on is one program for each request that took too long and one for each
client that left while a program ran for it. -/
theorem C139_processes (ws : Char → Bool) (reqs : List (Op × Request × Env)) (as : List Act) :
    (runActs ws as (initial reqs)).orphans =
      (runActs ws as (initial reqs)).jobs.countP TimedOut + hits ws (initial reqs) as := by
  obtain ⟨left, ⟨reqs', g, hI, hS, hr⟩, hl⟩ := good_run as (good_initial ws reqs)
  rw [hS.more, hI.orphans, Nat.zero_add]
  congr 1
  have key : (runActs ws as (initial reqs)).jobs.map TimedOut = g.jobs.map TimedOut := by
    apply List.ext_getElem?
    intro k
    rw [List.getElem?_map, List.getElem?_map]
    by_cases hk : k ∈ left
    · obtain ⟨⟨j, hj, hp⟩, j', hj', hp'⟩ := hS.gone k hk
      rw [hj, hj']
      simp [TimedOut, hp, hp']
    · rw [hS.stay k hk]
  have cnt : ∀ l : List Job, l.countP TimedOut = (l.map TimedOut).countP id := fun l => by
    rw [List.countP_map]
    rfl
  rw [cnt, cnt, key]

/-- **C139 is false: programs run on.** When a client leaves while `cargo new` or the tool runs, nobody stops it. -/
theorem C139_runs_on (ws : Char → Bool) (as : List Act) {s₀ s s' : Sys} (hs : runActs ws as s₀ = s) {i : Nat}
    (hs' : runActs ws (as ++ [.leave i]) s₀ = s') {d : Nat} {j : Job} (hj : s.jobs[i]? = some j)
    (hp : j.phase = .haveDir d ∨ j.phase = .written d) : s'.orphans = s.orphans + 1 := by
  rw [runActs_leave, hs] at hs'
  subst hs'
  unfold leave
  rw [hj]
  rcases hp with hp | hp <;> simp [hp, Sys.set, Phase.children]

/-- Two requests; the client of the first leaves while its tool runs. -/
def Example.left : Sys := runActs isSpace [.part 0 0, .part 0 0, .part 1 1, .part 0 0, .leave 0, .part 1 0, .part 1 0, .part 1 0]
  (initial [(.permissions, ⟨['a'], none⟩, echoEnv), (.permissions, ⟨['b'], none⟩, echoEnv)])

/-- The second is answered; nothing remains but the tool. -/
example : Answered Example.left 0 .dropped ∧ Answered Example.left 1 (.ok ⟨true, ['b'], []⟩) ∧ Example.left.files = [] ∧
    Example.left.orphans = 1 :=
  ⟨⟨_, rfl, by decide⟩, ⟨_, rfl, by decide⟩, by decide, by decide⟩

#guard hits isSpace (initial [(.permissions, ⟨['a'], none⟩, echoEnv)]) [.part 0 0, .part 0 0, .part 0 0, .leave 0, .leave 0] = 1
#guard hits isSpace (initial [(.permissions, ⟨['a'], none⟩, echoEnv)]) [.leave 0, .part 0 0] = 0

end Verif.Serve
