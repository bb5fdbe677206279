import Verif.Serve.Spec
/-!
# C51: the playground server
-/
namespace Verif.Serve

theorem dropWhile_nil {p : Char → Bool} {s : Text} : s.dropWhile p = [] ↔ ∀ c ∈ s, p c = true := by
  induction s with
  | nil => simp
  | cons c r ih =>
    by_cases h : p c = true
    · simp [List.dropWhile_cons_of_pos h, ih, h]
    · simp [List.dropWhile_cons_of_neg h, h]

theorem trim_empty (ws : Char → Bool) (s : Text) : (trim ws s).isEmpty = true ↔ Blank ws s := by
  unfold trim Blank
  rw [List.isEmpty_iff, List.reverse_eq_nil_iff, dropWhile_nil]
  constructor
  · intro h c hc
    rcases hd : s.dropWhile ws with _ | ⟨a, r⟩
    · exact dropWhile_nil.1 hd c hc
    · exfalso
      have ha : ws a = false := by
        have := List.head?_dropWhile_not ws s
        rw [hd] at this
        simpa using this
      have := h a (by rw [hd]; simp)
      rw [ha] at this
      exact absurd this (by simp)
  · intro h c hc
    rw [List.mem_reverse] at hc
    exact h c ((List.dropWhile_sublist ws).mem hc)

/-- The answer to a request alone on the machine. -/
def expected (ws : Char → Bool) (op : Op) (req : Request) (env : Env) : Reply :=
  if env.tempdir then
    match env.cargoNew with
    | .failed => .error true .exec
    | .timeout => .error true .timedOut
    | .done (some _) (some err) =>
      if (trim ws err).isEmpty then
        if env.write then
          if env.sysroot then
            match env.tool op (flag op req) (some req.code) with
            | .failed => .error false .exec
            | .timeout => .error false .timedOut
            | .done (some out) (some err) => .ok ⟨!(trim ws out).isEmpty, out, err⟩
            | .done _ _ => .dropped
          else .error false .misc
        else .error false .writeFile
      else .dropped
    | .done _ _ => .dropped
  else .error true .tempdir

def CargoOk (ws : Char → Bool) (e : Env) : Prop :=
  e.tempdir = true ∧ ∃ out err, e.cargoNew = .done (some out) (some err) ∧ (trim ws err).isEmpty = true

/-- What is known of a request at each phase. -/
def PhaseOk (ws : Char → Bool) (s : Sys) (j : Job) : Prop :=
  match j.phase with
  | .start => True
  | .haveDir _ => j.env.tempdir = true
  | .project _ => CargoOk ws j.env
  | .written d => CargoOk ws j.env ∧ j.env.write = true ∧ j.env.sysroot = true ∧ s.file d = some j.req.code
  | .answered r => r = expected ws j.op j.req j.env

def TimedOut (j : Job) : Bool :=
  match j.phase with
  | .answered (.error _ .timedOut) => true
  | _ => false

structure Inv (ws : Char → Bool) (reqs : List (Op × Request × Env)) (s : Sys) : Prop where
  same : s.jobs.map (fun j => (j.op, j.req, j.env)) = reqs
  nodup : (s.files.map (·.1)).Nodup
  live : ∀ d, d ∈ s.files.map (·.1) ↔ ∃ (i : Nat) (j : Job), s.jobs[i]? = some j ∧ j.phase.dir = some d
  own : ∀ (i i' : Nat) (j j' : Job) d, s.jobs[i]? = some j → s.jobs[i']? = some j' → j.phase.dir = some d →
    j'.phase.dir = some d → i = i'
  ok : ∀ (i : Nat) (j : Job), s.jobs[i]? = some j → PhaseOk ws s j
  orphans : s.orphans = s.jobs.countP TimedOut

theorem inv_initial (ws : Char → Bool) (reqs : List (Op × Request × Env)) : Inv ws reqs (initial reqs) := by
  have hj : ∀ (i : Nat) (j : Job), (initial reqs).jobs[i]? = some j → j.phase = .start := by
    intro i j h
    simp only [initial, List.getElem?_map, Option.map_eq_some_iff] at h
    obtain ⟨q, _, rfl⟩ := h
    rfl
  refine ⟨?_, by simp [initial], ?_, ?_, ?_, ?_⟩
  · simp only [initial, List.map_map]
    exact List.map_id' _
  · intro d
    constructor
    · intro h; exact absurd h (by simp [initial])
    · rintro ⟨i, j, h, hd⟩
      rw [hj i j h] at hd
      exact absurd hd (by simp [Phase.dir])
  · intro i i' j j' d h _ hd
    rw [hj i j h] at hd
    exact absurd hd (by simp [Phase.dir])
  · intro i j h
    simp [PhaseOk, hj i j h]
  · simp only [initial]
    rw [eq_comm, List.countP_eq_zero]
    intro j hj'
    obtain ⟨q, _, rfl⟩ := List.mem_map.1 hj'
    simp [TimedOut]

/-! ### Files -/

theorem file_remove (files : List (Nat × Option Text)) {d d' : Nat} (h : d' ≠ d) :
    (remove files d).find? (fun f => f.1 == d') = files.find? (fun f => f.1 == d') := by
  unfold remove
  rw [List.find?_filter]
  congr 1
  funext f
  by_cases hf : f.1 = d' <;> simp [hf, h]

theorem file_write_ne (files : List (Nat × Option Text)) {d d' : Nat} (t : Text) (h : d' ≠ d) :
    (write files d t).find? (fun f => f.1 == d') = files.find? (fun f => f.1 == d') := by
  unfold write
  induction files with
  | nil => rfl
  | cons f r ih =>
    simp only [List.map_cons, List.find?_cons]
    by_cases hf : f.1 = d
    · have h1 : (f.1 == d) = true := by simpa using hf
      have h2 : (f.1 == d') = false := by simp [hf, Ne.symm h]
      have h3 : (d == d') = false := by simp [Ne.symm h]
      simp only [h1, if_true, h2, h3, ih]
    · have h1 : (f.1 == d) = false := by simpa using hf
      simp only [h1, Bool.false_eq_true, if_false, ih]

theorem file_write_eq (files : List (Nat × Option Text)) {d : Nat} (t : Text) (h : d ∈ files.map (·.1)) :
    (write files d t).find? (fun f => f.1 == d) = some (d, some t) := by
  unfold write
  induction files with
  | nil => simp at h
  | cons f r ih =>
    simp only [List.map_cons, List.find?_cons]
    by_cases hf : f.1 = d
    · have h1 : (f.1 == d) = true := by simpa using hf
      simp only [h1, if_true]
      simp
    · have h1 : (f.1 == d) = false := by simpa using hf
      simp only [h1, Bool.false_eq_true, if_false]
      exact ih (by
        rcases List.mem_cons.1 h with h | h
        · exact absurd h.symm hf
        · exact h)

theorem keys_write (files : List (Nat × Option Text)) (d : Nat) (t : Text) :
    (write files d t).map (·.1) = files.map (·.1) := by
  unfold write
  rw [List.map_map]
  apply List.map_congr_left
  intro f _
  by_cases hf : f.1 = d <;> simp [hf]

theorem keys_remove (files : List (Nat × Option Text)) (d : Nat) :
    (remove files d).map (·.1) = (files.map (·.1)).filter (· != d) := by
  unfold remove
  rw [List.filter_map]
  rfl

/-! ### One part of a request -/

/-- The common part: request `i` goes to phase `p`, and the files of the others do not change. -/
theorem inv_set {ws : Char → Bool} {reqs : List (Op × Request × Env)} {s : Sys} (hI : Inv ws reqs s) {i : Nat}
    {j : Job} (hj : s.jobs[i]? = some j) (p : Phase) (files : List (Nat × Option Text)) (o : Nat)
    (hnd : (files.map (·.1)).Nodup)
    (hlive : ∀ d, d ∈ files.map (·.1) ↔ p.dir = some d ∨ (d ∈ s.files.map (·.1) ∧ j.phase.dir ≠ some d))
    (hfresh : ∀ d, p.dir = some d → j.phase.dir = some d ∨ d ∉ s.files.map (·.1))
    (hfile : ∀ d, d ∈ s.files.map (·.1) → j.phase.dir ≠ some d →
      files.find? (fun f => f.1 == d) = s.files.find? (fun f => f.1 == d))
    (hok : PhaseOk ws (s.set i j p files o) { j with phase := p })
    (hto : o = if TimedOut { j with phase := p } then 1 else 0) (hnt : TimedOut j = false) :
    Inv ws reqs (s.set i j p files o) := by
  have hlt : i < s.jobs.length := by
    rcases Nat.lt_or_ge i s.jobs.length with h | h
    · exact h
    · rw [List.getElem?_eq_none h] at hj; exact absurd hj (by simp)
  have hget : ∀ (k : Nat) (q : Job), (s.set i j p files o).jobs[k]? = some q ↔
      (k = i ∧ q = { j with phase := p }) ∨ (k ≠ i ∧ s.jobs[k]? = some q) := by
    intro k q
    simp only [Sys.set]
    by_cases hk : k = i
    · subst hk
      rw [List.getElem?_set_self hlt]
      simp [eq_comm]
    · rw [List.getElem?_set_ne (Ne.symm hk)]
      simp [hk]
  refine ⟨?_, hnd, ?_, ?_, ?_, ?_⟩
  · rw [← hI.same]
    simp only [Sys.set]
    rw [List.map_set]
    apply List.ext_getElem?
    intro k
    by_cases hk : k = i
    · subst hk
      rw [List.getElem?_set_self (by simpa using hlt), List.getElem?_map, hj]
      rfl
    · rw [List.getElem?_set_ne (Ne.symm hk)]
  · intro d
    have : (s.set i j p files o).files = files := rfl
    rw [this, hlive]
    constructor
    · rintro (h | ⟨h, hne⟩)
      · exact ⟨i, _, (hget _ _).2 (.inl ⟨rfl, rfl⟩), h⟩
      · obtain ⟨k, q, hk, hd⟩ := (hI.live d).1 h
        refine ⟨k, q, (hget _ _).2 (.inr ⟨?_, hk⟩), hd⟩
        rintro rfl
        rw [hj] at hk
        cases hk
        exact hne hd
    · rintro ⟨k, q, hk, hd⟩
      rcases (hget _ _).1 hk with ⟨rfl, rfl⟩ | ⟨hne, hk⟩
      · exact .inl hd
      · refine .inr ⟨(hI.live d).2 ⟨k, q, hk, hd⟩, fun h => hne (hI.own _ _ _ _ d hk hj hd h)⟩
  · intro k k' q q' d hk hk' hd hd'
    have other : ∀ (k : Nat) (q : Job), k ≠ i → s.jobs[k]? = some q → q.phase.dir = some d → p.dir = some d →
        False := by
      intro k q hne hk hd hp
      rcases hfresh d hp with h | h
      · exact hne (hI.own _ _ _ _ d hk hj hd h)
      · exact h ((hI.live d).2 ⟨k, q, hk, hd⟩)
    rcases (hget _ _).1 hk with ⟨h1, h2⟩ | ⟨hne, hk1⟩ <;> rcases (hget _ _).1 hk' with ⟨h3, h4⟩ | ⟨hne', hk2⟩
    · exact h1.trans h3.symm
    · subst h2
      exact absurd (other _ _ hne' hk2 hd' hd) (by simp)
    · subst h4
      exact absurd (other _ _ hne hk1 hd hd') (by simp)
    · exact hI.own _ _ _ _ d hk1 hk2 hd hd'
  · intro k q hk
    rcases (hget _ _).1 hk with ⟨rfl, rfl⟩ | ⟨hne, hk⟩
    · exact hok
    · have := hI.ok k q hk
      unfold PhaseOk at this ⊢
      rcases hp : q.phase with _ | d | d | d | r <;> simp only [hp] at this ⊢
      · exact this
      · exact this
      · refine ⟨this.1, this.2.1, this.2.2.1, ?_⟩
        rw [← this.2.2.2]
        have hmem : d ∈ s.files.map (·.1) := (hI.live d).2 ⟨k, q, hk, by rw [hp]; rfl⟩
        have hne' : j.phase.dir ≠ some d := fun h => hne (hI.own _ _ _ _ d hk hj (by rw [hp]; rfl) h)
        unfold Sys.file
        have : (s.set i j p files o).files = files := rfl
        rw [this, hfile d hmem hne']
      · exact this
  · simp only [Sys.set]
    rw [hI.orphans, List.countP_set hlt]
    have hji : s.jobs[i] = j := by
      rw [List.getElem?_eq_getElem hlt] at hj
      exact Option.some.inj hj
    rw [hji, hnt, hto]
    simp

theorem inv_step {ws : Char → Bool} {reqs : List (Op × Request × Env)} {s s' : Sys} (hI : Inv ws reqs s)
    {i d : Nat} (h : step ws s i d = some s') : Inv ws reqs s' := by
  unfold step at h
  rcases hj : s.jobs[i]? with _ | j
  · rw [hj] at h; exact absurd h (by simp)
  rw [hj] at h
  dsimp only at h
  have hok := hI.ok i j hj
  have hremove : ∀ d, j.phase.dir = some d → ∀ r o, PhaseOk ws s { j with phase := .answered r } →
      o = (if TimedOut { j with phase := .answered r } then 1 else 0) → TimedOut j = false →
      Inv ws reqs (s.set i j (.answered r) (remove s.files d) o) := by
    intro d hd r o hr ho hnt
    refine inv_set hI hj _ _ _ ?_ ?_ (by simp [Phase.dir]) ?_ hr ho hnt
    · rw [keys_remove]; exact hI.nodup.filter _
    · intro d'
      rw [keys_remove, List.mem_filter, hd]
      simp only [Phase.dir, reduceCtorEq, false_or, bne_iff_ne, ne_eq, Option.some.injEq]
      rw [eq_comm (a := d')]
    · intro d' _ hne
      exact file_remove _ (fun h => hne (h ▸ hd))
  have hwrite : ∀ d, j.phase.dir = some d → ∀ p t, p.dir = some d →
      PhaseOk ws (s.set i j p (write s.files d t) 0) { j with phase := p } → TimedOut { j with phase := p } = false →
      TimedOut j = false → Inv ws reqs (s.set i j p (write s.files d t)) := by
    intro d hd p t hp hr ho hnt
    refine inv_set hI hj _ _ _ ?_ ?_ ?_ ?_ hr (by rw [ho]; rfl) hnt
    · rw [keys_write]; exact hI.nodup
    · intro d'
      rw [keys_write, hp, hd]
      by_cases hdd : d = d'
      · subst hdd
        simp only [true_or, iff_true]
        exact (hI.live d).2 ⟨i, j, hj, hd⟩
      · simp [hdd]
    · intro d' hd'
      rw [hp] at hd'; rw [hd]
      exact .inl hd'
    · intro d' _ hne
      exact file_write_ne _ _ (fun h => hne (h ▸ hd))
  rcases hp : j.phase with _ | d' | d' | d' | r <;> rw [hp] at h <;> simp only at h
  · have hnt : TimedOut j = false := by simp [TimedOut, hp]
    split at h
    · exact absurd h (by simp)
    · rename_i hfree
      rw [Option.some.injEq] at h
      subst h
      have hfree : d ∉ s.files.map (·.1) := by
        intro hm
        obtain ⟨f, hf, rfl⟩ := List.mem_map.1 hm
        exact hfree (List.any_eq_true.2 ⟨f, hf, by simp⟩)
      unfold stepStart
      split
      · rename_i ht
        refine inv_set hI hj _ _ _ ?_ ?_ ?_ ?_ ?_ (by simp [TimedOut]) hnt
        · rw [List.map_cons, List.nodup_cons]; exact ⟨hfree, hI.nodup⟩
        · intro d'
          rw [hp]
          simp [Phase.dir, eq_comm]
        · intro d' hd'
          simp only [Phase.dir, Option.some.injEq] at hd'
          exact .inr (hd' ▸ hfree)
        · intro d' hd' _
          rw [List.find?_cons]
          have : (d == d') = false := by
            simp only [beq_eq_false_iff_ne, ne_eq]
            rintro rfl
            exact hfree hd'
          simp [this]
        · simp [PhaseOk, ht]
      · rename_i ht
        refine inv_set hI hj _ _ _ hI.nodup ?_ (by simp [Phase.dir]) (fun _ _ _ => rfl) ?_ (by simp [TimedOut]) hnt
        · intro d'
          rw [hp]
          simp [Phase.dir]
        · simp [PhaseOk, expected, ht]
  · have hnt : TimedOut j = false := by simp [TimedOut, hp]
    have hd : j.phase.dir = some d' := by rw [hp]; rfl
    rw [Option.some.injEq] at h
    subst h
    simp only [PhaseOk, hp] at hok
    unfold stepCargo
    split
    · rename_i hc
      exact hremove _ hd _ _ (by simp [PhaseOk, expected, hok, hc]) (by simp [TimedOut]) hnt
    · rename_i hc
      exact hremove _ hd _ _ (by simp [PhaseOk, expected, hok, hc]) (by simp [TimedOut]) hnt
    · rename_i o e hc
      split
      · rename_i ht
        exact hwrite _ hd _ _ rfl ⟨hok, o, e, hc, ht⟩ (by simp [TimedOut]) hnt
      · rename_i ht
        refine hremove _ hd _ _ ?_ (by simp [TimedOut]) hnt
        simp only [PhaseOk, expected, hok, hc, if_true, ht]
        rfl
    · rename_i o e hne hc
      refine hremove _ hd _ _ ?_ (by simp [TimedOut]) hnt
      cases o <;> cases e <;> first | exact (hne _ _ rfl rfl).elim | simp only [PhaseOk, expected, hok, hc, if_true]
  · have hnt : TimedOut j = false := by simp [TimedOut, hp]
    have hd : j.phase.dir = some d' := by rw [hp]; rfl
    rw [Option.some.injEq] at h
    subst h
    simp only [PhaseOk, hp] at hok
    obtain ⟨h1, o, e, h2, h3⟩ := id hok
    unfold stepWrite
    split
    · rename_i hw
      split
      · rename_i hs
        refine hwrite _ hd _ _ rfl ⟨hok, hw, hs, ?_⟩ (by simp [TimedOut]) hnt
        unfold Sys.file
        have : (s.set i j (.written d') (write s.files d' j.req.code) 0).files = write s.files d' j.req.code := rfl
        rw [this, file_write_eq _ _ ((hI.live d').2 ⟨i, j, hj, hd⟩)]
      · rename_i hs
        refine hremove _ hd _ _ ?_ (by simp [TimedOut]) hnt
        simp only [PhaseOk, expected, h1, h2, h3, hw, hs, if_true]
        rfl
    · rename_i hw
      refine hremove _ hd _ _ ?_ (by simp [TimedOut]) hnt
      simp only [PhaseOk, expected, h1, h2, h3, hw, if_true]
      rfl
  · have hnt : TimedOut j = false := by simp [TimedOut, hp]
    have hd : j.phase.dir = some d' := by rw [hp]; rfl
    rw [Option.some.injEq] at h
    subst h
    simp only [PhaseOk, hp] at hok
    obtain ⟨⟨h1, o, e, h2, h3⟩, h4, h5, h6⟩ := hok
    unfold stepRun
    rw [h6]
    split
    · rename_i hc
      exact hremove _ hd _ _ (by simp only [PhaseOk, expected, h1, h2, h3, h4, h5, hc, if_true]) (by simp [TimedOut]) hnt
    · rename_i hc
      exact hremove _ hd _ _ (by simp only [PhaseOk, expected, h1, h2, h3, h4, h5, hc, if_true]) (by simp [TimedOut]) hnt
    · rename_i o e hc
      exact hremove _ hd _ _ (by simp only [PhaseOk, expected, h1, h2, h3, h4, h5, hc, if_true]) (by simp [TimedOut]) hnt
    · rename_i o e hne hc
      refine hremove _ hd _ _ ?_ (by simp [TimedOut]) hnt
      cases o <;> cases e <;> first
        | exact (hne _ _ rfl rfl).elim | simp only [PhaseOk, expected, h1, h2, h3, h4, h5, hc, if_true]
  · exact absurd h (by simp)

theorem inv_run {ws : Char → Bool} {reqs : List (Op × Request × Env)} (sched : List (Nat × Nat)) :
    ∀ {s : Sys}, Inv ws reqs s → Inv ws reqs (run ws sched s) := by
  induction sched with
  | nil => exact fun h => h
  | cons c r ih =>
    intro s h
    obtain ⟨i, d⟩ := c
    simp only [run]
    split
    · rename_i s' hs
      exact ih (inv_step h hs)
    · exact ih h

theorem answered_expected {ws : Char → Bool} {reqs : List (Op × Request × Env)} {sched : List (Nat × Nat)}
    {i : Nat} {r : Reply} (h : Answered (run ws sched (initial reqs)) i r) :
    ∃ q, reqs[i]? = some q ∧ r = expected ws q.1 q.2.1 q.2.2 := by
  obtain ⟨j, hj, hr⟩ := h
  have hI := inv_run sched (inv_initial ws reqs)
  have := hI.ok i j hj
  simp only [PhaseOk, hr] at this
  refine ⟨(j.op, j.req, j.env), ?_, this⟩
  have hs := hI.same
  conv => lhs; rw [← hs]
  rw [List.getElem?_map, hj]
  rfl

theorem flag_iff (op : Op) (req : Request) : flag op req = true ↔ AsksShouldFail op req := by
  unfold flag AsksShouldFail
  split
  · rename_i fields hc
    rw [List.any_eq_true, hc]
    constructor
    · rintro ⟨⟨k, v⟩, hf, hk⟩
      refine ⟨rfl, fields, v, rfl, ?_⟩
      rw [beq_iff_eq] at hk
      dsimp only at hk
      rw [← hk]
      exact hf
    · rintro ⟨_, fields', v, he, hm⟩
      cases he
      exact ⟨_, hm, by simp⟩
  · rename_i hne
    constructor
    · intro h; exact absurd h (by simp)
    · rintro ⟨h1, fields, v, h2, _⟩
      exact absurd h2 (hne fields h1)

theorem toolEnds_iff (op : Op) (req : Request) (env : Env) (e : CmdEnd) :
    ToolEnds op req env e ↔ env.tool op (flag op req) (some req.code) = e := by
  constructor
  · rintro ⟨f, hf, he⟩
    have : flag op req = f := by
      rw [Bool.eq_iff_iff, flag_iff, hf]
    rw [this]
    exact he
  · exact fun h => ⟨_, flag_iff op req, h⟩

theorem projectMade_iff (ws : Char → Bool) (e : Env) : ProjectMade ws e ↔ CargoOk ws e := by
  unfold ProjectMade CargoOk Printed
  simp only [trim_empty]

/-- Whatever else the server is doing: the answer carries outputs exactly if everything worked and the tool,
run on the submitted source, printed text; then it carries both outputs verbatim, with success iff the standard
output is not blank. -/
theorem C51_outputs {ws : Char → Bool} {reqs : List (Op × Request × Env)} {sched : List (Nat × Nat)} {i : Nat}
    {r : Reply} {op : Op} {req : Request} {env : Env} (hq : reqs[i]? = some (op, req, env))
    (h : Answered (run ws sched (initial reqs)) i r) (resp : Response) :
    r = .ok resp ↔ Prepared ws env ∧ ∃ out err, ToolEnds op req env (.done (some out) (some err)) ∧
      resp.stdout = out ∧ resp.stderr = err ∧ (resp.success = true ↔ ¬ Blank ws out) := by
  obtain ⟨q, hq', hr⟩ := answered_expected h
  rw [hq] at hq'
  cases hq'
  simp only [toolEnds_iff, Prepared, projectMade_iff, ← trim_empty, CargoOk]
  obtain ⟨sc, so, se⟩ := resp
  rw [hr]
  unfold expected
  grind

def isError : Reply → Bool
  | .error _ _ => true
  | _ => false

/-- There is an error answer exactly if the project could not be created, the source could not be written, the
sysroot was not found, or a command could not be started or timed out. -/
theorem C51_error {ws : Char → Bool} {reqs : List (Op × Request × Env)} {sched : List (Nat × Nat)} {i : Nat}
    {r : Reply} {op : Op} {req : Request} {env : Env} (hq : reqs[i]? = some (op, req, env))
    (h : Answered (run ws sched (initial reqs)) i r) :
    (∃ creating e, r = .error creating e) ↔
      env.tempdir = false ∨ NotRun env.cargoNew ∨
      (ProjectMade ws env ∧ (env.write = false ∨ env.sysroot = false)) ∨
      (Prepared ws env ∧ (ToolEnds op req env .failed ∨ ToolEnds op req env .timeout)) := by
  obtain ⟨q, hq', hr⟩ := answered_expected h
  rw [hq] at hq'
  cases hq'
  simp only [toolEnds_iff, Prepared, projectMade_iff, CargoOk, NotRun]
  have he : (∃ creating e, r = .error creating e) ↔ isError r = true := by
    cases r <;> simp [isError]
  rw [he, hr]
  unfold expected isError
  grind

/-- There is no answer at all exactly if a command printed something that is not text, or creating the project
printed a warning. -/
theorem C51_dropped {ws : Char → Bool} {reqs : List (Op × Request × Env)} {sched : List (Nat × Nat)} {i : Nat}
    {r : Reply} {op : Op} {req : Request} {env : Env} (hq : reqs[i]? = some (op, req, env))
    (h : Answered (run ws sched (initial reqs)) i r) :
    r = .dropped ↔
      (env.tempdir = true ∧ (Garbled env.cargoNew ∨ ∃ out err, Printed env.cargoNew out err ∧ ¬ Blank ws err)) ∨
      (Prepared ws env ∧ ∃ e, Garbled e ∧ ToolEnds op req env e) := by
  obtain ⟨q, hq', hr⟩ := answered_expected h
  rw [hq] at hq'
  cases hq'
  simp only [toolEnds_iff, Prepared, projectMade_iff, ← trim_empty, CargoOk, Garbled, Printed]
  rw [hr]
  unfold expected
  dsimp only
  generalize env.tool op (flag op req) (some req.code) = t
  generalize env.cargoNew = c
  rcases c with _ | _ | ⟨_ | o, _ | e⟩ <;> rcases t with _ | _ | ⟨_ | o', _ | e'⟩ <;> grind

/-! ### Progress and what is left behind -/

def rank : Phase → Nat
  | .start => 4
  | .haveDir _ => 3
  | .project _ => 2
  | .written _ => 1
  | .answered _ => 0

/-- What is still to do. -/
def work (s : Sys) : Nat := (s.jobs.map (fun j => rank j.phase)).sum

theorem sum_set_lt (l : List Nat) {i : Nat} (hi : i < l.length) {x : Nat} (h : x < l[i]) : (l.set i x).sum < l.sum := by
  induction l generalizing i with
  | nil => simp at hi
  | cons a r ih =>
    cases i with
    | zero => simp at h ⊢; omega
    | succ i =>
      simp only [List.set_cons_succ, List.sum_cons]
      have := ih (i := i) (by simpa using hi) (by simpa using h)
      omega

theorem exists_fresh (l : List Nat) : ∃ d, d ∉ l := by
  refine ⟨l.sum + 1, fun h => ?_⟩
  have : ∀ (l : List Nat) x, x ∈ l → x ≤ l.sum := by
    intro l
    induction l with
    | nil => simp
    | cons a r ih =>
      intro x hx
      rcases List.mem_cons.1 hx with rfl | hx
      · simp
      · have := ih x hx; simp; omega
  have := this l _ h
  omega

theorem work_set (s : Sys) {i : Nat} {j : Job} (hj : s.jobs[i]? = some j) (p : Phase)
    (files : List (Nat × Option Text)) (o : Nat) (h : rank p < rank j.phase) : work (s.set i j p files o) < work s := by
  have hlt : i < s.jobs.length := by
    rcases Nat.lt_or_ge i s.jobs.length with h | h
    · exact h
    · rw [List.getElem?_eq_none h] at hj; exact absurd hj (by simp)
  have hji : s.jobs[i] = j := by
    rw [List.getElem?_eq_getElem hlt] at hj
    exact Option.some.inj hj
  unfold work Sys.set
  dsimp only
  rw [List.map_set]
  refine sum_set_lt _ (by simpa using hlt) ?_
  rw [List.getElem_map, hji]
  exact h

/-- A request that has not been answered can always go on, and then there is less to do. -/
theorem step_progress (ws : Char → Bool) (s : Sys) {i : Nat} {j : Job} (hj : s.jobs[i]? = some j)
    (hn : ∀ r, j.phase ≠ .answered r) : ∃ d s', step ws s i d = some s' ∧ work s' < work s := by
  obtain ⟨d, hd⟩ := exists_fresh (s.files.map (·.1))
  refine ⟨d, ?_⟩
  unfold step
  rw [hj]
  dsimp only
  rcases hp : j.phase with _ | d' | d' | d' | r <;> dsimp only
  · have : s.files.any (fun f => f.1 == d) = false := by
      rw [List.any_eq_false]
      intro f hf h
      exact hd (List.mem_map.2 ⟨f, hf, by simpa using h⟩)
    rw [this]
    refine ⟨_, rfl, ?_⟩
    unfold stepStart
    split <;> exact work_set s hj _ _ _ (by simp [hp, rank])
  · refine ⟨_, rfl, ?_⟩
    unfold stepCargo
    split
    · exact work_set s hj _ _ _ (by simp [hp, rank])
    · exact work_set s hj _ _ _ (by simp [hp, rank])
    · split <;> exact work_set s hj _ _ _ (by simp [hp, rank])
    · exact work_set s hj _ _ _ (by simp [hp, rank])
  · refine ⟨_, rfl, ?_⟩
    unfold stepWrite
    split
    · split <;> exact work_set s hj _ _ _ (by simp [hp, rank])
    · exact work_set s hj _ _ _ (by simp [hp, rank])
  · refine ⟨_, rfl, ?_⟩
    unfold stepRun
    split <;> exact work_set s hj _ _ _ (by simp [hp, rank])
  · exact absurd hp (hn r)

theorem run_append (ws : Char → Bool) (a b : List (Nat × Nat)) (s : Sys) : run ws (a ++ b) s = run ws b (run ws a s) := by
  induction a generalizing s with
  | nil => rfl
  | cons c r ih =>
    obtain ⟨i, d⟩ := c
    simp only [List.cons_append, run]
    split <;> exact ih _

/-- From any point of any schedule, the server can still answer every request. -/
theorem C51_answers (ws : Char → Bool) (reqs : List (Op × Request × Env)) (sched : List (Nat × Nat)) :
    ∃ more, ∀ i < reqs.length, ∃ r, Answered (run ws (sched ++ more) (initial reqs)) i r := by
  have key : ∀ n s, Inv ws reqs s → work s ≤ n →
      ∃ more, ∀ i < reqs.length, ∃ r, Answered (run ws more s) i r := by
    intro n
    induction n with
    | zero =>
      intro s hI hw
      refine ⟨[], fun i hi => ?_⟩
      have hlen : s.jobs.length = reqs.length := by rw [← hI.same]; simp
      have hj : s.jobs[i]? = some s.jobs[i] := List.getElem?_eq_getElem (by omega)
      rcases hp : s.jobs[i].phase with _ | d' | d' | d' | r
      case answered => exact ⟨r, _, hj, hp⟩
      all_goals
        obtain ⟨_, _, _, h⟩ := step_progress ws s hj (by rw [hp]; simp)
        omega
    | succ n ih =>
      intro s hI hw
      by_cases hall : ∀ i < reqs.length, ∃ r, Answered s i r
      · exact ⟨[], hall⟩
      · obtain ⟨i, hi⟩ := Classical.not_forall.1 hall
        obtain ⟨hi, hna⟩ := Classical.not_imp.1 hi
        have hlen : s.jobs.length = reqs.length := by rw [← hI.same]; simp
        have hj : s.jobs[i]? = some s.jobs[i] := List.getElem?_eq_getElem (by omega)
        obtain ⟨d, s', hs, hlt⟩ := step_progress ws s hj (fun r hr => hna ⟨r, _, hj, hr⟩)
        obtain ⟨more, hm⟩ := ih s' (inv_step hI hs) (by omega)
        refine ⟨(i, d) :: more, ?_⟩
        simp only [run, hs]
        exact hm
  obtain ⟨more, hm⟩ := key _ _ (inv_run sched (inv_initial ws reqs)) (Nat.le_refl _)
  refine ⟨more, ?_⟩
  rw [run_append]
  exact hm

/-- Directories of answered requests are gone. -/
theorem C51_clean (ws : Char → Bool) (reqs : List (Op × Request × Env)) (sched : List (Nat × Nat))
    (h : ∀ i < reqs.length, ∃ r, Answered (run ws sched (initial reqs)) i r) :
    (run ws sched (initial reqs)).files = [] := by
  have hI := inv_run sched (inv_initial ws reqs)
  have hlen : (run ws sched (initial reqs)).jobs.length = reqs.length := by
    have := congrArg List.length hI.same
    simpa using this
  rcases hf : (run ws sched (initial reqs)).files with _ | ⟨f, r⟩
  · rfl
  · exfalso
    obtain ⟨i, j, hj, hd⟩ := (hI.live f.1).1 (by rw [hf]; simp)
    have hi : i < reqs.length := by
      rcases Nat.lt_or_ge i reqs.length with h | h
      · exact h
      · rw [List.getElem?_eq_none (by omega)] at hj; exact absurd hj (by simp)
    obtain ⟨r, j', hj', hr⟩ := h i hi
    rw [hj] at hj'
    cases hj'
    rw [hr] at hd
    exact absurd hd (by simp [Phase.dir])

/-- Every timeout leaves a process behind. -/
theorem C51_orphans (ws : Char → Bool) (reqs : List (Op × Request × Env)) (sched : List (Nat × Nat)) :
    (run ws sched (initial reqs)).orphans = (run ws sched (initial reqs)).jobs.countP TimedOut :=
  (inv_run sched (inv_initial ws reqs)).orphans

/-- The routes: only a `POST` of a readable request to one of the two paths runs the tool. -/
theorem C51_route (m : Method) (path : Text) (body : Option Request) (op : Op) (req : Request) :
    route m path body = .run op req ↔ m = .post ∧ body = some req ∧
      ((op = .permissions ∧ path = ['/', 'p', 'e', 'r', 'm', 'i', 's', 's', 'i', 'o', 'n', 's']) ∨
        (op = .interpreter ∧ path = ['/', 'i', 'n', 't', 'e', 'r', 'p', 'r', 'e', 't', 'e', 'r'])) := by
  change _ ↔ _ ∧ _ ∧ ((_ ∧ path = permissionsPath) ∨ (_ ∧ path = interpreterPath))
  unfold route
  by_cases h1 : path = hiPath
  · subst h1
    cases m <;> simp [hiPath, permissionsPath, interpreterPath]
  · by_cases h2 : path = permissionsPath
    · subst h2
      cases m <;> cases body <;> cases op <;> simp [hiPath, permissionsPath, interpreterPath]
    · by_cases h3 : path = interpreterPath
      · subst h3
        cases m <;> cases body <;> cases op <;> simp [hiPath, permissionsPath, interpreterPath]
      · cases op <;> simp [h1, h2, h3]

/-- The greeting is given for a `GET` of its path and for nothing else. -/
theorem C51_hello (m : Method) (path : Text) (body : Option Request) :
    route m path body = .hello ↔ m = .get ∧ path = ['/', 'h', 'i'] := by
  unfold route
  by_cases h1 : path = hiPath
  · subst h1
    cases m <;> simp [hiPath]
  · have h1' : ¬ path = ['/', 'h', 'i'] := h1
    simp only [if_neg h1, h1', and_false, iff_false]
    split
    · simp
    · split
      · split <;> simp
      · simp

/-- A request that cannot be read is answered with status 200. -/
theorem C51_unreadable (m : Method) (path : Text) (body : Option Request) :
    route m path body = .unreadable ↔ m = .post ∧ body = none ∧
      (path = ['/', 'p', 'e', 'r', 'm', 'i', 's', 's', 'i', 'o', 'n', 's'] ∨
        path = ['/', 'i', 'n', 't', 'e', 'r', 'p', 'r', 'e', 't', 'e', 'r']) := by
  change _ ↔ _ ∧ _ ∧ (path = permissionsPath ∨ path = interpreterPath)
  unfold route
  by_cases h1 : path = hiPath
  · subst h1
    cases m <;> simp [hiPath, permissionsPath, interpreterPath]
  · by_cases h2 : path = permissionsPath
    · subst h2
      cases m <;> cases body <;> simp [hiPath, permissionsPath]
    · by_cases h3 : path = interpreterPath
      · subst h3
        cases m <;> cases body <;> simp [hiPath, permissionsPath, interpreterPath]
      · simp [h1, h2, h3]

/-! ### Cases -/

/-- A tool that prints what it reads. -/
def echoEnv : Env := ⟨true, .done (some []) (some []), true, true,
  fun _ f src => .done src (some (if f then ['!'] else []))⟩

def isSpace (c : Char) : Bool := c == ' ' || c == '\n'

/-- Two requests, their parts interleaved; the second directory number is used again by a third one. -/
def twoReqs : List (Op × Request × Env) :=
  [(.permissions, ⟨['a'], none⟩, echoEnv), (.interpreter, ⟨['b'], some (.obj [(shouldFailKey, .bool true)])⟩, echoEnv),
   (.interpreter, ⟨[' '], none⟩, echoEnv)]

def interleaved : List (Nat × Nat) :=
  [(0, 0), (1, 1), (1, 0), (0, 0), (0, 0), (1, 0), (1, 0), (2, 1), (2, 0), (0, 0), (2, 0), (2, 0)]

example : ((run isSpace interleaved (initial twoReqs)).jobs.map (·.phase)) =
    [.answered (.ok ⟨true, ['a'], []⟩), .answered (.ok ⟨true, ['b'], ['!']⟩), .answered (.ok ⟨false, [' '], []⟩)] := by
  decide

/-- A warning printed by `cargo new` (for instance about the configuration) makes the server close the
connection: the claim that there is always an answer fails. -/
theorem C51_warning_drops : ∃ env, env.cargoNew = .done (some []) (some ['w']) ∧
    Answered (run isSpace [(0, 0), (0, 0)] (initial [(.permissions, ⟨['a'], none⟩, env)])) 0 .dropped :=
  ⟨{ echoEnv with cargoNew := .done (some []) (some ['w']) }, rfl, _, rfl, by decide⟩

/-- A timed-out tool is answered with an error, its directory is removed, and it is still running. -/
theorem C51_timeout_runs_on : ∃ env s, s = run isSpace [(0, 0), (0, 0), (0, 0), (0, 0)]
      (initial [(.permissions, ⟨['a'], none⟩, env)]) ∧
    Answered s 0 (.error false .timedOut) ∧ s.files = [] ∧ s.orphans = 1 :=
  ⟨{ echoEnv with tool := fun _ _ _ => .timeout }, _, rfl, ⟨_, rfl, by decide⟩, by decide, by decide⟩

end Verif.Serve
