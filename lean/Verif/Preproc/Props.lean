import Verif.Preproc.Spec
/-!
# Properties C10, C11, C12: rendering a chapter, and C08 for annotations
-/
namespace Verif.Preproc
open Verif.Block Verif.Cache Spec

/-! ## Which runs succeed -/

theorem get_some {j : Json} {k v} : j.get k = some v ↔ ∃ fs, j = .obj fs ∧ fs.lookup k = some v := by
  cases j <;> simp [Json.get]

theorem isSome_get {j : Json} {k} : (j.get k).isSome = true ↔ HasKey k j := by
  rw [Option.isSome_iff_exists]
  constructor
  · rintro ⟨v, hv⟩
    obtain ⟨fs, h1, h2⟩ := get_some.1 hv
    exact ⟨fs, v, h1, h2⟩
  · rintro ⟨fs, v, h1, h2⟩
    exact ⟨v, get_some.2 ⟨fs, h1, h2⟩⟩

theorem errorAnswer_iff (j : Json) :
    ErrorAnswer j ↔ isErr j = true ∨ (j.get kType).bind Json.asStr = some kBuildError := by
  have hb : (j.get kType).bind Json.asStr = some kBuildError ↔
      ∃ fs, j = .obj fs ∧ fs.lookup kType = some (.str kBuildError) := by
    cases j <;> simp [Json.get]
    rename_i fs
    cases List.lookup kType fs with
    | none => simp
    | some v => cases v <;> simp [Json.asStr]
  constructor
  · intro h
    cases h with
    | obj h =>
      left
      obtain ⟨fs, v, rfl, hv⟩ := h
      simp [isErr, Json.get, hv]
    | arr hm hk =>
      left
      simp only [isErr, List.any_eq_true]
      exact ⟨_, hm, isSome_get.2 hk⟩
    | build h => right; exact hb.2 ⟨_, rfl, h⟩
  · rintro (h | h)
    · cases j with
      | obj fs => exact .obj (isSome_get.1 h)
      | arr xs =>
        simp only [isErr, List.any_eq_true] at h
        obtain ⟨x, hx, hk⟩ := h
        exact .arr hx (isSome_get.1 hk)
      | _ => simp [isErr] at h
    · obtain ⟨fs, rfl, h3⟩ := hb.1 h
      exact .build h3

theorem runOp_ok (w : World) (b : Block) (op : List Char) (j : Json) :
    runOp w b op = .ok j ↔ Answered w b op j := by
  unfold runOp Answered
  rw [errorAnswer_iff]
  cases w.exec b.code (args b op) with
  | finished success out =>
    cases success <;> cases out <;> simp
    rename_i j'
    by_cases h1 : isErr j' = true
    · simp [h1]; rintro rfl; simp [h1]
    · by_cases h2 : (j'.get kType).bind Json.asStr = some kBuildError
      · simp [h1, h2]; rintro rfl; simp [h2]
      · simp only [h1, h2]
        simp
        rintro rfl
        exact ⟨by simpa using h1, h2⟩
  | _ => simp

theorem runOps_ok (w : World) (b : Block) (ops : List (List Char)) (r r' : Responses) :
    runOps w b r ops = .ok r' ↔
      (∀ op ∈ ops, ∃ j, Answered w b op j ∧ r' op = some j) ∧ (∀ op, op ∉ ops → r' op = r op) := by
  induction ops generalizing r with
  | nil =>
    simp only [runOps, Except.ok.injEq, List.not_mem_nil, false_implies, implies_true, true_and,
      not_false_eq_true, true_implies]
    exact ⟨fun h op => by rw [h], fun h => by funext op; exact (h op).symm⟩
  | cons op ops ih =>
    simp only [runOps]
    cases hop : runOp w b op with
    | error e =>
      simp only [reduceCtorEq, false_iff]
      rintro ⟨h, -⟩
      obtain ⟨j, hj, -⟩ := h op (by simp)
      rw [(runOp_ok w b op j).2 hj] at hop
      simp at hop
    | ok j =>
      have hj := (runOp_ok w b op j).1 hop
      simp only [ih]
      constructor
      · rintro ⟨h1, h2⟩
        refine ⟨?_, ?_⟩
        · intro o ho
          by_cases hin : o ∈ ops
          · exact h1 o hin
          · have : o = op := by simpa [hin] using ho
            subst this
            exact ⟨j, hj, by rw [h2 _ hin]; simp [Responses.insert]⟩
        · intro o ho
          simp only [List.mem_cons, not_or] at ho
          rw [h2 o ho.2]
          simp [Responses.insert, ho.1]
      · rintro ⟨h1, h2⟩
        refine ⟨fun o ho => h1 o (by simp [ho]), fun o ho => ?_⟩
        by_cases hop' : o = op
        · subst hop'
          obtain ⟨j', hj', hr⟩ := h1 o (by simp)
          have : runOp w b o = .ok j' := (runOp_ok w b o j').2 hj'
          rw [hop] at this
          simp only [Except.ok.injEq] at this
          rw [hr, this]; simp [Responses.insert]
        · rw [h2 o (by simp [hop', ho])]
          simp [Responses.insert, hop']

/-- **C12.** A block is answered exactly when the environment works and the analyser answered every
requested operation with something that is not an error; the result then maps each operation to its
answer and nothing else. -/
theorem C12_success_iff (w : World) (b : Block) (r : Responses) :
    runAquascope w b = .ok r ↔
      Ready w ∧ (∀ op ∈ b.operations, ∃ j, Answered w b op j ∧ r op = some j) ∧
        ∀ op, op ∉ b.operations → r op = none := by
  unfold runAquascope Ready
  cases w.tempdirOk <;> cases w.cargoNewSpawned <;> cases w.cargoNewOk <;> cases w.writeOk <;>
    simp [runOps_ok]

/-- **C12.** The analyser is started as `aquascope [--should-fail] OP [--show-flows]`, where the two
flags are given iff the block has the option, and the operation is passed as it is. -/
theorem C12_args (b : Block) (op : List Char) :
    ∃ sf fl, args b op = argAquascope :: sf ++ op :: fl ∧
      ((sf = [argShouldFail] ∧ ∃ v, (kShouldFail, v) ∈ b.config) ∨
        (sf = [] ∧ ∀ v, (kShouldFail, v) ∉ b.config)) ∧
      ((fl = [argShowFlows] ∧ ∃ v, (kShowFlows, v) ∈ b.config) ∨
        (fl = [] ∧ ∀ v, (kShowFlows, v) ∉ b.config)) := by
  have hany : ∀ k : List Char, b.config.any (fun p => p.1 == k) = true ↔ ∃ v, (k, v) ∈ b.config := by
    intro k
    simp only [List.any_eq_true, beq_iff_eq]
    constructor
    · rintro ⟨⟨k', v⟩, h, rfl⟩; exact ⟨v, h⟩
    · rintro ⟨v, h⟩; exact ⟨_, h, rfl⟩
  have hflag : ∀ (k a : List Char),
      ((if b.config.any (fun p => p.1 == k) then [a] else []) = [a] ∧ ∃ v, (k, v) ∈ b.config) ∨
      ((if b.config.any (fun p => p.1 == k) then [a] else []) = [] ∧ ∀ v, (k, v) ∉ b.config) := by
    intro k a
    by_cases h : b.config.any (fun p => p.1 == k) = true
    · exact .inl ⟨by rw [if_pos h], (hany k).1 h⟩
    · exact .inr ⟨by rw [if_neg h], fun v hv => h ((hany k).2 ⟨v, hv⟩)⟩
  exact ⟨_, _, by simp [args], hflag kShouldFail argShouldFail, hflag kShowFlows argShowFlows⟩

/-! ## Parallel tasks -/

/-- The analyser's answer depends on a block only through its hash input. -/
theorem runAquascope_congr (w : World) {b b' : Block} (h : hashInput b = hashInput b') :
    runAquascope w b = runAquascope w b' := by
  simp only [hashInput, Prod.mk.injEq] at h
  obtain ⟨h1, h2, h3⟩ := h
  have hop : ∀ op, runOp w b op = runOp w b' op := by
    intro op; simp only [runOp, args, h2, h3]
  have hops : ∀ ops r, runOps w b r ops = runOps w b' r ops := by
    intro ops
    induction ops with
    | nil => intro r; rfl
    | cons o os ih => intro r; simp only [runOps, hop, ih]
  simp only [runAquascope, hops, h1]

/-- Invariant of every reachable state. -/
structure Inv (w : World) (hash : Hasher) (blocks : List Block) (c0 : Cache Responses) (s : State) :
    Prop where
  /-- Entries are those that were there, or were made by the analyser for a block that had none. -/
  entry : ∀ h, s.cache.map h = c0.map h ∨
    (c0.map h = none ∧ ∃ b ∈ blocks, hash (hashInput b) = h ∧ ∃ r, runAquascope w b = .ok r ∧
      s.cache.map h = some r)
  /-- A task in progress had no entry. -/
  missed : ∀ i b, blocks[i]? = some b → s.pc i = .missed → c0.map (hash (hashInput b)) = none
  ran : ∀ i b r, blocks[i]? = some b → s.pc i = .ran r →
    c0.map (hash (hashInput b)) = none ∧ runAquascope w b = .ok r
  done : ∀ i b res, blocks[i]? = some b → s.pc i = .done res →
    res = alone w hash c0.map b ∧
    (∀ r, runAquascope w b = .ok r → c0.map (hash (hashInput b)) = none →
      s.cache.map (hash (hashInput b)) = some r)
  /-- The file is not touched; the cache is marked iff something was stored. -/
  file : s.cache.file = c0.file
  dirty : s.cache.dirty = true → c0.dirty = true ∨
    ∃ b ∈ blocks, c0.map (hash (hashInput b)) = none
  clean : s.cache.dirty = c0.dirty ∨ s.cache.dirty = true
  same : s.cache.dirty = false → s.cache.map = c0.map

theorem inv_init (w : World) (hash : Hasher) (blocks : List Block) (c0 : Cache Responses) :
    Inv w hash blocks c0 (init c0) where
  entry _ := .inl rfl
  missed _ _ _ h := by simp [init] at h
  ran _ _ _ _ h := by simp [init] at h
  done _ _ _ _ h := by simp [init] at h
  file := rfl
  dirty h := .inl h
  clean := .inl rfl
  same _ := rfl

theorem mem_of_get {α} {l : List α} {i : Nat} {a} (h : l[i]? = some a) : a ∈ l :=
  List.mem_of_getElem? h

theorem inv_step (w : World) (hash : Hasher) (blocks : List Block) (c0 : Cache Responses)
    (hnc : NoCollision hash blocks) (s : State) (i : Nat) (hI : Inv w hash blocks c0 s) :
    Inv w hash blocks c0 (step w hash blocks s i) := by
  unfold step
  cases hb : blocks[i]? with
  | none => exact hI
  | some b =>
    dsimp only
    have hbm := mem_of_get hb
    cases hpc : s.pc i with
    | start =>
      dsimp only
      cases hg : s.cache.get (hash ∘ hashInput) b with
      | some r =>
        dsimp only
        refine ⟨hI.entry, ?_, ?_, ?_, hI.file, hI.dirty, hI.clean, hI.same⟩
        · intro j b' hb' h
          by_cases hj : j = i
          · simp [hj] at h
          · exact hI.missed j b' hb' (by simpa [hj] using h)
        · intro j b' r' hb' h
          by_cases hj : j = i
          · simp [hj] at h
          · exact hI.ran j b' r' hb' (by simpa [hj] using h)
        · intro j b' res hb' h
          by_cases hj : j = i
          · subst hj
            simp only [if_true, Pc.done.injEq] at h
            subst h
            rw [hb] at hb'
            simp only [Option.some.injEq] at hb'
            subst hb'
            simp only [Cache.get, Function.comp] at hg
            rcases hI.entry (hash (hashInput b)) with he | ⟨h0, b', hb', hh, r', hr', hm⟩
            · rw [hg] at he
              exact ⟨by simp [alone, ← he], fun r1 _ h0 => by rw [h0] at he; simp at he⟩
            · have := runAquascope_congr w (hnc b' hb' b hbm hh)
              rw [hm] at hg
              simp only [Option.some.injEq] at hg
              subst hg
              rw [this] at hr'
              refine ⟨by simp [alone, h0, hr', Except.map], fun r1 h1 _ => ?_⟩
              rw [hr'] at h1
              simp only [Except.ok.injEq] at h1
              rw [hm, h1]
          · exact hI.done j b' res hb' (by simpa [hj] using h)
      | none =>
        dsimp only
        refine ⟨hI.entry, ?_, ?_, ?_, hI.file, hI.dirty, hI.clean, hI.same⟩
        · intro j b' hb' h
          by_cases hj : j = i
          · subst hj
            rw [hb] at hb'
            simp only [Option.some.injEq] at hb'
            subst hb'
            simp only [Cache.get, Function.comp] at hg
            rcases hI.entry (hash (hashInput b)) with he | ⟨h0, _⟩
            · rw [← he, hg]
            · exact h0
          · exact hI.missed j b' hb' (by simpa [hj] using h)
        · intro j b' r' hb' h
          by_cases hj : j = i
          · simp [hj] at h
          · exact hI.ran j b' r' hb' (by simpa [hj] using h)
        · intro j b' res hb' h
          by_cases hj : j = i
          · simp [hj] at h
          · exact hI.done j b' res hb' (by simpa [hj] using h)
    | missed =>
      dsimp only
      have h0 := hI.missed i b hb hpc
      cases hr : runAquascope w b with
      | error e =>
        dsimp only
        refine ⟨hI.entry, ?_, ?_, ?_, hI.file, hI.dirty, hI.clean, hI.same⟩
        · intro j b' hb' h
          by_cases hj : j = i
          · simp [hj] at h
          · exact hI.missed j b' hb' (by simpa [hj] using h)
        · intro j b' r' hb' h
          by_cases hj : j = i
          · simp [hj] at h
          · exact hI.ran j b' r' hb' (by simpa [hj] using h)
        · intro j b' res hb' h
          by_cases hj : j = i
          · subst hj
            simp only [if_true, Pc.done.injEq] at h
            subst h
            rw [hb] at hb'
            simp only [Option.some.injEq] at hb'
            subst hb'
            exact ⟨by simp [alone, h0, hr, Except.map], fun r1 h1 _ => by rw [hr] at h1; simp at h1⟩
          · exact hI.done j b' res hb' (by simpa [hj] using h)
      | ok r =>
        dsimp only
        refine ⟨hI.entry, ?_, ?_, ?_, hI.file, hI.dirty, hI.clean, hI.same⟩
        · intro j b' hb' h
          by_cases hj : j = i
          · simp [hj] at h
          · exact hI.missed j b' hb' (by simpa [hj] using h)
        · intro j b' r' hb' h
          by_cases hj : j = i
          · subst hj
            simp only [if_true, Pc.ran.injEq] at h
            subst h
            rw [hb] at hb'
            simp only [Option.some.injEq] at hb'
            subst hb'
            exact ⟨h0, hr⟩
          · exact hI.ran j b' r' hb' (by simpa [hj] using h)
        · intro j b' res hb' h
          by_cases hj : j = i
          · simp [hj] at h
          · exact hI.done j b' res hb' (by simpa [hj] using h)
    | ran r =>
      dsimp only
      obtain ⟨h0, hr⟩ := hI.ran i b r hb hpc
      refine ⟨?_, ?_, ?_, ?_, hI.file, ?_, .inr rfl, ?_⟩
      · intro h
        simp only [Cache.set, HMap.insert, Function.comp]
        by_cases hh : h = hash (hashInput b)
        · subst hh
          right
          exact ⟨h0, b, hbm, rfl, r, hr, by simp⟩
        · simp only [hh, if_false]
          exact hI.entry h
      · intro j b' hb' h
        by_cases hj : j = i
        · simp [hj] at h
        · exact hI.missed j b' hb' (by simpa [hj] using h)
      · intro j b' r' hb' h
        by_cases hj : j = i
        · simp [hj] at h
        · exact hI.ran j b' r' hb' (by simpa [hj] using h)
      · intro j b' res hb' h
        by_cases hj : j = i
        · subst hj
          simp only [if_true, Pc.done.injEq] at h
          subst h
          rw [hb] at hb'
          simp only [Option.some.injEq] at hb'
          subst hb'
          refine ⟨by simp [alone, h0, hr, Except.map], fun r1 h1 _ => ?_⟩
          rw [hr] at h1
          simp only [Except.ok.injEq] at h1
          simp [Cache.set, HMap.insert, h1]
        · obtain ⟨h1, h2⟩ := hI.done j b' res hb' (by simpa [hj] using h)
          refine ⟨h1, fun r1 hr1 h01 => ?_⟩
          simp only [Cache.set, HMap.insert, Function.comp]
          by_cases hh : hash (hashInput b') = hash (hashInput b)
          · simp only [hh, if_true]
            have := runAquascope_congr w (hnc b' (mem_of_get hb') b hbm hh)
            rw [hr1, hr] at this
            simp only [Except.ok.injEq] at this
            rw [this]
          · simp only [hh, if_false]
            exact h2 r1 hr1 h01
      · intro _; exact .inr ⟨b, hbm, h0⟩
      · intro h; simp [Cache.set] at h
    | done _ => exact hI

theorem inv_exec (w : World) (hash : Hasher) (blocks : List Block) (c0 : Cache Responses)
    (hnc : NoCollision hash blocks) (sched : List Nat) :
    Inv w hash blocks c0 (exec w hash blocks (init c0) sched) := by
  have : ∀ s, Inv w hash blocks c0 s → Inv w hash blocks c0 (exec w hash blocks s sched) := by
    induction sched with
    | nil => exact fun s h => h
    | cons i is ih => exact fun s h => ih _ (inv_step w hash blocks c0 hnc s i h)
  exact this _ (inv_init w hash blocks c0)

/-- **C11.** Under every interleaving of the tasks, each finished task has exactly the result of
rendering its block alone with the cache as it was at the start — whether or not the other tasks have
finished. -/
theorem C11_result (w : World) (hash : Hasher) (blocks : List Block) (c0 : Cache Responses)
    (hnc : NoCollision hash blocks) (sched : List Nat) (i : Nat) (b : Block)
    (hb : blocks[i]? = some b) (res : Except RunError Html)
    (h : (exec w hash blocks (init c0) sched).pc i = .done res) :
    res = alone w hash c0.map b :=
  ((inv_exec w hash blocks c0 hnc sched).done i b res hb h).1

/-- **C11.** When all tasks have finished, the collected results are, in document order, those of
the blocks rendered alone. -/
theorem C11_chapter (w : World) (hash : Hasher) (blocks : List Block) (c0 : Cache Responses)
    (hnc : NoCollision hash blocks) (sched : List Nat)
    (hfin : ∀ i < blocks.length, ∃ r, (exec w hash blocks (init c0) sched).pc i = .done r) :
    results blocks (exec w hash blocks (init c0) sched) =
      blocks.map fun b => some (alone w hash c0.map b) := by
  apply List.ext_getElem
  · simp [results]
  · intro i h1 h2
    have hi : i < blocks.length := by simpa using h2
    obtain ⟨r, hr⟩ := hfin i hi
    simp only [results, List.getElem_map, List.getElem_range, hr]
    rw [C11_result w hash blocks c0 hnc sched i blocks[i] (List.getElem?_eq_getElem hi) r hr]

/-- **C11.** When all tasks have finished, the stored entries do not depend on the schedule: the old
entries, and the answers of the blocks that had none. -/
theorem C11_cache (w : World) (hash : Hasher) (blocks : List Block) (c0 : Cache Responses)
    (hnc : NoCollision hash blocks) (sched : List Nat)
    (hfin : ∀ i < blocks.length, ∃ r, (exec w hash blocks (init c0) sched).pc i = .done r)
    (h : UInt64) (r : Responses) :
    (exec w hash blocks (init c0) sched).cache.map h = some r ↔
      c0.map h = some r ∨
      (c0.map h = none ∧ ∃ b ∈ blocks, hash (hashInput b) = h ∧ runAquascope w b = .ok r) := by
  have hI := inv_exec w hash blocks c0 hnc sched
  constructor
  · intro hm
    rcases hI.entry h with he | ⟨h0, b, hb, hh, r', hr', hm'⟩
    · left; rw [← he, hm]
    · right
      rw [hm] at hm'
      simp only [Option.some.injEq] at hm'
      exact ⟨h0, b, hb, hh, by rw [hr', hm']⟩
  · rintro (h0 | ⟨h0, b, hb, hh, hr⟩)
    · rcases hI.entry h with he | ⟨h1, _⟩
      · rw [he, h0]
      · rw [h0] at h1; simp at h1
    · obtain ⟨i, hi, hbi⟩ := List.mem_iff_getElem.1 hb
      obtain ⟨res, hres⟩ := hfin i hi
      have := (hI.done i b res (by rw [List.getElem?_eq_getElem hi, hbi]) hres).2 r hr (by rw [hh, h0])
      rw [← hh, this]

/-- **C12.** A block whose analysis fails never gets an entry, under any schedule and at any moment;
its task reports the failure. -/
theorem C12_not_cached (w : World) (hash : Hasher) (blocks : List Block) (c0 : Cache Responses)
    (hnc : NoCollision hash blocks) (sched : List Nat) (b : Block) (hb : b ∈ blocks)
    (e : RunError) (herr : runAquascope w b = .error e) (h0 : c0.map (hash (hashInput b)) = none) :
    (exec w hash blocks (init c0) sched).cache.map (hash (hashInput b)) = none ∧
    ∀ i res, blocks[i]? = some b → (exec w hash blocks (init c0) sched).pc i = .done res →
      res = .error e := by
  have hI := inv_exec w hash blocks c0 hnc sched
  constructor
  · rcases hI.entry (hash (hashInput b)) with he | ⟨_, b', hb', hh, r, hr, _⟩
    · rw [he, h0]
    · rw [runAquascope_congr w (hnc b' hb' b hb hh), herr] at hr
      simp at hr
  · intro i res hbi hpc
    rw [C11_result w hash blocks c0 hnc sched i b hbi res hpc]
    simp [alone, h0, herr, Except.map]

/-- **C10.** If every block already has an entry, then under every schedule no task ever runs the
analyser, and at the end — and at any moment — saving leaves the file exactly as it was. -/
theorem C10_no_new_block (w : World) (hash : Hasher) (blocks : List Block) (c0 : Cache Responses)
    (hclean : c0.dirty = false)
    (hall : ∀ b ∈ blocks, (c0.get (hash ∘ hashInput) b).isSome = true)
    (hnc : NoCollision hash blocks) (sched : List Nat) (chunks : List (List UInt8)) :
    let s := exec w hash blocks (init c0) sched
    (s.cache.save chunks).file = c0.file ∧ s.cache.map = c0.map ∧
    ∀ i, i < blocks.length → s.pc i = .start ∨ ∃ h, s.pc i = .done (.ok h) := by
  intro s
  have hI : Inv w hash blocks c0 s := inv_exec w hash blocks c0 hnc sched
  have hne : ∀ b ∈ blocks, c0.map (hash (hashInput b)) ≠ none := by
    intro b hb h
    have := hall b hb
    simp [Cache.get, Function.comp, h] at this
  have hd : s.cache.dirty = false := by
    cases hd : s.cache.dirty with
    | false => rfl
    | true =>
      rcases hI.dirty hd with h | ⟨b, hb, h⟩
      · rw [hclean] at h; simp at h
      · exact absurd h (hne b hb)
  refine ⟨by simp [Cache.save, hd, hI.file], hI.same hd, ?_⟩
  intro i hi
  have hbi := List.getElem?_eq_getElem hi
  have hbm := List.getElem_mem hi
  cases hpc : s.pc i with
  | start => exact .inl rfl
  | missed => exact absurd (hI.missed i _ hbi hpc) (hne _ hbm)
  | ran r => exact absurd (hI.ran i _ r hbi hpc).1 (hne _ hbm)
  | done res =>
    right
    have := (hI.done i _ res hbi hpc).1
    simp only [alone] at this
    cases h : c0.map (hash (hashInput blocks[i])) with
    | none => exact absurd h (hne _ hbm)
    | some r => rw [h] at this; exact ⟨_, by rw [this]⟩

/-- **C10.** Conversely the file is rewritten only when a block was missing at the start. -/
theorem C10_changed_only_if_missing (w : World) (hash : Hasher) (blocks : List Block)
    (c0 : Cache Responses) (hclean : c0.dirty = false) (hnc : NoCollision hash blocks)
    (sched : List Nat) (chunks : List (List UInt8))
    (h : ((exec w hash blocks (init c0) sched).cache.save chunks).file ≠ c0.file) :
    ∃ b ∈ blocks, c0.get (hash ∘ hashInput) b = none := by
  have hI := inv_exec w hash blocks c0 hnc sched
  cases hd : (exec w hash blocks (init c0) sched).cache.dirty with
  | false => exact absurd (by simp [Cache.save, hd, hI.file]) h
  | true =>
    rcases hI.dirty hd with h | h
    · rw [hclean] at h; simp at h
    · exact h

/-- **C10 (freshly loaded cache).** Both theorems apply to a cache as it is loaded from a file: if the
file has an entry for every block, saving after any schedule leaves the file as it was. -/
theorem C10_loaded (w : World) (hash : Hasher) (blocks : List Block) (codec : Codec Responses)
    (data : List UInt8) (pos : Nat) (hnc : NoCollision hash blocks) (sched : List Nat)
    (chunks : List (List UInt8)) (m : HMap Responses) (hne : data ≠ []) (hm : codec.decode data = some m)
    (hall : ∀ b ∈ blocks, (m (hash (hashInput b))).isSome = true) :
    ((exec w hash blocks (init (load codec data pos)) sched).cache.save chunks).file.data = data := by
  have hmap : (load codec data pos).map = m := by simp [load, hm, hne]
  have := (C10_no_new_block w hash blocks (load codec data pos) rfl
    (fun b hb => by simpa [Cache.get, hmap] using hall b hb) hnc sched chunks).1
  rw [this]; rfl

/-- **C11 (the element).** Under every schedule, the element produced for a block carries the block's
program, annotations and operations, for each option the value it was last given, and the answers of
the cache or, if it has none, of the analyser. -/
theorem C11_element (w : World) (hash : Hasher) (blocks : List Block) (c0 : Cache Responses)
    (hnc : NoCollision hash blocks) (sched : List Nat) (i : Nat) (b : Block)
    (hb : blocks[i]? = some b) (h : Html)
    (hpc : (exec w hash blocks (init c0) sched).pc i = .done (.ok h)) :
    h.code = b.code ∧ h.annotations = b.annotations ∧ h.operations = b.operations ∧
    (∀ k v, h.config k = some v ↔
      ∃ before after, b.config = before ++ (k, v) :: after ∧ ∀ v', (k, v') ∉ after) ∧
    (c0.map (hash (hashInput b)) = some h.responses ∨
      (c0.map (hash (hashInput b)) = none ∧ runAquascope w b = .ok h.responses)) := by
  have hres := C11_result w hash blocks c0 hnc sched i b hb _ hpc
  have hform : ∃ r, h = render b r ∧ (c0.map (hash (hashInput b)) = some r ∨
      (c0.map (hash (hashInput b)) = none ∧ runAquascope w b = .ok r)) := by
    unfold alone at hres
    cases hc : c0.map (hash (hashInput b)) with
    | some r => rw [hc] at hres; injection hres with hres; exact ⟨r, hres, .inl rfl⟩
    | none =>
      rw [hc] at hres
      cases hr : runAquascope w b with
      | ok r => rw [hr] at hres; injection hres with hres; exact ⟨r, hres, .inr ⟨rfl, rfl⟩⟩
      | error e => rw [hr] at hres; cases hres
  obtain ⟨r, rfl, hr⟩ := hform
  refine ⟨rfl, rfl, rfl, fun k v => ?_, hr⟩
  show b.config.reverse.lookup k = some v ↔ _
  rw [show b.config = b.config.reverse.reverse from (List.reverse_reverse _).symm]
  generalize b.config.reverse = l
  rw [List.reverse_reverse]
  induction l with
  | nil => simp
  | cons x l ih =>
    obtain ⟨k', v'⟩ := x
    simp only [List.lookup_cons, List.reverse_cons]
    by_cases hk : k = k'
    · subst hk
      simp only [beq_self_eq_true, Option.some.injEq]
      constructor
      · rintro rfl; exact ⟨l.reverse, [], rfl, by simp⟩
      · rintro ⟨before, after, he, hn⟩
        rcases List.eq_nil_or_concat after with rfl | ⟨after', y, rfl⟩
        · have := (List.append_inj' he rfl).2; simpa using this
        · rw [List.concat_eq_append, ← List.cons_append, ← List.append_assoc] at he
          have := (List.append_inj' he rfl).2
          simp only [List.cons.injEq, and_true] at this
          subst this
          exact absurd (by simp) (hn v')
    · rw [show (k == k') = false by simpa using hk]
      dsimp only
      rw [ih]
      constructor
      · rintro ⟨before, after, he, hn⟩
        refine ⟨before, after ++ [(k', v')], by simp [he], fun v'' hm => ?_⟩
        simp only [List.mem_append, List.mem_singleton, Prod.mk.injEq] at hm
        exact hm.elim (hn v'') fun h => hk h.1
      · rintro ⟨before, after, he, hn⟩
        rcases List.eq_nil_or_concat after with rfl | ⟨after', y, rfl⟩
        · have := (List.append_inj' he rfl).2
          simp only [List.cons.injEq, and_true, Prod.mk.injEq] at this
          exact absurd this.1.symm hk
        · rw [List.concat_eq_append, ← List.cons_append, ← List.append_assoc] at he
          exact ⟨before, after', (List.append_inj' he rfl).1, fun v'' hm => hn v'' (by simp [hm])⟩

/-- **C08.** The answer stored for a block is found for a block that differs only in its annotations
(markers such as `` `[]` `` are not part of the key). -/
theorem C08_annotations (hash : Hasher) (c : Cache Responses) (b b' : Block)
    (h1 : b.operations = b'.operations) (h2 : b.config = b'.config) (h3 : b.code = b'.code) :
    c.get (hash ∘ hashInput) b = c.get (hash ∘ hashInput) b' := by
  simp [Cache.get, hashInput, h1, h2, h3]

/-! ## Non-vacuity -/

/-- An analyser that answers operation `a` and reports a build error for operation `b`. -/
def demoWorld : World where
  tempdirOk := true
  cargoNewSpawned := true
  cargoNewOk := true
  writeOk := true
  exec _ as := if ['a'] ∈ as then .finished true (some (.arr [.obj [(['O', 'k'], .null)]]))
    else .finished true (some (.obj [(kType, .str kBuildError)]))

/-- Two blocks, one failing. -/
def demoBlock (op : Char) : Block := { operations := [[op]], config := [], code := ['x'], annotations := {} }

/-- Two successful tasks of the same block racing, and a failing one. -/
def demoBlocks : List Block := [demoBlock 'a', demoBlock 'a', demoBlock 'b']

/-- A hash without collisions on the demo blocks. -/
def demoHash : Hasher := fun p => if p.1 = [['a']] then 1 else 2

def demoCache : Cache Responses := { file := ⟨[], 0⟩, map := fun _ => none, dirty := false }

def demoState : State :=
  exec demoWorld demoHash demoBlocks (init demoCache) [0, 1, 2, 0, 1, 2, 1, 0]

example : NoCollision demoHash demoBlocks := by
  intro b hb b' hb' h
  simp only [demoBlocks, List.mem_cons, List.not_mem_nil, or_false] at hb hb'
  rcases hb with rfl | rfl | rfl <;> rcases hb' with rfl | rfl | rfl <;>
    first | rfl | (exfalso; revert h; decide)

/-- All three tasks finish under that schedule: two results and an error. -/
example :
    (match demoState.pc 0, demoState.pc 1, demoState.pc 2 with
      | .done (.ok _), .done (.ok _), .done (.error .buildError) => true
      | _, _, _ => false) = true := by decide +kernel

example : (demoState.cache.map 1).isSome = true ∧ (demoState.cache.map 2).isSome = false := by
  decide +kernel

/-- Restarting with that cache and only the cached block meets the hypotheses of C10. -/
example : ∀ b ∈ [demoBlock 'a'], (demoState.cache.get (demoHash ∘ hashInput) b).isSome = true := by
  intro b hb
  simp only [List.mem_singleton] at hb
  subst hb
  decide +kernel

end Verif.Preproc
