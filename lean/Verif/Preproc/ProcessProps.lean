import Verif.Preproc.Process
/-!
# C93: the time limit is about time
-/
namespace Verif.Preproc.Process

/-! ## Specification -/

/-- Everything the child writes to standard output. -/
def stdout (as : List Act) : List UInt8 := as.filterMap fun | .out b => some b | _ => none

/-- Everything the child writes to standard error. -/
def stderr (as : List Act) : List UInt8 := as.filterMap fun | .err b => some b | _ => none

/-- The number of seconds in a timeline. -/
def seconds (es : List Event) : Nat := es.countP (· = .second)

/-- The number of turns of the child before the `n`-th second. -/
def turnsBefore : Nat → List Event → Nat
  | 0, _ => 0
  | _, [] => 0
  | n + 1, .child :: r => turnsBefore (n + 1) r + 1
  | n + 1, .second :: r => turnsBefore n r

/-! ## Lemmas -/

theorem wait_nil {cap : Nat} {s : Bool} {left : Nat} {p : Pipes} (h : p.todo = []) (es : List Event) :
    wait cap s left p es = .exited s p.out p.err := by
  unfold wait; rw [if_pos h]

theorem wait_zero {cap : Nat} {s : Bool} {p : Pipes} (h : p.todo ≠ []) (es : List Event) :
    wait cap s 0 p es = .timedOut := by
  unfold wait; rw [if_neg h, if_pos rfl]

theorem wait_end {cap : Nat} {s : Bool} {left : Nat} {p : Pipes} (h : p.todo ≠ []) (hl : left ≠ 0) :
    wait cap s left p [] = .running := by
  unfold wait; rw [if_neg h, if_neg hl]

theorem wait_child {cap : Nat} {s : Bool} {left : Nat} {p : Pipes} (h : p.todo ≠ []) (hl : left ≠ 0) (es : List Event) :
    wait cap s left p (.child :: es) = wait cap s left (turn cap p) es := by
  rw [wait, if_neg h, if_neg hl]

theorem wait_second {cap : Nat} {s : Bool} {left : Nat} {p : Pipes} (h : p.todo ≠ []) (hl : left ≠ 0) (es : List Event) :
    wait cap s left p (.second :: es) = wait cap s (left - 1) p es := by
  rw [wait, if_neg h, if_neg hl]

/-- A turn keeps what is written and what will be. -/
theorem turn_keeps (cap : Nat) (p : Pipes) :
    (turn cap p).out ++ stdout (turn cap p).todo = p.out ++ stdout p.todo ∧
    (turn cap p).err ++ stderr (turn cap p).todo = p.err ++ stderr p.todo := by
  obtain ⟨todo, o, e⟩ := p
  cases todo with
  | nil => exact ⟨rfl, rfl⟩
  | cons a r => cases a <;> simp only [turn] <;> (try split) <;> simp [stdout, stderr]

/-- A turn keeps the pipes within their capacity. -/
theorem turn_cap {cap : Nat} {p : Pipes} (h : p.out.length ≤ cap ∧ p.err.length ≤ cap) :
    (turn cap p).out.length ≤ cap ∧ (turn cap p).err.length ≤ cap := by
  obtain ⟨todo, o, e⟩ := p
  cases todo with
  | nil => exact h
  | cons a r =>
    cases a <;> simp only [turn]
    · split
      · exact ⟨by simp; omega, h.2⟩
      · exact h
    · split
      · exact ⟨h.1, by simp; omega⟩
      · exact h
    · exact h

/-- If everything fits, a turn makes progress. -/
theorem turn_progress {cap : Nat} {p : Pipes} {a : Act} {r : List Act} (ht : p.todo = a :: r)
    (h : (p.out ++ stdout p.todo).length ≤ cap ∧ (p.err ++ stderr p.todo).length ≤ cap) : (turn cap p).todo = r := by
  obtain ⟨todo, o, e⟩ := p
  dsimp only at ht
  subst ht
  cases a <;> simp only [turn]
  · rw [if_pos]; simp [stdout] at h ⊢; omega
  · rw [if_pos]; simp [stderr] at h ⊢; omega

theorem wait_exited {cap : Nat} {s : Bool} (es : List Event) : ∀ (left : Nat) (p : Pipes) (s' : Bool) (o e : List UInt8),
    wait cap s left p es = .exited s' o e → s' = s ∧ o = p.out ++ stdout p.todo ∧ e = p.err ++ stderr p.todo := by
  induction es with
  | nil =>
    intro left p s' o e h
    by_cases ht : p.todo = []
    · rw [wait_nil ht] at h
      simp only [Ended.exited.injEq] at h
      obtain ⟨rfl, rfl, rfl⟩ := h
      simp [ht, stdout, stderr]
    · by_cases hl : left = 0
      · subst hl; rw [wait_zero ht] at h; simp at h
      · rw [wait_end ht hl] at h; simp at h
  | cons x es ih =>
    intro left p s' o e h
    by_cases ht : p.todo = []
    · rw [wait_nil ht] at h
      simp only [Ended.exited.injEq] at h
      obtain ⟨rfl, rfl, rfl⟩ := h
      simp [ht, stdout, stderr]
    · by_cases hl : left = 0
      · subst hl; rw [wait_zero ht] at h; simp at h
      · cases x with
        | child =>
          rw [wait_child ht hl] at h
          obtain ⟨h1, h2, h3⟩ := ih _ _ _ _ _ h
          obtain ⟨k1, k2⟩ := turn_keeps cap p
          exact ⟨h1, h2.trans k1, h3.trans k2⟩
        | second => rw [wait_second ht hl] at h; exact ih _ _ _ _ _ h

/-! ## C93 -/

/-- **C93.** When the analyser has exited, its status and everything it wrote, in order, is what the program sees. -/
theorem C93_output (cap : Nat) (c : Child) (es : List Event) (s : Bool) (o e : List UInt8)
    (h : run cap c es = .exited s o e) : s = c.success ∧ o = stdout c.acts ∧ e = stderr c.acts :=
  wait_exited es limit ⟨c.acts, [], []⟩ s o e h

theorem wait_timedOut {cap : Nat} {s : Bool} (es : List Event) : ∀ (left : Nat) (p : Pipes),
    wait cap s left p es = .timedOut → left ≤ seconds es := by
  induction es with
  | nil =>
    intro left p h
    by_cases ht : p.todo = []
    · rw [wait_nil ht] at h; simp at h
    · by_cases hl : left = 0
      · omega
      · rw [wait_end ht hl] at h; simp at h
  | cons x es ih =>
    intro left p h
    by_cases ht : p.todo = []
    · rw [wait_nil ht] at h; simp at h
    · by_cases hl : left = 0
      · omega
      · cases x with
        | child =>
          rw [wait_child ht hl] at h
          have := ih _ _ h
          simpa [seconds] using this
        | second =>
          rw [wait_second ht hl] at h
          have := ih _ _ h
          simp [seconds] at this ⊢
          omega

/-- **C93.** The analyser is reported as too slow only if ten seconds have passed. -/
theorem C93_not_early (cap : Nat) (c : Child) (es : List Event) (h : run cap c es = .timedOut) : 10 ≤ seconds es :=
  wait_timedOut es limit _ h

theorem wait_fits {cap : Nat} {s : Bool} (es : List Event) : ∀ (left : Nat) (p : Pipes),
    (p.out ++ stdout p.todo).length ≤ cap ∧ (p.err ++ stderr p.todo).length ≤ cap →
    p.todo.length ≤ turnsBefore left es →
    wait cap s left p es = .exited s (p.out ++ stdout p.todo) (p.err ++ stderr p.todo) := by
  induction es with
  | nil =>
    intro left p _ ht
    have : turnsBefore left [] = 0 := by cases left <;> rfl
    have hn : p.todo = [] := List.length_eq_zero_iff.1 (by omega)
    rw [wait_nil hn]; simp [hn, stdout, stderr]
  | cons x es ih =>
    intro left p h ht
    cases hp : p.todo with
    | nil => rw [wait_nil hp]; simp [stdout, stderr]
    | cons a r =>
      have hne : p.todo ≠ [] := by rw [hp]; simp
      cases left with
      | zero => rw [hp] at ht; simp [turnsBefore] at ht
      | succ left =>
        cases x with
        | child =>
          obtain ⟨k1, k2⟩ := turn_keeps cap p
          rw [wait_child hne (by omega), ih, k1, k2, hp]
          · rw [k1, k2]; exact h
          · rw [turn_progress hp h]
            rw [hp] at ht
            simp only [turnsBefore, List.length_cons] at ht
            omega
        | second =>
          rw [wait_second hne (by omega), Nat.add_sub_cancel, ih left p h ht, hp]

/-- **C93 (partial).** An analyser that needs less than ten seconds is never reported as too slow, and its output is
read completely, if each of its two streams fits into the pipe. -/
theorem C93_in_time_partial (cap : Nat) (c : Child) (es : List Event)
    (ho : (stdout c.acts).length ≤ cap) (he : (stderr c.acts).length ≤ cap)
    (ht : c.acts.length ≤ turnsBefore 10 es) :
    run cap c es = .exited c.success (stdout c.acts) (stderr c.acts) := by
  have := wait_fits (s := c.success) es limit ⟨c.acts, [], []⟩ ⟨by simpa using ho, by simpa using he⟩ ht
  simpa [run] using this

theorem wait_stuck {cap : Nat} {s : Bool} (es : List Event) : ∀ (left : Nat) (p : Pipes),
    p.out.length ≤ cap ∧ p.err.length ≤ cap →
    (cap < (p.out ++ stdout p.todo).length ∨ cap < (p.err ++ stderr p.todo).length) →
    wait cap s left p es = (if left ≤ seconds es then .timedOut else .running) := by
  have hne : ∀ p : Pipes, p.out.length ≤ cap ∧ p.err.length ≤ cap →
      (cap < (p.out ++ stdout p.todo).length ∨ cap < (p.err ++ stderr p.todo).length) → p.todo ≠ [] := by
    intro p hc h hn
    rw [hn] at h
    simp [stdout, stderr] at h
    omega
  induction es with
  | nil =>
    intro left p hc h
    by_cases hl : left = 0
    · subst hl; rw [wait_zero (hne p hc h)]; simp
    · rw [wait_end (hne p hc h) hl]; simp [seconds]; omega
  | cons x es ih =>
    intro left p hc h
    by_cases hl : left = 0
    · subst hl; rw [wait_zero (hne p hc h)]; simp
    · cases x with
      | child =>
        obtain ⟨k1, k2⟩ := turn_keeps cap p
        rw [wait_child (hne p hc h) hl, ih left (turn cap p) (turn_cap hc) (by rw [k1, k2]; exact h)]
        have : seconds (.child :: es) = seconds es := by simp [seconds]
        rw [this]
      | second =>
        rw [wait_second (hne p hc h) hl, ih (left - 1) p hc h]
        have : seconds (.second :: es) = seconds es + 1 := by simp [seconds]
        rw [this]
        by_cases hle : left ≤ seconds es + 1
        · rw [if_pos hle, if_pos (by omega)]
        · rw [if_neg hle, if_neg (by omega)]

/-- **C93** (the code does otherwise): an analyser that writes more than fits into a pipe is reported as too slow after
ten seconds, however fast it is, and never before. -/
theorem C93_large (cap : Nat) (c : Child) (es : List Event)
    (h : cap < (stdout c.acts).length ∨ cap < (stderr c.acts).length) :
    run cap c es = (if 10 ≤ seconds es then .timedOut else .running) :=
  wait_stuck es limit ⟨c.acts, [], []⟩ ⟨Nat.zero_le _, Nat.zero_le _⟩ (by simpa using h)

/-- **C93** (the code does otherwise): with the 65536 bytes of Linux, a program with an answer of more than 64 KiB, or
with as much on standard error, is never analysed: once the wait has ended, the operation has failed. -/
theorem C93_never_analysed (w : World) (b : Verif.Block.Block) (op : List Char) (c : Child)
    (read : List UInt8 → Option Json) (es : List Event) (o : Outcome)
    (h : 65536 < (stdout c.acts).length ∨ 65536 < (stderr c.acts).length)
    (ho : outcome read (run 65536 c es) = some o) (hw : w.exec b.code (args b op) = o) :
    runOp w b op = .error .timedOut := by
  rw [C93_large _ _ _ h] at ho
  split at ho
  · simp only [outcome, Option.some.injEq] at ho
    unfold runOp
    rw [hw, ← ho]
  · simp [outcome] at ho

/-- Three bytes of output and two units of work, pipes of four and of two bytes; the child is done before the first
second. -/
example :
    run 4 ⟨[.work, .out 1, .err 9, .out 2, .work, .out 3], true⟩ (List.replicate 6 .child) = .exited true [1, 2, 3] [9] ∧
    run 2 ⟨[.work, .out 1, .err 9, .out 2, .work, .out 3], true⟩
      (List.replicate 100 .child ++ List.replicate 10 .second) = .timedOut := by
  decide +kernel

end Verif.Preproc.Process
