import Verif.Toolchain.Model
/-!
# C106: which compiler and libraries are used
-/
namespace Verif.Toolchain

/-- `r` is `s` without the white space at its end. -/
def Trimmed (s r : Text) : Prop :=
  ∃ ws, s = r ++ ws ∧ (∀ c ∈ ws, Block.isWhitespace c = true) ∧ ∀ r' c, r = r' ++ [c] → Block.isWhitespace c = false

/-- The command succeeded and printed `r`, up to white space at the end. -/
def Prints (h : Host) (log : List Cmd) (c : Cmd) (r : Text) : Prop :=
  ∃ o s, h.reply log c = some o ∧ o.success = true ∧ o.stdout = some s ∧ Trimmed s r

/-- The command failed with a message that is not UTF-8. -/
def Garbled (h : Host) (log : List Cmd) (c : Cmd) : Prop :=
  ∃ o, h.reply log c = some o ∧ o.success = false ∧ o.stderr = none

/-- The commands that ask for the sysroot and for the compiler of a channel. -/
def askSysroot (channel : Text) : Cmd :=
  ⟨['c', 'a', 'r', 'g', 'o'], ['+' :: channel, ['m', 'i', 'r', 'i'], ['s', 'e', 't', 'u', 'p'],
    ['-', '-', 'p', 'r', 'i', 'n', 't', '-', 's', 'y', 's', 'r', 'o', 'o', 't']]⟩
def askCompiler (channel : Text) : Cmd :=
  ⟨['r', 'u', 's', 't', 'u', 'p'], [['w', 'h', 'i', 'c', 'h'],
    ['-', '-', 't', 'o', 'o', 'l', 'c', 'h', 'a', 'i', 'n'], channel, ['r', 'u', 's', 't', 'c']]⟩
def askLibdir (compiler : Text) : Cmd :=
  ⟨compiler, [['-', '-', 'p', 'r', 'i', 'n', 't'], ['t', 'a', 'r', 'g', 'e', 't', '-', 'l', 'i', 'b', 'd', 'i', 'r']]⟩

/-- The value is taken from the environment if it is there, without running anything, else from the command. -/
inductive Found (h : Host) (var : Text) (c : Cmd) (log : List Cmd) : Text → List Cmd → Prop
  | env {v} : h.env var = some v → Found h var c log v log
  | asked {v} : h.env var = none → Prints h log c v → Found h var c log v (c :: log)

theorem trimEnd_iff (s r : Text) : trimEnd s = r ↔ Trimmed s r := by
  have key : ∀ l : Text, (∃ ws, l = ws ++ l.dropWhile Block.isWhitespace ∧ ∀ c ∈ ws, Block.isWhitespace c = true) ∧
      ∀ c r', l.dropWhile Block.isWhitespace = c :: r' → Block.isWhitespace c = false := by
    intro l
    induction l with
    | nil => exact ⟨⟨[], rfl, by simp⟩, by simp⟩
    | cons a l ih =>
      rw [List.dropWhile_cons]
      cases ha : Block.isWhitespace a with
      | false =>
        refine ⟨⟨[], by simp, by simp⟩, ?_⟩
        intro c r' h
        simp only [Bool.false_eq_true, if_false, List.cons.injEq] at h
        rw [← h.1, ha]
      | true =>
        obtain ⟨⟨ws, h1, h2⟩, h3⟩ := ih
        simp only [if_true]
        refine ⟨⟨a :: ws, by rw [List.cons_append, ← h1], ?_⟩, h3⟩
        intro c hc
        rcases List.mem_cons.1 hc with rfl | hc
        · exact ha
        · exact h2 c hc
  have uniq : ∀ (ws ws' a b : Text), ws ++ a = ws' ++ b → (∀ c ∈ ws, Block.isWhitespace c = true) →
      (∀ c ∈ ws', Block.isWhitespace c = true) → (∀ c r', a = c :: r' → Block.isWhitespace c = false) →
      (∀ c r', b = c :: r' → Block.isWhitespace c = false) → a = b := by
    intro ws
    induction ws with
    | nil =>
      intro ws' a b h _ h2 h3 _
      cases ws' with
      | nil => exact h
      | cons c w =>
        have := h3 c (w ++ b) h
        rw [h2 c (by simp)] at this
        cases this
    | cons x ws ih =>
      intro ws' a b h h1 h2 h3 h4
      cases ws' with
      | nil =>
        have := h4 x (ws ++ a) h.symm
        rw [h1 x (by simp)] at this
        cases this
      | cons c w =>
        simp only [List.cons_append, List.cons.injEq] at h
        exact ih w a b h.2 (fun c hc => h1 c (List.mem_cons_of_mem _ hc)) (fun c hc => h2 c (List.mem_cons_of_mem _ hc)) h3 h4
  have own : Trimmed s (trimEnd s) := by
    obtain ⟨⟨ws, h1, h2⟩, h3⟩ := key s.reverse
    refine ⟨ws.reverse, ?_, ?_, ?_⟩
    · have := congrArg List.reverse h1
      rw [List.reverse_reverse, List.reverse_append] at this
      exact this
    · intro c hc
      exact h2 c (List.mem_reverse.1 hc)
    · intro r' c h
      have := congrArg List.reverse h
      rw [trimEnd, List.reverse_reverse, List.reverse_append] at this
      exact h3 c r'.reverse (by simpa using this)
  constructor
  · rintro rfl; exact own
  · rintro ⟨ws, h1, h2, h3⟩
    obtain ⟨ws', g1, g2, g3⟩ := own
    have e := congrArg List.reverse (g1.symm.trans h1)
    rw [List.reverse_append, List.reverse_append] at e
    have := uniq _ _ _ _ e (fun c hc => g2 c (List.mem_reverse.1 hc)) (fun c hc => h2 c (List.mem_reverse.1 hc)) ?_ ?_
    · have := congrArg List.reverse this
      simpa using this
    · intro c r' h
      exact g3 r'.reverse c (by have := congrArg List.reverse h; simpa using this)
    · intro c r' h
      exact h3 r'.reverse c (by have := congrArg List.reverse h; simpa using this)

theorem runAndGetOutput_log (h : Host) (c : Cmd) (log : List Cmd) : (runAndGetOutput h c log).2 = c :: log := by
  unfold runAndGetOutput
  split
  · rfl
  · split
    · split <;> rfl
    · split <;> rfl

/-- **C106 (one command).** Running a command gives its output without the white space at its end if it succeeds; it
panics exactly if it fails with a message that is not UTF-8. -/
theorem C106_output (h : Host) (c : Cmd) (log : List Cmd) :
    (∀ r, (runAndGetOutput h c log).1 = .ok r ↔ Prints h log c r) ∧
    ((runAndGetOutput h c log).1 = .panic ↔ Garbled h log c) ∧ (runAndGetOutput h c log).2 = c :: log := by
  refine ⟨fun r => ?_, ?_, runAndGetOutput_log h c log⟩
  · unfold runAndGetOutput Prints
    cases hr : h.reply log c with
    | none => simp
    | some o =>
      dsimp only
      cases hs : o.success with
      | false =>
        cases he : o.stderr <;> simp [hs]
      | true =>
        cases ho : o.stdout with
        | none => simp [ho]
        | some s =>
          simp only [Bool.not_true, Bool.false_eq_true, if_false, Res.ok.injEq, trimEnd_iff, Option.some.injEq]
          constructor
          · intro ht; exact ⟨o, s, rfl, hs, ho, ht⟩
          · rintro ⟨o', s', rfl, _, h2, h3⟩
            rw [ho] at h2
            cases h2
            exact h3
  · unfold runAndGetOutput Garbled
    cases hr : h.reply log c with
    | none => simp
    | some o =>
      dsimp only
      cases hs : o.success with
      | false => cases he : o.stderr <;> simp [hs, he]
      | true => cases ho : o.stdout <;> simp [hs]

variable {file : Option Toml} {channel : Text}

theorem rustc_found (hf : toolchain file = .ok channel) (h : Host) (log : List Cmd) (v : Text) (log' : List Cmd) :
    rustc file h log = (.ok v, log') ↔ Found h ['R', 'U', 'S', 'T', 'C', '_', 'P', 'A', 'T', 'H'] (askCompiler channel) log v log' := by
  unfold rustc
  rw [hf]
  cases he : h.env vRustcPath with
  | some p =>
    constructor
    · intro h'
      cases h'
      exact .env he
    · intro h'
      cases h' with
      | env e => rw [show h.env vRustcPath = some v from e] at he; cases he; rfl
      | asked e _ => rw [show h.env vRustcPath = none from e] at he; cases he
  | none =>
    obtain ⟨h1, _, h3⟩ := C106_output h (askCompiler channel) log
    dsimp only
    constructor
    · intro h'
      have e1 := congrArg Prod.fst h'
      have e2 := congrArg Prod.snd h'
      obtain rfl : askCompiler channel :: log = log' := h3.symm.trans e2
      exact .asked he ((h1 v).1 e1)
    · intro h'
      cases h' with
      | env e => rw [show h.env vRustcPath = some v from e] at he; cases he
      | asked _ e => exact Prod.ext ((h1 v).2 e) h3

theorem miriSysroot_found (hf : toolchain file = .ok channel) (h : Host) (log : List Cmd) (v : Text) (log' : List Cmd) :
    miriSysroot file h log = (.ok v, log') ↔
      Found h ['M', 'I', 'R', 'I', '_', 'S', 'Y', 'S', 'R', 'O', 'O', 'T'] (askSysroot channel) log v log' := by
  unfold miriSysroot
  rw [hf]
  cases he : h.env vMiriSysroot with
  | some p =>
    constructor
    · intro h'
      cases h'
      exact .env he
    · intro h'
      cases h' with
      | env e => rw [show h.env vMiriSysroot = some v from e] at he; cases he; rfl
      | asked e _ => rw [show h.env vMiriSysroot = none from e] at he; cases he
  | none =>
    dsimp only
    rw [show (⟨pCargo, sysrootArgs (.ok channel)⟩ : Cmd) = askSysroot channel from rfl]
    constructor
    · intro h'
      cases hr : h.reply log (askSysroot channel) with
      | none => rw [hr] at h'; cases h'
      | some o =>
        rw [hr] at h'
        dsimp only at h'
        cases hs : o.success with
        | false => rw [hs] at h'; cases h'
        | true =>
          rw [hs] at h'
          cases ho : o.stdout with
          | none => rw [ho] at h'; cases h'
          | some s =>
            rw [ho] at h'
            cases h'
            exact .asked he ⟨o, s, hr, hs, ho, (trimEnd_iff _ _).1 rfl⟩
    · intro h'
      cases h' with
      | env e => rw [show h.env vMiriSysroot = some v from e] at he; cases he
      | asked _ e =>
        obtain ⟨o, s, h1, h2, h3, h4⟩ := e
        rw [h1]
        simp only [h2, h3, Bool.not_true, Bool.false_eq_true, if_false, (trimEnd_iff _ _).2 h4]

/-- **C106 (start of the preprocessor).** The preprocessor starts exactly if the cache can be loaded, the sysroot is
given by `MIRI_SYSROOT` or printed by the pinned toolchain, the compiler is given by `RUSTC_PATH` or is that of the
pinned toolchain, and this compiler prints its libraries.  These are the values it uses, and no other command is run. -/
theorem C106_start (hf : toolchain file = .ok channel) (h : Host) (cacheLoads : Bool) (t : Tool) (log : List Cmd) :
    new file h cacheLoads = (.ok t, log) ↔ cacheLoads = true ∧ ∃ compiler log1 log2,
      Found h ['M', 'I', 'R', 'I', '_', 'S', 'Y', 'S', 'R', 'O', 'O', 'T'] (askSysroot channel) [] t.miriSysroot log1 ∧
      Found h ['R', 'U', 'S', 'T', 'C', '_', 'P', 'A', 'T', 'H'] (askCompiler channel) log1 compiler log2 ∧
      Prints h log2 (askLibdir compiler) t.targetLibdir ∧ log = askLibdir compiler :: log2 := by
  constructor
  · intro hn
    unfold new andThen at hn
    cases h1 : (miriSysroot file h []).1 with
    | err => rw [h1] at hn; cases hn
    | panic => rw [h1] at hn; cases hn
    | ok root =>
      rw [h1] at hn
      dsimp only at hn
      cases h2 : (rustc file h (miriSysroot file h []).2).1 with
      | err => rw [h2] at hn; cases hn
      | panic => rw [h2] at hn; cases hn
      | ok rc =>
        rw [h2] at hn
        dsimp only at hn
        cases h3 : (runAndGetOutput h ⟨rc, [aPrint, aTargetLibdir]⟩ (rustc file h (miriSysroot file h []).2).2).1 with
        | err => rw [h3] at hn; cases hn
        | panic => rw [h3] at hn; cases hn
        | ok lib =>
          rw [h3] at hn
          dsimp only at hn
          cases cacheLoads with
          | false => cases hn
          | true =>
            simp only [if_true, runAndGetOutput_log] at hn
            cases hn
            refine ⟨rfl, rc, _, _, (miriSysroot_found hf h _ _ _).1 (Prod.ext h1 rfl),
              (rustc_found hf h _ _ _).1 (Prod.ext h2 rfl), ((C106_output h _ _).1 _).1 h3, rfl⟩
  · rintro ⟨rfl, rc, log1, log2, h1, h2, h3, rfl⟩
    unfold new andThen
    rw [(miriSysroot_found hf h _ _ _).2 h1]
    dsimp only
    rw [(rustc_found hf h _ _ _).2 h2]
    dsimp only
    obtain ⟨g1, _, g3⟩ := C106_output h (askLibdir rc) log2
    rw [show runAndGetOutput h ⟨rc, [aPrint, aTargetLibdir]⟩ log2 = (.ok t.targetLibdir, askLibdir rc :: log2) from
      Prod.ext ((g1 _).2 h3) g3]
    rfl

/-- **C106 (everything from the environment).** With both variables set, the only command is the compiler itself, and
the values are used as they are. -/
theorem C106_environment (hf : toolchain file = .ok channel) (h : Host) {root rc : Text}
    (h1 : h.env ['M', 'I', 'R', 'I', '_', 'S', 'Y', 'S', 'R', 'O', 'O', 'T'] = some root)
    (h2 : h.env ['R', 'U', 'S', 'T', 'C', '_', 'P', 'A', 'T', 'H'] = some rc) (cacheLoads : Bool) :
    (new file h cacheLoads).2 = [askLibdir rc] ∧
      ∀ t, (new file h cacheLoads).1 = .ok t → t.miriSysroot = root := by
  have e1 : miriSysroot file h [] = (.ok root, []) := (miriSysroot_found hf h _ _ _).2 (.env h1)
  have e2 : rustc file h [] = (.ok rc, []) := (rustc_found hf h _ _ _).2 (.env h2)
  obtain ⟨_, _, g3⟩ := C106_output h (askLibdir rc) []
  have g3 : (runAndGetOutput h ⟨rc, [aPrint, aTargetLibdir]⟩ []).2 = [askLibdir rc] := g3
  unfold new andThen
  rw [e1]
  dsimp only
  rw [e2]
  dsimp only
  cases e3 : (runAndGetOutput h ⟨rc, [aPrint, aTargetLibdir]⟩ []).1 with
  | err => exact ⟨g3, fun t ht => by cases ht⟩
  | panic => exact ⟨g3, fun t ht => by cases ht⟩
  | ok lib =>
    cases cacheLoads with
    | false => exact ⟨g3, fun t ht => by cases ht⟩
    | true => exact ⟨g3, fun t ht => by cases ht; rfl⟩

/-- **C106 (panics).** The start panics exactly if the command that looks for the compiler, or the compiler, is run and
fails with a message that is not UTF-8; else it ends with a value or an error. -/
theorem C106_panic (hf : toolchain file = .ok channel) (h : Host) (cacheLoads : Bool) :
    (new file h cacheLoads).1 = .panic ↔ ∃ root log1,
      Found h ['M', 'I', 'R', 'I', '_', 'S', 'Y', 'S', 'R', 'O', 'O', 'T'] (askSysroot channel) [] root log1 ∧
      ((h.env ['R', 'U', 'S', 'T', 'C', '_', 'P', 'A', 'T', 'H'] = none ∧ Garbled h log1 (askCompiler channel)) ∨
        ∃ compiler log2, Found h ['R', 'U', 'S', 'T', 'C', '_', 'P', 'A', 'T', 'H'] (askCompiler channel) log1 compiler log2 ∧
          Garbled h log2 (askLibdir compiler)) := by
  have hm : (miriSysroot file h []).1 ≠ .panic := by
    unfold miriSysroot
    rw [hf]
    split
    · simp
    · dsimp only
      split
      · simp
      · split
        · simp
        · split <;> simp
  have hr : ∀ log, (rustc file h log).1 = .panic ↔
      h.env ['R', 'U', 'S', 'T', 'C', '_', 'P', 'A', 'T', 'H'] = none ∧ Garbled h log (askCompiler channel) := by
    intro log
    unfold rustc
    rw [hf]
    change _ ↔ h.env vRustcPath = none ∧ _
    cases he : h.env vRustcPath with
    | some p => simp
    | none =>
      simp only [true_and]
      exact (C106_output h (askCompiler channel) log).2.1
  constructor
  · intro hp
    unfold new andThen at hp
    cases h1 : (miriSysroot file h []).1 with
    | err => rw [h1] at hp; cases hp
    | panic => exact absurd h1 hm
    | ok root =>
      rw [h1] at hp
      dsimp only at hp
      refine ⟨root, _, (miriSysroot_found hf h _ _ _).1 (Prod.ext h1 rfl), ?_⟩
      cases h2 : (rustc file h (miriSysroot file h []).2).1 with
      | err => rw [h2] at hp; cases hp
      | panic => exact .inl ((hr _).1 h2)
      | ok rc =>
        rw [h2] at hp
        dsimp only at hp
        refine .inr ⟨rc, _, (rustc_found hf h _ _ _).1 (Prod.ext h2 rfl), ?_⟩
        refine (C106_output h (askLibdir rc) _).2.1.1 ?_
        cases h3 : (runAndGetOutput h ⟨rc, [aPrint, aTargetLibdir]⟩ (rustc file h (miriSysroot file h []).2).2).1 with
        | err => rw [h3] at hp; cases hp
        | panic => exact h3
        | ok lib => rw [h3] at hp; cases cacheLoads <;> cases hp
  · rintro ⟨root, log1, h1, h2⟩
    unfold new andThen
    rw [(miriSysroot_found hf h _ _ _).2 h1]
    dsimp only
    rcases h2 with h2 | ⟨rc, log2, h2, h3⟩
    · rw [(hr _).2 h2]
    · rw [(rustc_found hf h _ _ _).2 h2]
      dsimp only
      rw [show (runAndGetOutput h ⟨rc, [aPrint, aTargetLibdir]⟩ log2).1 = .panic from
        (C106_output h (askLibdir rc) log2).2.1.2 h3]

/-- **C106 (the analyser's environment).** The analyser sees the two directories under the names it and the dynamic
linker look for; whatever it finds with `MIRI_SYSROOT` is what the preprocessor found; other variables are unchanged. -/
theorem C106_child (h : Host) (t : Tool) :
    childEnv h t ['S', 'Y', 'S', 'R', 'O', 'O', 'T'] = some t.miriSysroot ∧
    childEnv h t ['M', 'I', 'R', 'I', '_', 'S', 'Y', 'S', 'R', 'O', 'O', 'T'] = some t.miriSysroot ∧
    childEnv h t ['L', 'D', '_', 'L', 'I', 'B', 'R', 'A', 'R', 'Y', '_', 'P', 'A', 'T', 'H'] = some t.targetLibdir ∧
    childEnv h t ['D', 'Y', 'L', 'D', '_', 'L', 'I', 'B', 'R', 'A', 'R', 'Y', '_', 'P', 'A', 'T', 'H'] =
      some t.targetLibdir ∧
    (∀ k, k ∉ [vSysroot, vMiriSysroot, vDyld, vLd, vBacktrace] → childEnv h t k = h.env k) ∧
    ∀ (reply : List Cmd → Cmd → Option Out) (file : Option Toml),
      miriSysroot file ⟨childEnv h t, reply⟩ [] = (.ok t.miriSysroot, []) := by
  refine ⟨by simp [childEnv, setEnv, vSysroot, vMiriSysroot, vDyld, vLd, vBacktrace],
    by simp [childEnv, setEnv, vMiriSysroot, vDyld, vLd, vBacktrace],
    by simp [childEnv, setEnv, vLd, vBacktrace], by simp [childEnv, setEnv, vDyld, vLd, vBacktrace], ?_, ?_⟩
  · intro k hk
    simp only [List.mem_cons, List.not_mem_nil, or_false, not_or] at hk
    simp only [childEnv, setEnv, hk, if_false]
  · intro reply file
    have : childEnv h t vMiriSysroot = some t.miriSysroot := by
      simp [childEnv, setEnv, vMiriSysroot, vDyld, vLd, vBacktrace]
    unfold miriSysroot
    dsimp only
    rw [this]

/-! ## Examples -/

/-- The file in the repository (aquascope_workspace_utils/rust-toolchain.toml), as far as it is read. -/
def pinned : Option Toml :=
  some fun k => if k = kToolchain then some fun k' => if k' = kChannel then some (.str ['n']) else none else none

/-- A machine without the two variables. -/
def machine : Host where
  env := fun _ => none
  reply := fun _ c =>
    if c = askSysroot ['n'] then some ⟨true, some ['/', 's', '\n'], some []⟩
    else if c = askCompiler ['n'] then some ⟨true, some ['/', 'r', ' ', '\n'], some []⟩
    else if c = askLibdir ['/', 'r'] then some ⟨true, some ['/', 'l'], some []⟩ else none

/-- The start asks the pinned toolchain for both and runs the compiler it names. -/
example : toolchain pinned = .ok ['n'] ∧ new pinned machine true = (.ok ⟨['/', 's'], ['/', 'l']⟩,
    [askLibdir ['/', 'r'], askCompiler ['n'], askSysroot ['n']]) := by decide

/-- A compiler that fails with a garbled message. -/
example : (new pinned ⟨fun k => some k, fun _ _ => some ⟨false, none, none⟩⟩ true).1 = .panic := by decide

/-- **C106 (not trimmed).** A value from the environment is not trimmed, unlike the output of a command: the sysroot is
then a directory whose name ends in a line break. -/
theorem C106_not_trimmed : ∃ h : Host, h.env vMiriSysroot = some ['/', 's', '\n'] ∧
    (new pinned h true).1 = .ok ⟨['/', 's', '\n'], ['/', 'l']⟩ :=
  ⟨⟨fun k => if k = vMiriSysroot then some ['/', 's', '\n'] else none, machine.reply⟩, by decide, by decide⟩

/-- **C106 (other files).** What the pinned file says is needed only if a variable is not set.  A file without a channel is no error:
the tools of the user are asked, without a channel.  A channel that is not text is a panic before any command is run. -/
theorem C106_unpinned (h : Host) (cacheLoads : Bool)
    (h1 : h.env ['M', 'I', 'R', 'I', '_', 'S', 'Y', 'S', 'R', 'O', 'O', 'T'] = none) :
    (∀ (t u : _) , t ['t', 'o', 'o', 'l', 'c', 'h', 'a', 'i', 'n'] = some u → u ['c', 'h', 'a', 'n', 'n', 'e', 'l'] = some .other →
      new (some t) h cacheLoads = (.panic, [])) ∧
    (∀ file : Option Toml,
      (∀ t u, file = some t → t ['t', 'o', 'o', 'l', 'c', 'h', 'a', 'i', 'n'] = some u → u ['c', 'h', 'a', 'n', 'n', 'e', 'l'] = none) →
      (new file h cacheLoads).2.getLast? = some ⟨pCargo, [aMiri, aSetup, aPrintSysroot]⟩ ∧
      (h.env ['R', 'U', 'S', 'T', 'C', '_', 'P', 'A', 'T', 'H'] = none →
        ∀ log, (rustc file h log).2 = ⟨pWhich, [aRustc]⟩ :: log)) := by
  constructor
  · intro t u ht hu
    have : toolchain (some t) = .panic := by
      unfold toolchain
      dsimp only
      rw [show t kToolchain = some u from ht]
      dsimp only
      rw [show u kChannel = some .other from hu]
    unfold new miriSysroot
    rw [show h.env vMiriSysroot = none from h1, this]
    rfl
  · intro file hf
    have : toolchain file = .err := by
      unfold toolchain
      cases file with
      | none => rfl
      | some t =>
        dsimp only
        cases ht : t kToolchain with
        | none => rfl
        | some u =>
          dsimp only
          rw [show u kChannel = none from hf t u rfl ht]
    have hr : ∀ log, ∃ l, (rustc file h log).2 = l ++ log := by
      intro log
      unfold rustc
      split
      · exact ⟨[], rfl⟩
      · rw [this]; exact ⟨[_], runAndGetOutput_log h _ log⟩
    have hrun : ∀ c log, ∃ l, (runAndGetOutput h c log).2 = l ++ log := fun c log => ⟨[c], runAndGetOutput_log h c log⟩
    constructor
    · have hm : (miriSysroot file h []).2 = [⟨pCargo, [aMiri, aSetup, aPrintSysroot]⟩] := by
        unfold miriSysroot
        rw [show h.env vMiriSysroot = none from h1, this]
        dsimp only [sysrootArgs]
        split
        · rfl
        · split
          · rfl
          · split <;> rfl
      have hthen : ∀ {α β : Type} (r : Run α) (f : α → List Cmd → Run β), (∀ a log, ∃ l, (f a log).2 = l ++ log) →
          ∃ l, (andThen r f).2 = l ++ r.2 := by
        intro α β r f hf
        unfold andThen
        split
        · exact hf _ _
        · exact ⟨[], rfl⟩
        · exact ⟨[], rfl⟩
      have : ∃ l, (new file h cacheLoads).2 = l ++ (miriSysroot file h []).2 := by
        unfold new
        refine hthen _ _ fun a log => ?_
        obtain ⟨l1, e1⟩ := hthen (rustc file h log) (fun rc log =>
          andThen (runAndGetOutput h ⟨rc, [aPrint, aTargetLibdir]⟩ log) fun lib log =>
            if cacheLoads then ((.ok ⟨a, lib⟩, log) : Run Tool) else (.err, log)) (fun rc log => by
          obtain ⟨l1, e1⟩ := hthen (runAndGetOutput h ⟨rc, [aPrint, aTargetLibdir]⟩ log) (fun lib log =>
            if cacheLoads then ((.ok ⟨a, lib⟩, log) : Run Tool) else (.err, log)) (fun lib log => ⟨[], by split <;> rfl⟩)
          obtain ⟨l2, e2⟩ := hrun ⟨rc, [aPrint, aTargetLibdir]⟩ log
          exact ⟨l1 ++ l2, by rw [e1, e2, List.append_assoc]⟩)
        obtain ⟨l2, e2⟩ := hr log
        exact ⟨l1 ++ l2, by rw [e1, e2, List.append_assoc]⟩
      obtain ⟨l, e⟩ := this
      rw [e, hm]
      simp
    · intro h2 log
      unfold rustc
      rw [show h.env vRustcPath = none from h2, this]
      exact runAndGetOutput_log h _ log

/-- A machine without the two variables, with a channel that is a number, and without one. -/
example : new (some fun _ => some fun _ => some .other) machine true = (.panic, []) ∧
    (new none machine true).2.getLast? = some ⟨pCargo, [aMiri, aSetup, aPrintSysroot]⟩ := by decide

end Verif.Toolchain
