import Verif.Cli.Model
import Verif.Preproc.Props
import Verif.Wire.JsonProps
import Verif.Boundaries.Whole
/-!
# C120: the options of a block reach the analysis of its operations
-/
namespace Verif.Cli
open Verif.Preproc Verif.Preproc.Spec Verif.Block
open Verif.Steps (Mode)

/-! ## Specification -/

/-- The block gives the option, with whatever value. -/
def Given (b : Block) (k : List Char) : Prop := ∃ v, (k, v) ∈ b.config

/-- What an operation of a block asks for: the changes of permissions, with flows exactly if `showFlows` is given; or the
execution, of programs that the borrow checker refuses, too, exactly if `shouldFail` is given. -/
def Wants (b : Block) (op : List Char) : Job → Prop
  | .permissions mode flows => op = sPermissions ∧ mode = .changes ∧ (flows = true ↔ Given b kShowFlows)
  | .interpreter sf => op = sInterpreter ∧ (sf = true ↔ Given b kShouldFail)

example : sPermissions = "permissions".toList ∧ sInterpreter = "interpreter".toList ∧
    argShouldFail = "--should-fail".toList ∧ argShowFlows = "--show-flows".toList ∧ aMode = "--steps-include-mode".toList := by
  decide +kernel

/-! ## To the driver -/

theorem valid_json (a : PluginArgs) : Wire.Valid a.json := by
  have pair : ∀ {k k' : List Char} {x y : Json}, Wire.Valid x → Wire.Valid y → Wire.Valid (.obj [(k, x), (k', y)]) := by
    intro k k' x y hx hy
    refine .obj fun f hf => ?_
    simp only [List.mem_cons, List.not_mem_nil, or_false] at hf
    rcases hf with rfl | rfl
    · exact hx
    · exact hy
  obtain ⟨b, c⟩ := a
  refine pair .bool ?_
  cases c with
  | permissions m f =>
    refine .obj fun g hg => ?_
    simp only [List.mem_cons, List.not_mem_nil, or_false] at hg
    subst hg
    refine pair ?_ .bool
    rcases m with _ | m
    · exact .null
    · cases m <;> exact .str
  | _ => exact .str

theorem argsOf_json (a : PluginArgs) : argsOf a.json = some a := by
  obtain ⟨b, c⟩ := a
  cases c with
  | permissions m f =>
    cases m with
    | none => cases b <;> cases f <;> rfl
    | some m => cases m <;> cases b <;> cases f <;> rfl
  | _ => cases b <;> rfl

/-- **C120 (transport).** The driver gets the arguments that were given to the command, whatever they are. -/
theorem C120_transport (a : PluginArgs) : (Wire.read (Wire.write a.json)).bind argsOf = some a := by
  rw [Wire.read_write_eq (valid_json a)]
  exact argsOf_json a

theorem start_ok {argv : List Arg} {a : PluginArgs} (hV : ∀ x ∈ argv, x ≠ ['-', 'V'])
    (h : parseTop false (argv.drop 1) = .ok a) :
    start argv = match a.command with
      | .permissions m f => .job (.permissions (m.getD .changes) f)
      | .interpreter => .job (.interpreter a.shouldFail)
      | .preload => .preload
      | .rustcVersion => .text := by
  have h1 : argv.any (fun a => decide (a = ['-', 'V'])) = false := by
    rw [List.any_eq_false]; intro x hx; simpa using hV x hx
  unfold start
  rw [h1, h]
  simp only [Bool.false_eq_true, if_false, drive, C120_transport]
  obtain ⟨b, c⟩ := a
  cases c <;> rfl

/-- **C120 (no panic).** Whatever the command line, the driver never gets arguments it cannot run. -/
theorem C120_no_panic (argv : List Arg) : start argv ≠ .panic := by
  unfold start
  split
  · simp
  · cases h : parseTop false (argv.drop 1) with
    | message => simp
    | usage => simp
    | ok a =>
      obtain ⟨b, c⟩ := a
      cases c <;> simp [drive, C120_transport, PluginArgs.run]

/-! ## The command lines of the book builder -/

theorem parse_op (sf : Bool) (op : Arg) (fl : Bool) :
    (op = sPermissions → parseTop sf (op :: if fl then [argShowFlows] else []) = .ok ⟨sf, .permissions none fl⟩) ∧
    (op = sInterpreter → parseTop sf (op :: if fl then [argShowFlows] else []) =
      if fl then .usage else .ok ⟨sf, .interpreter⟩) ∧
    (op ≠ sPermissions → op ≠ sInterpreter → ∀ a, parseTop sf (op :: if fl then [argShowFlows] else []) = .ok a →
      a.command = .preload ∨ a.command = .rustcVersion) := by
  refine ⟨?_, ?_, ?_⟩
  · rintro rfl
    cases sf <;> cases fl <;> decide +kernel
  · rintro rfl
    cases sf <;> cases fl <;> decide +kernel
  · intro h1 h2 a h
    unfold parseTop at h
    rw [if_neg h1, if_neg h2] at h
    split at h
    · cases fl
      · simp [parseNothing, Parsed.map] at h; subst h; exact .inl rfl
      · simp only [if_true, parseNothing] at h
        split at h <;> simp [Parsed.map] at h
    split at h
    · cases fl
      · simp [parseNothing, Parsed.map] at h; subst h; exact .inr rfl
      · simp only [if_true, parseNothing] at h
        split at h <;> simp [Parsed.map] at h
    split at h
    · cases fl
      · simp [parseHelp] at h
      · simp only [if_true, parseHelp] at h
        split at h <;> cases h
    split at h
    · split at h
      · cases h
      · cases fl
        · simp [parseTop] at h
        · exact absurd h (by
            have : parseTop true (if true = true then [argShowFlows] else []) = .usage := by decide +kernel
            rw [this]; simp)
    split at h <;> cases h

theorem parse_flag (sf : Bool) (r : List Arg) :
    parseTop false ((if sf then [argShouldFail] else []) ++ r) = parseTop sf r := by
  cases sf with
  | false => rfl
  | true =>
    show parseTop false (argShouldFail :: r) = _
    rw [parseTop, if_neg (by decide +kernel), if_neg (by decide +kernel), if_neg (by decide +kernel),
      if_neg (by decide +kernel), if_neg (by decide +kernel), if_pos rfl]
    rfl

theorem given_iff (b : Block) (k : List Char) : (b.config.any fun p => p.1 == k) = true ↔ Given b k := by
  simp only [List.any_eq_true, beq_iff_eq]
  constructor
  · rintro ⟨⟨k', v⟩, h, rfl⟩; exact ⟨v, h⟩
  · rintro ⟨v, h⟩; exact ⟨_, h, rfl⟩

theorem start_args (b : Block) (op : Arg) (hop : op ≠ ['-', 'V']) :
    start (args b op) = match parseTop (b.config.any fun p => p.1 == kShouldFail)
        (op :: if b.config.any (fun p => p.1 == kShowFlows) then [argShowFlows] else []) with
      | .message => .text
      | .usage => .refused
      | .ok a => (match a.command with
        | .permissions m f => .job (.permissions (m.getD .changes) f)
        | .interpreter => .job (.interpreter a.shouldFail)
        | .preload => .preload
        | .rustcVersion => .text) := by
  have hV : ∀ x ∈ args b op, x ≠ ['-', 'V'] := by
    intro x hx
    have : x = argAquascope ∨ x = argShouldFail ∨ x = op ∨ x = argShowFlows := by
      simp only [args, List.mem_append, List.mem_singleton] at hx
      rcases hx with ((h | h) | h) | h
      · exact .inl h
      · split at h
        · exact .inr (.inl (by simpa using h))
        · cases h
      · exact .inr (.inr (.inl h))
      · split at h
        · exact .inr (.inr (.inr (by simpa using h)))
        · cases h
    rcases this with rfl | rfl | rfl | rfl
    · decide +kernel
    · decide +kernel
    · exact hop
    · decide +kernel
  have hp : parseTop false ((args b op).drop 1) = parseTop (b.config.any fun p => p.1 == kShouldFail)
      (op :: if b.config.any (fun p => p.1 == kShowFlows) then [argShowFlows] else []) := by
    refine Eq.trans (congrArg _ ?_) (parse_flag _ _)
    simp [args]
  cases h : parseTop (b.config.any fun p => p.1 == kShouldFail)
      (op :: if b.config.any (fun p => p.1 == kShowFlows) then [argShowFlows] else []) with
  | ok a => exact start_ok hV (hp.trans h)
  | message =>
    have h1 : (args b op).any (fun a => decide (a = ['-', 'V'])) = false := by
      rw [List.any_eq_false]; intro x hx; simpa using hV x hx
    unfold start; rw [h1, hp, h]; rfl
  | usage =>
    have h1 : (args b op).any (fun a => decide (a = ['-', 'V'])) = false := by
      rw [List.any_eq_false]; intro x hx; simpa using hV x hx
    unfold start; rw [h1, hp, h]; rfl

/-- **C120 (books).** For an operation of a block the analysis starts with the options of the block, exactly if the
operation is `permissions`, or it is `interpreter` and `showFlows` is not given.  Nothing else starts an analysis. -/
theorem C120_book_partial (b : Block) (op : List Char) (j : Job) :
    start (args b op) = .job j ↔ Wants b op j ∧ ¬ (op = sInterpreter ∧ Given b kShowFlows) := by
  have hpi : sPermissions ≠ sInterpreter := by decide +kernel
  by_cases hop : op = ['-', 'V']
  · subst hop
    have hs : start (args b ['-', 'V']) = .text := by
      unfold start
      rw [if_pos (by simp [args])]
    rw [hs]
    refine ⟨nofun, fun ⟨h, _⟩ => ?_⟩
    cases j with
    | permissions m f => exact absurd h.1 (by decide +kernel)
    | interpreter f => exact absurd h.1 (by decide +kernel)
  · rw [start_args b op hop]
    have hk := given_iff b kShowFlows
    have hs := given_iff b kShouldFail
    generalize (b.config.any fun p => p.1 == kShowFlows) = fl at *
    generalize (b.config.any fun p => p.1 == kShouldFail) = sf at *
    obtain ⟨p1, p2, p3⟩ := parse_op sf op fl
    by_cases h1 : op = sPermissions
    · rw [p1 h1]
      subst h1
      cases j with
      | permissions m f =>
        simp only [End.job.injEq, Job.permissions.injEq, Wants, Option.getD_none, hpi, false_and, not_false_eq_true, and_true,
          true_and, ← hk]
        constructor
        · rintro ⟨rfl, rfl⟩; exact ⟨rfl, Iff.rfl⟩
        · rintro ⟨rfl, h⟩
          refine ⟨rfl, ?_⟩
          cases f <;> cases fl <;> simp_all
      | interpreter f => simp [Wants, hpi]
    · by_cases h2 : op = sInterpreter
      · rw [p2 h2]
        subst h2
        cases j with
        | permissions m f => cases fl <;> simp [Wants, h1]
        | interpreter f =>
          cases fl with
          | true => simp [← hk]
          | false =>
            simp only [Bool.false_eq_true, if_false, End.job.injEq, Job.interpreter.injEq, Wants, true_and, ← hk, not_false_eq_true,
              and_true, ← hs]
            cases f <;> cases sf <;> simp
      · refine ⟨fun h => ?_, fun ⟨h, _⟩ => ?_⟩
        · exfalso
          cases hp : parseTop sf (op :: if fl then [argShowFlows] else []) with
          | message => rw [hp] at h; cases h
          | usage => rw [hp] at h; cases h
          | ok a =>
            rw [hp] at h
            rcases p3 h1 h2 a hp with hc | hc <;> simp [hc] at h
        · cases j with
          | permissions m f => exact absurd h.1 h1
          | interpreter f => exact absurd h.1 h2

/-- **C120 fails for diagrams of blocks that show flows.** `interpreter` does not know `--show-flows`, so the command line is
refused and the block is never answered, whatever the program and whatever the surroundings do. -/
theorem C120_flows_refused (w : World) (job : List Char → Job → Outcome) (check : List Char → Bool) (b : Block)
    (hop : sInterpreter ∈ b.operations) (hf : Given b kShowFlows) :
    start (args b sInterpreter) = .refused ∧ runOp (world w job check) b sInterpreter = .error .failed ∧
      ∀ r, runAquascope (world w job check) b ≠ .ok r := by
  have hs : start (args b sInterpreter) = .refused := by
    rw [start_args b _ (by decide +kernel), (given_iff b kShowFlows).2 hf,
      (parse_op _ sInterpreter true).2.1 rfl]
    rfl
  refine ⟨hs, ?_, fun r h => ?_⟩
  · unfold runOp world
    dsimp only
    rw [hs]
    rfl
  obtain ⟨_, h2, _⟩ := (C12_success_iff _ _ _).1 h
  obtain ⟨j, h3, _⟩ := h2 _ hop
  have : runOp (world w job check) b sInterpreter = .ok j := (runOp_ok _ _ _ _).2 h3
  simp [runOp, world, hs] at this

/-- **C120 (answers).** A block is answered exactly if the surroundings work and each of its operations is one of the two,
`showFlows` is not given together with `interpreter`, and the analysis with the options of the block gives an answer that is
no error. -/
theorem C120_answered_partial (w : World) (job : List Char → Job → Outcome) (check : List Char → Bool) (b : Block)
    (r : Responses) :
    runAquascope (world w job check) b = .ok r ↔
      Ready w ∧
      (∀ op ∈ b.operations, ∃ j a, (Wants b op j ∧ ¬ (op = sInterpreter ∧ Given b kShowFlows)) ∧
        job b.code j = .finished true (some a) ∧ ¬ ErrorAnswer a ∧ r op = some a) ∧
      ∀ op, op ∉ b.operations → r op = none := by
  rw [C12_success_iff]
  have hr : Ready (world w job check) ↔ Ready w := Iff.rfl
  rw [hr]
  have key : ∀ op a, Answered (world w job check) b op a ↔
      ∃ j, (Wants b op j ∧ ¬ (op = sInterpreter ∧ Given b kShowFlows)) ∧
        job b.code j = .finished true (some a) ∧ ¬ ErrorAnswer a := by
    intro op a
    unfold Answered
    cases hs : start (args b op) with
    | job j =>
      have he : (world w job check).exec b.code (args b op) = job b.code j := by simp [world, hs]
      rw [he]
      constructor
      · exact fun h => ⟨j, (C120_book_partial b op j).1 hs, h⟩
      · rintro ⟨j', h1, h2⟩
        have := (C120_book_partial b op j').2 h1
        rw [hs] at this
        cases this
        exact h2
    | text | refused | preload | panic =>
      have he : ∃ x, (world w job check).exec b.code (args b op) = .finished x none := by simp [world, hs]
      obtain ⟨x, he⟩ := he
      rw [he]
      simp only [Outcome.finished.injEq, reduceCtorEq, and_false, false_and, false_iff, not_exists]
      rintro j ⟨h1, _⟩
      have := (C120_book_partial b op j).2 h1
      rw [hs] at this
      cases this
  refine and_congr Iff.rfl (and_congr ?_ Iff.rfl)
  constructor
  · intro h op ho
    obtain ⟨a, h1, h2⟩ := h op ho
    obtain ⟨j, h3, h4, h5⟩ := (key op a).1 h1
    exact ⟨j, a, h3, h4, h5, h2⟩
  · intro h op ho
    obtain ⟨j, a, h1, h2, h3, h4⟩ := h op ho
    exact ⟨a, (key op a).2 ⟨j, h1, h2, h3⟩, h4⟩

/-- **C120 (permissions).** Whether a program is expected to fail makes no difference to the analysis of permissions. -/
theorem C120_should_fail_ignored (b b' : Block) (h : Given b kShowFlows ↔ Given b' kShowFlows) :
    start (args b sPermissions) = start (args b' sPermissions) := by
  have hpi : sPermissions ≠ sInterpreter := by decide +kernel
  have hj : ∀ b : Block, start (args b sPermissions) =
      .job (.permissions .changes (b.config.any fun p => p.1 == kShowFlows)) := by
    intro b
    rw [C120_book_partial]
    exact ⟨⟨rfl, rfl, given_iff _ _⟩, fun h => hpi h.1⟩
  rw [hj, hj]
  congr 2
  rw [Bool.eq_iff_iff, given_iff, given_iff, h]

/-! ## All command lines for permissions -/

/-- The name of a mode. -/
def Names : Mode → Arg → Prop
  | .changes, v => v = tChanges
  | .all, v => v = tAll

/-- The options behind `permissions`, each at most once, in any order; the mode behind an equals sign or as the next argument. -/
inductive Options : Option Mode → Bool → List Arg → Prop
  | nil : Options none false []
  | flows {m l} : Options m false l → Options m true (argShowFlows :: l)
  | mode {m v f l} : Names m v → Options none f l → Options (some m) f (aMode :: v :: l)
  | modeEq {m v f l} : Names m v → Options none f l → Options (some m) f ((aMode ++ '=' :: v) :: l)

theorem parseMode_iff (m : Mode) (v : Arg) : parseMode v = some m ↔ Names m v := by
  have hne : tAll ≠ tChanges := by decide
  unfold parseMode
  cases m <;> simp only [Names]
  · split
    · simp [*]
    · split <;> simp [*]
  · split
    · rename_i h; subst h; simp [hne.symm]
    · split <;> simp [*]

theorem modeValue_iff (a v : Arg) : modeValue a = some v ↔ a = aMode ++ '=' :: v := by
  unfold modeValue
  have hl : aMode.length + 1 = (aMode ++ ['=']).length := by simp
  rw [hl]
  constructor
  · intro h
    split at h
    · rename_i ht
      have hv := Option.some.inj h
      rw [← List.take_append_drop (aMode ++ ['=']).length a, ht, hv]
      simp
    · cases h
  · rintro rfl
    rw [show aMode ++ '=' :: v = (aMode ++ ['=']) ++ v from by simp, List.take_left, List.drop_left, if_pos rfl]

/-- What was read before and what is read now: not twice the same. -/
def Joined (m0 m1 m : Option Mode) : Prop := (m0 = none ∧ m = m1) ∨ (m1 = none ∧ m = m0)

def JoinedFlag (f0 f1 f : Bool) : Prop := (f0 = false ∧ f = f1) ∨ (f1 = false ∧ f = f0)

theorem parsePermissions_iff (l : List Arg) : ∀ m0 f0 c,
    parsePermissions m0 f0 l = .ok c ↔ ∃ m1 f1 m f, Options m1 f1 l ∧ Joined m0 m1 m ∧ JoinedFlag f0 f1 f ∧ c = .permissions m f := by
  have hsm : argShowFlows ≠ aMode := by decide
  have hse : ∀ v : Arg, argShowFlows ≠ aMode ++ '=' :: v := by
    intro v h; exact absurd (congrArg (List.take 4) h) (by simp [argShowFlows, aMode])
  have hme : ∀ v : Arg, aMode ≠ aMode ++ '=' :: v := by
    intro v h
    have := congrArg List.length h
    simp at this
  have inv_show : ∀ {m f l}, Options m f (argShowFlows :: l) → f = true ∧ Options m false l := by
    intro m f l h
    generalize hx : argShowFlows :: l = x at h
    cases h with
    | nil => cases hx
    | flows h => cases hx; exact ⟨rfl, h⟩
    | mode => injection hx with h1 _; exact absurd h1 hsm
    | modeEq => injection hx with h1 _; exact absurd h1 (hse _)
  have inv_mode : ∀ {m f v l}, Options m f (aMode :: v :: l) → ∃ m', m = some m' ∧ Names m' v ∧ Options none f l := by
    intro m f v l h
    generalize hx : aMode :: v :: l = x at h
    cases h with
    | nil => cases hx
    | flows => injection hx with h1 _; exact absurd h1.symm hsm
    | mode hn h => injection hx with _ h1; injection h1 with h1 h2; subst h1 h2; exact ⟨_, rfl, hn, h⟩
    | modeEq => injection hx with h1 _; exact absurd h1 (hme _)
  have inv_eq : ∀ {m f v l}, Options m f ((aMode ++ '=' :: v) :: l) → ∃ m', m = some m' ∧ Names m' v ∧ Options none f l := by
    intro m f v l h
    generalize hx : (aMode ++ '=' :: v) :: l = x at h
    cases h with
    | nil => cases hx
    | flows => injection hx with h1 _; exact absurd h1.symm (hse _)
    | mode => injection hx with h1 _; exact absurd h1.symm (hme _)
    | modeEq hn h =>
      injection hx with h1 h2
      have := List.append_cancel_left h1
      injection this with _ h3
      subst h2 h3
      exact ⟨_, rfl, hn, h⟩
  have inv_other : ∀ {m f a l}, Options m f (a :: l) → a ≠ argShowFlows → modeValue a = none → a = aMode := by
    intro m f a l h h1 h2
    cases h with
    | flows => exact absurd rfl h1
    | mode => rfl
    | modeEq => rw [(modeValue_iff _ _).2 rfl] at h2; cases h2
  -- the value of the mode
  have names_none : ∀ {v}, parseMode v = none → ∀ m, ¬ Names m v := by
    intro v h m hn; rw [(parseMode_iff m v).2 hn] at h; cases h
  have one_mode : ∀ (a : Arg) (r : List Arg) (m : Option Mode) (f : Bool), Options m f (a :: r) → a = aMode → r ≠ [] := by
    intro a r m f h ha hr
    subst ha hr
    generalize hx : [aMode] = x at h
    cases h with
    | nil => cases hx
    | flows => injection hx with h1 _; exact absurd h1.symm hsm
    | mode => injection hx with _ h1; cases h1
    | modeEq => injection hx with h1 _; exact absurd h1 (hme _)
  -- the equations of the parser
  have eq_show : ∀ m f r, parsePermissions m f (argShowFlows :: r) = if f then .usage else parsePermissions m true r := by
    intro m f r
    cases r with
    | nil => simp [parsePermissions]
    | cons v r =>
      conv => lhs; unfold parsePermissions
      rw [if_pos rfl]
  have eq_mode : ∀ m f v r, parsePermissions m f (aMode :: v :: r) = match m, parseMode v with
      | none, some k => parsePermissions (some k) f r
      | _, _ => .usage := by
    intro m f v r
    conv => lhs; unfold parsePermissions
    rw [if_neg hsm.symm, if_pos rfl]
    cases m <;> cases parseMode v <;> rfl
  have eq_value : ∀ m f v r, parsePermissions m f ((aMode ++ '=' :: v) :: r) = match m, parseMode v with
      | none, some k => parsePermissions (some k) f r
      | _, _ => .usage := by
    intro m f v r
    have hv := (modeValue_iff _ v).2 rfl
    cases r with
    | nil =>
      conv => lhs; unfold parsePermissions
      rw [if_neg (hse v).symm, hv]
      dsimp only
      cases m <;> cases parseMode v <;> simp [parsePermissions]
    | cons y r =>
      conv => lhs; unfold parsePermissions
      rw [if_neg (hse v).symm, if_neg (hme v).symm, hv]
      dsimp only
      cases m <;> cases parseMode v <;> rfl
  have eq_other : ∀ m f a r c, a ≠ argShowFlows → modeValue a = none → (a = aMode → r = []) → parsePermissions m f (a :: r) ≠ .ok c := by
    intro m f a r c h1 h2 h3
    cases r with
    | nil => rw [parsePermissions, if_neg h1, h2]; dsimp only; split <;> nofun
    | cons y r =>
      unfold parsePermissions
      rw [if_neg h1, if_neg (fun h => by cases h3 h), h2]
      dsimp only
      split <;> nofun
  have key : ∀ n (l : List Arg), l.length ≤ n → ∀ m0 f0 c, parsePermissions m0 f0 l = .ok c ↔
      ∃ m1 f1 m f, Options m1 f1 l ∧ Joined m0 m1 m ∧ JoinedFlag f0 f1 f ∧ c = .permissions m f := by
    intro n
    induction n with
    | zero =>
      intro l hl m0 f0 c
      obtain rfl : l = [] := List.length_eq_zero_iff.1 (by omega)
      simp only [parsePermissions]
      constructor
      · intro h; cases h; exact ⟨none, false, _, _, .nil, .inr ⟨rfl, rfl⟩, .inr ⟨rfl, rfl⟩, rfl⟩
      · rintro ⟨m1, f1, m, f, h, hm, hf, rfl⟩
        cases h
        rcases hm with ⟨rfl, rfl⟩ | ⟨-, rfl⟩ <;> rcases hf with ⟨rfl, rfl⟩ | ⟨-, rfl⟩ <;> rfl
    | succ n ih =>
      -- an option with a value
      have step : ∀ (v : Arg) (r args : List Arg) (m0 : Option Mode) (f0 : Bool) (c : Command), r.length ≤ n →
          (parsePermissions m0 f0 args = match m0, parseMode v with
            | none, some k => parsePermissions (some k) f0 r
            | _, _ => .usage) →
          (∀ m f, Options m f args ↔ ∃ m', m = some m' ∧ Names m' v ∧ Options none f r) →
          (parsePermissions m0 f0 args = .ok c ↔
            ∃ m1 f1 m f, Options m1 f1 args ∧ Joined m0 m1 m ∧ JoinedFlag f0 f1 f ∧ c = .permissions m f) := by
        intro v r args m0 f0 c hr he ho
        rw [he]
        cases m0 with
        | some k0 =>
          refine ⟨nofun, ?_⟩
          rintro ⟨m1, f1, m, f, h, hm, -, -⟩
          obtain ⟨m', rfl, -, -⟩ := (ho _ _).1 h
          rcases hm with ⟨h, -⟩ | ⟨h, -⟩ <;> cases h
        | none =>
          cases hp : parseMode v with
          | none =>
            refine ⟨nofun, ?_⟩
            rintro ⟨m1, f1, m, f, h, -, -, -⟩
            obtain ⟨m', -, hn, -⟩ := (ho _ _).1 h
            exact absurd hn (names_none hp m')
          | some k =>
            have hk := (parseMode_iff k v).1 hp
            dsimp only
            rw [ih r hr]
            constructor
            · rintro ⟨m1, f1, m, f, h, hm, hf, rfl⟩
              rcases hm with ⟨h', -⟩ | ⟨rfl, rfl⟩
              · cases h'
              · exact ⟨some k, f1, _, _, (ho _ _).2 ⟨k, rfl, hk, h⟩, .inl ⟨rfl, rfl⟩, hf, rfl⟩
            · rintro ⟨m1, f1, m, f, h, hm, hf, rfl⟩
              obtain ⟨m', rfl, hn, h⟩ := (ho _ _).1 h
              have : m' = k := by
                have := (parseMode_iff m' v).2 hn
                rw [hp] at this
                exact (Option.some.inj this).symm
              subst this
              rcases hm with ⟨-, rfl⟩ | ⟨h', -⟩
              · exact ⟨none, f1, _, _, h, .inr ⟨rfl, rfl⟩, hf, rfl⟩
              · cases h'
      intro l hl m0 f0 c
      match l, hl with
      | [], _ => exact ih [] (by simp) m0 f0 c
      | a :: r, hl =>
        simp only [List.length_cons] at hl
        by_cases ha : a = argShowFlows
        · subst ha
          rw [eq_show]
          cases f0 with
          | true =>
            refine ⟨nofun, ?_⟩
            rintro ⟨m1, f1, m, f, h, -, hf, -⟩
            obtain ⟨rfl, -⟩ := inv_show h
            rcases hf with ⟨h, -⟩ | ⟨h, -⟩ <;> cases h
          | false =>
            rw [if_neg nofun, ih r (by omega)]
            constructor
            · rintro ⟨m1, f1, m, f, h, hm, hf, rfl⟩
              rcases hf with ⟨h', -⟩ | ⟨rfl, rfl⟩
              · cases h'
              · exact ⟨m1, true, _, _, .flows h, hm, .inl ⟨rfl, rfl⟩, rfl⟩
            · rintro ⟨m1, f1, m, f, h, hm, hf, rfl⟩
              obtain ⟨rfl, h'⟩ := inv_show h
              replace h := h'
              rcases hf with ⟨-, rfl⟩ | ⟨h', -⟩
              · exact ⟨m1, false, _, _, h, hm, .inr ⟨rfl, rfl⟩, rfl⟩
              · cases h'
        · cases hv : modeValue a with
          | some v =>
            obtain rfl := (modeValue_iff a v).1 hv
            exact step v r _ m0 f0 c (by omega) (eq_value m0 f0 v r)
              fun m f => ⟨inv_eq, by rintro ⟨m', rfl, hn, h⟩; exact .modeEq hn h⟩
          | none =>
            by_cases hm : a = aMode ∧ r ≠ []
            · obtain ⟨rfl, hr⟩ := hm
              match r, hr, hl with
              | v :: r, _, hl =>
                simp only [List.length_cons] at hl
                exact step v r _ m0 f0 c (by omega) (eq_mode m0 f0 v r)
                  fun m f => ⟨inv_mode, by rintro ⟨m', rfl, hn, h⟩; exact .mode hn h⟩
            · have hm' : a = aMode → r = [] := fun h => by
                cases r with
                | nil => rfl
                | cons y r => exact absurd ⟨h, nofun⟩ hm
              refine ⟨fun h => absurd h (eq_other m0 f0 a r c ha hv hm'), ?_⟩
              rintro ⟨m1, f1, m, f, h, -⟩
              have h1 := inv_other h ha hv
              exact absurd (hm' h1) (one_mode a r m1 f1 h h1)
  exact key l.length l (Nat.le_refl _)

/-- **C120 (options).** The command line for permissions is understood exactly if it has each option at most once, in any order,
and the mode is one of the two; then the analysis starts with these options, with the changes only if no mode is given. -/
theorem C120_options (l : List Arg) (hV : ['-', 'V'] ∉ l) (j : Job) :
    start (argAquascope :: sPermissions :: l) = .job j ↔ ∃ m f, Options m f l ∧ j = .permissions (m.getD .changes) f := by
  have hnV : (argAquascope :: sPermissions :: l).any (fun a => decide (a = ['-', 'V'])) = false := by
    rw [List.any_eq_false]
    intro x hx
    simp only [List.mem_cons] at hx
    rcases hx with rfl | rfl | hx
    · decide
    · decide
    · simp only [decide_eq_true_eq]; rintro rfl; exact hV hx
  have ht : parseTop false (sPermissions :: l) = (parsePermissions none false l).map (⟨false, ·⟩) := by
    rw [parseTop, if_pos rfl]
  unfold start
  rw [if_neg (by rw [hnV]; nofun), List.drop_one, List.tail_cons, ht]
  cases hp : parsePermissions none false l with
  | message =>
    refine ⟨nofun, ?_⟩
    rintro ⟨m, f, h, -⟩
    have := (parsePermissions_iff l none false _).2 ⟨m, f, m, f, h, .inl ⟨rfl, rfl⟩, .inl ⟨rfl, rfl⟩, rfl⟩
    rw [hp] at this; cases this
  | usage =>
    refine ⟨nofun, ?_⟩
    rintro ⟨m, f, h, -⟩
    have := (parsePermissions_iff l none false _).2 ⟨m, f, m, f, h, .inl ⟨rfl, rfl⟩, .inl ⟨rfl, rfl⟩, rfl⟩
    rw [hp] at this; cases this
  | ok c =>
    obtain ⟨m1, f1, m, f, ho, hm, hf, rfl⟩ := (parsePermissions_iff l none false c).1 hp
    have hm : m = m1 := by rcases hm with ⟨-, h⟩ | ⟨h, h'⟩ <;> simp_all
    have hf : f = f1 := by rcases hf with ⟨-, h⟩ | ⟨h, h'⟩ <;> simp_all
    subst hm hf
    simp only [Parsed.map, drive, C120_transport, PluginArgs.run, End.job.injEq]
    constructor
    · rintro rfl; exact ⟨m, f, ho, rfl⟩
    · rintro ⟨m', f', h', rfl⟩
      have := (parsePermissions_iff l none false _).2 ⟨m', f', m', f', h', .inl ⟨rfl, rfl⟩, .inl ⟨rfl, rfl⟩, rfl⟩
      rw [hp] at this
      cases this
      rfl

/-- Both options, in both orders and both spellings; twice the same is refused. -/
example : Options (some .all) true [aMode, tAll, argShowFlows] ∧ Options (some .all) true [argShowFlows, aMode ++ '=' :: tAll] ∧
    start [argAquascope, sPermissions, argShowFlows, aMode, tAll] = .job (.permissions .all true) ∧
    start [argAquascope, sPermissions, argShowFlows, argShowFlows] = .refused ∧
    start [argAquascope, sPermissions, aMode, ['x']] = .refused := by
  refine ⟨.mode rfl (.flows .nil), .flows (.modeEq rfl .nil), ?_⟩
  decide +kernel

/-- **C120 (driver).** The driver runs what the variable says and nothing else: a mode that is none of the two, and the commands
that need no analysis, are a panic there. -/
theorem C120_driver (b f : Bool) (s : List Char) :
    (argsOf (.obj [(kShouldFailField, .bool b),
      (kCommand, .obj [(vPermissions, .obj [(kModeField, .str s), (kShowFlowsField, .bool f)])])]) =
        if s = tChanges then some ⟨b, .permissions (some .changes) f⟩
        else if s = tAll then some ⟨b, .permissions (some .all) f⟩ else none) ∧
    drive (Wire.write (PluginArgs.json ⟨b, .preload⟩)) = .panic ∧ drive (Wire.write (PluginArgs.json ⟨b, .rustcVersion⟩)) = .panic := by
  refine ⟨?_, by simp [drive, C120_transport, PluginArgs.run], by simp [drive, C120_transport, PluginArgs.run]⟩
  have h : ∀ s, argsOf (.obj [(kShouldFailField, .bool b),
      (kCommand, .obj [(vPermissions, .obj [(kModeField, .str s), (kShowFlowsField, .bool f)])])]) =
        ((parseMode s).map some).map fun m => ⟨b, .permissions m f⟩ := by
    intro s
    show ((modeOf (.str s)).map (Command.permissions · f)).map (PluginArgs.mk b) = _
    unfold modeOf
    dsimp only
    cases parseMode s <;> rfl
  rw [h]
  unfold parseMode
  split
  · rfl
  · split <;> rfl

/-! ## The playground -/

/-- **C120 (playground).** The server starts the analysis that its page asks for: the changes of permissions without flows, or
the execution. -/
theorem C120_playground (op : Serve.Op) (req : Serve.Request) :
    start (serverArgs op (Serve.flag op req)) = match op with
      | .permissions => .job (.permissions .changes false)
      | .interpreter => .job (.interpreter (Serve.flag op req)) := by
  cases op with
  | permissions =>
    refine (start_ok (a := ⟨false, .permissions none false⟩) ?_ ?_).trans rfl
    · show ∀ x ∈ [argAquascope, sPermissions], x ≠ ['-', 'V']
      decide +kernel
    · show parseTop false [sPermissions] = _
      decide +kernel
  | interpreter =>
    generalize Serve.flag .interpreter req = f
    cases f with
    | true =>
      refine (start_ok (a := ⟨true, .interpreter⟩) ?_ ?_).trans rfl
      · show ∀ x ∈ [argAquascope, argShouldFail, sInterpreter], x ≠ ['-', 'V']
        decide +kernel
      · show parseTop false [argShouldFail, sInterpreter] = _
        decide +kernel
    | false =>
      refine (start_ok (a := ⟨false, .interpreter⟩) ?_ ?_).trans rfl
      · show ∀ x ∈ [argAquascope, sInterpreter], x ≠ ['-', 'V']
        decide +kernel
      · show parseTop false [sInterpreter] = _
        decide +kernel

/-- **C120 (flows).** Without `showFlows` no boundary has a flow, and nothing is reported behind the first error. -/
theorem C120_no_flows (w : Boundaries.Whole) (h : w.flowOn = false) :
    ∀ x ∈ w.boundaries, x.flow = none ∧ ∀ e, w.firstError = some e → x.byteLocation ≤ e := by
  intro x hx
  unfold Boundaries.Whole.boundaries Boundaries.report at hx
  obtain ⟨h1, h2⟩ := List.mem_filter.1 hx
  obtain ⟨u, _, hu⟩ := List.mem_filterMap.1 h1
  have hf : x.flow = none := by
    unfold Boundaries.Whole.boundary at hu
    split at hu
    · cases hu
    · cases hu
      simp [Boundaries.Whole.flow, h]
  refine ⟨hf, fun e he => ?_⟩
  rw [he] at h2
  simpa [hf] using h2

/-! ## Examples -/

/-- A block with one operation and one option. -/
def sampleBlock (op k : List Char) : Block := ⟨[op], [(k, ['t', 'r', 'u', 'e'])], [], {}⟩

example : start (args (sampleBlock sPermissions kShowFlows) sPermissions) = .job (.permissions .changes true) ∧
    start (args (sampleBlock sInterpreter kShouldFail) sInterpreter) = .job (.interpreter true) ∧
    start (args (sampleBlock sInterpreter kShowFlows) sInterpreter) = .refused ∧
    start (args (sampleBlock sHelp kShowFlows) sHelp) = .refused ∧
    start [argAquascope, sHelp, sPermissions] = .text ∧
    start [argAquascope, sPermissions, aMode, tAll, argShowFlows] = .job (.permissions .all true) ∧
    start [argAquascope, sPermissions, aMode ++ '=' :: tAll] = .job (.permissions .all false) ∧
    start [argAquascope, sPermissions, argShouldFail] = .refused := by
  decide +kernel

end Verif.Cli
