import Verif.Live.Model
import Verif.Cache.TextProps
import Verif.Serve.Props
import Verif.Wire.Typed
import Verif.Frontend.EditorProps
/-!
# C118: what the playground shows is what the tool printed for the program in the editor
-/
namespace Verif.Live
open Verif.Preproc (Json)
open Verif.Wire
open Verif.Cache (utf8 unutf8 unutf8_utf8)
open Verif.Serve (Op Reply Response Request Env Answered Prepared ToolEnds Blank)

/-! ## The request -/

/-- **C118.** The server reads from the body the program of the editor, letter for letter, and the configuration. -/
theorem C118_request (code : List Char) (config : Option Json) (hv : ∀ c, config = some c → Valid c)
    (hd : ∀ c, config = some c → depth c ≤ 126) :
    readBody (body code config) = some ⟨code, (config.bind nonNull).map toServe⟩ := by
  have hval : Valid (.obj ((kCode, .str code) :: configField config)) := by
    refine .obj fun f hf => ?_
    rcases List.mem_cons.1 hf with rfl | hf
    · exact .str
    · cases config with
      | none => simp [configField] at hf
      | some c => simp [configField] at hf; subst hf; exact hv c rfl
  have hdep : depth (.obj ((kCode, .str code) :: configField config)) ≤ 127 := by
    refine depth_obj (n := 126) fun f hf => ?_
    rcases List.mem_cons.1 hf with rfl | hf
    · simp [depth]
    · cases config with
      | none => simp [configField] at hf
      | some c => simp [configField] at hf; subst hf; exact hd c rfl
  have hp : parse (write (.obj ((kCode, .str code) :: configField config))) = some (.obj ((kCode, .str code) :: configField config)) := by
    unfold parse
    rw [read_write_eq hval]
    simp [Option.filter, hdep]
  have h1 : (kCode == kConfig) = false := by decide
  have h2 : (kConfig == kCode) = false := by decide
  unfold readBody body
  rw [unutf8_utf8, Option.bind_some, hp, Option.bind_some]
  cases config with
  | none => simp [asRequest, configField, h1]
  | some c => simp [asRequest, configField, h1, h2]

/-- **C118.** Two programs are never sent as the same bytes. -/
theorem C118_injective (code code' : List Char) (config config' : Option Json) (hv : ∀ c, config = some c → Valid c)
    (hv' : ∀ c, config' = some c → Valid c) (h : body code config = body code' config') : code = code' ∧ config = config' := by
  have valid : ∀ (code : List Char) (config : Option Json), (∀ c, config = some c → Valid c) →
      Valid (.obj ((kCode, .str code) :: configField config)) := by
    intro code config hv
    refine .obj fun f hf => ?_
    rcases List.mem_cons.1 hf with rfl | hf
    · exact .str
    · cases config with
      | none => simp [configField] at hf
      | some c => simp [configField] at hf; subst hf; exact hv c rfl
  have h1 := congrArg (fun bs => (unutf8 bs).bind read) h
  simp only [body, unutf8_utf8, Option.bind_some, read_write_eq (valid _ _ hv), read_write_eq (valid _ _ hv'), Option.some.injEq,
    Json.obj.injEq, List.cons.injEq, Prod.mk.injEq, true_and, Json.str.injEq] at h1
  refine ⟨h1.1, ?_⟩
  cases config <;> cases config' <;> simp_all [configField]

/-- **C118.** Sent to the address of an operation, the program is run by this operation. -/
theorem C118_route (op : Op) (code : List Char) (config : Option Json) (hv : ∀ c, config = some c → Valid c)
    (hd : ∀ c, config = some c → depth c ≤ 126) :
    Serve.route .post (match op with | .permissions => Serve.permissionsPath | .interpreter => Serve.interpreterPath)
      (readBody (body code config)) = .run op ⟨code, (config.bind nonNull).map toServe⟩ := by
  rw [C118_request code config hv hd]
  cases op <;> simp (decide := true) [Serve.route]

theorem serveFields_any (fs : List (List Char × Json)) (k : List Char) :
    (toServeFields fs).any (fun f => f.1 == k) = fs.any (fun f => f.1 == k) := by
  induction fs with
  | nil => rfl
  | cons f fs ih => obtain ⟨k', v⟩ := f; simp [toServeFields, ih]

/-- **C118.** The tool is told that the program should fail exactly if the configuration that the page sends is an object with
this key, whatever its value. -/
theorem C118_flag (code : List Char) (config : Option Json) (hv : ∀ c, config = some c → Valid c)
    (hd : ∀ c, config = some c → depth c ≤ 126) :
    (readBody (body code config)).map (Serve.flag .interpreter) =
      some (match config with | some (.obj fs) => fs.any (fun f => f.1 == Serve.shouldFailKey) | _ => false) := by
  rw [C118_request code config hv hd]
  cases config with
  | none => rfl
  | some c => cases c <;> simp [nonNull, toServe, Serve.flag, serveFields_any]

/-! ## The answer -/

theorem valid_response (r : Response) : Valid (responseJson r) := by
  refine .obj fun f hf => ?_
  simp only [List.mem_cons, List.not_mem_nil, or_false] at hf
  rcases hf with rfl | rfl | rfl
  · exact .bool
  · exact .str
  · exact .str

/-- What the page makes of an answer with outputs. -/
theorem look_ok (op : Op) (src : Serve.Error → List Char) (r : Response) :
    look (sent op src (.ok r)) =
      if r.success then (match read r.stdout with | some v => .response v (some (.str r.stderr)) | none => .rejected)
      else .stderr (some (.str r.stderr)) := by
  simp only [look, sent, unutf8_utf8, Option.bind_some, read_write_eq (valid_response r)]
  obtain ⟨sc, so, se⟩ := r
  cases sc <;>
    simp (decide := true) [responseJson, prop_cons, Embed.falsy]
  cases read so <;> rfl

theorem read_capital {c : Char} {s : List Char} (h : c = 'C' ∨ c = 'R') : read (c :: s) = none := by
  have hv : ∀ n, readValue n (c :: s) = none := by
    intro n
    cases n with
    | zero => simp [readValue]
    | succ n =>
      cases hr : readNum (c :: s) with
      | none => rcases h with rfl | rfl <;> rw [readValue, ws_cons (by decide)] <;> exact hr
      | some x =>
        obtain ⟨t, c', t', h1, -, -, -, rfl, h6⟩ := readNum_some (j := x.1) (r := x.2) hr
        rw [List.cons_append] at h1
        injection h1 with h1 _
        subst h1
        rcases h with rfl | rfl
        · exact absurd h6 (by decide)
        · exact absurd h6 (by decide)
  unfold Wire.read
  rw [hv]

/-- **C118** (the code does otherwise). The explanation of an error of the server is never shown: the page takes it for JSON,
and the exception ends the operation. -/
theorem C118_lost (op : Op) (src : Serve.Error → List Char) (creating : Bool) (e : Serve.Error) :
    look (sent op src (.error creating e)) = .rejected := by
  have hr : ∀ s, read (errorText op creating s) = none := by
    intro s
    cases creating
    · cases op
      · exact read_capital (.inr rfl)
      · exact read_capital (.inr rfl)
    · exact read_capital (.inl rfl)
  simp only [look, sent, unutf8_utf8, Option.bind_some, hr]

/-- **C118** (the code does otherwise). The explanation for a request that could not be read is under a name that the page does
not look for: it reports nothing at all. -/
theorem C118_refusal (msg : List Char) : look (some (refusal msg)) = .stderr none ∧
    ((unutf8 (refusal msg)).bind read).bind (prop · ['e', 'r', 'r', 'o', 'r']) =
      some (.str (['U', 'n', 'a', 'b', 'l', 'e', ' ', 't', 'o', ' ', 'd', 'e', 's', 'e', 'r', 'i', 'a', 'l', 'i', 'z', 'e', ' ', 'r', 'e', 'q', 'u', 'e', 's', 't', ':', ' '] ++ msg)) := by
  have hv : Valid (.obj [(kError, .str (unableText ++ msg))]) := by
    refine .obj fun f hf => ?_
    simp only [List.mem_cons, List.not_mem_nil, or_false] at hf
    subst hf
    exact .str
  constructor
  · simp (decide := true) only [look, refusal, unutf8_utf8, Option.bind_some, read_write_eq hv, prop_cons, prop_nil, ↓reduceIte,
      Embed.falsy]
  · unfold refusal
    rw [unutf8_utf8, Option.bind_some, read_write_eq hv, Option.bind_some, prop_cons]
    rfl

/-- The texts of the three errors. -/
theorem C118_texts (source : List Char) :
    errorText .permissions true source = ['C', 'r', 'e', 'a', 't', 'i', 'n', 'g', ' ', 't', 'h', 'e', ' ', 'c', 'o', 'n', 't', 'a', 'i', 'n', 'e', 'r', ' ', 'f', 'a', 'i', 'l', 'e', 'd', ' '] ++ source ∧
    errorText .interpreter true source = ['C', 'r', 'e', 'a', 't', 'i', 'n', 'g', ' ', 't', 'h', 'e', ' ', 'c', 'o', 'n', 't', 'a', 'i', 'n', 'e', 'r', ' ', 'f', 'a', 'i', 'l', 'e', 'd', ' '] ++ source ∧
    errorText .permissions false source = ['R', 'u', 'n', 'n', 'i', 'n', 'g', ' ', 'p', 'e', 'r', 'm', 'i', 's', 's', 'i', 'o', 'n', 's', ' ', 'a', 'n', 'a', 'l', 'y', 's', 'i', 's', ' ', 'f', 'a', 'i', 'l', 'e', 'd', ' ', ' '] ++ source ∧
    errorText .interpreter false source = ['R', 'u', 'n', 'n', 'i', 'n', 'g', ' ', 'i', 'n', 't', 'e', 'r', 'p', 'r', 'e', 't', 'e', 'r', ' ', 'f', 'a', 'i', 'l', 'e', 'd', ' '] ++ source := ⟨rfl, rfl, rfl, rfl⟩

/-! ## From the editor to the drawing -/

/-- White space in the sense of `str::trim` contains no printable letter of ASCII. -/
def Spaces (ws : Char → Bool) : Prop := ∀ c : Char, 33 ≤ c.toNat → c.toNat < 127 → ws c = false

/-- How the text of a value begins: with a letter that is no white space. -/
theorem write_visible {j : Json} (hv : Valid j) : ∃ c r, write j = c :: r ∧ 33 ≤ c.toNat ∧ c.toNat < 127 := by
  cases hv with
  | null => exact ⟨_, _, rfl, by decide, by decide⟩
  | @bool b => cases b <;> exact ⟨_, _, rfl, by decide, by decide⟩
  | @num s h =>
    obtain ⟨-, c, r, rfl, h3⟩ := number_num h
    refine ⟨c, r, by simp [write], ?_⟩
    rcases h3 with h3 | rfl
    · simp only [Char.isDigit, Bool.and_eq_true, decide_eq_true_eq] at h3
      obtain ⟨h3, h4⟩ := h3
      rw [ge_iff_le, UInt32.le_iff_toNat_le] at h3
      rw [UInt32.le_iff_toNat_le] at h4
      have e1 : c.toNat = c.val.toNat := rfl
      have e2 : ('0' : Char).val.toNat = 48 := rfl
      have e3 : ('9' : Char).val.toNat = 57 := rfl
      rw [e2] at h3
      rw [e3] at h4
      omega
    · decide
  | str => exact ⟨_, _, rfl, by decide, by decide⟩
  | arr => exact ⟨_, _, rfl, by decide, by decide⟩
  | obj => exact ⟨_, _, rfl, by decide, by decide⟩

theorem printed_not_blank {ws : Char → Bool} (hw : Spaces ws) {j : Json} (hv : Valid j) : ¬ Blank ws (printed j) := by
  intro h
  obtain ⟨c, r, e, h1, h2⟩ := write_visible hv
  have := h c (by simp [printed, e])
  rw [hw c h1 h2] at this
  cases this

/-- **C118** (partial: the tool prints an answer). Whatever else the server is doing, in whatever order: if the tool, run on
the program in the editor, prints an answer, the page reads exactly this answer and what was printed as standard error. -/
theorem C118_answer_partial {ws : Char → Bool} (hw : Spaces ws) {reqs : List (Op × Request × Env)} {sched : List (Nat × Nat)} {i : Nat}
    {r : Reply} {op : Op} {req : Request} {env : Env} {code : List Char} {config : Option Json}
    (hv : ∀ c, config = some c → Valid c) (hd : ∀ c, config = some c → depth c ≤ 126)
    (hb : readBody (body code config) = some req) (hq : reqs[i]? = some (op, req, env))
    (h : Answered (Serve.run ws sched (Serve.initial reqs)) i r) (hp : Prepared ws env) (src : Serve.Error → List Char)
    {j : Json} (hj : Valid j) {err : List Char} (ht : ToolEnds op req env (.done (some (printed j)) (some err))) :
    req.code = code ∧ look (sent op src r) = .response j (some (.str err)) := by
  rw [C118_request code config hv hd, Option.some.injEq] at hb
  refine ⟨by rw [← hb], ?_⟩
  have hr := (Serve.C51_outputs hq h ⟨true, printed j, err⟩).2
    ⟨hp, _, _, ht, rfl, rfl, by simp [printed_not_blank hw hj]⟩
  rw [hr, look_ok, if_pos rfl, read_printed hj]

/-- **C118.** If the tool prints nothing on standard output, the page reports what it printed as standard error, and draws
nothing. -/
theorem C118_silent {ws : Char → Bool} {reqs : List (Op × Request × Env)} {sched : List (Nat × Nat)} {i : Nat}
    {r : Reply} {op : Op} {req : Request} {env : Env} (hq : reqs[i]? = some (op, req, env))
    (h : Answered (Serve.run ws sched (Serve.initial reqs)) i r) (hp : Prepared ws env) (src : Serve.Error → List Char)
    {out err : List Char} (hb : Blank ws out) (ht : ToolEnds op req env (.done (some out) (some err))) :
    look (sent op src r) = .stderr (some (.str err)) := by
  have hr := (Serve.C51_outputs hq h ⟨false, out, err⟩).2 ⟨hp, _, _, ht, rfl, rfl, by simp [hb]⟩
  rw [hr, look_ok]
  simp

/-- **C118.** The page draws something only if the tool printed it on standard output for this request. -/
theorem C118_only {ws : Char → Bool} {reqs : List (Op × Request × Env)} {sched : List (Nat × Nat)} {i : Nat}
    {r : Reply} {op : Op} {req : Request} {env : Env} (hq : reqs[i]? = some (op, req, env))
    (h : Answered (Serve.run ws sched (Serve.initial reqs)) i r) (src : Serve.Error → List Char) {j : Json} {e : Option Json}
    (hs : look (sent op src r) = .response j e) :
    ∃ out err, ToolEnds op req env (.done (some out) (some err)) ∧ read out = some j ∧ e = some (.str err) := by
  cases r with
  | ok resp =>
    obtain ⟨-, out, err, h1, h2, h3, -⟩ := (Serve.C51_outputs hq h resp).1 rfl
    rw [look_ok] at hs
    split at hs
    · split at hs
      · rename_i v hv
        injection hs with e1 e2
        exact ⟨out, err, h1, by rw [← h2, hv, e1], by rw [← e2, h3]⟩
      · cases hs
    · cases hs
  | error c e' => rw [C118_lost] at hs; cases hs
  | dropped => cases hs

/-- **C118.** For the trace of a program the interpreter's panel gets exactly this trace. -/
theorem C118_trace_partial (F : Floats) (hF : F.Exact) {ws : Char → Bool} (hw : Spaces ws) {reqs : List (Op × Request × Env)}
    {sched : List (Nat × Nat)} {i : Nat} {r : Reply} {req : Request} {env : Env} (hq : reqs[i]? = some (.interpreter, req, env))
    (h : Answered (Serve.run ws sched (Serve.initial reqs)) i r) (hp : Prepared ws env) (src : Serve.Error → List Char)
    {t : WTrace} (htf : finiteTrace t) {err : List Char}
    (ht : ToolEnds .interpreter req env (.done (some (printed (resJson (traceJson F) (.ok t)))) (some err))) :
    ∃ j j', look (sent .interpreter src r) = .response j (some (.str err)) ∧ Embed.okIn j = some (some j') ∧ traceOf F j' = some t ∧
      replyOf .interpreter (look (sent .interpreter src r)) = .ok := by
  have hj : Valid (resJson (traceJson F) (.ok t)) := valid_res (valid_trace F hF) (.ok t)
  have hr := (Serve.C51_outputs hq h ⟨true, printed (resJson (traceJson F) (.ok t)), err⟩).2
    ⟨hp, _, _, ht, rfl, rfl, by simp [printed_not_blank hw hj]⟩
  have hl : look (sent .interpreter src r) = .response (resJson (traceJson F) (.ok t)) (some (.str err)) := by
    rw [hr, look_ok, if_pos rfl, read_printed hj]
  have ho : Embed.okIn (resJson (traceJson F) (.ok t)) = some (some (traceJson F t)) := by simp [Embed.okIn, resJson, List.lookup]
  exact ⟨_, _, hl, ho, traceOf_json F hF t htf, by rw [hl]; simp [replyOf, ho]⟩

/-- **C118.** If the interpreter could not make a trace, the page reports exactly its error and draws nothing. -/
theorem C118_trace_error (F : Floats) (hF : F.Exact) {ws : Char → Bool} (hw : Spaces ws) {reqs : List (Op × Request × Env)}
    {sched : List (Nat × Nat)} {i : Nat} {r : Reply} {req : Request} {env : Env} (hq : reqs[i]? = some (.interpreter, req, env))
    (h : Answered (Serve.run ws sched (Serve.initial reqs)) i r) (hp : Prepared ws env) (src : Serve.Error → List Char)
    {e : WError} {err : List Char}
    (ht : ToolEnds .interpreter req env (.done (some (printed (resJson (traceJson F) (.error e)))) (some err))) :
    ∃ j, look (sent .interpreter src r) = .response j (some (.str err)) ∧ Embed.okIn j = some none ∧
      (prop j Preproc.kErr).bind asError = some e ∧ replyOf .interpreter (look (sent .interpreter src r)) = .err := by
  have hj : Valid (resJson (traceJson F) (.error e)) := valid_res (valid_trace F hF) (.error e)
  have hr := (Serve.C51_outputs hq h ⟨true, printed (resJson (traceJson F) (.error e)), err⟩).2
    ⟨hp, _, _, ht, rfl, rfl, by simp [printed_not_blank hw hj]⟩
  have hl : look (sent .interpreter src r) = .response (resJson (traceJson F) (.error e)) (some (.str err)) := by
    rw [hr, look_ok, if_pos rfl, read_printed hj]
  have ho : Embed.okIn (resJson (traceJson F) (.error e)) = some none := by
    have hk : (Embed.kOk == Preproc.kErr) = false := by decide
    simp [Embed.okIn, resJson, List.lookup, hk]
  exact ⟨_, hl, ho, by simp [resJson, prop_cons, asError_json], by rw [hl]; simp [replyOf, ho]⟩

/-- **C118.** For the results of the analysis the editor gets exactly these: what is drawn and what is reported. -/
theorem C118_results {ws : Char → Bool} (hw : Spaces ws) {reqs : List (Op × Request × Env)}
    {sched : List (Nat × Nat)} {i : Nat} {r : Reply} {req : Request} {env : Env} (hq : reqs[i]? = some (.permissions, req, env))
    (h : Answered (Serve.run ws sched (Serve.initial reqs)) i r) (hp : Prepared ws env) (src : Serve.Error → List Char)
    {rs : List (Except WError WOutput)} {err : List Char}
    (ht : ToolEnds .permissions req env (.done (some (printed (outputsJson rs))) (some err))) :
    ∃ js good bad, look (sent .permissions src r) = .response (.arr js) (some (.str err)) ∧
      Embed.splitResults js = some (good, bad) ∧ good.mapM asOutput = some ((goods rs).map WOutput.sorted) ∧
      bad.mapM (fun j => j.bind asError) = some (errors rs) ∧
      replyOf .permissions (look (sent .permissions src r)) = .ok := by
  have hj := valid_outputs rs
  have hr := (Serve.C51_outputs hq h ⟨true, printed (outputsJson rs), err⟩).2
    ⟨hp, _, _, ht, rfl, rfl, by simp [printed_not_blank hw hj]⟩
  have hl : look (sent .permissions src r) = .response (outputsJson rs) (some (.str err)) := by
    rw [hr, look_ok, if_pos rfl, read_printed hj]
  obtain ⟨js, good, bad, h3, h4, h5, h6⟩ := C116_results rs
  rw [read_write_eq hj, Option.some.injEq] at h3
  rw [h3] at hl
  exact ⟨js, good, bad, hl, h4, h5, h6, by rw [hl]; simp [replyOf, h4]⟩

/-- **C118.** Whatever the server answers, the page takes it for a failed build, and draws nothing, exactly if it is JSON
other than `null` without a true `success`. -/
theorem C118_failed (op : Op) (b : Option (List UInt8)) : replyOf op (look b) = .failed ↔
    ∃ bs s j, b = some bs ∧ unutf8 bs = some s ∧ read s = some j ∧ j ≠ .null ∧
      Embed.falsy (prop j ['s', 'u', 'c', 'c', 'e', 's', 's']) = true := by
  have hk : kSuccess = ['s', 'u', 'c', 'c', 'e', 's', 's'] := rfl
  rw [← hk]
  have hresp : ∀ j e, replyOf op (.response j e) ≠ .failed := by
    intro j e
    unfold replyOf
    dsimp only
    split
    · split <;> simp
    · split
      · split <;> simp
      · simp
  cases b with
  | none => simp [look, replyOf]
  | some bs =>
    cases hu : unutf8 bs with
    | none => simp [look, replyOf, hu]
    | some s =>
      cases hr : read s with
      | none => simp [look, replyOf, hu, hr]
      | some j =>
        have hiff : (∃ bs' s' j', some bs = some bs' ∧ unutf8 bs' = some s' ∧ read s' = some j' ∧ j' ≠ .null ∧
            Embed.falsy (prop j' kSuccess) = true) ↔ (j ≠ .null ∧ Embed.falsy (prop j kSuccess) = true) := by
          constructor
          · rintro ⟨bs', s', j', e1, e2, e3, h⟩
            injection e1 with e1
            subst e1
            rw [hu] at e2
            injection e2 with e2
            subst e2
            rw [hr] at e3
            injection e3 with e3
            subst e3
            exact h
          · exact fun h => ⟨bs, s, j, rfl, hu, hr, h⟩
        rw [hiff]
        by_cases hn : j = .null
        · subst hn; simp [look, replyOf, hu, hr]
        · by_cases hf : Embed.falsy (prop j kSuccess) = true
          · have : look (some bs) = .stderr (prop j kStderr) := by
              unfold look
              simp only [hu, hr, Option.bind_some]
              cases j <;> simp_all
            simp [this, replyOf, hn, hf]
          · refine ⟨fun h => absurd h ?_, fun h => absurd h.2 hf⟩
            have : ∃ x, look (some bs) = x ∧ (x = .rejected ∨ ∃ v e, x = .response v e) := by
              refine ⟨_, rfl, ?_⟩
              unfold look
              simp only [hu, hr, Option.bind_some]
              cases j <;> first | exact absurd rfl hn | skip
              all_goals
                rw [if_neg hf]
                split
                · split
                  · exact .inr ⟨_, _, rfl⟩
                  · exact .inl rfl
                · exact .inl rfl
            obtain ⟨x, e, hx⟩ := this
            rw [e]
            rcases hx with rfl | ⟨v, e', rfl⟩
            · simp [replyOf]
            · exact hresp v e'

/-- The answer `null`, and an object without `success`. -/
example : replyOf .permissions (look (some (utf8 ['n', 'u', 'l', 'l']))) = .none ∧
    replyOf .permissions (look (some (utf8 ['{', '}']))) = .failed := by decide +kernel

/-! ## Examples -/

/-- A tool that prints an array with the program and, as standard error, a letter if it is told that the program should fail. -/
def quoteEnv : Env := ⟨true, .done (some []) (some []), true, true,
  fun _ b s => .done (some (printed (.arr [.str (s.getD [])]))) (some (if b then ['f'] else []))⟩

/-- A program with letters that need escapes and more than one byte. -/
def oddCode : List Char := ['"', 'é', '\n', '\\']

/-- What the interpreter button sends with the box not ticked (`Frontend.Editor.interpRequest`). -/
def oddConfig : Option Json := some (.obj [(Serve.shouldFailKey, .bool true)])

/-- The whole way for this program, with another request answered in between. -/
example : look (sent .interpreter (fun _ => []) (.ok ⟨true, printed (.arr [.str oddCode]), ['f']⟩)) =
    .response (.arr [.str oddCode]) (some (.str ['f'])) := by
  rw [look_ok, if_pos rfl, read_printed (.arr (by intro x hx; simp at hx; subst hx; exact .str))]

example : readBody (body oddCode oddConfig) = some (Frontend.Editor.interpRequest oddCode false) := by
  rw [C118_request _ _ (by rintro c ⟨rfl⟩; exact .obj (by intro f hf; simp at hf; subst hf; exact .bool))
    (by rintro c ⟨rfl⟩; decide)]
  rfl

example : Answered (Serve.run Serve.isSpace [(0, 1), (1, 2), (0, 0), (0, 0), (1, 0), (0, 0)]
    (Serve.initial [(.interpreter, Frontend.Editor.interpRequest oddCode false, quoteEnv),
      (.permissions, Frontend.Editor.interpRequest [] false, quoteEnv)])) 0
    (.ok ⟨true, printed (.arr [.str oddCode]), ['f']⟩) := ⟨_, rfl, by decide +kernel⟩

example : Spaces Serve.isSpace := by
  intro c h1 h2
  by_cases h : Serve.isSpace c = true
  · simp only [Serve.isSpace, Bool.or_eq_true, beq_iff_eq] at h
    rcases h with rfl | rfl
    · exact absurd h1 (by decide)
    · exact absurd h1 (by decide)
  · simpa using h

/-- A request that is an array is read too, one with the program twice is not. -/
example : asRequest (.arr [.str ['x'], .null]) = some (['x'], none) ∧
    asRequest (.obj [(kCode, .str ['x']), (kCode, .str ['y'])]) = none ∧
    asRequest (.obj [(kConfig, .null)]) = none := ⟨rfl, rfl, rfl⟩

end Verif.Live
