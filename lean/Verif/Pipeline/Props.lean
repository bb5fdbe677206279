import Verif.Pipeline.Spec
import Verif.Steps.Props

/-! # C97: what the page says about the permissions of a function -/
namespace Verif.Pipeline

open Verif.Cfg Verif.Segments Verif.Steps Verif.Permissions

/-! ## Contents of the tables -/

theorem mem_localsAt (locals : List (Nat × List Nat)) (s v : Nat) :
    v ∈ localsAt locals s ↔ DeclaredAt locals s v := by
  unfold localsAt
  induction locals with
  | nil =>
    constructor
    · intro h; simp at h
    · intro h; cases h
  | cons e rest ih =>
    obtain ⟨k, ls⟩ := e
    rw [List.reverse_cons, List.find?_append]
    cases hf : rest.reverse.find? (fun e => decide (e.1 = s)) with
    | some x =>
      rw [hf] at ih
      simp only [Option.some_or]
      rw [ih]
      constructor
      · exact .later
      · intro h
        cases h with
        | later h => exact h
        | here _ hn =>
          have := List.find?_some hf
          exact absurd (by simpa using this) (hn x (List.mem_reverse.1 (List.mem_of_find?_eq_some hf)))
    | none =>
      rw [hf] at ih
      have hn : ∀ e ∈ rest, e.1 ≠ s := by
        intro e he
        have := List.find?_eq_none.1 hf e (List.mem_reverse.2 he)
        simpa using this
      have hno : ∀ v, ¬ DeclaredAt rest s v := by
        intro v h
        clear ih hf
        induction rest with
        | nil => cases h
        | cons x xs ihx =>
          cases h with
          | here _ _ => exact hn _ List.mem_cons_self rfl
          | later h => exact ihx (fun e he => hn e (List.mem_cons_of_mem _ he)) h
      simp only [Option.none_or, List.find?_cons, List.find?_nil]
      by_cases hk : k = s
      · subst hk
        simp only [decide_true]
        constructor
        · intro h; exact .here h hn
        · intro h
          cases h with
          | here h _ => exact h
          | later h => exact absurd h (hno v)
      · simp only [hk, decide_false]
        constructor
        · intro h; simp at h
        · intro h
          cases h with
          | here _ _ => exact absurd rfl hk
          | later h => exact absurd h (hno v)

theorem mem_localsToFilter (f : Frozen) (locals : List (Nat × List Nat)) (s v : Nat) :
    v ∈ localsToFilter f locals s ↔ ∃ scope, Above f.scopes s scope ∧ DeclaredAt locals scope v := by
  unfold localsToFilter
  simp only [List.mem_flatMap, C46_parents, mem_localsAt]

theorem get_domain {c : Ctxt} {l : Loc} {p : Place} (h : p ∈ c.places) : (c.domain l).get p = some (c.data l p) := by
  unfold Ctxt.domain Domain.get
  revert h
  induction c.places with
  | nil => intro h; simp at h
  | cons q r ih =>
    intro h
    rw [List.map_cons, List.find?_cons]
    by_cases hq : q = p
    · subst hq; simp
    · simp only [hq, decide_false]
      exact ih ((List.mem_cons.1 h).resolve_left (fun e => hq e.symm))

theorem diff_domains (c : Ctxt) (l l' : Loc) : ∃ r, diffDomain (c.domain l) (c.domain l') = some r ∧
    ∀ p d, (p, d) ∈ r ↔ p ∈ c.places ∧ d = diffData (c.data l p) (c.data l' p) := by
  obtain ⟨h1, h2⟩ := C40_domain (c.domain l) (c.domain l')
  obtain ⟨r, hr⟩ := h1.2 (by
    intro e he
    obtain ⟨p, hp, rfl⟩ := List.mem_map.1 he
    rw [get_domain hp]; rfl)
  refine ⟨r, hr, fun p d => ?_⟩
  rw [(h2 r hr).2]
  constructor
  · rintro ⟨x, y, hx, hy, rfl⟩
    obtain ⟨q, hq, e⟩ := List.mem_map.1 hx
    simp only [Prod.mk.injEq] at e
    obtain ⟨rfl, rfl⟩ := e
    rw [get_domain hq, Option.some.injEq] at hy
    exact ⟨hq, by rw [hy]⟩
  · rintro ⟨hp, rfl⟩
    exact ⟨_, _, List.mem_map.2 ⟨p, hp, rfl⟩, get_domain hp, rfl⟩

theorem entry_domain (c : Ctxt) : ∃ r, entryStep c.places (c.domain c.start) = some r ∧
    ∀ p d, (p, d) ∈ r ↔ p ∈ c.places ∧ d = diffData bottomData (c.data c.start p) := by
  unfold entryStep
  obtain ⟨h1, h2⟩ := C40_domain (c.places.map fun p => (p, bottomData)) (c.domain c.start)
  obtain ⟨r, hr⟩ := h1.2 (by
    intro e he
    obtain ⟨p, hp, rfl⟩ := List.mem_map.1 he
    rw [get_domain hp]; rfl)
  refine ⟨r, hr, fun p d => ?_⟩
  rw [(h2 r hr).2]
  constructor
  · rintro ⟨x, y, hx, hy, rfl⟩
    obtain ⟨q, hq, e⟩ := List.mem_map.1 hx
    simp only [Prod.mk.injEq] at e
    obtain ⟨rfl, rfl⟩ := e
    rw [get_domain hq, Option.some.injEq] at hy
    exact ⟨hq, by rw [hy]⟩
  · rintro ⟨hp, rfl⟩
    exact ⟨_, _, List.mem_map.2 ⟨p, hp, rfl⟩, get_domain hp, rfl⟩

/-- The rows of a table are the changes it is about. -/
theorem tableOf_rows {c : Ctxt} {f : Frozen} {locals : List (Nat × List Nat)} {t : Tab} {T : Table}
    (h : tableOf c f locals t = some T) (p : Place) (d : DataDiff) :
    (p, d) ∈ T.data ↔ ∃ a b, Covers c f locals t p a b T.hi ∧ d = diffData a b := by
  cases t with
  | entry =>
    obtain ⟨r, hr, hm⟩ := entry_domain c
    simp only [tableOf, entryTable, hr, Option.some.injEq] at h
    subst h
    rw [hm]
    constructor
    · rintro ⟨hp, rfl⟩; exact ⟨_, _, .entry hp, rfl⟩
    · rintro ⟨a, b, hc, rfl⟩
      cases hc with
      | entry hp => exact ⟨hp, rfl⟩
  | seg sid =>
    simp only [tableOf] at h
    cases hs : f.segs[sid]? with
    | none => rw [hs] at h; exact absurd h (by simp)
    | some s =>
      rw [hs] at h
      obtain ⟨r, hr, hm⟩ := diff_domains c s.from s.to
      simp only [segTable, hr, Option.some.injEq] at h
      subst h
      simp only [List.mem_filter, hm]
      have hf : (!(localsToFilter f locals s.scope).contains p.local_) = true ↔
          ∀ scope, Above f.scopes s.scope scope → ¬ DeclaredAt locals scope p.local_ := by
        simp [mem_localsToFilter]
      rw [hf]
      constructor
      · rintro ⟨⟨hp, rfl⟩, hh⟩
        exact ⟨_, _, .seg hp hs hh, rfl⟩
      · rintro ⟨a, b, hc, rfl⟩
        change Covers c f locals (.seg sid) p a b (c.endOf s.span) at hc
        generalize c.endOf s.span = hi at hc
        cases hc with
        | seg hp hs' hh =>
          rw [hs, Option.some.injEq] at hs'
          subst hs'
          exact ⟨⟨hp, rfl⟩, hh⟩
  | attached bid =>
    simp only [tableOf] at h
    cases hb : f.branches[bid]? with
    | none => rw [hb] at h; exact absurd h (by simp)
    | some b =>
      rw [hb] at h
      simp only [attachedTable] at h
      cases hsc : f.branchScope bid with
      | none => rw [hsc] at h; exact absurd h (by simp)
      | some scope =>
        rw [hsc] at h
        obtain ⟨r, hr, hm⟩ := diff_domains c b.reachFrom b.reachTo
        simp only [hr, Option.some.injEq] at h
        subst h
        have hsp : ∃ sid rest s, b.splits = sid :: rest ∧ f.segs[sid]? = some s ∧ s.scope = scope := by
          unfold Frozen.branchScope at hsc
          rw [hb] at hsc
          dsimp only at hsc
          cases hsl : b.splits with
          | nil => rw [hsl] at hsc; exact absurd hsc (by simp)
          | cons sid rest =>
            rw [hsl] at hsc
            dsimp only at hsc
            cases hs : f.segs[sid]? with
            | none => rw [hs] at hsc; exact absurd hsc (by simp)
            | some s =>
              rw [hs] at hsc
              exact ⟨sid, rest, s, rfl, hs, by simpa using hsc⟩
        obtain ⟨sid, rest, s, h1, h2, h3⟩ := hsp
        simp only [List.mem_filter, hm, List.contains_iff_mem, mem_localsAt]
        constructor
        · rintro ⟨⟨hp, rfl⟩, hh⟩
          exact ⟨_, _, .attached hp hb h1 h2 (by rw [h3]; exact hh), rfl⟩
        · rintro ⟨x, y, hc, rfl⟩
          change Covers c f locals (.attached bid) p x y (max (c.locSpan b.reachFrom).1 (c.locSpan b.reachTo).2) at hc
          generalize max (c.locSpan b.reachFrom).1 (c.locSpan b.reachTo).2 = hi at hc
          cases hc with
          | attached hp hb' h1' h2' hh =>
            rw [hb, Option.some.injEq] at hb'
            subst hb'
            rw [h1, List.cons.injEq] at h1'
            obtain ⟨rfl, _⟩ := h1'
            rw [h2, Option.some.injEq] at h2'
            subst h2'
            rw [← h3]
            exact ⟨⟨hp, rfl⟩, hh⟩

theorem covers_end {c : Ctxt} {f : Frozen} {locals : List (Nat × List Nat)} {t : Tab} {T : Table} {p : Place}
    {a b : Data} {hi : Nat} (h : tableOf c f locals t = some T) (hc : Covers c f locals t p a b hi) : hi = T.hi := by
  cases hc with
  | entry hp =>
    obtain ⟨r, hr, hm⟩ := entry_domain c
    simp only [tableOf, entryTable, hr, Option.some.injEq] at h
    rw [← h]
  | @seg _ _ s hp hs hh =>
    obtain ⟨r, hr, hm⟩ := diff_domains c s.from s.to
    simp only [tableOf, hs, segTable, hr, Option.some.injEq] at h
    rw [← h]
  | @attached _ _ b _ _ _ hp hb h1 h2 hh =>
    obtain ⟨r, hr, hm⟩ := diff_domains c b.reachFrom b.reachTo
    simp only [tableOf, hb, attachedTable] at h
    split at h
    · exact absurd h (by simp)
    · rw [hr] at h
      simp only [Option.some.injEq] at h
      rw [← h]
      rfl

theorem mapM_some {α β : Type} (g : α → Option β) (xs : List α) (ys : List β) (h : xs.mapM g = some ys) (y : β) :
    y ∈ ys ↔ ∃ x ∈ xs, g x = some y := by
  induction xs generalizing ys with
  | nil =>
    simp only [List.mapM_nil, Option.pure_def, Option.some.injEq] at h
    subst h
    simp
  | cons x xs ih =>
    rw [List.mapM_cons] at h
    cases hx : g x with
    | none => rw [hx] at h; exact absurd h (by simp)
    | some y' =>
      rw [hx] at h
      cases hr : xs.mapM g with
      | none => rw [hr] at h; exact absurd h (by simp)
      | some ys' =>
        rw [hr] at h
        simp only [Option.pure_def, Option.bind_eq_bind, Option.bind_some, Option.some.injEq] at h
        subst h
        simp only [List.mem_cons, ih ys' hr]
        constructor
        · rintro (rfl | ⟨z, hz, e⟩)
          · exact ⟨x, .inl rfl, hx⟩
          · exact ⟨z, .inr hz, e⟩
        · rintro ⟨z, rfl | hz, e⟩
          · rw [hx, Option.some.injEq] at e; exact .inl e.symm
          · exact .inr ⟨z, hz, e⟩

theorem mapM_total {α β : Type} (g : α → Option β) (xs : List α) (h : ∀ x ∈ xs, ∃ y, g x = some y) :
    ∃ ys, xs.mapM g = some ys := by
  induction xs with
  | nil => exact ⟨[], rfl⟩
  | cons x xs ih =>
    obtain ⟨y, hy⟩ := h x List.mem_cons_self
    obtain ⟨ys, hys⟩ := ih (fun z hz => h z (List.mem_cons_of_mem _ hz))
    exact ⟨y :: ys, by rw [List.mapM_cons, hy, hys]; rfl⟩

theorem mem_ordered {m : Tables} {order : Tables → Tables} (ho : ∀ m, (order m).Perm m) (t : Tab) :
    t ∈ (order m).flatMap (·.2) ↔ ∃ l, Filed m l t := by
  simp only [List.mem_flatMap, (ho m).mem_iff, Filed]
  constructor
  · rintro ⟨⟨l, v⟩, h, ht⟩; exact ⟨l, v, h, ht⟩
  · rintro ⟨l, v, h, ht⟩; exact ⟨(l, v), h, ht⟩

theorem finalize_tables {c : Ctxt} {f : Frozen} {locals : List (Nat × List Nat)} {order : Tables → Tables}
    {src : List Char} {err : Option Nat} {visible : Place → Bool} {mode : Mode} {ds : List Display}
    (ho : ∀ m, (order m).Perm m) (h : finalizeBody c f locals order src err visible mode = some ds) :
    ∃ m tables, filedTables c f = some m ∧ ds = prettify src err visible mode tables ∧
      (∀ T, T ∈ tables ↔ ∃ l t, Filed m l t ∧ tableOf c f locals t = some T) ∧
      ∀ l t, Filed m l t → ∃ T, tableOf c f locals t = some T := by
  unfold finalizeBody at h
  cases hm : filedTables c f with
  | none => rw [hm] at h; exact absurd h (by simp)
  | some m =>
    rw [hm] at h
    dsimp only at h
    cases ht : ((order m).flatMap (·.2)).mapM (tableOf c f locals) with
    | none => rw [ht] at h; exact absurd h (by simp)
    | some tables =>
      rw [ht] at h
      simp only [Option.some.injEq] at h
      refine ⟨m, tables, rfl, h.symm, fun T => ?_, fun l t hf => ?_⟩
      · rw [mapM_some _ _ _ ht]
        simp only [mem_ordered ho]
        constructor
        · rintro ⟨t, ⟨l, hl⟩, e⟩; exact ⟨l, t, hl, e⟩
        · rintro ⟨l, t, hl, e⟩; exact ⟨t, ⟨l, hl⟩, e⟩
      · have hin := (mem_ordered ho t).2 ⟨l, hf⟩
        clear h hm
        generalize (order m).flatMap (·.2) = xs at ht hin
        induction xs generalizing tables with
        | nil => simp at hin
        | cons x xs ih =>
          rw [List.mapM_cons] at ht
          cases hx : tableOf c f locals x with
          | none => rw [hx] at ht; exact absurd ht (by simp)
          | some y =>
            rw [hx] at ht
            cases hr : xs.mapM (tableOf c f locals) with
            | none => rw [hr] at ht; exact absurd ht (by simp)
            | some ys =>
              rcases List.mem_cons.1 hin with rfl | hin
              · exact ⟨y, hx⟩
              · exact ih ys hr hin

/-! ## Which rows may be shown -/

theorem live_of_change {a b : Data} (h : a.permissions ≠ b.permissions) :
    (diffData a b).isLive ≠ .none (some false) := by
  intro hl
  have h1 : ∀ x y : Bool, diffBool x y = .none (some false) → x = false ∧ y = false := by decide
  obtain ⟨ha, hb⟩ := h1 _ _ hl
  exact h (by simp [Data.permissions, ha, hb])

/-- In the mode that shows changes, a row may be shown iff the place is visible and its permissions differ. -/
theorem showable_changes (visible : Place → Bool) (p : Place) (a b : Data) :
    Showable visible .changes (p, diffData a b) ↔ visible p = true ∧ a.permissions ≠ b.permissions := by
  have hu : (Unchanged (diffData a b).permissions.read ∧ Unchanged (diffData a b).permissions.write ∧
      Unchanged (diffData a b).permissions.drop) ↔ a.permissions = b.permissions := by
    simp only [diffData, diffPerms, (C40_flag _ _).2.2.1]
    generalize a.permissions = x
    generalize b.permissions = y
    cases x; cases y
    simp
  unfold Showable
  simp only [hu, forall_const]
  constructor
  · rintro ⟨h1, _, h3⟩; exact ⟨h1, h3⟩
  · rintro ⟨h1, h3⟩; exact ⟨h1, live_of_change h3, h3⟩

theorem mem_stepsOn {src : List Char} {err : Option Nat} {visible : Place → Bool} {mode : Mode}
    {tables : List Table} {line : Nat} {p : Place} {d : DataDiff} :
    d ∈ stepsOn src err visible mode tables line p ↔
      ∃ T ∈ tables, OnLine src err T.hi line ∧ (p, d) ∈ T.data ∧ Showable visible mode (p, d) := by
  classical
  unfold stepsOn
  simp only [List.mem_flatMap]
  refine exists_congr fun T => and_congr_right fun _ => ?_
  have hol : (lineOf src T.hi = line ∧ ¬ ∃ e, err = some e ∧ e < lineEnd src T.hi) ↔ OnLine src err T.hi line := by
    unfold OnLine
    refine and_congr_right fun _ => ?_
    constructor
    · intro h e he
      exact Nat.le_of_not_lt fun hlt => h ⟨e, he, hlt⟩
    · rintro h ⟨e, he, hlt⟩
      exact Nat.not_lt.2 (h e he) hlt
  by_cases hc : OnLine src err T.hi line
  · rw [if_pos (hol.2 hc)]
    simp only [hc, true_and, List.mem_filterMap]
    constructor
    · rintro ⟨⟨q, x⟩, hm, he⟩
      split at he
      · rename_i hq
        simp only [Option.some.injEq] at he
        obtain ⟨rfl, hs⟩ := hq
        subst he
        exact ⟨hm, hs⟩
      · exact absurd he (by simp)
    · rintro ⟨hm, hs⟩
      exact ⟨(p, d), hm, by rw [if_pos ⟨rfl, hs⟩]⟩
  · rw [if_neg (fun h => hc (hol.1 h))]
    simp [hc]

theorem foldl_cancel_mem (l : List DataDiff) (o : Option DataDiff) (x : DataDiff)
    (h : l.foldl cancel o = some x) : x ∈ l ∨ o = some x := by
  induction l generalizing o with
  | nil => exact .inr h
  | cons d r ih =>
    rcases ih _ h with h | h
    · exact .inl (List.mem_cons_of_mem _ h)
    · cases o with
      | none =>
        simp only [cancel, Option.some.injEq] at h
        exact .inl (by rw [← h]; exact List.mem_cons_self)
      | some o' =>
        simp only [cancel] at h
        split at h
        · exact absurd h (by simp)
        · exact .inr h

theorem foldl_cancel_same (l : List DataDiff) (d : DataDiff) (hl : l ≠ []) (ha : ∀ x ∈ l, x = d)
    (hs : d.isSymmetric d = false) : l.foldl cancel none = some d := by
  have key : ∀ l : List DataDiff, (∀ x ∈ l, x = d) → l.foldl cancel (some d) = some d := by
    intro l
    induction l with
    | nil => intro _; rfl
    | cons x r ih =>
      intro h
      rw [List.foldl_cons, h x List.mem_cons_self]
      simp only [cancel, hs, Bool.false_eq_true, if_false]
      exact ih fun y hy => h y (List.mem_cons_of_mem _ hy)
  cases l with
  | nil => exact absurd rfl hl
  | cons x r =>
    rw [List.foldl_cons, ha x List.mem_cons_self]
    exact key r fun y hy => ha y (List.mem_cons_of_mem _ hy)

theorem not_self_symmetric {a b : Data} (h : a.permissions ≠ b.permissions) :
    (diffData a b).isSymmetric (diffData a b) = false := by
  cases hc : (diffData a b).isSymmetric (diffData a b) with
  | false => rfl
  | true =>
    exfalso
    apply h
    have key : ∀ x y : Bool, (diffBool x y).isSymmetric (diffBool x y) = true → x = y := by decide
    simp only [DataDiff.isSymmetric, diffData, diffPerms, Bool.and_eq_true] at hc
    obtain ⟨⟨h1, h2⟩, h3⟩ := hc
    have e1 := key _ _ h1
    have e2 := key _ _ h2
    have e3 := key _ _ h3
    revert e1 e2 e3
    generalize a.permissions = p
    generalize b.permissions = q
    cases p; cases q
    simp only [Perms.mk.injEq]
    exact fun a b c => ⟨a, b, c⟩

/-! ## Properties -/

/-- **C97 (every row is true).** Every row on the page, of a function with any control flow, is about a step
of that function whose source part ends on that line (or about the start of the function, at its opening
brace): its cells say exactly which permissions the place has before and after that step. -/
theorem C97_true {c : Ctxt} {f : Frozen} {locals : List (Nat × List Nat)} {order : Tables → Tables}
    {src : List Char} {err : Option Nat} {visible : Place → Bool} {mode : Mode} {ds : List Display}
    (ho : ∀ m, (order m).Perm m) (h : finalizeBody c f locals order src err visible mode = some ds)
    {line : Nat} {p : Place} {d : DataDiff} (hs : Shown src ds line p d) :
    ∃ t a b hi, (t = .entry ∨ ∃ l, InTree f 0 l t) ∧ Covers c f locals t p a b hi ∧ OnLine src err hi line ∧
      visible p = true ∧ Says d a.permissions b.permissions ∧
      (mode = .changes → a.permissions ≠ b.permissions) := by
  obtain ⟨m, tables, hm, rfl, hT, _⟩ := finalize_tables ho h
  rw [C43_outcome] at hs
  rcases foldl_cancel_mem _ _ _ hs with hs | hs
  · obtain ⟨T, hT', hol, hd, hsh⟩ := mem_stepsOn.1 hs
    obtain ⟨l, t, hf, ht⟩ := (hT T).1 hT'
    obtain ⟨a, b, hc, rfl⟩ := (tableOf_rows ht p d).1 hd
    refine ⟨t, a, b, T.hi, ?_, hc, hol, hsh.1, Frontend.C76_cells a b, ?_⟩
    · rcases C44_only (by simp) hm hf with h1 | h1
      · obtain ⟨v, hv, htv⟩ := h1
        simp only [List.mem_singleton, Prod.mk.injEq] at hv
        rw [hv.2] at htv
        exact .inl (by simpa using htv)
      · exact .inr ⟨l, h1⟩
    · rintro rfl
      exact ((showable_changes visible p a b).1 hsh).2
  · exact absurd hs (by simp)

/-- **C97 (nothing happens, nothing shown).** If no step on a line changes the permissions of a place, the page
shows no row for it on that line. -/
theorem C97_silent {c : Ctxt} {f : Frozen} {locals : List (Nat × List Nat)} {order : Tables → Tables}
    {src : List Char} {err : Option Nat} {visible : Place → Bool} {ds : List Display}
    (ho : ∀ m, (order m).Perm m) (h : finalizeBody c f locals order src err visible .changes = some ds)
    {line : Nat} {p : Place}
    (hn : ∀ t a b hi, Covers c f locals t p a b hi → lineOf src hi = line → a.permissions = b.permissions) :
    ∀ d, ¬ Shown src ds line p d := by
  intro d hd
  obtain ⟨t, a, b, hi, _, hc, hol, _, _, hne⟩ := C97_true ho h hd
  exact hne rfl (hn t a b hi hc hol.1)

theorem shown_only {c : Ctxt} {f : Frozen} {locals : List (Nat × List Nat)} {order : Tables → Tables}
    {src : List Char} {err : Option Nat} {visible : Place → Bool} {ds : List Display}
    (ho : ∀ m, (order m).Perm m) (h : finalizeBody c f locals order src err visible .changes = some ds)
    {line : Nat} {p : Place} {a b : Data} {hi : Nat} {t : Tab}
    (hf : ∃ m l, filedTables c f = some m ∧ Filed m l t) (hc : Covers c f locals t p a b hi)
    (hol : OnLine src err hi line) (hv : visible p = true) (hne : a.permissions ≠ b.permissions)
    (hu : ∀ t' a' b' hi', (t' = .entry ∨ ∃ l, InTree f 0 l t') → Covers c f locals t' p a' b' hi' →
      lineOf src hi' = line → a'.permissions ≠ b'.permissions → t' = t) :
    Shown src ds line p (diffData a b) := by
  obtain ⟨m, tables, hm, rfl, hT, htot⟩ := finalize_tables ho h
  obtain ⟨m', l, hm', hfl⟩ := hf
  rw [hm, Option.some.injEq] at hm'
  subst hm'
  obtain ⟨T, ht⟩ := htot l t hfl
  rw [C43_outcome]
  apply foldl_cancel_same
  · apply List.ne_nil_of_mem (a := diffData a b)
    rw [mem_stepsOn]
    have he := covers_end ht hc
    subst he
    exact ⟨T, (hT T).2 ⟨l, t, hfl, ht⟩, hol, (tableOf_rows ht p _).2 ⟨a, b, hc, rfl⟩,
      (showable_changes visible p a b).2 ⟨hv, hne⟩⟩
  · intro x hx
    obtain ⟨T', hT', hol', hd, hsh⟩ := mem_stepsOn.1 hx
    obtain ⟨l', t', hf', ht'⟩ := (hT T').1 hT'
    obtain ⟨a', b', hc', rfl⟩ := (tableOf_rows ht' p x).1 hd
    have hne' := ((showable_changes visible p a' b').1 hsh).2
    have hin : t' = .entry ∨ ∃ l, InTree f 0 l t' := by
      rcases C44_only (by simp) hm hf' with h1 | h1
      · obtain ⟨v, hv, htv⟩ := h1
        simp only [List.mem_singleton, Prod.mk.injEq] at hv
        rw [hv.2] at htv
        exact .inl (by simpa using htv)
      · exact .inr ⟨l', h1⟩
    have := hu t' a' b' T'.hi hin hc' hol'.1 hne'
    subst this
    clear hu hsh hne' hol' hd hx hin
    generalize T'.hi = hi' at hc'
    cases hc with
    | entry hp => cases hc' with
      | entry _ => rfl
    | seg hp hs hh => cases hc' with
      | seg _ hs' _ => rw [hs, Option.some.injEq] at hs'; subst hs'; rfl
    | attached hp hb _ _ _ =>
      cases hc' with
      | attached _ hb' _ _ _ => rw [hb, Option.some.injEq] at hb'; subst hb'; rfl
  · exact not_self_symmetric hne

end Verif.Pipeline
