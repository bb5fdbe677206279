import Verif.Permissions.Model
/-!
# C107: the texts of permission states

Models `Debug for Permissions` (`permissions/mod.rs:188-205`) and `DebugWithContext` for `Permissions` and
`PermissionsDomain` (`permissions/utils.rs:79-177`), the labels of a drawing of the data flow.

Simplifications.  The text of a place is a parameter.  Writing does not fail.  A state is a list of places in the order
of iteration (as for `Domain.join`).  Two maps are equal if they give the same data for all places.
-/
namespace Verif.Permissions.Debug

/-- `<font color="darkgreen">+` -/
def greenPlus : List Char :=
  ['<', 'f', 'o', 'n', 't', ' ', 'c', 'o', 'l', 'o', 'r', '=', '"', 'd', 'a', 'r', 'k', 'g', 'r', 'e', 'e', 'n',
   '"', '>', '+']

/-- `<font color="red">-` -/
def redMinus : List Char :=
  ['<', 'f', 'o', 'n', 't', ' ', 'c', 'o', 'l', 'o', 'r', '=', '"', 'r', 'e', 'd', '"', '>', '-']

/-- `<font color="darkgreen">` -/
def green : List Char :=
  ['<', 'f', 'o', 'n', 't', ' ', 'c', 'o', 'l', 'o', 'r', '=', '"', 'd', 'a', 'r', 'k', 'g', 'r', 'e', 'e', 'n',
   '"', '>']

/-- `</font>` -/
def fontEnd : List Char :=
  ['<', '/', 'f', 'o', 'n', 't', '>']

/-- `<table border="0" cellborder="1" cellspacing="0" cellpadding="2">` -/
def table : List Char :=
  ['<', 't', 'a', 'b', 'l', 'e', ' ', 'b', 'o', 'r', 'd', 'e', 'r', '=', '"', '0', '"', ' ', 'c', 'e', 'l', 'l',
   'b', 'o', 'r', 'd', 'e', 'r', '=', '"', '1', '"', ' ', 'c', 'e', 'l', 'l', 's', 'p', 'a', 'c', 'i', 'n', 'g',
   '=', '"', '0', '"', ' ', 'c', 'e', 'l', 'l', 'p', 'a', 'd', 'd', 'i', 'n', 'g', '=', '"', '2', '"', '>']

/-- `<table border="0" cellborder="1" cellspacing="0" cellpadding="2" sides="rb">` -/
def diffTable : List Char :=
  ['<', 't', 'a', 'b', 'l', 'e', ' ', 'b', 'o', 'r', 'd', 'e', 'r', '=', '"', '0', '"', ' ', 'c', 'e', 'l', 'l',
   'b', 'o', 'r', 'd', 'e', 'r', '=', '"', '1', '"', ' ', 'c', 'e', 'l', 'l', 's', 'p', 'a', 'c', 'i', 'n', 'g',
   '=', '"', '0', '"', ' ', 'c', 'e', 'l', 'l', 'p', 'a', 'd', 'd', 'i', 'n', 'g', '=', '"', '2', '"', ' ', 's',
   'i', 'd', 'e', 's', '=', '"', 'r', 'b', '"', '>']

/-- `</table>` -/
def tableEnd : List Char :=
  ['<', '/', 't', 'a', 'b', 'l', 'e', '>']

/-- `<tr><td align="left">` -/
def rowStart : List Char :=
  ['<', 't', 'r', '>', '<', 't', 'd', ' ', 'a', 'l', 'i', 'g', 'n', '=', '"', 'l', 'e', 'f', 't', '"', '>']

/-- `</td><td align="left">` -/
def cellNext : List Char :=
  ['<', '/', 't', 'd', '>', '<', 't', 'd', ' ', 'a', 'l', 'i', 'g', 'n', '=', '"', 'l', 'e', 'f', 't', '"', '>']

/-- `</td></tr>` -/
def rowEnd : List Char :=
  ['<', '/', 't', 'd', '>', '<', '/', 't', 'r', '>']

/-- `Debug for Permissions` (mod.rs:188-205). -/
def perms (p : Perms) : List Char :=
  if !p.read && !p.write && !p.drop then ['∅']
  else (if p.read then ['R'] else []) ++ (if p.write then ['W'] else []) ++ (if p.drop then ['D'] else [])

/-- `fmt_field` (utils.rs:86-98). -/
def field (old new : Bool) (letter : Char) : List Char :=
  if old == new then (if new then [letter] else [])
  else if !old && new then greenPlus ++ [letter] ++ fontEnd
  else redMinus ++ [letter] ++ fontEnd

/-- `fmt_diff_with` for `Permissions` (utils.rs:80-105). -/
def permsDiff (old new : Perms) : List Char :=
  field old.read new.read 'R' ++ field old.write new.write 'W' ++ field old.drop new.drop 'D'

variable {P : Type} [DecidableEq P] (text : P → List Char)

/-- `fmt_with` for `PermissionsDomain` (utils.rs:109-128). -/
def state (s : Domain P) : List Char :=
  table ++ s.flatMap (fun x => rowStart ++ text x.1 ++ cellNext ++ perms x.2.permissions ++ rowEnd) ++ tableEnd

/-- The row of a place in `fmt_diff_with` (utils.rs:153-172). -/
def row (old : Domain P) (x : P × Data) : List Char :=
  match old.get x.1 with
  | some o =>
    if x.2.permissions = o.permissions then []
    else rowStart ++ text x.1 ++ cellNext ++ permsDiff o.permissions x.2.permissions ++ rowEnd
  | none => rowStart ++ green ++ text x.1 ++ fontEnd ++ cellNext ++ perms x.2.permissions ++ rowEnd

/-- `no_perm_changes` (utils.rs:136-142). -/
def noChanges (old new : Domain P) : Bool :=
  new.all (fun x => match old.get x.1 with | none => true | some o => decide (o.permissions = x.2.permissions))

/-- `old == self` (utils.rs:144): two maps are equal if each has the entries of the other. -/
def same (old new : Domain P) : Bool :=
  old.all (fun x => decide (new.get x.1 = old.get x.1)) && new.all (fun x => decide (old.get x.1 = new.get x.1))

/-- `fmt_diff_with` for `PermissionsDomain` (utils.rs:130-177). -/
def diff (old new : Domain P) : List Char :=
  if same old new || noChanges old new then []
  else diffTable ++ new.flatMap (row text old) ++ tableEnd

/-! ## Properties -/

/-- **C107 (readable).** The text of permissions determines them, and the text of a difference determines the
permissions before and after. -/
theorem C107_readable (old new old' new' : Perms) :
    (perms old = perms new → old = new) ∧ (permsDiff old new = permsDiff old' new' → old = old' ∧ new = new') := by
  obtain ⟨a1, a2, a3⟩ := old
  obtain ⟨b1, b2, b3⟩ := new
  obtain ⟨c1, c2, c3⟩ := old'
  obtain ⟨d1, d2, d3⟩ := new'
  constructor
  · revert a1 a2 a3 b1 b2 b3
    decide +kernel
  · revert a1 a2 a3 b1 b2 b3 c1 c2 c3 d1 d2 d3
    decide +kernel

/-- The row that a place should have: none if nothing changed, the change if it was there before, and else all its
permissions. -/
inductive Row (old : Domain P) (p : P) (now : Data) : List Char → Prop
  | same {o} : old.get p = some o → o.permissions = now.permissions → Row old p now []
  | changed {o} : old.get p = some o → o.permissions ≠ now.permissions → Row old p now
      (rowStart ++ text p ++ cellNext ++ permsDiff o.permissions now.permissions ++ rowEnd)
  | new : old.get p = none → Row old p now
      (rowStart ++ green ++ text p ++ fontEnd ++ cellNext ++ perms now.permissions ++ rowEnd)

theorem row_spec (old : Domain P) (x : P × Data) : Row text old x.1 x.2 (row text old x) := by
  unfold row
  cases h : old.get x.1 with
  | none => exact .new h
  | some o =>
    dsimp only
    by_cases he : x.2.permissions = o.permissions
    · rw [if_pos he]; exact .same h he.symm
    · rw [if_neg he]; exact .changed h (fun h => he h.symm)

theorem get_of_mem {s : Domain P} (hn : (s.map Prod.fst).Nodup) {x : P × Data} (hx : x ∈ s) : s.get x.1 = some x.2 := by
  induction s with
  | nil => cases hx
  | cons y s ih =>
    rw [List.map_cons, List.nodup_cons] at hn
    unfold Domain.get
    rw [List.find?_cons]
    rcases List.mem_cons.1 hx with rfl | hx
    · simp
    · have hne : ¬ y.1 = x.1 := fun he => hn.1 (he ▸ List.mem_map.2 ⟨x, hx, rfl⟩)
      simp only [hne, decide_false]
      exact ih hn.2 hx

/-- Equal states have no changes: the first test of `fmt_diff_with` is not needed. -/
theorem diff_eq {old new : Domain P} (hn : (new.map Prod.fst).Nodup) :
    diff text old new = if noChanges old new then [] else diffTable ++ new.flatMap (row text old) ++ tableEnd := by
  unfold diff
  cases h1 : same old new with
  | false => simp
  | true =>
    have : noChanges old new = true := by
      unfold noChanges
      rw [List.all_eq_true]
      intro x hx
      unfold same at h1
      rw [Bool.and_eq_true, List.all_eq_true, List.all_eq_true] at h1
      have := of_decide_eq_true (h1.2 x hx)
      rw [this, get_of_mem hn hx]
      simp
    simp [this]

/-- **C107 (silent).** Nothing is written exactly if no place that was there before has changed its permissions. -/
theorem C107_silent {old new : Domain P} (hn : (new.map Prod.fst).Nodup) :
    diff text old new = [] ↔ ∀ x ∈ new, ∀ o, old.get x.1 = some o → o.permissions = x.2.permissions := by
  have hno : noChanges old new = true ↔ ∀ x ∈ new, ∀ o, old.get x.1 = some o → o.permissions = x.2.permissions := by
    unfold noChanges
    rw [List.all_eq_true]
    refine forall_congr' fun x => forall_congr' fun _ => ?_
    cases h : old.get x.1 <;> simp
  rw [← hno, diff_eq text hn]
  cases h2 : noChanges old new <;> simp [diffTable]

/-- **C107 (rows).** What is written else is a table with one row for each place that is new or has changed. -/
theorem C107_rows {old new : Domain P} (hn : (new.map Prod.fst).Nodup) (h : diff text old new ≠ []) :
    ∃ rows : List (List Char), rows.length = new.length ∧
      (∀ (k : Nat) (x : P × Data) (r : List Char), new[k]? = some x → rows[k]? = some r → Row text old x.1 x.2 r) ∧
      diff text old new = diffTable ++ rows.flatten ++ tableEnd := by
  refine ⟨new.map (row text old), by simp, ?_, ?_⟩
  · intro k x r h1 h2
    rw [List.getElem?_map, h1] at h2
    cases h2
    exact row_spec text old x
  · rw [diff_eq text hn] at h ⊢
    cases h2 : noChanges old new with
    | true => rw [h2] at h; exact absurd rfl h
    | false => simp [List.flatMap_def]

/-- **C107 (new places).** Places that are only new are not shown unless another place has changed: the difference to
the empty state is empty, whatever the state. -/
theorem C107_new_hidden {new : Domain P} (hn : (new.map Prod.fst).Nodup) : diff text [] new = [] :=
  (C107_silent text hn).2 (by intro x _ o ho; cases ho)

/-- **C107 (places that are gone).** A place that is gone is never shown. -/
theorem C107_gone {old new : Domain P} (hn : (new.map Prod.fst).Nodup) {p : P} (hp : p ∉ new.map Prod.fst) (d : Data) :
    diff text (old ++ [(p, d)]) new = diff text old new := by
  have hget : ∀ x ∈ new, Domain.get (old ++ [(p, d)]) x.1 = old.get x.1 := by
    intro x hx
    have hne : ¬ p = x.1 := fun he => hp (he ▸ List.mem_map.2 ⟨x, hx, rfl⟩)
    unfold Domain.get
    rw [List.find?_append]
    cases old.find? (fun e => decide (e.1 = x.1)) <;> simp [hne]
  rw [diff_eq text hn, diff_eq text hn]
  have e1 : noChanges (old ++ [(p, d)]) new = noChanges old new := by
    unfold noChanges
    rw [Bool.eq_iff_iff, List.all_eq_true, List.all_eq_true]
    exact forall_congr' fun x => forall_congr' fun hx => by rw [hget x hx]
  have e2 : new.map (row text (old ++ [(p, d)])) = new.map (row text old) :=
    List.map_congr_left fun x hx => by unfold row; rw [hget x hx]
  rw [e1, List.flatMap_def, List.flatMap_def, e2]

/-! ## Example -/

def data (read write : Bool) : Data :=
  { typeDroppable := false, typeWriteable := write, typeCopyable := false, isLive := read, pathUninitialized := false,
    pathMoved := none, loanReadRefined := none, loanWriteRefined := none, loanDropRefined := none }

/-- Place 1 loses its permissions, place 2 is new; place 3 is gone. -/
example : diff (fun n : Nat => (toString n).toList) [(1, data true true), (3, data true true)]
      [(1, data false true), (2, data true false)] =
    diffTable ++ rowStart ++ ['1'] ++ cellNext ++ redMinus ++ ['R'] ++ fontEnd ++ redMinus ++ ['W'] ++ fontEnd ++ rowEnd ++
      rowStart ++ green ++ ['2'] ++ fontEnd ++ cellNext ++ ['R'] ++ rowEnd ++ tableEnd := by decide +kernel

/-! ## The text as markup -/

/-- Well-formed markup: characters, and elements that are closed under the name under which they are opened. -/
inductive Markup : List Char → Prop
  | nil : Markup []
  | char {c : Char} {r : List Char} : c ≠ '<' → c ≠ '>' → Markup r → Markup (c :: r)
  | elem {name attrs body r : List Char} : name ≠ [] → (∀ c ∈ name, c ≠ '<' ∧ c ≠ '>' ∧ c ≠ ' ' ∧ c ≠ '/') →
      (∀ c ∈ attrs, c ≠ '<' ∧ c ≠ '>') → (attrs = [] ∨ ∃ a, attrs = ' ' :: a) → Markup body → Markup r →
      Markup ('<' :: (name ++ attrs ++ '>' :: (body ++ '<' :: '/' :: (name ++ '>' :: r))))

theorem Markup.append {a b : List Char} (ha : Markup a) (hb : Markup b) : Markup (a ++ b) := by
  induction ha with
  | nil => exact hb
  | char h1 h2 _ ih => exact .char h1 h2 ih
  | elem h1 h2 h3 h4 h5 _ _ ih =>
    have := Markup.elem h1 h2 h3 h4 h5 ih
    simpa only [List.cons_append, List.append_assoc] using this

theorem Markup.plain {a : List Char} (h : ∀ c ∈ a, c ≠ '<' ∧ c ≠ '>') : Markup a := by
  induction a with
  | nil => exact .nil
  | cons c a ih => exact .char (h c (.head _)).1 (h c (.head _)).2 (ih fun c hc => h c (.tail _ hc))

/-- One element. -/
theorem Markup.one {name attrs body : List Char} (h1 : name ≠ []) (h2 : ∀ c ∈ name, c ≠ '<' ∧ c ≠ '>' ∧ c ≠ ' ' ∧ c ≠ '/')
    (h3 : ∀ c ∈ attrs, c ≠ '<' ∧ c ≠ '>') (h4 : attrs = [] ∨ ∃ a, attrs = ' ' :: a) (h5 : Markup body) :
    Markup ('<' :: (name ++ attrs ++ '>' :: (body ++ '<' :: '/' :: (name ++ ['>'])))) := .elem h1 h2 h3 h4 h5 .nil

theorem Markup.flatMap {α : Type} {f : α → List Char} {l : List α} (h : ∀ x ∈ l, Markup (f x)) : Markup (l.flatMap f) := by
  induction l with
  | nil => exact .nil
  | cons x l ih => rw [List.flatMap_cons]; exact (h x (.head _)).append (ih fun y hy => h y (.tail _ hy))

theorem markup_td {body : List Char} (h : Markup body) :
    Markup (['<', 't', 'd', ' ', 'a', 'l', 'i', 'g', 'n', '=', '"', 'l', 'e', 'f', 't', '"', '>'] ++ body ++ ['<', '/', 't', 'd', '>']) := by
  have := Markup.one (name := ['t', 'd']) (attrs := [' ', 'a', 'l', 'i', 'g', 'n', '=', '"', 'l', 'e', 'f', 't', '"'])
    (by simp) (by decide) (by decide) (.inr ⟨_, rfl⟩) h
  simpa using this

theorem markup_row {a b : List Char} (ha : Markup a) (hb : Markup b) : Markup (rowStart ++ a ++ cellNext ++ b ++ rowEnd) := by
  have := Markup.one (name := ['t', 'r']) (attrs := []) (by simp) (by decide) (by decide) (.inl rfl)
    ((markup_td ha).append (markup_td hb))
  simpa [rowStart, cellNext, rowEnd] using this

theorem markup_table {b : List Char} (hb : Markup b) : Markup (table ++ b ++ tableEnd) := by
  have := Markup.one (name := ['t', 'a', 'b', 'l', 'e']) (attrs := (table.drop 6).dropLast) (by simp) (by decide) (by decide)
    (.inr ⟨_, rfl⟩) hb
  simpa [table, tableEnd] using this

theorem markup_diffTable {b : List Char} (hb : Markup b) : Markup (diffTable ++ b ++ tableEnd) := by
  have := Markup.one (name := ['t', 'a', 'b', 'l', 'e']) (attrs := (diffTable.drop 6).dropLast) (by simp) (by decide) (by decide)
    (.inr ⟨_, rfl⟩) hb
  simpa [diffTable, tableEnd] using this

theorem markup_font {colour : List Char} (hc : ∀ c ∈ colour, c ≠ '<' ∧ c ≠ '>') {b : List Char} (hb : Markup b) :
    Markup (['<', 'f', 'o', 'n', 't', ' ', 'c', 'o', 'l', 'o', 'r', '=', '"'] ++ colour ++ ['"', '>'] ++ b ++ fontEnd) := by
  have := Markup.one (name := ['f', 'o', 'n', 't']) (attrs := [' ', 'c', 'o', 'l', 'o', 'r', '=', '"'] ++ colour ++ ['"'])
    (by simp) (by decide) (by
      intro c h
      simp only [List.mem_append, List.mem_singleton] at h
      rcases h with (h | h) | rfl
      · revert c; decide
      · exact hc c h
      · decide) (.inr ⟨_, rfl⟩) hb
  simpa [fontEnd] using this

theorem markup_perms (p : Perms) : Markup (perms p) := by
  refine Markup.plain ?_
  obtain ⟨a, b, c⟩ := p
  revert a b c
  decide

theorem markup_field (old new : Bool) {letter : Char} (h1 : letter ≠ '<') (h2 : letter ≠ '>') : Markup (field old new letter) := by
  have hl : ∀ s : Char, s ≠ '<' → s ≠ '>' → Markup [s, letter] := fun s a b => .char a b (.char h1 h2 .nil)
  have g := markup_font (colour := ['d', 'a', 'r', 'k', 'g', 'r', 'e', 'e', 'n']) (by decide) (hl '+' (by decide) (by decide))
  have r := markup_font (colour := ['r', 'e', 'd']) (by decide) (hl '-' (by decide) (by decide))
  cases old <;> cases new
  · exact .nil
  · simpa [field, greenPlus] using g
  · simpa [field, redMinus] using r
  · exact .char h1 h2 .nil

/-- **C107 (markup).** The text of a state and that of a difference are well-formed if the texts of the places have no angle
brackets. -/
theorem C107_markup (ht : ∀ p, ∀ c ∈ text p, c ≠ '<' ∧ c ≠ '>') (old new : Domain P) :
    Markup (state text new) ∧ Markup (diff text old new) := by
  constructor
  · exact markup_table (Markup.flatMap fun x _ => markup_row (.plain (ht x.1)) (markup_perms _))
  · unfold diff
    split
    · exact .nil
    · refine markup_diffTable (Markup.flatMap fun x _ => ?_)
      unfold row
      split
      · split
        · exact .nil
        · refine markup_row (.plain (ht x.1)) ?_
          unfold permsDiff
          exact ((markup_field _ _ (by decide) (by decide)).append (markup_field _ _ (by decide) (by decide))).append
            (markup_field _ _ (by decide) (by decide))
      · have := markup_font (colour := ['d', 'a', 'r', 'k', 'g', 'r', 'e', 'e', 'n']) (by decide) (Markup.plain (ht x.1))
        have := markup_row this (markup_perms x.2.permissions)
        simpa [green] using this

theorem markup_count {s : List Char} (h : Markup s) : s.count '<' % 2 = 0 := by
  have z : ∀ {l : List Char}, (∀ c ∈ l, c ≠ '<') → l.count '<' = 0 := fun h => List.count_eq_zero.2 fun hc => h _ hc rfl
  induction h with
  | nil => rfl
  | char h1 _ _ ih => rw [List.count_cons_of_ne h1]; exact ih
  | @elem name attrs body r _ h2 h3 _ _ _ ih1 ih2 =>
    have hn : name.count '<' = 0 := z fun c hc => (h2 c hc).1
    have ha : attrs.count '<' = 0 := z fun c hc => (h3 c hc).1
    simp only [List.count_cons, List.count_append, hn, ha]
    simp
    omega

/-- **C107 (angle brackets).** The text of a place is put in as it is, and the text of a field has its type in it
(`(_1.0: Vec<i32>)`): an odd number of angle brackets and the table is no markup any more. -/
theorem C107_angle (p : P) (hp : (text p).count '<' % 2 = 1) (d : Data) : ¬Markup (state text [(p, d)]) := by
  intro h
  have h := markup_count h
  have hz : (perms d.permissions).count '<' = 0 := by
    generalize d.permissions = q
    obtain ⟨a, b, c⟩ := q
    revert a b c
    decide
  have e1 : table.count '<' = 1 := by decide
  have e2 : tableEnd.count '<' = 1 := by decide
  have e3 : rowStart.count '<' = 2 := by decide
  have e4 : cellNext.count '<' = 2 := by decide
  have e5 : rowEnd.count '<' = 2 := by decide
  simp only [state, List.flatMap_cons, List.flatMap_nil, List.append_nil, List.count_append, e1, e2, e3, e4, e5, hz] at h
  omega

/-- A field of a type with arguments. -/
example : ¬Markup (state (P := Unit) (fun _ => ['(', '_', '1', '.', '0', ':', ' ', 'V', 'e', 'c', '<', 'u', '8', '>', ')']) [((), data true true)]) :=
  C107_angle _ () (by decide) _

end Verif.Permissions.Debug
