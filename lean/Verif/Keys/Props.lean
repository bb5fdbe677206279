import Verif.Keys.Model
/-!
# C136: keys typed into an embedded editor stay there, all others do not
-/
namespace Verif.Keys

/-! ## Specification -/

/-- The editor that has the focus according to the events. -/
def focused (es : List Event) : Option Nat :=
  match es.getLast? with
  | some (.move to) => to
  | _ => none

/-- The listeners of a book: none of them stops a key, and none is the editor's. -/
def Polite (book : List Listener) : Prop := ∀ l ∈ book, l.stops = false

/-! ## Dispatch -/

theorem visit_calm {ls : List Listener} {early : Bool} : ∀ {ns : List Nat},
    (∀ l ∈ ls, l.early = early → l.node ∈ ns → l.stops = false) →
    (visit ls early ns).2 = false ∧ ∀ l, l ∈ (visit ls early ns).1 ↔ l ∈ ls ∧ l.early = early ∧ l.node ∈ ns
  | [], _ => by simp [visit]
  | n :: ns, h => by
    have ih := visit_calm (ls := ls) (early := early) (ns := ns)
      (fun l hl he hn => h l hl he (List.mem_cons_of_mem _ hn))
    have hs : (ls.filter (fun l => decide (l.node = n ∧ l.early = early))).any (·.stops) = false := by
      rw [List.any_eq_false]
      intro l hl
      rw [List.mem_filter, decide_eq_true_eq] at hl
      rw [h l hl.1 hl.2.2 (hl.2.1 ▸ List.mem_cons_self)]
      decide
    simp only [visit]
    rw [if_neg (by rw [hs]; decide)]
    refine ⟨ih.1, fun l => ?_⟩
    rw [List.mem_append, ih.2, List.mem_filter, decide_eq_true_eq, List.mem_cons]
    constructor
    · rintro (⟨a, b, c⟩ | ⟨a, b, c⟩)
      · exact ⟨a, c, .inl b⟩
      · exact ⟨a, b, .inr c⟩
    · rintro ⟨a, b, c | c⟩
      · exact .inl ⟨a, c, b⟩
      · exact .inr ⟨a, b, c⟩

theorem visit_append {ls : List Listener} {early : Bool} : ∀ {ns ms : List Nat}, (visit ls early ns).2 = false →
    (visit ls early (ns ++ ms)).1 = (visit ls early ns).1 ++ (visit ls early ms).1
  | [], ms, _ => rfl
  | n :: ns, ms, h => by
    simp only [visit, List.cons_append] at h ⊢
    split
    · rename_i hs
      rw [if_pos hs] at h
      exact Bool.noConfusion h
    · rename_i hs
      rw [if_neg hs] at h
      rw [visit_append (ns := ns) h, List.append_assoc]

theorem mem_dispatch_calm {ls : List Listener} {target : Nat} (h : ∀ l ∈ ls, l.stops = false) (l : Listener) :
    l ∈ dispatch ls target ↔ l ∈ ls ∧ l.node ≤ target := by
  have h1 := visit_calm (ls := ls) (early := true) (ns := List.range (target + 1)) (fun l hl _ _ => h l hl)
  have h2 := visit_calm (ls := ls) (early := false) (ns := (List.range (target + 1)).reverse) (fun l hl _ _ => h l hl)
  simp only [dispatch]
  rw [if_neg (by rw [h1.1]; decide), List.mem_append, h1.2, h2.2, List.mem_reverse, List.mem_range]
  cases l.early <;> simp <;> omega

theorem range_split {target : Nat} (h : 2 ≤ target) : ∃ ns, (List.range (target + 1)).reverse = ns ++ [2, 1, 0] ∧
    ∀ n, n ∈ ns ↔ 3 ≤ n ∧ n ≤ target := by
  obtain ⟨d, rfl⟩ : ∃ d, target = d + 2 := ⟨target - 2, by omega⟩
  refine ⟨((List.range d).map (3 + ·)).reverse, ?_, fun n => ?_⟩
  · rw [show d + 2 + 1 = 3 + d by omega, List.range_add, List.reverse_append]
    rfl
  · rw [List.mem_reverse, List.mem_map]
    constructor
    · rintro ⟨a, ha, rfl⟩
      rw [List.mem_range] at ha
      omega
    · intro hn
      exact ⟨n - 3, List.mem_range.2 (by omega), by omega⟩

theorem mem_dispatch_kept {book : List Listener} {target : Nat} (h : Polite book) (ht : 2 ≤ target) (l : Listener)
    (hl : l ≠ captureKeyboard) :
    l ∈ dispatch (book ++ [captureKeyboard]) target ↔ l ∈ book ∧ l.node ≤ target ∧ (l.early = true ∨ 2 ≤ l.node) := by
  have hcalm : ∀ x ∈ book ++ [captureKeyboard], x ≠ captureKeyboard → x.stops = false := by
    intro x hx hne
    rw [List.mem_append, List.mem_singleton] at hx
    exact h x (hx.resolve_right hne)
  have h1 := visit_calm (ls := book ++ [captureKeyboard]) (early := true) (ns := List.range (target + 1))
    (fun x hx he _ => hcalm x hx (by rintro rfl; exact absurd he (by decide)))
  obtain ⟨ns, e, hns⟩ := range_split ht
  have h2 := visit_calm (ls := book ++ [captureKeyboard]) (early := false) (ns := ns)
    (fun x hx _ hn => hcalm x hx (by
      rintro rfl
      have := (hns _).1 hn
      simp only [captureKeyboard] at this
      omega))
  have h3 : (visit (book ++ [captureKeyboard]) false [2, 1, 0]).1 =
      (book ++ [captureKeyboard]).filter (fun l => l.node = 2 ∧ l.early = false) := by
    simp only [visit]
    rw [if_pos]
    rw [List.any_eq_true]
    exact ⟨captureKeyboard, List.mem_filter.2 ⟨by simp, by decide⟩, rfl⟩
  simp only [dispatch]
  rw [if_neg (by rw [h1.1]; decide), List.mem_append, h1.2, e, visit_append h2.1,
    List.mem_append (s := (visit (book ++ [captureKeyboard]) false ns).1), h2.2, hns, h3,
    List.mem_filter, decide_eq_true_eq, List.mem_range, List.mem_append, List.mem_singleton]
  simp only [hl, or_false]
  by_cases hb : l ∈ book
  · cases l.early <;> simp [hb] <;> omega
  · simp [hb]

/-! ## The focus -/

theorem run_concat (book : List Listener) (es : List Event) (e : Event) : run book (es ++ [e]) = (run book es).step e := by
  simp [run, List.foldl_append]

theorem focused_concat (es : List Event) (e : Event) :
    focused (es ++ [e]) = match e with | .move to => to | .vanish => none := by
  rw [focused, List.getLast?_concat]
  cases e <;> rfl

/-- Whether an editor vanished and none has got and lost the focus since then. -/
def stuck : List Event → Bool
  | es => go false none es
where
  go (s : Bool) (f : Option Nat) : List Event → Bool
  | [] => s
  | .vanish :: es => go (s || f.isSome) none es
  | .move to :: es => go (s && !f.isSome) to es

theorem book_clean {book : List Listener} (h : Polite book) : captureKeyboard ∉ book := fun hc =>
  absurd (h _ hc) (by decide)

theorem add_clean {book : List Listener} (h : Polite book) : add captureKeyboard book = book ++ [captureKeyboard] := by
  rw [add, if_neg (book_clean h)]

theorem add_again (book : List Listener) : add captureKeyboard (book ++ [captureKeyboard]) = book ++ [captureKeyboard] := by
  rw [add, if_pos (by simp)]

theorem remove_clean {book : List Listener} (h : Polite book) : remove captureKeyboard book = book := by
  rw [remove, List.filter_eq_self]
  intro l hl
  simp only [ne_eq, decide_not, Bool.not_eq_eq_eq_not, Bool.not_true, decide_eq_false_iff_not]
  rintro rfl
  exact book_clean h hl

theorem remove_again {book : List Listener} (h : Polite book) :
    remove captureKeyboard (book ++ [captureKeyboard]) = book := by
  have := remove_clean h
  unfold remove at this ⊢
  rw [List.filter_append, this]
  simp

/-- The listeners of a page. -/
def with_ (book : List Listener) (b : Bool) : List Listener := if b then book ++ [captureKeyboard] else book

theorem run_from {book : List Listener} (h : Polite book) : ∀ (es : List Event) (s : Bool) (f : Option Nat),
    let p := es.foldl Page.step ⟨f, with_ book (f.isSome || s)⟩
    p.listeners = with_ book (p.focus.isSome || stuck.go s f es)
  | [], s, f => by simp [stuck.go]
  | .vanish :: es, s, f => by
    have := run_from h es (s || f.isSome) none
    simp only [List.foldl_cons, Page.step, stuck.go] at this ⊢
    rw [show (f.isSome || s) = ((none : Option Nat).isSome || (s || f.isSome)) by cases f <;> simp]
    exact this
  | .move to :: es, s, f => by
    have := run_from h es (s && !f.isSome) to
    simp only [List.foldl_cons, stuck.go] at this ⊢
    have e : (Page.step ⟨f, with_ book (f.isSome || s)⟩ (.move to)) = ⟨to, with_ book (to.isSome || (s && !f.isSome))⟩ := by
      cases f <;> cases to <;> cases s <;>
        simp [Page.step, Page.focusin, Page.focusout, with_, add_clean h, add_again, remove_again h]
    rw [e]
    exact this

theorem run_focus (book : List Listener) (es : List Event) : (run book es).focus = focused es := by
  suffices h : ∀ r : List Event, (run book r.reverse).focus = focused r.reverse by simpa using h es.reverse
  intro r
  cases r with
  | nil => rfl
  | cons e r =>
    rw [List.reverse_cons, run_concat, focused_concat]
    cases e with
    | vanish => rfl
    | move to =>
      cases to with
      | some x => rfl
      | none =>
        simp only [Page.step]
        split
        · rfl
        · rename_i hf
          simpa using hf

theorem run_listeners {book : List Listener} (h : Polite book) (es : List Event) :
    (run book es).listeners = with_ book ((focused es).isSome || stuck es) := by
  have := run_from h es false none
  rw [← run_focus book es]
  exact this

/-- Every editor ever focused has lost the focus properly: no listener is stuck. -/
theorem stuck_none {es : List Event} (h : Event.vanish ∉ es) : stuck es = false := by
  suffices ∀ (es : List Event) (f : Option Nat), Event.vanish ∉ es → stuck.go false f es = false from this es none h
  intro es
  induction es with
  | nil => intros; rfl
  | cons e es ih =>
    intro f h
    rw [List.mem_cons] at h
    cases e with
    | vanish => exact absurd (.inl rfl) h
    | move to =>
      rw [stuck.go, Bool.false_and]
      exact ih to (fun q => h (.inr q))

/-- What is heard in all cases. -/
theorem heard_iff {book : List Listener} (h : Polite book) (es : List Event) {target : Nat} (ht : 2 ≤ target) (l : Listener) :
    l ∈ heard book es target ↔ l ∈ book ∧ l.node ≤ target ∧
      (((focused es).isSome || stuck es) = true → l.early = true ∨ 2 ≤ l.node) := by
  rw [heard, List.mem_filter, run_listeners h]
  simp only [ne_eq, decide_not, Bool.not_eq_eq_eq_not, Bool.not_true, decide_eq_false_iff_not]
  cases (focused es).isSome || stuck es with
  | false =>
    rw [with_, if_neg (by decide), mem_dispatch_calm h]
    simp only [Bool.false_eq_true, false_imp_iff, and_true, and_iff_left_iff_imp]
    rintro ⟨hb, _⟩ rfl
    exact book_clean h hb
  | true =>
    rw [with_, if_pos rfl]
    simp only [true_imp_iff]
    constructor
    · rintro ⟨h1, h2⟩
      exact (mem_dispatch_kept h ht l h2).1 h1
    · intro h1
      have h2 : l ≠ captureKeyboard := by
        rintro rfl
        exact book_clean h h1.1
      exact ⟨(mem_dispatch_kept h ht l h2).2 h1, h2⟩

/-- While an editor has the focus, a key is heard by no listener of document and window, except those that capture; by all others
on its way. -/
theorem C136_kept {book : List Listener} (h : Polite book) {es : List Event} {e : Nat} (hf : focused es = some e) {target : Nat}
    (ht : 2 ≤ target) (l : Listener) :
    l ∈ heard book es target ↔ l ∈ book ∧ l.node ≤ target ∧ (l.early = true ∨ 2 ≤ l.node) := by
  rw [heard_iff h es ht, hf]
  simp

/-- While no editor has the focus, every key is heard by all listeners on its way, if no editor has vanished with the focus. -/
theorem C136_passed_partial {book : List Listener} (h : Polite book) {es : List Event} (hv : Event.vanish ∉ es)
    (hf : focused es = none) {target : Nat} (ht : 2 ≤ target) (l : Listener) :
    l ∈ heard book es target ↔ l ∈ book ∧ l.node ≤ target := by
  rw [heard_iff h es ht, hf, stuck_none hv]
  simp

theorem stuck_go_append (as : List Event) : ∀ (bs : List Event) (s : Bool) (f : Option Nat),
    stuck.go s f (bs ++ as) = stuck.go (stuck.go s f bs) (bs.foldl (fun _ e => match e with | .move to => to | .vanish => none) f) as
  | [], _, _ => rfl
  | .vanish :: bs, s, f => stuck_go_append as bs _ _
  | .move to :: bs, s, f => stuck_go_append as bs _ _

theorem focused_fold (es : List Event) :
    es.foldl (fun _ e => match e with | .move to => to | .vanish => none) none = focused es := by
  suffices h : ∀ r : List Event,
      r.reverse.foldl (fun _ e => match e with | .move to => to | .vanish => none) none = focused r.reverse by
    simpa using h es.reverse
  intro r
  cases r with
  | nil => rfl
  | cons e r =>
    rw [List.reverse_cons, focused_concat, List.foldl_append]
    rfl

theorem stuck_concat (es : List Event) (e : Event) : stuck (es ++ [e]) = match e with
    | .vanish => stuck es || (focused es).isSome
    | .move _ => stuck es && !(focused es).isSome := by
  show stuck.go false none (es ++ [e]) = _
  rw [stuck_go_append, focused_fold]
  cases e <;> rfl

/-- The code does otherwise: after an editor has vanished with the focus, the book hears no keys at all, wherever they are typed and
however often the focus moves between other things; until an editor has got the focus and lost it. -/
theorem C136_stuck {book : List Listener} (h : Polite book) {es : List Event} {e : Nat} (hf : focused es = some e) (n : Nat)
    {target : Nat} (ht : 2 ≤ target) (l : Listener) :
    (l ∈ heard book (es ++ .vanish :: List.replicate n (.move none)) target ↔
      l ∈ book ∧ l.node ≤ target ∧ (l.early = true ∨ 2 ≤ l.node)) ∧
    ∀ e', l ∈ heard book (es ++ .vanish :: List.replicate n (.move none) ++ [.move (some e'), .move none]) target ↔
      l ∈ book ∧ l.node ≤ target := by
  have key : ∀ n, focused (es ++ .vanish :: List.replicate n (.move none)) = none ∧
      stuck (es ++ .vanish :: List.replicate n (.move none)) = true := by
    intro n
    induction n with
    | zero =>
      show focused (es ++ [.vanish]) = none ∧ stuck (es ++ [.vanish]) = true
      rw [focused_concat, stuck_concat, hf]
      simp
    | succ n ih =>
      rw [show es ++ Event.vanish :: List.replicate (n + 1) (.move none) =
        (es ++ .vanish :: List.replicate n (.move none)) ++ [.move none] by
          rw [List.replicate_succ', List.append_assoc, List.cons_append], focused_concat, stuck_concat, ih.1, ih.2]
      exact ⟨rfl, rfl⟩
  refine ⟨?_, fun e' => ?_⟩
  · rw [heard_iff h _ ht, (key n).1, (key n).2]
    simp
  · rw [heard_iff h _ ht, show ∀ as : List Event, as ++ [.move (some e'), .move none] = (as ++ [.move (some e')]) ++ [.move none]
      from fun as => by simp, focused_concat, stuck_concat, focused_concat]
    simp

/-- The editor itself hears every key that is typed into it, whatever has the focus: a key is stopped only above the editor. -/
theorem C136_editor {book : List Listener} (h : Polite book) (es : List Event) {target : Nat} {l : Listener} (hl : l ∈ book)
    (h2 : 3 ≤ l.node) (ht : l.node ≤ target) : l ∈ heard book es target := by
  rw [heard_iff h es (by omega)]
  exact ⟨hl, ht, fun _ => .inr (by omega)⟩

/-! ## Cases -/

/-- A book that turns pages at the document, with an editor deep in the page. -/
def Example.book : List Listener := [⟨1, false, false, 1⟩, ⟨7, false, false, 2⟩, ⟨0, true, false, 3⟩]

example : Polite Example.book := by unfold Polite; decide

#guard (heard Example.book [.move (some 4)] 7).map (·.name) = [3, 2]
#guard (heard Example.book [.move (some 4), .move (some 5), .move none] 7).map (·.name) = [3, 2, 1]
#guard (heard Example.book [.move (some 4), .vanish, .move none] 5).map (·.name) = [3]

end Verif.Keys
