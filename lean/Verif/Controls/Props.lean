import Verif.Controls.Model
/-!
# C131: the controls of a block do what they say
-/
namespace Verif.Controls

/-! ## Specification -/

/-- The event closes the pop-up. -/
def Closes (k : Key) : Event → Bool
  | .cross k' => decide (k' = k)
  | .submit b _ => decide ((b, Which.report) = k)
  | _ => false

def Pressed (k : Key) (e : Event) : Bool := decide (e = .button k)

/-- A pop-up is open if its button was clicked an odd number of times since it was last closed. -/
def OpenAfter (evs : List Event) (k : Key) : Prop :=
  ((evs.reverse.takeWhile (fun e => !Closes k e)).filter (Pressed k)).length % 2 = 1

/-- How often the button for hidden lines was clicked. -/
def eyes (evs : List Event) (b : Nat) : Nat := (evs.filter (fun e => decide (e = .eye b))).length

/-- The text last put into the editor of a block, or that of the book. -/
def lastText (c : Conf) (b : Nat) (evs : List Event) : Text :=
  if c.editable b then
    (evs.reverse.findSome? (fun e => match e with
      | .edit b' t => if b' = b then some t else none
      | _ => none)).getD (c.code b)
  else c.code b

/-- A line break: `\r\n`, `\r` or `\n` become `\n`. -/
def unix : Text → Text
  | [] => []
  | '\r' :: '\n' :: r => '\n' :: unix r
  | '\r' :: r => '\n' :: unix r
  | c :: r => c :: unix r

/-! ## Proofs -/

theorem split_ne (t : Text) : split t ≠ [] := by
  unfold split
  split <;> first | (simp; done) | (split <;> simp)

theorem join_cons (l : Text) {ls : List Text} (h : ls ≠ []) : join (l :: ls) = l ++ '\n' :: join ls := by
  cases ls with
  | nil => exact absurd rfl h
  | cons => rfl

theorem join_split (t : Text) : join (split t) = unix t := by
  fun_induction split t with
  | case1 => rfl
  | case2 r ih => rw [join_cons _ (split_ne r), ih]; simp [unix]
  | case3 r hr ih =>
    rw [join_cons _ (split_ne r), ih]
    cases r with
    | nil => simp [unix]
    | cons c r =>
      by_cases hc : c = '\n'
      · subst hc; exact absurd rfl (hr r)
      · simp [unix]
  | case4 r ih => rw [join_cons _ (split_ne r), ih]; simp [unix]
  | case5 c r _ h1 h2 hs ih => exact absurd hs (split_ne r)
  | case6 c r _ h1 h2 l ls hs ih =>
    rw [hs] at ih
    have : unix (c :: r) = c :: unix r := by
      rw [unix.eq_def]
      split
      · simp_all
      · simp_all
      · simp_all
      · simp_all
    rw [this, ← ih]
    cases ls <;> rfl

theorem snoc_induction {α : Type} {P : List α → Prop} (nil : P []) (snoc : ∀ l a, P l → P (l ++ [a])) (l : List α) :
    P l := by
  have : ∀ l : List α, P l.reverse := by
    intro l
    induction l with
    | nil => exact nil
    | cons a l ih => rw [List.reverse_cons]; exact snoc _ _ ih
  simpa using this l.reverse

theorem run_snoc (c : Conf) (evs : List Event) (e : Event) : run c (evs ++ [e]) = (run c evs).step c e := by
  simp [run]

theorem set_self {α β : Type} [DecidableEq α] (f : α → β) (a : α) (b : β) : set f a b a = b := by simp [set]

theorem set_ne {α β : Type} [DecidableEq α] (f : α → β) {a x : α} (b : β) (h : x ≠ a) : set f a b x = f x := by
  simp [set, h]

/-! ### Pop-ups -/

theorem cleanup_isOpen (p : Page) (k k' : Key) : ((p.cleanup k).popup k').isOpen = (p.popup k').isOpen := by
  unfold Page.cleanup
  split
  · rfl
  · by_cases h : k' = k
    · subst h; simp [set]
    · simp [set, h]

theorem effect_isOpen (p : Page) (k k' : Key) : ((p.effect k).popup k').isOpen = (p.popup k').isOpen := by
  unfold Page.effect
  split
  · by_cases h : k' = k
    · subst h; simp [set]
    · simp [set, h]
  · rfl

theorem setOpen_isOpen (p : Page) (k k' : Key) (o : Bool) :
    ((p.setOpen k o).popup k').isOpen = if k' = k then o else (p.popup k').isOpen := by
  unfold Page.setOpen
  split
  · rename_i h
    split
    · rename_i hk; rw [hk]; exact h
    · rfl
  · dsimp only
    rw [effect_isOpen, cleanup_isOpen]
    by_cases h : k' = k
    · subst h; simp [set]
    · simp [set, h]

/-- The listeners are exactly those of the open pop-ups. -/
structure Inv (p : Page) : Prop where
  has : ∀ k, (p.popup k).isOpen = (p.popup k).listener.isSome
  mem : ∀ k n, (p.popup k).listener = some n → n ∈ p.listeners
  own : ∀ n ∈ p.listeners, ∃ k, (p.popup k).listener = some n
  inj : ∀ k k' n, (p.popup k).listener = some n → (p.popup k').listener = some n → k = k'
  old : ∀ n ∈ p.listeners, n < p.fresh

theorem inv_setOpen {p : Page} (h : Inv p) (k : Key) (o : Bool) : Inv (p.setOpen k o) := by
  unfold Page.setOpen
  split
  · exact h
  · rename_i hne
    dsimp only
    cases o with
    | true =>
      have hf : (p.popup k).isOpen = false := by simpa using hne
      have hl : (p.popup k).listener = none := by
        have := h.has k
        rw [hf] at this
        simpa using this.symm
      simp only [Page.cleanup, set_self, hl, Page.effect, if_true]
      have hother : ∀ x, x ≠ k → ∀ a b : Popup, set (set p.popup k a) k b x = p.popup x := by
        intro x hx a b; simp [set, hx]
      refine ⟨fun x => ?_, fun x n hn => ?_, fun n hn => ?_, fun x y n hx hy => ?_, fun n hn => ?_⟩ <;> try dsimp only at *
      · by_cases hx : x = k
        · subst hx; simp [set]
        · rw [hother x hx]; exact h.has x
      · by_cases hx : x = k
        · subst hx
          simp only [set_self, Option.some.injEq] at hn
          simp [hn]
        · rw [hother x hx] at hn
          simp [h.mem x n hn]
      · rcases List.mem_append.1 hn with hn | hn
        · obtain ⟨x, hx⟩ := h.own n hn
          refine ⟨x, ?_⟩
          by_cases hk : x = k
          · subst hk; rw [hl] at hx; exact absurd hx (by simp)
          · rw [hother x hk]; exact hx
        · refine ⟨k, ?_⟩
          simp only [List.mem_singleton] at hn
          simp [set, hn]
      · have hfresh : ∀ z, z ≠ k → (p.popup z).listener = some p.fresh → False :=
          fun z _ hz => absurd (h.old _ (h.mem z _ hz)) (Nat.lt_irrefl _)
        by_cases hxk : x = k <;> by_cases hyk : y = k
        · rw [hxk, hyk]
        · subst hxk
          simp only [set_self, Option.some.injEq] at hx
          rw [hother y hyk, ← hx] at hy
          exact (hfresh y hyk hy).elim
        · subst hyk
          simp only [set_self, Option.some.injEq] at hy
          rw [hother x hxk, ← hy] at hx
          exact (hfresh x hxk hx).elim
        · rw [hother x hxk] at hx
          rw [hother y hyk] at hy
          exact h.inj x y n hx hy
      · rcases List.mem_append.1 hn with hn | hn
        · have := h.old n hn
          omega
        · simp only [List.mem_singleton] at hn
          omega
    | false =>
      have ht : (p.popup k).isOpen = true := by simpa using hne
      obtain ⟨m, hm⟩ : ∃ m, (p.popup k).listener = some m := by
        have := h.has k
        rw [ht] at this
        exact Option.isSome_iff_exists.1 this.symm
      have hother : ∀ x, x ≠ k → ∀ a b : Popup, set (set p.popup k a) k b x = p.popup x := by
        intro x hx a b; simp [set, hx]
      simp only [Page.cleanup, set_self, hm, Page.effect, Bool.false_eq_true, if_false]
      refine ⟨fun x => ?_, fun x n hn => ?_, fun n hn => ?_, fun x y n hx hy => ?_, fun n hn => ?_⟩ <;> try dsimp only at *
      · by_cases hx : x = k
        · subst hx; simp [set]
        · rw [hother x hx]; exact h.has x
      · by_cases hx : x = k
        · subst hx
          simp [set] at hn
        · rw [hother x hx] at hn
          rw [List.mem_filter]
          refine ⟨h.mem x n hn, ?_⟩
          simp only [Bool.not_eq_true', decide_eq_false_iff_not]
          rintro rfl
          exact hx (h.inj x k n hn hm)
      · rw [List.mem_filter] at hn
        obtain ⟨x, hx⟩ := h.own n hn.1
        refine ⟨x, ?_⟩
        by_cases hk : x = k
        · subst hk
          rw [hm] at hx
          simp only [Option.some.injEq] at hx
          simp [hx] at hn
        · rw [hother x hk]; exact hx
      · by_cases hxk : x = k
        · subst hxk; simp [set] at hx
        · by_cases hyk : y = k
          · subst hyk; simp [set] at hy
          · rw [hother x hxk] at hx
            rw [hother y hyk] at hy
            exact h.inj x y n hx hy
      · exact h.old n (List.mem_filter.1 hn).1

theorem inv_run (c : Conf) (evs : List Event) : Inv (run c evs) := by
  induction evs using snoc_induction with
  | nil => exact ⟨fun _ => rfl, by simp [run, Page.init], by simp [run, Page.init], by simp [run, Page.init],
      by simp [run, Page.init]⟩
  | snoc evs e ih =>
    rw [run_snoc]
    generalize run c evs = p at ih
    cases e with
    | button k => simp only [Page.step]; split <;> first | exact inv_setOpen ih _ _ | exact ih
    | cross k => simp only [Page.step]; split <;> first | exact inv_setOpen ih _ _ | exact ih
    | submit b t =>
      simp only [Page.step]
      split
      · refine inv_setOpen (p := { p with reports := _ }) ?_ _ _
        exact ⟨ih.has, ih.mem, ih.own, ih.inj, ih.old⟩
      · exact ih
    | eye b =>
      simp only [Page.step]
      split
      · exact ⟨ih.has, ih.mem, ih.own, ih.inj, ih.old⟩
      · exact ih
    | copy b => exact ⟨ih.has, ih.mem, ih.own, ih.inj, ih.old⟩
    | edit b t =>
      simp only [Page.step]
      split
      · exact ⟨ih.has, ih.mem, ih.own, ih.inj, ih.old⟩
      · exact ih

theorem openAfter_snoc (evs : List Event) (e : Event) (k : Key) : OpenAfter (evs ++ [e]) k ↔
    (Closes k e = false ∧ if Pressed k e then ¬ OpenAfter evs k else OpenAfter evs k) := by
  unfold OpenAfter
  rw [List.reverse_append, List.reverse_singleton, List.singleton_append, List.takeWhile_cons]
  cases hc : Closes k e with
  | true => simp
  | false =>
    cases hp : Pressed k e with
    | true =>
      simp only [Bool.not_false, if_true, List.filter_cons, hp, List.length_cons, true_and]
      omega
    | false => simp [List.filter_cons, hp]

/-- A pop-up is open exactly if the block has it and its button was clicked an odd number of times since it was last
closed. -/
theorem C131_popups (c : Conf) (evs : List Event) (k : Key) :
    ((run c evs).popup k).isOpen = true ↔ c.info k.1 = true ∧ OpenAfter evs k := by
  induction evs using snoc_induction with
  | nil => simp [run, Page.init, OpenAfter]
  | snoc evs e ih =>
    rw [run_snoc, openAfter_snoc]
    generalize run c evs = p at ih
    cases e with
    | button k' =>
      simp only [Page.step, Closes, Pressed, Event.button.injEq, true_and]
      by_cases hk : k' = k
      · subst hk
        simp only [decide_true, if_true]
        split
        · rename_i hi
          rw [setOpen_isOpen, if_pos rfl]
          rw [hi] at ih
          simp only [hi, true_and] at ih ⊢
          rw [← ih]
          simp
        · rename_i hi
          rw [ih]
          simp [hi]
      · simp only [decide_eq_false hk, Bool.false_eq_true, if_false]
        rw [← ih]
        split
        · rw [setOpen_isOpen, if_neg (fun h => hk h.symm)]
        · exact Iff.rfl
    | cross k' =>
      simp only [Page.step, Closes, Pressed, reduceCtorEq, decide_false, Bool.false_eq_true, if_false]
      by_cases hk : k' = k
      · subst hk
        simp only [decide_true, Bool.true_eq_false, false_and, and_false, iff_false]
        split
        · rw [setOpen_isOpen, if_pos rfl]; simp
        · rename_i hi
          intro ho
          have := ih.1 ho
          simp [ho, this.1] at hi
      · simp only [decide_eq_false hk, true_and]
        rw [← ih]
        split
        · rw [setOpen_isOpen, if_neg (fun h => hk h.symm)]
        · exact Iff.rfl
    | submit b t =>
      simp only [Page.step, Closes, Pressed, reduceCtorEq, decide_false, Bool.false_eq_true, if_false]
      by_cases hk : (b, Which.report) = k
      · subst hk
        simp only [decide_true, Bool.true_eq_false, false_and, and_false, iff_false]
        split
        · rw [setOpen_isOpen, if_pos rfl]; simp
        · rename_i hi
          intro ho
          have := ih.1 ho
          simp [ho, this.1] at hi
      · simp only [decide_eq_false hk, true_and]
        rw [← ih]
        split
        · rw [setOpen_isOpen, if_neg (fun h => hk h.symm)]
        · exact Iff.rfl
    | eye b =>
      simp only [Page.step, Closes, Pressed, reduceCtorEq, decide_false, Bool.false_eq_true, if_false, true_and]
      rw [← ih]
      split <;> exact Iff.rfl
    | copy b =>
      simp only [Page.step, Closes, Pressed, reduceCtorEq, decide_false, Bool.false_eq_true, if_false, true_and]
      rw [← ih]
    | edit b t =>
      simp only [Page.step, Closes, Pressed, reduceCtorEq, decide_false, Bool.false_eq_true, if_false, true_and]
      rw [← ih]
      split <;> exact Iff.rfl

/-- A key pressed reaches the shortcuts of the book exactly if no pop-up of the page is open. -/
theorem C131_shortcuts (c : Conf) (evs : List Event) :
    (run c evs).keyReachesBook = true ↔ ∀ k, ¬ (c.info k.1 = true ∧ OpenAfter evs k) := by
  have h := inv_run c evs
  have hp := C131_popups c evs
  unfold Page.keyReachesBook
  rw [List.isEmpty_iff]
  constructor
  · intro he k hk
    have ho := (hp k).2 hk
    rw [h.has k] at ho
    obtain ⟨n, hn⟩ := Option.isSome_iff_exists.1 ho
    have := h.mem k n hn
    rw [he] at this
    simp at this
  · intro ha
    cases hl : (run c evs).listeners with
    | nil => rfl
    | cons n r =>
      obtain ⟨k, hk⟩ := h.own n (by rw [hl]; simp)
      refine absurd ((hp k).1 ?_) (ha k)
      rw [h.has k, hk]; rfl

/-! ### Buttons -/

theorem setOpen_rest (p : Page) (k : Key) (o : Bool) : (p.setOpen k o).hidden = p.hidden ∧
    (p.setOpen k o).shows = p.shows ∧ (p.setOpen k o).lines = p.lines ∧ (p.setOpen k o).clipboard = p.clipboard ∧
    (p.setOpen k o).reports = p.reports := by
  have hc : ∀ q : Page, (q.cleanup k).hidden = q.hidden ∧ (q.cleanup k).shows = q.shows ∧
      (q.cleanup k).lines = q.lines ∧ (q.cleanup k).clipboard = q.clipboard ∧ (q.cleanup k).reports = q.reports := by
    intro q; unfold Page.cleanup; split <;> simp
  have he : ∀ q : Page, (q.effect k).hidden = q.hidden ∧ (q.effect k).shows = q.shows ∧
      (q.effect k).lines = q.lines ∧ (q.effect k).clipboard = q.clipboard ∧ (q.effect k).reports = q.reports := by
    intro q; unfold Page.effect; split <;> simp
  unfold Page.setOpen
  split
  · simp
  · dsimp only
    rw [(he _).1, (he _).2.1, (he _).2.2.1, (he _).2.2.2.1, (he _).2.2.2.2, (hc _).1, (hc _).2.1, (hc _).2.2.1,
      (hc _).2.2.2.1, (hc _).2.2.2.2]
    simp

/-- Hidden lines are shown exactly after an odd number of clicks on the eye, and the icon says so. -/
theorem C131_eye (c : Conf) (evs : List Event) (b : Nat) (he : c.eye b = true) :
    ((run c evs).showsHidden b = true ↔ eyes evs b % 2 = 1) ∧
    ((run c evs).icon b = "fa-eye-slash" ↔ (run c evs).showsHidden b = true) := by
  have key : (run c evs).shows b = decide (eyes evs b % 2 = 1) ∧ (run c evs).hidden b = !(run c evs).shows b := by
    induction evs using snoc_induction with
    | nil => simp [run, Page.init, eyes]
    | snoc evs e ih =>
      rw [run_snoc]
      generalize run c evs = p at ih
      have hstay : ∀ q : Page, q.hidden = p.hidden → q.shows = p.shows → e ≠ .eye b →
          q.shows b = decide (eyes (evs ++ [e]) b % 2 = 1) ∧ q.hidden b = !q.shows b := by
        intro q h1 h2 h3
        rw [h1, h2]
        have : eyes (evs ++ [e]) b = eyes evs b := by simp [eyes, List.filter_append, h3]
        rw [this]
        exact ih
      cases e with
      | button k =>
        simp only [Page.step]
        split
        · exact hstay _ (setOpen_rest _ _ _).1 (setOpen_rest _ _ _).2.1 (by simp)
        · exact hstay _ rfl rfl (by simp)
      | cross k =>
        simp only [Page.step]
        split
        · exact hstay _ (setOpen_rest _ _ _).1 (setOpen_rest _ _ _).2.1 (by simp)
        · exact hstay _ rfl rfl (by simp)
      | submit b' t =>
        simp only [Page.step]
        split
        · exact hstay _ (setOpen_rest _ _ _).1 (setOpen_rest _ _ _).2.1 (by simp)
        · exact hstay _ rfl rfl (by simp)
      | eye b' =>
        by_cases hb : b' = b
        · subst hb
          simp only [Page.step, he, if_true, Page.toggleHidden, set_self]
          have : eyes (evs ++ [.eye b']) b' = eyes evs b' + 1 := by simp [eyes, List.filter_append]
          rw [this, ih.2, ih.1]
          refine ⟨?_, by simp⟩
          by_cases hm : eyes evs b' % 2 = 1
          · have : ¬ (eyes evs b' + 1) % 2 = 1 := by omega
            simp [hm, this]
          · have : (eyes evs b' + 1) % 2 = 1 := by omega
            simp [hm, this]
        · have hne : Event.eye b' ≠ .eye b := fun h => hb (by simpa using h)
          simp only [Page.step]
          split
          · have := hstay p rfl rfl hne
            simp only [Page.toggleHidden, set_ne _ _ (fun h => hb h.symm : b ≠ b')]
            exact this
          · exact hstay _ rfl rfl hne
      | copy b' => exact hstay _ rfl rfl (by simp)
      | edit b' t =>
        simp only [Page.step]
        split <;> exact hstay _ rfl rfl (by simp)
  refine ⟨?_, ?_⟩
  · unfold Page.showsHidden
    rw [key.1]; simp
  · unfold Page.icon Page.showsHidden
    rw [key.2]
    cases (run c evs).shows b <;> simp

theorem lines_run (c : Conf) (evs : List Event) (b : Nat) : (run c evs).lines b = split (lastText c b evs) := by
  induction evs using snoc_induction with
  | nil => simp [run, Page.init, lastText]
  | snoc evs e ih =>
    rw [run_snoc]
    generalize run c evs = p at ih
    have hstay : ∀ q : Page, q.lines = p.lines → (∀ t, e ≠ .edit b t) →
        q.lines b = split (lastText c b (evs ++ [e])) := by
      intro q h1 h2
      rw [h1, ih]
      congr 1
      unfold lastText
      rw [List.reverse_append, List.reverse_singleton, List.singleton_append, List.findSome?_cons]
      cases e with
      | edit b' t =>
        have : b' ≠ b := fun h => h2 t (by rw [h])
        simp [this]
      | _ => rfl
    cases e with
    | button k =>
      simp only [Page.step]
      split
      · exact hstay _ (setOpen_rest _ _ _).2.2.1 (by simp)
      · exact hstay _ rfl (by simp)
    | cross k =>
      simp only [Page.step]
      split
      · exact hstay _ (setOpen_rest _ _ _).2.2.1 (by simp)
      · exact hstay _ rfl (by simp)
    | submit b' t =>
      simp only [Page.step]
      split
      · exact hstay _ (setOpen_rest _ _ _).2.2.1 (by simp)
      · exact hstay _ rfl (by simp)
    | eye b' =>
      simp only [Page.step]
      split <;> exact hstay _ rfl (by simp)
    | copy b' => exact hstay _ rfl (by simp)
    | edit b' t =>
      simp only [Page.step]
      by_cases hb : b' = b
      · subst hb
        split
        · rename_i hed
          simp [set_self, lastText, hed]
        · rename_i hed
          rw [ih]
          simp [lastText, hed]
      · have hne : ∀ t', Event.edit b' t ≠ .edit b t' := fun t' h => hb (by simpa using (Event.edit.inj h).1)
        split
        · have := hstay p rfl hne
          simp only [set_ne _ _ (fun h => hb h.symm : b ≠ b')]
          exact this
        · exact hstay _ rfl hne

/-- The button for copying puts the whole text of the editor into the clipboard, with its hidden lines and with line feeds
at the ends of lines: the text of the book or what the reader last made of it.  The same is sent to the server. -/
theorem C131_copy (c : Conf) (evs : List Event) (b : Nat) :
    (run c (evs ++ [.copy b])).clipboard = some (unix (lastText c b evs)) ∧
    (run c evs).currentCode b = unix (lastText c b evs) := by
  rw [run_snoc]
  simp only [Page.step, Page.currentCode]
  rw [lines_run, join_split]
  exact ⟨rfl, rfl⟩

/-- Each report that is sent contributes one entry: the program of the *book* and what was entered. -/
theorem C131_report_partial (c : Conf) (evs : List Event) (b : Nat) (t : Text) :
    (run c (evs ++ [.submit b t])).reports =
      (run c evs).reports ++
        (open Classical in if c.info b = true ∧ OpenAfter evs (b, .report) then [(c.code b, t)] else []) := by
  rw [run_snoc]
  have hp := C131_popups c evs (b, .report)
  simp only [Page.step]
  split
  · rename_i h
    rw [Bool.and_eq_true] at h
    rw [(setOpen_rest _ _ _).2.2.2.2, if_pos (hp.1 h.2)]
  · rename_i h
    rw [if_neg, List.append_nil]
    intro hc
    exact h (by rw [hp.2 hc, hc.1]; rfl)

/-- Nothing else sends a report. -/
theorem C131_no_other (c : Conf) (evs : List Event) (e : Event) (h : ∀ b t, e ≠ .submit b t) :
    (run c (evs ++ [e])).reports = (run c evs).reports := by
  rw [run_snoc]
  cases e with
  | submit b t => exact absurd rfl (h b t)
  | button k => simp only [Page.step]; split <;> first | exact (setOpen_rest _ _ _).2.2.2.2 | rfl
  | cross k => simp only [Page.step]; split <;> first | exact (setOpen_rest _ _ _).2.2.2.2 | rfl
  | eye b => simp only [Page.step]; split <;> rfl
  | copy b => rfl
  | edit b t => simp only [Page.step]; split <;> rfl

/-- A report has the program of the book even after the reader has changed it. -/
theorem C131_stale (c : Conf) (b : Nat) (t feedback : Text) (hi : c.info b = true) (he : c.editable b = true) :
    (run c [.edit b t, .button (b, .report), .submit b feedback]).reports = [(c.code b, feedback)] ∧
    (run c [.edit b t, .button (b, .report)]).currentCode b = unix t := by
  constructor
  · have := C131_report_partial c [.edit b t, .button (b, .report)] b feedback
    rw [if_pos ⟨hi, by simp [OpenAfter, Closes, Pressed]⟩, ] at this
    refine this.trans ?_
    have h1 := C131_no_other c [.edit b t] (.button (b, .report)) (by simp)
    have h2 := C131_no_other c [] (.edit b t) (by simp)
    simp only [List.nil_append, List.cons_append] at h1 h2
    rw [h1, h2]
    rfl
  · rw [(C131_copy c _ b).2]
    simp [lastText, he]

/-! ## Examples -/

def exConf : Conf := ⟨fun _ => ['a', '\r', '\n', 'b'], fun b => decide (b < 2), fun _ => true, fun _ => true⟩

example : (run exConf [.button (0, .report), .button (1, .help), .cross (0, .report)]).keyReachesBook = false ∧
    (run exConf [.button (0, .report), .button (1, .help), .cross (0, .report), .button (1, .help)]).keyReachesBook = true ∧
    (run exConf [.button (5, .report)]).keyReachesBook = true := by decide

/-- The reader changes the program and reports a bug: the report has the old program. -/
example : (run exConf [.edit 0 ['c'], .button (0, .report), .submit 0 ['!']]).reports = [(['a', '\r', '\n', 'b'], ['!'])] ∧
    (run exConf [.edit 0 ['c'], .button (0, .report), .submit 0 ['!']]).currentCode 0 = ['c'] := by decide

example : (run exConf [.eye 0, .copy 0]).clipboard = some ['a', '\n', 'b'] ∧
    (run exConf [.eye 0, .copy 0]).showsHidden 0 = true ∧ (run exConf [.eye 0, .eye 0]).showsHidden 0 = false := by decide

end Verif.Controls
