import Verif.Frontend.Text
/-!
# C74: positions of the analysis in the editor
-/
namespace Verif.Frontend

/-- The character before which the position lies: `pre` is the text before the position, and it has `p.line`
line ends, the last of them `p.column` characters from its end. -/
structure PosAt (doc : List Char) (p : Pos) (pre : List Char) : Prop where
  before : ∃ post, doc = pre ++ post
  line : pre.count '\n' = p.line
  column : (pre.reverse.takeWhile (· != '\n')).length = p.column

theorem linesOf_ne (s : List Char) : linesOf s ≠ [] := by
  cases s with
  | nil => simp [linesOf]
  | cons c r =>
    simp only [linesOf]
    split
    · simp
    · split <;> simp

theorem linesOf_line (l rest : List Char) (h : '\n' ∉ l) : linesOf (l ++ '\n' :: rest) = l :: linesOf rest := by
  induction l with
  | nil => simp [linesOf]
  | cons c r ih =>
    simp only [List.mem_cons, not_or] at h
    simp only [List.cons_append, linesOf]
    rw [if_neg (fun hc => h.1 hc.symm), ih h.2]

theorem linesOf_last (l : List Char) (h : '\n' ∉ l) : linesOf l = [l] := by
  induction l with
  | nil => rfl
  | cons c r ih =>
    simp only [List.mem_cons, not_or] at h
    simp only [linesOf]
    rw [if_neg (fun hc => h.1 hc.symm), ih h.2]

/-- Splitting a text at its last line end. -/
theorem split_last (pre : List Char) :
    ∃ ls cur : List Char, pre = ls ++ cur ∧ '\n' ∉ cur ∧ (ls = [] ∨ ∃ r, ls = r ++ ['\n']) ∧
      cur = (pre.reverse.takeWhile (· != '\n')).reverse := by
  refine ⟨(pre.reverse.dropWhile (· != '\n')).reverse, (pre.reverse.takeWhile (· != '\n')).reverse, ?_, ?_, ?_, rfl⟩
  · rw [← List.reverse_append, List.takeWhile_append_dropWhile, List.reverse_reverse]
  · intro h
    rw [List.mem_reverse] at h
    have : ∀ (l : List Char), '\n' ∉ l.takeWhile (· != '\n') := by
      intro l
      induction l with
      | nil => simp
      | cons c r ih =>
        rw [List.takeWhile_cons]
        split
        · rename_i hc
          rw [List.mem_cons, not_or]
          exact ⟨fun e => by simp [← e] at hc, ih⟩
        · simp
    exact this _ h
  · rcases hd : pre.reverse.dropWhile (· != '\n') with _ | ⟨c, r⟩
    · simp
    · right
      have := List.head?_dropWhile_not (· != '\n') pre.reverse
      rw [hd] at this
      have hc : c = '\n' := by simpa using this
      subst hc
      exact ⟨r.reverse, by simp⟩

theorem split_first (ls : List Char) (hmem : '\n' ∈ ls) : ∃ l rest, ls = l ++ '\n' :: rest ∧ '\n' ∉ l := by
  induction ls with
  | nil => simp at hmem
  | cons c r ih =>
    by_cases hc : c = '\n'
    · subst hc; exact ⟨[], r, rfl, by simp⟩
    · obtain ⟨l, rest, h1, h2⟩ := ih ((List.mem_cons.1 hmem).resolve_left (Ne.symm hc))
      exact ⟨c :: l, rest, by simp [h1], by simp [h2, Ne.symm hc]⟩

theorem unitsOf_append (a b : List Char) : unitsOf (a ++ b) = unitsOf a + unitsOf b := by simp [unitsOf]

theorem units_newline : units '\n' = 1 := by decide

/-- The lines before a text that ends in a line end. -/
theorem lineFrom_spec : ∀ (n : Nat) (ls post : List Char), ls.length ≤ n → (ls = [] ∨ ∃ r, ls = r ++ ['\n']) →
    lineFrom (linesOf (ls ++ post)) (ls.count '\n') = some (unitsOf ls) := by
  intro n
  induction n with
  | zero =>
    intro ls post hn _
    have : ls = [] := List.length_eq_zero_iff.1 (by omega)
    subst this
    have := linesOf_ne post
    simp [lineFrom, unitsOf, List.length_pos_iff.2 this]
  | succ n ih =>
    intro ls post hn he
    by_cases hnil : ls = []
    · subst hnil
      have := linesOf_ne post
      simp [lineFrom, unitsOf, List.length_pos_iff.2 this]
    · have hmem : '\n' ∈ ls := by
        rcases he with h | ⟨r, h⟩
        · exact absurd h hnil
        · rw [h]; simp
      obtain ⟨l, rest, hl, hnl⟩ := split_first ls hmem
      subst hl
      have hlen : rest.length ≤ n := by simp at hn; omega
      have he' : rest = [] ∨ ∃ r, rest = r ++ ['\n'] := by
        rcases List.eq_nil_or_concat rest with h | ⟨r, x, h⟩
        · exact .inl h
        · right
          rcases he with h' | ⟨q, h'⟩
          · exact absurd h' (by simp)
          · refine ⟨r, ?_⟩
            rw [h, List.concat_eq_append]
            rw [h, List.concat_eq_append] at h'
            have e : l ++ '\n' :: (r ++ [x]) = (l ++ '\n' :: r) ++ [x] := by simp
            rw [e] at h'
            have := (List.append_inj' h' rfl).2
            simp at this
            simp [this]
      have hih := ih rest post hlen he'
      rw [List.append_assoc, List.cons_append, linesOf_line _ _ hnl]
      have hc : (l ++ '\n' :: rest).count '\n' = rest.count '\n' + 1 := by
        rw [List.count_append, List.count_cons_self, List.count_eq_zero.2 hnl]
        omega
      rw [hc]
      unfold lineFrom at hih ⊢
      split at hih
      · rename_i hlt
        rw [if_pos (by simp; omega)]
        rw [Option.some.injEq] at hih ⊢
        rw [List.take_succ_cons, List.map_cons, List.sum_cons, hih, unitsOf_append]
        have : unitsOf ('\n' :: rest) = 1 + unitsOf rest := by
          simp [unitsOf, units_newline]
        omega
      · exact absurd hih (by simp)

/-- The position computed, for a position of the text. -/
theorem linecol_spec {doc : List Char} {p : Pos} {pre : List Char} (h : PosAt doc p pre) :
    ∃ ls cur, pre = ls ++ cur ∧ cur = (pre.reverse.takeWhile (· != '\n')).reverse ∧
      linecol doc p = some (unitsOf ls + cur.length) := by
  obtain ⟨ls, cur, h1, h2, h3, h4⟩ := split_last pre
  obtain ⟨post, hp⟩ := h.before
  refine ⟨ls, cur, h1, h4, ?_⟩
  have hl : ls.count '\n' = p.line := by
    rw [← h.line, h1, List.count_append, List.count_eq_zero.2 h2]
    omega
  have hc : cur.length = p.column := by rw [h4, List.length_reverse, h.column]
  unfold linecol
  rw [hp, h1, List.append_assoc, ← hl, lineFrom_spec _ ls (cur ++ post) (Nat.le_refl _) h3, hc]

theorem units_pos (c : Char) : 1 ≤ units c ∧ units c ≤ 2 := by
  unfold units
  split <;> omega

theorem length_le_units (s : List Char) : s.length ≤ unitsOf s := by
  induction s with
  | nil => simp
  | cons c r ih =>
    have := (units_pos c).1
    simp only [unitsOf, List.map_cons, List.sum_cons, List.length_cons] at ih ⊢
    omega

theorem units_eq_length (s : List Char) : unitsOf s = s.length ↔ ∀ c ∈ s, c.val < 0x10000 := by
  induction s with
  | nil => simp [unitsOf]
  | cons c r ih =>
    have h1 := length_le_units r
    have h3 := units_pos c
    have hu : units c = 1 ↔ c.val < 0x10000 := by
      unfold units
      split <;> simp_all
    have he : unitsOf (c :: r) = units c + unitsOf r := by simp [unitsOf]
    rw [List.forall_mem_cons, ← ih, ← hu, he, List.length_cons]
    omega

/-- A position of the analysis is put at the right place of the editor exactly if the characters before it on
its line are in the basic plane. -/
theorem C74_exact {doc : List Char} {p : Pos} {pre : List Char} (h : PosAt doc p pre) :
    linecol doc p = some (unitsOf pre) ↔
      ∀ c ∈ pre.reverse.takeWhile (· != '\n'), c.val < 0x10000 := by
  obtain ⟨ls, cur, h1, h2, h3⟩ := linecol_spec h
  rw [h3, Option.some.injEq]
  conv => lhs; rhs; rw [h1]
  rw [unitsOf_append]
  have : (∀ c ∈ pre.reverse.takeWhile (· != '\n'), c.val < 0x10000) ↔ ∀ c ∈ cur, c.val < 0x10000 := by
    rw [h2]; simp
  rw [this, ← units_eq_length]
  omega

/-- It is never outside the document: the editor never rejects a position of the analysis. -/
theorem C74_in_range {doc : List Char} {p : Pos} {pre : List Char} (h : PosAt doc p pre) :
    ∃ n, linecol doc p = some n ∧ n ≤ unitsOf pre ∧ n ≤ unitsOf doc := by
  obtain ⟨ls, cur, h1, _, h3⟩ := linecol_spec h
  obtain ⟨post, hp⟩ := h.before
  refine ⟨_, h3, ?_, ?_⟩
  · rw [h1, unitsOf_append]
    have := length_le_units cur
    omega
  · rw [hp, h1, unitsOf_append, unitsOf_append]
    have := length_le_units cur
    omega

/-- The order of positions is kept. -/
theorem C74_order {doc : List Char} {p q : Pos} {pre pre' : List Char} (hp : PosAt doc p pre)
    (hq : PosAt doc q pre') (hlt : pre.length < pre'.length) :
    ∃ m n, linecol doc p = some m ∧ linecol doc q = some n ∧ m < n := by
  obtain ⟨ls, cur, h1, h2, h3⟩ := linecol_spec hp
  obtain ⟨ls', cur', h1', h2', h3'⟩ := linecol_spec hq
  refine ⟨_, _, h3, h3', ?_⟩
  obtain ⟨post, hd⟩ := hp.before
  obtain ⟨post', hd'⟩ := hq.before
  have hpre : ∃ m, pre' = pre ++ m ∧ m ≠ [] := by
    have : pre <+: pre' := by
      apply List.prefix_of_prefix_length_le (l₃ := doc)
      · exact ⟨post, hd.symm⟩
      · exact ⟨post', hd'.symm⟩
      · omega
    obtain ⟨m, hm⟩ := this
    refine ⟨m, hm.symm, ?_⟩
    rintro rfl
    simp at hm
    rw [hm] at hlt
    omega
  obtain ⟨m, hm, hne⟩ := hpre
  by_cases hnl : '\n' ∈ m
  · -- a later line
    have hnl' : ∃ a b, m = a ++ '\n' :: b ∧ '\n' ∉ b := by
      have : ∀ (m : List Char), '\n' ∈ m → ∃ a b, m = a ++ '\n' :: b ∧ '\n' ∉ b := by
        intro m
        induction m with
        | nil => simp
        | cons c r ih =>
          intro h
          by_cases hr : '\n' ∈ r
          · obtain ⟨a, b, h1, h2⟩ := ih hr
            exact ⟨c :: a, b, by simp [h1], h2⟩
          · have : '\n' = c := (List.mem_cons.1 h).resolve_right hr
            exact ⟨[], r, by simp [← this], hr⟩
      exact this m hnl
    obtain ⟨a, b, hab, hb⟩ := hnl'
    have hcur' : cur' = b := by
      rw [h2', hm, hab, ← List.append_assoc, List.reverse_append, List.reverse_cons, List.append_assoc]
      have : ∀ (b x : List Char), '\n' ∉ b → (b ++ ['\n'] ++ x).takeWhile (· != '\n') = b := by
        intro b x hb
        induction b with
        | nil => simp
        | cons c r ih =>
          simp only [List.mem_cons, not_or] at hb
          have hc : (c != '\n') = true := by simp [Ne.symm hb.1]
          simp only [List.cons_append]
          rw [List.takeWhile_cons_of_pos (p := (· != '\n')) hc, ih hb.2]
      have := this b.reverse (pre ++ a).reverse (by simpa using hb)
      rw [List.append_assoc] at this
      rw [this, List.reverse_reverse]
    have hls' : ls' = pre ++ a ++ ['\n'] := by
      have e : ls' ++ b = (pre ++ a ++ ['\n']) ++ b := by
        rw [← hcur', ← h1', hm, hab, hcur']
        simp
      exact List.append_cancel_right e
    rw [hls', unitsOf_append, unitsOf_append, h1, unitsOf_append]
    have := length_le_units cur
    have : unitsOf ['\n'] = 1 := by decide
    omega
  · -- the same line
    have hcur' : cur' = cur ++ m := by
      rw [h2', hm, h2, List.reverse_append]
      have : ∀ (x y : List Char), '\n' ∉ x →
          (x ++ y).takeWhile (· != '\n') = x ++ y.takeWhile (· != '\n') := by
        intro x y hx
        induction x with
        | nil => simp
        | cons c r ih =>
          simp only [List.mem_cons, not_or] at hx
          have hc : (c != '\n') = true := by simp [Ne.symm hx.1]
          simp only [List.cons_append]
          rw [List.takeWhile_cons_of_pos (p := (· != '\n')) hc, ih hx.2]
      rw [this _ _ (by simpa using hnl)]
      simp
    have hls' : ls' = ls := by
      have e : ls' ++ (cur ++ m) = ls ++ (cur ++ m) := by
        rw [← hcur', ← h1', hm, h1, hcur']
        simp
      exact List.append_cancel_right e
    rw [hls', hcur', List.length_append]
    have := List.length_pos_iff.2 hne
    omega

theorem linesOf_length (s : List Char) : (linesOf s).length = s.count '\n' + 1 := by
  induction s with
  | nil => rfl
  | cons c r ih =>
    simp only [linesOf]
    split
    · rename_i hc
      subst hc
      rw [List.length_cons, ih, List.count_cons_self]
    · rename_i hc
      rw [List.count_cons_of_ne (fun e => hc e)]
      split
      · rename_i he
        exact absurd he (linesOf_ne r)
      · rename_i l ls he
        rw [he] at ih
        simpa using ih

/-- C74: a position beyond the last line has no place in the document, and every other position has one. -/
theorem C74_beyond (doc : List Char) (p : Pos) : linecol doc p = none ↔ doc.count '\n' < p.line := by
  unfold linecol lineFrom
  rw [linesOf_length]
  by_cases h : p.line < doc.count '\n' + 1
  · simp only [if_pos h]
    constructor
    · intro he
      cases he
    · intro hl
      omega
  · simp only [if_neg h, true_iff]
    omega

/-- After an emoji on the same line every marker is one place too far left. -/
theorem C74_emoji : ∃ doc p pre, PosAt doc p pre ∧ linecol doc p = some 1 ∧ unitsOf pre = 2 :=
  ⟨['😀', 'x'], ⟨0, 1⟩, ['😀'], ⟨⟨['x'], rfl⟩, by decide, by decide⟩, by decide, by decide⟩

example : PosAt ['a', '\n', 'b', 'é', 'c'] ⟨1, 2⟩ ['a', '\n', 'b', 'é'] ∧
    linecol ['a', '\n', 'b', 'é', 'c'] ⟨1, 2⟩ = some 4 ∧ unitsOf ['a', '\n', 'b', 'é'] = 4 :=
  ⟨⟨⟨['c'], rfl⟩, by decide, by decide⟩, by decide, by decide⟩

end Verif.Frontend
