import Verif.TestSource.Spec
/-!
# Theorems about annotated test sources (C57)
-/
namespace Verif.TestSource

/-! ## Words -/

theorem tokensFrom_word (ws : Char → Bool) (a cur rest : List Char) (ha : ∀ c ∈ a, ws c = false) :
    tokensFrom ws cur (a ++ rest) = tokensFrom ws (a.reverse ++ cur) rest := by
  induction a generalizing cur with
  | nil => rfl
  | cons c r ih =>
    rw [List.cons_append, tokensFrom, if_neg (by simp [ha c (by simp)]), ih _ (fun x hx => ha x (by simp [hx]))]
    simp

theorem tokensFrom_space (ws : Char → Bool) (s rest : List Char) (hs : ∀ c ∈ s, ws c = true) :
    tokensFrom ws [] (s ++ rest) = tokensFrom ws [] rest := by
  induction s with
  | nil => rfl
  | cons c r ih =>
    rw [List.cons_append, tokensFrom, if_pos (hs c (by simp)), if_pos (show ([] : List Char).isEmpty = true from rfl), ih (fun x hx => hs x (by simp [hx]))]

theorem tokensFrom_end (ws : Char → Bool) {cur : List Char} (hc : cur ≠ []) (rest : List Char)
    (hr : ∀ c, rest.head? = some c → ws c = true) :
    tokensFrom ws cur rest = cur.reverse :: tokensFrom ws [] rest := by
  have he : cur.isEmpty = false := by cases cur with
    | nil => exact absurd rfl hc
    | cons => rfl
  cases rest with
  | nil => simp [tokensFrom, he]
  | cons c r =>
    have := hr c rfl
    simp [tokensFrom, this, he]

theorem head_dropWhile {p : Char → Bool} (l : List Char) (c : Char) (h : (l.dropWhile p).head? = some c) :
    p c = false := by
  induction l with
  | nil => simp at h
  | cons x r ih =>
    rw [List.dropWhile_cons] at h
    split at h
    · exact ih h
    · rename_i hx; simp only [List.head?_cons, Option.some.injEq] at h; subst h; simpa using hx

theorem all_takeWhile {p : Char → Bool} (l : List Char) : ∀ c ∈ l.takeWhile p, p c = true := by
  induction l with
  | nil => simp
  | cons x r ih =>
    intro c hc
    rw [List.takeWhile_cons] at hc
    split at hc
    · rename_i hx
      rcases List.mem_cons.1 hc with rfl | hc
      · exact hx
      · exact ih c hc
    · simp at hc

/-- The first word, and the text after it. -/
theorem tokens_split (ws : Char → Bool) (s : List Char) :
    (∀ c ∈ s, ws c = true) ∧ tokens ws s = [] ∨
    ∃ s0 a rest, s = s0 ++ a ++ rest ∧ (∀ c ∈ s0, ws c = true) ∧ a ≠ [] ∧ (∀ c ∈ a, ws c = false) ∧
      (∀ c, rest.head? = some c → ws c = true) ∧ tokens ws s = a :: tokens ws rest := by
  have h1 : s = s.takeWhile ws ++ s.dropWhile ws := List.takeWhile_append_dropWhile.symm
  generalize hs0 : s.takeWhile ws = s0 at h1
  generalize ht : s.dropWhile ws = t at h1
  have hs0' : ∀ c ∈ s0, ws c = true := hs0 ▸ all_takeWhile s
  have htok : tokens ws s = tokens ws t := by rw [h1]; exact tokensFrom_space ws s0 t hs0'
  by_cases hte : t = []
  · left
    subst hte
    rw [htok]
    exact ⟨by rw [h1]; simpa using hs0', rfl⟩
  · right
    have h2 : t = t.takeWhile (fun c => !ws c) ++ t.dropWhile (fun c => !ws c) := List.takeWhile_append_dropWhile.symm
    generalize ha : t.takeWhile (fun c => !ws c) = a at h2
    generalize hr : t.dropWhile (fun c => !ws c) = rest at h2
    have ha' : ∀ c ∈ a, ws c = false := by
      intro c hc
      have := all_takeWhile t c (ha ▸ hc)
      simpa using this
    have hane : a ≠ [] := by
      intro hc
      cases t with
      | nil => exact hte rfl
      | cons x r =>
        have hx := head_dropWhile s x (by rw [ht]; rfl)
        rw [List.takeWhile_cons, if_pos (by simp [hx])] at ha
        rw [hc] at ha
        exact absurd ha (by simp)
    have hr' : ∀ c, rest.head? = some c → ws c = true := by
      intro c hc
      have := head_dropWhile t c (by rw [hr]; exact hc)
      simpa using this
    refine ⟨s0, a, rest, by rw [h1, h2, List.append_assoc], hs0', hane, ha', hr', ?_⟩
    rw [htok, h2]
    unfold tokens
    rw [tokensFrom_word ws a [] rest ha', tokensFrom_end ws (by simpa using hane) rest hr']
    simp

theorem firstWords_iff (ws : Char → Bool) (s a b : List Char) :
    FirstWords ws s a b ↔ ∃ r, tokens ws s = a :: b :: r := by
  constructor
  · rintro ⟨s0, s1, rest, rfl, ha, hb, h1, hws, hw, hr⟩
    have hs0 : ∀ c ∈ s0, ws c = true := fun c hc => hws c (by simp [hc])
    have hs1 : ∀ c ∈ s1, ws c = true := fun c hc => hws c (by simp [hc])
    have ha' : ∀ c ∈ a, ws c = false := fun c hc => hw c (by simp [hc])
    have hb' : ∀ c ∈ b, ws c = false := fun c hc => hw c (by simp [hc])
    refine ⟨tokens ws rest, ?_⟩
    unfold tokens
    rw [List.append_assoc, List.append_assoc, List.append_assoc, tokensFrom_space ws s0 _ hs0,
      tokensFrom_word ws a [] _ ha', tokensFrom_end ws (by simpa using ha), tokensFrom_space ws s1 _ hs1,
      tokensFrom_word ws b [] _ hb', tokensFrom_end ws (by simpa using hb) _ hr]
    · simp
    · intro c hc
      cases s1 with
      | nil => exact absurd rfl h1
      | cons x t => simp only [List.cons_append, List.head?_cons, Option.some.injEq] at hc; exact hs1 c (by simp [hc])
  · rintro ⟨r, hr⟩
    rcases tokens_split ws s with ⟨_, h⟩ | ⟨s0, a', t, hs, h0, ha, haw, ht, htok⟩
    · rw [h] at hr; exact absurd hr (by simp)
    rw [htok] at hr
    simp only [List.cons.injEq] at hr
    obtain ⟨rfl, hr⟩ := hr
    rcases tokens_split ws t with ⟨_, h⟩ | ⟨s1, b', u, hs', h1, hb, hbw, hu, htok'⟩
    · rw [h] at hr; exact absurd hr (by simp)
    rw [htok'] at hr
    simp only [List.cons.injEq] at hr
    obtain ⟨rfl, hr⟩ := hr
    refine ⟨s0, s1, u, by rw [hs, hs']; simp [List.append_assoc], ha, hb, ?_, ?_, ?_, hu⟩
    · rintro rfl
      cases b' with
      | nil => exact hb rfl
      | cons x y =>
        have h2 := ht x (by rw [hs']; rfl)
        rw [hbw x (by simp)] at h2
        exact absurd h2 (by simp)
    · intro c hc
      rcases List.mem_append.1 hc with hc | hc
      · exact h0 c hc
      · exact h1 c hc
    · intro c hc
      rcases List.mem_append.1 hc with hc | hc
      · exact haw c hc
      · exact hbw c hc

theorem firstWords_unique {ws : Char → Bool} {s a b a' b' : List Char} (h : FirstWords ws s a b)
    (h' : FirstWords ws s a' b') : a = a' ∧ b = b' := by
  obtain ⟨r, hr⟩ := (firstWords_iff ws s a b).1 h
  obtain ⟨r', hr'⟩ := (firstWords_iff ws s a' b').1 h'
  rw [hr] at hr'
  simp only [List.cons.injEq] at hr'
  exact ⟨hr'.1, hr'.2.1⟩

/-! ## The closing delimiter -/

theorem untilClose_some {close s b rest : List Char} (h : untilClose close s = some (b, rest)) :
    s = b ++ rest ∧ close <+: rest ∧ ∀ x y, s = x ++ y → close <+: y → b.length ≤ x.length := by
  induction s generalizing b rest with
  | nil =>
    simp only [untilClose] at h
    split at h
    · rename_i hp
      simp only [Option.some.injEq, Prod.mk.injEq] at h
      obtain ⟨rfl, rfl⟩ := h
      exact ⟨rfl, List.isPrefixOf_iff_prefix.1 hp, fun _ _ _ _ => Nat.zero_le _⟩
    · exact absurd h (by simp)
  | cons c r ih =>
    rw [untilClose] at h
    split at h
    · rename_i hp
      simp only [Option.some.injEq, Prod.mk.injEq] at h
      obtain ⟨rfl, rfl⟩ := h
      exact ⟨rfl, List.isPrefixOf_iff_prefix.1 hp, fun _ _ _ _ => Nat.zero_le _⟩
    · rename_i hp
      split at h
      · exact absurd h (by simp)
      · rename_i b' rest' hu
        simp only [Option.some.injEq, Prod.mk.injEq] at h
        obtain ⟨rfl, rfl⟩ := h
        obtain ⟨h1, h2, h3⟩ := ih hu
        refine ⟨by rw [h1]; rfl, h2, ?_⟩
        intro x y hxy hy
        cases x with
        | nil =>
          simp only [List.nil_append] at hxy
          subst hxy
          exact absurd (List.isPrefixOf_iff_prefix.2 hy) hp
        | cons d x' =>
          simp only [List.cons_append, List.cons.injEq] at hxy
          have := h3 x' y hxy.2 hy
          simpa using this

theorem untilClose_none {close s : List Char} (h : untilClose close s = none) (x y : List Char) (hs : s = x ++ y) :
    ¬ close <+: y := by
  induction s generalizing x with
  | nil =>
    simp only [untilClose] at h
    split at h
    · exact absurd h (by simp)
    · rename_i hp
      have hy : y = [] := (List.append_eq_nil_iff.1 hs.symm).2
      subst hy
      exact fun hc => hp (List.isPrefixOf_iff_prefix.2 hc)
  | cons c r ih =>
    rw [untilClose] at h
    split at h
    · exact absurd h (by simp)
    · rename_i hp
      split at h
      · rename_i hu
        cases x with
        | nil =>
          simp only [List.nil_append] at hs
          subst hs
          exact fun hc => hp (List.isPrefixOf_iff_prefix.2 hc)
        | cons d x' =>
          simp only [List.cons_append, List.cons.injEq] at hs
          exact ih hu x' hs.2
      · exact absurd h (by simp)

theorem untilClose_avoids {close b : List Char} (hb : Avoids close b) (r : List Char) :
    untilClose close (b ++ close ++ r) = some (b, close ++ r) := by
  cases hu : untilClose close (b ++ close ++ r) with
  | none => exact absurd (List.prefix_append _ _) (untilClose_none hu b (close ++ r) (by rw [List.append_assoc]))
  | some p =>
    obtain ⟨b', rest⟩ := p
    obtain ⟨h1, h2, h3⟩ := untilClose_some hu
    have hle := h3 b (close ++ r) (by rw [List.append_assoc]) (List.prefix_append _ _)
    -- `b'` is a prefix of `b`
    obtain ⟨c, hc⟩ : b' <+: b := by
      refine List.prefix_of_prefix_length_le (l₃ := b ++ close ++ r) ?_ ?_ hle
      · exact ⟨rest, h1.symm⟩
      · exact ⟨close ++ r, by rw [List.append_assoc]⟩
    have hrest : rest = c ++ close ++ r := by
      rw [← hc] at h1
      simpa [List.append_assoc] using h1.symm
    have hpre : close <+: c ++ close := by
      refine List.prefix_of_prefix_length_le (l₃ := rest) h2 ?_ (by simp)
      exact ⟨r, hrest.symm⟩
    have := hb b' (c ++ close) (by rw [← hc, List.append_assoc]) hpre
    subst this
    have hc0 : c = [] := by simpa using hc
    subst hc0
    rw [hrest]
    simp

theorem untilClose_of {close s b rest : List Char} (h : untilClose close s = some (b, rest)) :
    Avoids close b ∧ ∃ r, rest = close ++ r ∧ s = b ++ close ++ r := by
  obtain ⟨h1, ⟨r, h2⟩, h3⟩ := untilClose_some h
  refine ⟨?_, r, h2.symm, by rw [h1, ← h2, List.append_assoc]⟩
  intro x y hxy hy
  have hs : s = x ++ (y ++ r) := by rw [h1, ← h2, ← List.append_assoc, hxy, List.append_assoc]
  have hle := h3 x (y ++ r) hs (hy.trans (List.prefix_append _ _))
  have hlen := congrArg List.length hxy
  have hy' := hy.length_le
  simp only [List.length_append] at hlen
  have hx : x.length = b.length := by omega
  exact (List.append_inj hxy.symm hx).1

/-! ## The loop -/

theorem split_fuel (ws : Char → Bool) {opn close : List Char} (ho : opn ≠ []) (n : Nat) :
    ∀ (s : List Char), s.length ≤ n → ∀ fuel out marks, s.length ≤ fuel →
      split ws opn close fuel s out marks = split ws opn close s.length s out marks := by
  induction n with
  | zero =>
    intro s hs fuel out marks _
    have : s = [] := List.length_eq_zero_iff.1 (by omega)
    subst this
    simp [split]
  | succ n ih =>
    intro s hs fuel out marks hf
    cases s with
    | nil => simp [split]
    | cons c r =>
      cases fuel with
      | zero => exact absurd hf (by simp)
      | succ fuel =>
        simp only [List.length_cons] at hs hf ⊢
        rw [split, split]
        split
        · rename_i hp
          split
          · rfl
          · rename_i body rest hu
            obtain ⟨_, r', h1, h2⟩ := untilClose_of hu
            have hlen : ((c :: r).drop opn.length).length < (c :: r).length := by
              have : 0 < opn.length := List.length_pos_iff.2 ho
              simp only [List.length_drop, List.length_cons]
              omega
            have hr : (rest.drop close.length).length ≤ r.length := by
              rw [h2] at hlen
              rw [h1]
              simp only [List.length_append, List.length_cons] at hlen
              simp
              omega
            split
            · rw [ih _ (by omega) fuel _ _ (by omega), ih _ (by omega) r.length _ _ hr]
            · rfl
        · split
          · rfl
          · rw [ih r (by omega) fuel _ _ (by omega)]

/-- The loop with enough fuel. -/
def sp (ws : Char → Bool) (opn close s out : List Char) (marks : List Mark) : Except Err (List Char × List Mark) :=
  split ws opn close s.length s out marks

theorem sp_note (ws : Char → Bool) {opn close : List Char} (ho : opn ≠ []) {b : List Char} (hb : Avoids close b)
    (r out : List Char) (marks : List Mark) :
    sp ws opn close (opn ++ b ++ close ++ r) out marks =
      match tokens ws b with
      | var :: perms :: _ => sp ws opn close r (out ++ var)
          (marks ++ [⟨size out, size (out ++ var), var, Perms.parse perms⟩])
      | _ => .error .panic := by
  obtain ⟨o, os, rfl⟩ := List.exists_cons_of_ne_nil ho
  unfold sp
  have hlen : ((o :: os) ++ b ++ close ++ r).length = (os ++ b ++ close ++ r).length + 1 := by simp
  rw [hlen]
  rw [show (o :: os) ++ b ++ close ++ r = o :: (os ++ b ++ close ++ r) from by simp]
  rw [split, if_pos]
  · have hd : (o :: (os ++ b ++ close ++ r)).drop (o :: os).length = b ++ close ++ r := by
      simp [List.append_assoc]
    rw [hd, untilClose_avoids hb]
    dsimp only
    rw [List.drop_append_of_le_length (Nat.le_refl _), List.drop_length, List.nil_append]
    have hle : r.length ≤ (os ++ b ++ close ++ r).length := by simp only [List.length_append]; omega
    rcases tokens ws b with _ | ⟨v, _ | ⟨p, t⟩⟩
    · rfl
    · rfl
    · exact split_fuel ws ho _ r (Nat.le_refl _) _ _ _ hle
  · rw [List.isPrefixOf_iff_prefix]
    exact ⟨b ++ close ++ r, by simp [List.append_assoc]⟩

theorem sp_plain (ws : Char → Bool) {opn close : List Char} {c : Char} {r : List Char}
    (h1 : ¬ opn <+: c :: r) (h2 : ¬ close <+: c :: r) (out : List Char) (marks : List Mark) :
    sp ws opn close (c :: r) out marks = sp ws opn close r (out ++ [c]) marks := by
  unfold sp
  rw [List.length_cons, split, if_neg (by rwa [List.isPrefixOf_iff_prefix]),
    if_neg (by rwa [List.isPrefixOf_iff_prefix])]

theorem size_append (a b : List Char) : size (a ++ b) = size a + size b := by simp [size]

theorem size_singleton (c : Char) : size [c] = c.utf8Size := by simp [size]

theorem stripped_exists {ws : Char → Bool} {opn close after : List Char} {ps : List Piece}
    (h : WF ws opn close after ps) (n : Nat) : ∃ out ms, Stripped ws n ps out ms := by
  induction ps generalizing n with
  | nil => exact ⟨_, _, .nil n⟩
  | cons p r ih =>
    cases p with
    | plain c => obtain ⟨out, ms, ho⟩ := ih h.2.2 (n + c.utf8Size); exact ⟨_, _, .plain ho⟩
    | note b =>
      obtain ⟨_, ⟨v, w, hv⟩, hr⟩ := h
      obtain ⟨out, ms, ho⟩ := ih hr (n + size v)
      exact ⟨_, _, .note hv ho⟩

/-- Forward: the pieces are consumed. -/
theorem sp_pieces (ws : Char → Bool) {opn close : List Char} (ho : opn ≠ []) {after : List Char} {ps : List Piece}
    (hwf : WF ws opn close after ps) (out : List Char) (marks : List Mark) {txt : List Char} {ms : List Mark}
    (hs : Stripped ws (size out) ps txt ms) :
    sp ws opn close (render opn close ps ++ after) out marks = sp ws opn close after (out ++ txt) (marks ++ ms) := by
  induction ps generalizing out marks txt ms with
  | nil => cases hs; simp [render]
  | cons p r ih =>
    cases p with
    | plain c =>
      cases hs with
      | plain hs =>
        obtain ⟨h1, h2, h3⟩ := hwf
        have h1' : ¬ opn <+: c :: (render opn close r ++ after) := h1
        have h2' : ¬ close <+: c :: (render opn close r ++ after) := h2
        rw [render, List.cons_append, sp_plain ws h1' h2',
          ih h3 (out ++ [c]) marks (by rw [size_append, size_singleton]; exact hs)]
        simp
    | note b =>
      cases hs with
      | note hv hs =>
        obtain ⟨h1, _, h3⟩ := hwf
        obtain ⟨rest, hr⟩ := (firstWords_iff _ _ _ _).1 hv
        rw [render, List.append_assoc (opn ++ b ++ close), sp_note ws ho h1, hr]
        dsimp only
        rw [ih h3 _ _ (by rw [size_append]; exact hs)]
        simp [size_append]

/-- How the loop fails at `after`. -/
def Fails (ws : Char → Bool) (opn close after : List Char) : Err → Prop
  | .unmatchedOpen => opn <+: after ∧ ∀ x y, after = opn ++ x ++ y → ¬ close <+: y
  | .unmatchedClose => ¬ opn <+: after ∧ close <+: after
  | .panic => ∃ b r, after = opn ++ b ++ close ++ r ∧ Avoids close b ∧ ¬ ∃ v p, FirstWords ws b v p

theorem sp_fails {ws : Char → Bool} {opn close after : List Char} (ho : opn ≠ []) (hc : close ≠ []) {e : Err}
    (h : Fails ws opn close after e) (out : List Char) (marks : List Mark) :
    sp ws opn close after out marks = .error e := by
  cases e with
  | unmatchedOpen =>
    obtain ⟨⟨t, ht⟩, h2⟩ := h
    obtain ⟨o, os, rfl⟩ := List.exists_cons_of_ne_nil ho
    subst ht
    unfold sp
    rw [List.cons_append, List.length_cons, split, if_pos (by
      rw [List.isPrefixOf_iff_prefix]; exact ⟨t, rfl⟩)]
    have hd : (o :: (os ++ t)).drop (o :: os).length = t := by simp
    rw [hd]
    cases hu : untilClose close t with
    | none => rfl
    | some p =>
      obtain ⟨b, rest⟩ := p
      obtain ⟨h3, h4, _⟩ := untilClose_some hu
      exact absurd h4 (h2 b rest (by rw [h3, List.append_assoc]))
  | unmatchedClose =>
    obtain ⟨h1, h2⟩ := h
    cases after with
    | nil => exact absurd (List.prefix_nil.1 h2) hc
    | cons c r =>
      unfold sp
      rw [List.length_cons, split, if_neg (by rwa [List.isPrefixOf_iff_prefix]),
        if_pos (by rwa [List.isPrefixOf_iff_prefix])]
  | panic =>
    obtain ⟨b, r, rfl, h2, h3⟩ := h
    rw [sp_note ws ho h2]
    split
    · rename_i v p rest ht
      exact absurd ⟨v, p, (firstWords_iff _ _ _ _).2 ⟨rest, ht⟩⟩ h3
    · rfl

/-- Every text is a sequence of pieces up to its end or to the first failure. -/
theorem decompose (ws : Char → Bool) {opn close : List Char} (ho : opn ≠ []) (n : Nat) :
    ∀ s : List Char, s.length ≤ n → ∃ ps after, WF ws opn close after ps ∧ s = render opn close ps ++ after ∧
      (after = [] ∨ ∃ e, Fails ws opn close after e) := by
  induction n with
  | zero =>
    intro s hs
    exact ⟨[], [], trivial, by rw [List.length_eq_zero_iff.1 (by omega : s.length = 0)]; rfl, .inl rfl⟩
  | succ n ih =>
    intro s hs
    cases s with
    | nil => exact ⟨[], [], trivial, rfl, .inl rfl⟩
    | cons c r =>
      by_cases h1 : opn <+: c :: r
      · obtain ⟨t, ht⟩ := h1
        cases hu : untilClose close t with
        | none =>
          refine ⟨[], c :: r, trivial, rfl, .inr ⟨.unmatchedOpen, ⟨t, ht⟩, ?_⟩⟩
          intro x y hxy
          rw [← ht, List.append_assoc] at hxy
          exact untilClose_none hu x y (List.append_cancel_left hxy)
        | some p =>
          obtain ⟨b, rest⟩ := p
          obtain ⟨h2, r', h3, h4⟩ := untilClose_of hu
          have hsplit : c :: r = opn ++ b ++ close ++ r' := by rw [← ht, h4]; simp [List.append_assoc]
          by_cases hw : ∃ v p, FirstWords ws b v p
          · have hlen : r'.length ≤ n := by
              have := congrArg List.length hsplit
              have hpos : 0 < opn.length := List.length_pos_iff.2 ho
              simp only [List.length_cons, List.length_append] at this hs
              omega
            obtain ⟨ps, after, h5, h6, h7⟩ := ih r' hlen
            refine ⟨.note b :: ps, after, ⟨h2, hw, h5⟩, ?_, h7⟩
            rw [hsplit, h6, render]
            simp [List.append_assoc]
          · exact ⟨[], c :: r, trivial, rfl, .inr ⟨.panic, b, r', hsplit, h2, hw⟩⟩
      · by_cases h2 : close <+: c :: r
        · exact ⟨[], c :: r, trivial, rfl, .inr ⟨.unmatchedClose, h1, h2⟩⟩
        · obtain ⟨ps, after, h5, h6, h7⟩ := ih r (by simpa using hs)
          refine ⟨.plain c :: ps, after, ⟨?_, ?_, h5⟩, ?_, h7⟩
          · rw [List.cons_append, ← h6]; exact h1
          · rw [List.cons_append, ← h6]; exact h2
          · rw [render, List.cons_append, ← h6]

theorem splitTestSource_eq (ws : Char → Bool) (opn close s : List Char) :
    splitTestSource ws opn close s = sp ws opn close s [] [] := rfl

theorem sp_nil (ws : Char → Bool) (opn close out : List Char) (marks : List Mark) :
    sp ws opn close [] out marks = .ok (out, marks) := by simp [sp, split]

/-! ## C57 -/

/-- **C57.** A source is accepted iff it is a sequence of plain characters, none of which begins a delimiter, and
annotations of at least two words; then the program is the source with each annotation replaced by its variable,
and the marks say which bytes of the program each variable occupies. -/
theorem C57_accepted (ws : Char → Bool) {opn close : List Char} (ho : opn ≠ []) (hc : close ≠ []) (src txt : List Char)
    (ms : List Mark) :
    splitTestSource ws opn close src = .ok (txt, ms) ↔
      ∃ ps, WF ws opn close [] ps ∧ render opn close ps = src ∧ Stripped ws 0 ps txt ms := by
  rw [splitTestSource_eq]
  constructor
  · intro h
    obtain ⟨ps, after, h1, h2, h3⟩ := decompose ws ho _ src (Nat.le_refl _)
    obtain ⟨txt', ms', h4⟩ := stripped_exists h1 0
    have h5 := sp_pieces ws ho h1 [] [] h4
    rw [← h2, h] at h5
    rcases h3 with rfl | ⟨e, he⟩
    · rw [sp_nil] at h5
      simp only [List.nil_append, Except.ok.injEq, Prod.mk.injEq] at h5
      obtain ⟨rfl, rfl⟩ := h5
      exact ⟨ps, h1, by rw [h2, List.append_nil], h4⟩
    · rw [sp_fails ho hc he] at h5
      exact absurd h5 (by simp)
  · rintro ⟨ps, h1, rfl, h3⟩
    have h5 := sp_pieces ws ho h1 [] [] h3
    rw [List.append_nil, sp_nil] at h5
    simpa using h5

/-- It is rejected iff after some such pieces there is an opening delimiter that is never closed, a closing one
that was not opened, or (a panic) an annotation of fewer than two words. -/
theorem C57_rejected (ws : Char → Bool) {opn close : List Char} (ho : opn ≠ []) (hc : close ≠ []) (src : List Char)
    (e : Err) :
    splitTestSource ws opn close src = .error e ↔
      ∃ ps after, WF ws opn close after ps ∧ src = render opn close ps ++ after ∧ Fails ws opn close after e := by
  rw [splitTestSource_eq]
  constructor
  · intro h
    obtain ⟨ps, after, h1, h2, h3⟩ := decompose ws ho _ src (Nat.le_refl _)
    obtain ⟨txt', ms', h4⟩ := stripped_exists h1 0
    have h5 := sp_pieces ws ho h1 [] [] h4
    rw [← h2, h] at h5
    rcases h3 with rfl | ⟨e', he⟩
    · rw [sp_nil] at h5
      exact absurd h5 (by simp)
    · rw [sp_fails ho hc he] at h5
      simp only [Except.error.injEq] at h5
      subst h5
      exact ⟨ps, after, h1, h2, he⟩
  · rintro ⟨ps, after, h1, rfl, h3⟩
    obtain ⟨txt', ms', h4⟩ := stripped_exists h1 0
    rw [sp_pieces ws ho h1 [] [] h4]
    exact sp_fails ho hc h3 _ _

/-- Each recorded range holds its variable in the program. -/
theorem C57_slice {ws : Char → Bool} {n : Nat} {ps : List Piece} {txt : List Char} {ms : List Mark}
    (h : Stripped ws n ps txt ms) {m : Mark} (hm : m ∈ ms) :
    ∃ pre post, txt = pre ++ m.var ++ post ∧ m.start = n + size pre ∧ m.stop = m.start + size m.var ∧ m.var ≠ [] := by
  induction h with
  | nil => simp at hm
  | plain _ ih =>
    obtain ⟨pre, post, h1, h2, h3, h4⟩ := ih hm
    rename_i c _ _ _ _
    refine ⟨c :: pre, post, by rw [h1]; rfl, ?_, h3, h4⟩
    rw [h2, show c :: pre = [c] ++ pre from rfl, size_append, size_singleton]
    omega
  | note hv _ ih =>
    rename_i v p _
    rcases List.mem_cons.1 hm with rfl | hm
    · refine ⟨[], _, rfl, by simp [size], rfl, ?_⟩
      obtain ⟨_, _, _, _, ha, _⟩ := hv
      exact ha
    · obtain ⟨pre, post, h1, h2, h3, h4⟩ := ih hm
      refine ⟨v ++ pre, post, by rw [h1]; simp, ?_, h3, h4⟩
      rw [h2, size_append]
      omega

theorem stripped_start {ws : Char → Bool} {n : Nat} {ps : List Piece} {txt : List Char} {ms : List Mark}
    (h : Stripped ws n ps txt ms) : ∀ m ∈ ms, n ≤ m.start := by
  intro m hm
  obtain ⟨pre, _, _, h2, _⟩ := C57_slice h hm
  omega

/-- The ranges are disjoint and in order, so no entry of the map replaces another. -/
theorem C57_distinct {ws : Char → Bool} {n : Nat} {ps : List Piece} {txt : List Char} {ms : List Mark}
    (h : Stripped ws n ps txt ms) : ms.Pairwise (fun a b => a.start < a.stop ∧ a.stop ≤ b.start) := by
  induction h with
  | nil => exact .nil
  | plain _ ih => exact ih
  | note hv hs ih =>
    refine List.Pairwise.cons ?_ ih
    intro m hm
    have := stripped_start hs m hm
    refine ⟨?_, this⟩
    obtain ⟨_, _, _, _, ha, _⟩ := hv
    rename_i v _ _ _ _ _ _
    cases v with
    | nil => exact absurd rfl ha
    | cons c r =>
      have := Char.utf8Size_pos c
      simp only [size, List.map_cons, List.sum_cons]
      omega

theorem toLower_eq {l u : Char} (h1 : u.val + 32 = l.val) (h2 : 65 ≤ u.val.toNat) (h3 : u.val.toNat ≤ 90) (c : Char) :
    c.toLower = l ↔ c = l ∨ c = u := by
  have hl : l.val.toNat = u.val.toNat + 32 := by
    rw [← h1, UInt32.toNat_add]
    have : (32 : UInt32).toNat = 32 := rfl
    rw [this]
    omega
  have hA : 'A'.val.toNat = 65 := rfl
  have hZ : 'Z'.val.toNat = 90 := rfl
  unfold Char.toLower
  split
  · rename_i h
    rw [ge_iff_le, UInt32.le_iff_toNat_le, UInt32.le_iff_toNat_le, hA, hZ] at h
    rw [Char.ext_iff, Char.ext_iff, Char.ext_iff, ← UInt32.toNat_inj, ← UInt32.toNat_inj, ← UInt32.toNat_inj]
    dsimp only
    rw [UInt32.toNat_add]
    have : ('a'.val - 'A'.val).toNat = 32 := rfl
    rw [this]
    omega
  · rename_i h
    rw [ge_iff_le, UInt32.le_iff_toNat_le, UInt32.le_iff_toNat_le, hA, hZ] at h
    constructor
    · exact .inl
    · rintro (h | rfl)
      · exact h
      · omega

/-- Reading the letters: R, W, and D or O, in either case. -/
theorem C57_letters (s : List Char) :
    ((Perms.parse s).read = true ↔ 'r' ∈ s ∨ 'R' ∈ s) ∧ ((Perms.parse s).write = true ↔ 'w' ∈ s ∨ 'W' ∈ s) ∧
    ((Perms.parse s).drop = true ↔ ('d' ∈ s ∨ 'D' ∈ s) ∨ ('o' ∈ s ∨ 'O' ∈ s)) := by
  have key : ∀ l u : Char, u.val + 32 = l.val → 65 ≤ u.val.toNat → u.val.toNat ≤ 90 →
      ((s.map Char.toLower).contains l = true ↔ l ∈ s ∨ u ∈ s) := by
    intro l u h1 h2 h3
    rw [List.contains_iff_mem, List.mem_map]
    constructor
    · rintro ⟨c, hc, hl⟩
      rcases (toLower_eq h1 h2 h3 c).1 hl with rfl | rfl
      · exact .inl hc
      · exact .inr hc
    · rintro (h | h)
      · exact ⟨l, h, (toLower_eq h1 h2 h3 l).2 (.inl rfl)⟩
      · exact ⟨u, h, (toLower_eq h1 h2 h3 u).2 (.inr rfl)⟩
  unfold Perms.parse
  dsimp only
  rw [Bool.or_eq_true, key 'r' 'R' (by decide) (by decide) (by decide), key 'w' 'W' (by decide) (by decide) (by decide),
    key 'd' 'D' (by decide) (by decide) (by decide), key 'o' 'O' (by decide) (by decide) (by decide)]
  exact ⟨Iff.rfl, Iff.rfl, Iff.rfl⟩

/-! ## The check over all bodies -/

/-- The check passes iff for every mark some body has a place there and the first such body has exactly the
recorded permissions: no annotation is ignored. -/
theorem C57_checked (bodies : List BodyView) (expected : List Mark) :
    checkAll bodies expected = true ↔
      ∀ m ∈ expected, ∃ i : Nat, ∃ b : BodyView, bodies[i]? = some b ∧ b m = some m.perms ∧
        ∀ j < i, ∀ b' : BodyView, bodies[j]? = some b' → b' m = none := by
  induction bodies generalizing expected with
  | nil =>
    simp only [checkAll, List.isEmpty_iff, List.getElem?_nil]
    constructor
    · rintro rfl m hm; simp at hm
    · intro h
      cases expected with
      | nil => rfl
      | cons m r => obtain ⟨_, _, h1, _⟩ := h m (by simp); simp at h1
  | cons v r ih =>
    rw [checkAll]
    split
    · rename_i hall
      rw [List.all_eq_true] at hall
      rw [ih]
      constructor
      · intro h m hm
        cases hv : v m with
        | some p =>
          have := hall m hm
          rw [hv] at this
          simp only [beq_iff_eq] at this
          exact ⟨0, v, rfl, by rw [hv, this], fun j hj => by omega⟩
        | none =>
          obtain ⟨i, b, h1, h2, h3⟩ := h m (by rw [List.mem_filter]; exact ⟨hm, by simp [hv]⟩)
          refine ⟨i + 1, b, by simpa using h1, h2, ?_⟩
          intro j hj b' hb'
          cases j with
          | zero => simp only [List.getElem?_cons_zero, Option.some.injEq] at hb'; rw [← hb']; exact hv
          | succ j => exact h3 j (by omega) b' (by simpa using hb')
      · intro h m hm
        rw [List.mem_filter] at hm
        obtain ⟨i, b, h1, h2, h3⟩ := h m hm.1
        have hvn : v m = none := by simpa using hm.2
        cases i with
        | zero =>
          simp only [List.getElem?_cons_zero, Option.some.injEq] at h1
          rw [← h1, hvn] at h2
          exact absurd h2 (by simp)
        | succ i =>
          refine ⟨i, b, by simpa using h1, h2, ?_⟩
          intro j hj b' hb'
          exact h3 (j + 1) (by omega) b' (by simpa using hb')
    · rename_i hall
      constructor
      · intro h; exact absurd h (by simp)
      · intro h
        exfalso
        apply hall
        rw [List.all_eq_true]
        intro m hm
        obtain ⟨i, b, h1, h2, h3⟩ := h m hm
        cases i with
        | zero =>
          simp only [List.getElem?_cons_zero, Option.some.injEq] at h1
          rw [← h1] at h2
          rw [h2]
          simp
        | succ i =>
          rw [h3 0 (by omega) v rfl]

/-! ## Witnesses -/

deriving instance DecidableEq for Except

def space (c : Char) : Bool := c == ' '
def o2 : List Char := ['`', '[']
def c2 : List Char := [']', '`']

/-- `é` is two bytes long. -/
example : splitTestSource space o2 c2 ['é', '=', '`', '[', 'x', ' ', 'R', '-', ']', '`', ';'] =
    .ok (['é', '=', 'x', ';'], [⟨3, 4, ['x'], ⟨true, false, false⟩⟩]) := by decide +kernel

example : splitTestSource space o2 c2 ['`', '[', 'x', ']', '`'] = .error .panic := by decide +kernel
example : splitTestSource space o2 c2 ['`', '[', 'x', ' ', 'R'] = .error .unmatchedOpen := by decide +kernel

/-- An annotation directly after a `]` of the program is taken for an unopened closing delimiter. -/
theorem C57_bracket_before : splitTestSource space o2 c2
    (['a', '[', '0', ']'] ++ (o2 ++ ['x', ' ', 'R'] ++ c2)) = .error .unmatchedClose := by decide +kernel

end Verif.TestSource
