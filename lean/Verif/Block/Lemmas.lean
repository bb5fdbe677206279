import Verif.Block.Spec
import Verif.Annotations.Lemmas
/-! Helper lemmas for the block parser. -/
namespace Verif.Block
open Spec Verif.Annotations
open Verif.Annotations.Spec (joinWith)

theorem tag_some {t s r : List Char} : tag t s = some r ↔ s = t ++ r := by
  induction t generalizing s with
  | nil => simp [tag]
  | cons c t ih =>
    cases s with
    | nil => simp [tag]
    | cons d s =>
      unfold tag
      split
      · rename_i h; subst h; rw [ih]; simp
      · rename_i h; simp; intro h'; exact absurd h'.symm h

theorem isSym_iff {c : Char} : isSym c = true ↔ c ≠ ',' ∧ c ≠ '=' ∧ c ≠ '\n' ∧ c ≠ '+' := by
  simp [isSym, and_assoc]

theorem sym_iff {s : List Char} : Sym s ↔ ∀ c ∈ s, isSym c = true := by
  constructor
  · rintro ⟨h1, h2, h3, h4⟩ c hc
    rw [isSym_iff]
    refine ⟨?_, ?_, ?_, ?_⟩ <;> rintro rfl <;> contradiction
  · intro h
    refine ⟨?_, ?_, ?_, ?_⟩ <;> intro hc <;> simpa [isSym] using h _ hc

theorem sym_takeWhile (s : List Char) : Sym (s.takeWhile isSym) := by
  rw [sym_iff]
  exact List.all_eq_true.1 List.all_takeWhile

/-- The text does not begin with a symbol character. -/
def NoSym (u : List Char) : Prop := ∀ c t, u = c :: t → isSym c = false

theorem noSym_dropWhile (s : List Char) : NoSym (s.dropWhile isSym) :=
  fun _ _ h => dropWhile_cons_eq h

theorem parseSym_append {v u : List Char} (hv : Sym v) (hu : NoSym u) :
    parseSym (v ++ u) = (v, u) := by
  rw [sym_iff] at hv
  unfold parseSym
  rw [List.takeWhile_append_of_pos hv, List.dropWhile_append_of_pos hv]
  cases u with
  | nil => simp
  | cons c t =>
    have := hu c t rfl
    simp [this]

theorem parseSym_spec (s : List Char) : s = (parseSym s).1 ++ (parseSym s).2 ∧
    Sym (parseSym s).1 ∧ NoSym (parseSym s).2 :=
  ⟨List.takeWhile_append_dropWhile.symm, sym_takeWhile s, noSym_dropWhile s⟩

/-! ### Operations -/

theorem parseMoreOps_spec (s : List Char) (hs : NoSym s) :
    s = ((parseMoreOps s).1.map ('+' :: ·)).flatten ++ (parseMoreOps s).2 ∧
    (∀ o ∈ (parseMoreOps s).1, Sym o) ∧ NoSym (parseMoreOps s).2 ∧
    (∀ t, (parseMoreOps s).2 ≠ '+' :: t) := by
  fun_induction parseMoreOps s with
  | case1 t r ih =>
    obtain ⟨h1, h2, h3, h4⟩ := ih (noSym_dropWhile t)
    refine ⟨?_, ?_, h3, h4⟩
    · simp only [List.map_cons, List.flatten_cons, List.cons_append, List.append_assoc, r, ← h1]
      rw [List.takeWhile_append_dropWhile]
    · simp only [List.mem_cons, forall_eq_or_imp]
      exact ⟨sym_takeWhile t, h2⟩
  | case2 s h =>
    exact ⟨by simp, by simp, hs, fun t he => h t he⟩

theorem parseMoreOps_append (ops : List (List Char)) (u : List Char) (ho : ∀ o ∈ ops, Sym o)
    (hu : NoSym u) (hp : ∀ t, u ≠ '+' :: t) :
    parseMoreOps ((ops.map ('+' :: ·)).flatten ++ u) = (ops, u) := by
  induction ops with
  | nil =>
    unfold parseMoreOps
    split
    · rename_i t h
      exact absurd (by simpa using h) (hp t)
    · simp
  | cons o ops ih =>
    have ih := ih (fun x hx => ho x (by simp [hx]))
    have hn : NoSym ((ops.map ('+' :: ·)).flatten ++ u) := by
      cases ops with
      | nil => simpa using hu
      | cons o' ops =>
        intro c t h
        simp at h
        rw [← h.1]; decide
    have := parseSym_append (ho o (by simp)) hn
    simp only [parseSym, Prod.mk.injEq] at this
    simp only [List.map_cons, List.flatten_cons, List.cons_append, List.append_assoc]
    rw [parseMoreOps]
    simp only [this, ih]

theorem joinWith_cons_eq (c : Char) (o : List Char) (ops : List (List Char)) :
    joinWith c (o :: ops) = o ++ (ops.map (c :: ·)).flatten := by
  induction ops generalizing o with
  | nil => simp [joinWith]
  | cons o' ops ih => simp [joinWith, ih]

theorem parseOps_spec (s : List Char) :
    s = joinWith '+' (parseOps s).1 ++ (parseOps s).2 ∧ (parseOps s).1 ≠ [] ∧
    (∀ o ∈ (parseOps s).1, Sym o) ∧ NoSym (parseOps s).2 ∧ (∀ t, (parseOps s).2 ≠ '+' :: t) := by
  unfold parseOps
  obtain ⟨h1, h2, h3⟩ := parseSym_spec s
  obtain ⟨g1, g2, g3, g4⟩ := parseMoreOps_spec _ h3
  refine ⟨?_, by simp, ?_, g3, g4⟩
  · simp only [joinWith_cons_eq, List.append_assoc, ← g1]
    exact h1
  · simp only [List.mem_cons, forall_eq_or_imp]
    exact ⟨h2, g2⟩

theorem parseOps_append (ops : List (List Char)) (u : List Char) (hne : ops ≠ [])
    (ho : ∀ o ∈ ops, Sym o) (hu : NoSym u) (hp : ∀ t, u ≠ '+' :: t) :
    parseOps (joinWith '+' ops ++ u) = (ops, u) := by
  cases ops with
  | nil => exact absurd rfl hne
  | cons o ops =>
    have hn : NoSym ((ops.map ('+' :: ·)).flatten ++ u) := by
      cases ops with
      | nil => simpa using hu
      | cons o' ops =>
        intro c t h
        simp at h
        rw [← h.1]; decide
    unfold parseOps
    rw [joinWith_cons_eq, List.append_assoc, parseSym_append (ho o (by simp)) hn]
    simp only [parseMoreOps_append ops u (fun x hx => ho x (by simp [hx])) hu hp]

/-! ### Options -/

theorem parseEntry_spec (s : List Char) : ∃ o : Opt, o.Wf ∧ (parseEntry s).1 = o.meaning ∧
    s = o.text ++ (parseEntry s).2 ∧ NoSym (parseEntry s).2 ∧
    (∀ k, o = .flag k → ∀ t, (parseEntry s).2 ≠ '=' :: t) := by
  unfold parseEntry
  dsimp only
  obtain ⟨h1, h2, h3⟩ := parseSym_spec s
  split
  · rename_i t ht
    obtain ⟨g1, g2, g3⟩ := parseSym_spec t
    refine ⟨.pair (parseSym s).1 (parseSym t).1, ⟨h2, g2⟩, rfl, ?_, g3, by simp⟩
    simp only [Opt.text, List.append_assoc, List.cons_append, ← g1, ← ht]
    exact h1
  · rename_i ht
    exact ⟨.flag (parseSym s).1, h2, rfl, h1, h3, fun _ _ t he => ht t he⟩

theorem parseEntry_append (o : Opt) (u : List Char) (ho : o.Wf) (hu : NoSym u)
    (he : ∀ k, o = .flag k → ∀ t, u ≠ '=' :: t) :
    parseEntry (o.text ++ u) = (o.meaning, u) := by
  cases o with
  | pair k v =>
    have h1 : NoSym ('=' :: (v ++ u)) := by
      intro c t h; simp at h; rw [← h.1]; decide
    unfold parseEntry
    simp only [Opt.text, List.append_assoc, List.cons_append, parseSym_append ho.1 h1,
      parseSym_append ho.2 hu, Opt.meaning]
  | flag k =>
    unfold parseEntry
    simp only [Opt.text, parseSym_append ho hu, Opt.meaning]
    split
    · rename_i t
      exact absurd rfl (he k rfl t)
    · rfl

/-- The text of an option list. -/
def optsText (opts : List Opt) : List Char := (opts.map fun o => ',' :: o.text).flatten

theorem parseConfig_spec (s : List Char) (hs : NoSym s) : ∃ opts : List Opt,
    (∀ o ∈ opts, o.Wf) ∧ (parseConfig s).1 = opts.map Opt.meaning ∧
    s = optsText opts ++ (parseConfig s).2 ∧ NoSym (parseConfig s).2 ∧
    (∀ t, (parseConfig s).2 ≠ ',' :: t) ∧
    (∀ k, opts.getLast? = some (.flag k) → ∀ t, (parseConfig s).2 ≠ '=' :: t) ∧
    (opts = [] → (parseConfig s).2 = s) := by
  fun_induction parseConfig s with
  | case1 t e r ih =>
    obtain ⟨o, h1, h2, h3, h4, h5⟩ := parseEntry_spec t
    obtain ⟨opts, g1, g2, g3, g4, g5, g6, g7⟩ := ih h4
    refine ⟨o :: opts, ?_, ?_, ?_, g4, g5, ?_, by simp⟩
    · simp only [List.mem_cons, forall_eq_or_imp]; exact ⟨h1, g1⟩
    · simp only [List.map_cons, e, h2, r]; rw [g2]
    · simp only [optsText, List.map_cons, List.flatten_cons, List.cons_append, List.append_assoc]
      have g3' : e.2 = (opts.map fun o => ',' :: o.text).flatten ++ r.2 := g3
      rw [← g3']
      exact congrArg _ h3
    · intro k hk t
      cases opts with
      | nil =>
        simp at hk
        simp only [r]
        rw [g7 rfl]
        exact h5 k hk t
      | cons o' opts => exact g6 k (by simpa using hk) t
  | case2 s h =>
    exact ⟨[], by simp, rfl, by simp [optsText], hs, fun t he => h t he, by simp, by simp⟩

theorem parseConfig_append (opts : List Opt) (u : List Char) (ho : ∀ o ∈ opts, o.Wf) (hu : NoSym u)
    (hc : ∀ t, u ≠ ',' :: t)
    (he : ∀ k, opts.getLast? = some (.flag k) → ∀ t, u ≠ '=' :: t) :
    parseConfig (optsText opts ++ u) = (opts.map Opt.meaning, u) := by
  induction opts with
  | nil =>
    unfold parseConfig
    split
    · rename_i t h
      exact absurd (by simpa [optsText] using h) (hc t)
    · simp [optsText]
  | cons o opts ih =>
    have hn : NoSym (optsText opts ++ u) := by
      cases opts with
      | nil => simpa [optsText] using hu
      | cons o' ops =>
        intro c t h
        simp [optsText] at h
        rw [← h.1]; decide
    have hne : ∀ k, o = .flag k → ∀ t, optsText opts ++ u ≠ '=' :: t := by
      intro k hk t
      cases opts with
      | nil => simpa [optsText] using he k (by simp [hk]) t
      | cons o' ops => simp [optsText]
    have ih := ih (fun x hx => ho x (by simp [hx])) (by
      intro k hk
      cases opts with
      | nil => simp at hk
      | cons o' ops => exact he k (by simpa using hk))
    have e : optsText (o :: opts) ++ u = ',' :: (o.text ++ (optsText opts ++ u)) := by
      simp [optsText]
    rw [e, parseConfig]
    simp only [parseEntry_append o _ (ho o (by simp)) hn hne, ih, List.map_cons]

/-! ### Fence -/

theorem fence_eq : fence = ['`', '`', '`'] := rfl

theorem takeUntilFence_spec {s a b : List Char} (h : takeUntilFence s = some (a, b)) :
    s = a ++ b ∧ (∃ r, b = fence ++ r) ∧
    ∀ x y, s = x ++ fence ++ y → a.length ≤ x.length := by
  induction s generalizing a with
  | nil => simp [takeUntilFence, tag, fence] at h
  | cons c t ih =>
    unfold takeUntilFence at h
    split at h
    · rename_i r hr
      simp only [Option.some.injEq, Prod.mk.injEq] at h
      obtain ⟨rfl, rfl⟩ := h
      exact ⟨rfl, ⟨r, tag_some.1 hr⟩, by simp⟩
    · rename_i hn
      simp only [Option.map_eq_some_iff, Prod.exists, Prod.mk.injEq] at h
      obtain ⟨a', b', h, rfl, rfl⟩ := h
      obtain ⟨h1, h2, h3⟩ := ih h
      refine ⟨by simp [h1], h2, ?_⟩
      intro x y he
      cases x with
      | nil =>
        rw [List.nil_append, ← tag_some] at he
        rw [he] at hn; cases hn
      | cons d x =>
        simp only [List.cons_append, List.cons.injEq] at he
        have := h3 x y (by simpa using he.2)
        simpa using this

theorem takeUntilFence_append (body rest : List Char)
    (hf : ∀ a b, body ++ fence ++ rest = a ++ fence ++ b → body.length ≤ a.length) :
    takeUntilFence (body ++ fence ++ rest) = some (body, fence ++ rest) := by
  induction body with
  | nil =>
    unfold takeUntilFence
    have : tag fence (fence ++ rest) = some rest := tag_some.2 rfl
    simp [this]
  | cons c body ih =>
    have ih := ih (fun a b he => by
      have := hf (c :: a) b (by simpa using he)
      simpa using this)
    unfold takeUntilFence
    split
    · rename_i r hr
      rw [tag_some] at hr
      have := hf [] r (by simpa using hr)
      simp at this
    · simp only [List.cons_append]
      simp only [List.append_assoc] at ih
      simp [ih]

/-- A first-fence condition for `body ++ fence` extends to any following text. -/
theorem fenceFree_rest {body : List Char} (h : FenceFree body) (rest : List Char) :
    ∀ a b, body ++ fence ++ rest = a ++ fence ++ b → body.length ≤ a.length := by
  intro a b he
  rcases Nat.lt_or_ge a.length body.length with hlt | hge
  · -- the fence found at `a` lies inside `body ++ fence`
    have h1 : (body ++ fence ++ rest).take (a.length + 3) = a ++ fence := by
      rw [he]
      rw [List.take_append_of_le_length (by simp [fence])]
      rw [List.take_of_length_le (by simp [fence])]
    have h2 : (body ++ fence ++ rest).take (a.length + 3) = (body ++ fence).take (a.length + 3) := by
      rw [List.take_append_of_le_length (by simp [fence]; omega)]
    refine h a ((body ++ fence).drop (a.length + 3)) ?_
    rw [← fence_eq, ← h1, h2, List.take_append_drop]
  · exact hge

theorem fenceFree_of_rest {body rest : List Char}
    (h : ∀ a b, body ++ fence ++ rest = a ++ fence ++ b → body.length ≤ a.length) :
    FenceFree body := by
  intro a b he
  exact h a (b ++ rest) (by rw [fence_eq, he]; simp)

/-! ### The whole block -/

theorem noSym_of_follows {opts body rest} (h : Follows opts body) : NoSym (body ++ rest) := by
  obtain ⟨c, t, rfl, h⟩ := h
  intro d u he
  simp at he
  rw [← he.1]
  rcases h with rfl | ⟨rfl, _⟩ | ⟨rfl, _⟩ <;> decide

theorem header_eq (ops : List (List Char)) (opts : List Opt) :
    header ops opts = infoTag ++ ',' :: (joinWith '+' ops ++ optsText opts) := by
  unfold infoTag; rfl

theorem parse_some {s rest : List Char} {b : Block} :
    parse s = some (rest, b) ↔ ∃ ops opts body,
      s = header ops opts ++ body ++ fence ++ rest ∧
      ops ≠ [] ∧ (∀ o ∈ ops, Sym o) ∧ (∀ o ∈ opts, Opt.Wf o) ∧
      Follows opts body ∧ FenceFree body ∧
      b = { operations := ops, config := opts.map Opt.meaning,
            code := (parseAnnotations (trim body)).1,
            annotations := (parseAnnotations (trim body)).2 } := by
  constructor
  · intro h
    unfold parse at h
    split at h
    · cases h
    · rename_i s1 h1
      rw [tag_some] at h1
      split at h
      · rename_i s2
        dsimp only at h
        obtain ⟨o1, o2, o3, o4, o5⟩ := parseOps_spec s2
        obtain ⟨opts, c1, c2, c3, c4, c5, c6, c7⟩ := parseConfig_spec _ o4
        split at h
        · cases h
        · rename_i body s3 h3
          obtain ⟨f1, ⟨r, f2⟩, f3⟩ := takeUntilFence_spec h3
          split at h
          · cases h
          · rename_i s4 h4
            simp only [Option.some.injEq, Prod.mk.injEq] at h
            obtain ⟨rfl, rfl⟩ := h
            rw [tag_some] at h4
            subst h4
            refine ⟨(parseOps s2).1, opts, body, ?_, o2, o3, c1, ?_, ?_, ?_⟩
            · rw [h1, header_eq]
              generalize infoTag = hd
              have : s2 = joinWith '+' (parseOps s2).1 ++
                  (optsText opts ++ (body ++ (fence ++ s4))) := by
                rw [← f1, ← c3]; exact o1
              conv => lhs; rw [this]
              simp [optsText]
            · rw [f1] at c4 c5 c6 c7
              cases body with
              | nil =>
                exact absurd (c4 '`' _ rfl) (by decide)
              | cons c t =>
                refine ⟨c, t, rfl, ?_⟩
                have hc := c4 c _ rfl
                have h5 : c ≠ ',' := fun e => c5 _ (by rw [e]; rfl)
                have : c = '\n' ∨ c = '+' ∨ c = '=' := by
                  simp [isSym, h5] at hc; grind
                rcases this with rfl | rfl | rfl
                · exact .inl rfl
                · refine .inr (.inl ⟨rfl, ?_⟩)
                  intro he
                  have := c7 he
                  exact o5 _ this.symm
                · refine .inr (.inr ⟨rfl, ?_⟩)
                  intro k hk
                  exact c6 k hk _ rfl
            · exact fenceFree_of_rest (rest := s4) (fun a b' he => f3 a b' (by rw [f1, ← he]; simp))
            · rw [c2]
      · cases h
  · rintro ⟨ops, opts, body, rfl, hne, ho, hw, hf, hb, rfl⟩
    have e1 : header ops opts ++ body ++ fence ++ rest =
        infoTag ++ (',' :: (joinWith '+' ops ++ (optsText opts ++
          (body ++ fence ++ rest)))) := by
      rw [header_eq]
      generalize infoTag = hd
      simp [optsText]
    have hns : NoSym (body ++ fence ++ rest) := by
      rw [List.append_assoc]; exact noSym_of_follows hf
    have hns2 : NoSym (optsText opts ++ (body ++ fence ++ rest)) := by
      cases opts with
      | nil => simpa [optsText] using hns
      | cons o' ops =>
        intro c t h
        simp [optsText] at h
        rw [← h.1]; decide
    have hplus : ∀ t, optsText opts ++ (body ++ fence ++ rest) ≠ '+' :: t := by
      intro t
      cases opts with
      | nil =>
        obtain ⟨c, u, rfl, hc⟩ := hf
        rcases hc with rfl | ⟨rfl, h⟩ | ⟨rfl, _⟩
        · simp [optsText]
        · exact absurd rfl h
        · simp [optsText]
      | cons o' ops => simp [optsText]
    have hcomma : ∀ t, body ++ fence ++ rest ≠ ',' :: t := by
      intro t
      obtain ⟨c, u, rfl, hc⟩ := hf
      rcases hc with rfl | ⟨rfl, h⟩ | ⟨rfl, _⟩ <;> simp
    have heq : ∀ k, opts.getLast? = some (.flag k) → ∀ t, body ++ fence ++ rest ≠ '=' :: t := by
      intro k hk t
      obtain ⟨c, u, rfl, hc⟩ := hf
      rcases hc with rfl | ⟨rfl, h⟩ | ⟨rfl, h⟩
      · simp
      · simp
      · exact absurd hk (h k)
    unfold parse
    rw [e1, tag_some.2 rfl]
    simp only [parseOps_append ops _ hne ho hns2 hplus, parseConfig_append opts _ hw hns hcomma heq,
      takeUntilFence_append body rest (fenceFree_rest hb rest)]
    rw [tag_some.2 (rfl : fence ++ rest = fence ++ rest)]

theorem parse_length (s r : List Char) (b : Block) (h : parse s = some (r, b)) :
    r.length < s.length := by
  obtain ⟨ops, opts, body, rfl, -⟩ := parse_some.1 h
  rw [header_eq]
  simp only [List.length_append, List.length_cons]
  omega

/-! ### Scanning -/

theorem scan_spec {β} (p : List Char → Option (List Char × β)) (hp)
    (hsuf : ∀ s r b, p s = some (r, b) → ∃ q, s = q ++ r) (pos : Nat) (s : List Char) :
    ∃ found last, Scanned p s found last ∧ scan p hp pos s = ranges pos found := by
  fun_induction scan p hp pos s with
  | case1 pos s rest b h next ih =>
    obtain ⟨found, last, h1, h2⟩ := ih
    obtain ⟨q, rfl⟩ := hsuf _ _ _ h
    refine ⟨([], q, b) :: found, last, ?_, ?_⟩
    · have := Scanned.found [] q rest b found last (by
        intro x y hxy hy; simp at hxy; exact absurd hxy.2 hy) h h1
      simpa using this
    · simp only [ranges, bytes_nil, Nat.add_zero, h2, next]
      have : bytes (q ++ rest) - bytes rest = bytes q := by rw [bytes_append]; omega
      rw [this]
  | case2 pos h =>
    refine ⟨[], [], .done _ ?_, rfl⟩
    intro a b hab
    have : b = [] := by simp_all
    subst this; exact h
  | case3 pos c t h ih =>
    obtain ⟨found, last, h1, h2⟩ := ih
    cases h1 with
    | done _ hn =>
      refine ⟨[], c :: t, .done _ ?_, h2⟩
      intro a b hab
      cases a with
      | nil => simp at hab; rw [← hab]; exact h
      | cons d a => simp at hab; exact hn a b hab.2
    | found gap piece rest b tl last hgap hpp htl =>
      refine ⟨(c :: gap, piece, b) :: tl, last, ?_, ?_⟩
      · have := Scanned.found (c :: gap) piece rest b tl last (by
          intro x y hxy hy
          cases x with
          | nil => simp at hxy; rw [← hxy]; simpa using h
          | cons d x => simp at hxy; exact hgap x y hxy.2 hy) hpp htl
        simpa using this
      · rw [h2]
        simp only [ranges, bytes_cons]
        have : pos + (c.utf8Size + bytes gap) = pos + c.utf8Size + bytes gap := by omega
        rw [this]

theorem parse_suffix (s r : List Char) (b : Block) (h : parse s = some (r, b)) :
    ∃ q, s = q ++ r := by
  obtain ⟨ops, opts, body, rfl, -⟩ := parse_some.1 h
  exact ⟨_, rfl⟩

/-- `AquascopeBlock::parse_all` (block.rs:58-77): the scanning loop over the model of
`AquascopeBlock::parse`, from offset 0. -/
def parseAll (content : List Char) : List ((Nat × Nat) × Block) :=
  scan parse parse_length 0 content

theorem Spec.Scanned.text {β} {p : List Char → Option (List Char × β)} {s found last}
    (h : Scanned p s found last) : s = (found.map fun x => x.1 ++ x.2.1).flatten ++ last := by
  induction h with
  | done => simp
  | found gap piece rest b tl last _ _ _ ih =>
    simp only [List.map_cons, List.flatten_cons, List.append_assoc, ← ih]

theorem ranges_ge {β} (found : List (List Char × List Char × β)) (pos : Nat) :
    ∀ x ∈ ranges pos found, pos ≤ x.1.1 := by
  induction found generalizing pos with
  | nil => simp [ranges]
  | cons f tl ih =>
    obtain ⟨g, p, b⟩ := f
    simp only [ranges, List.mem_cons, forall_eq_or_imp]
    refine ⟨by omega, fun x hx => ?_⟩
    have := ih _ x hx
    omega

theorem ranges_pairwise {β} (found : List (List Char × List Char × β)) (pos : Nat) :
    (ranges pos found).Pairwise fun x y => x.1.2 ≤ y.1.1 := by
  induction found generalizing pos with
  | nil => simp [ranges]
  | cons f tl ih =>
    obtain ⟨g, p, b⟩ := f
    simp only [ranges, List.pairwise_cons]
    exact ⟨fun x hx => ranges_ge _ _ x hx, ih _⟩

theorem ranges_slice {β} (found : List (List Char × List Char × β)) (last before : List Char)
    (x : (Nat × Nat) × β) (hx : x ∈ ranges (bytes before) found) :
    ∃ a piece c, before ++ ((found.map fun x => x.1 ++ x.2.1).flatten ++ last) = a ++ piece ++ c ∧
      bytes a = x.1.1 ∧ bytes (a ++ piece) = x.1.2 ∧ ∃ g, (g, piece, x.2) ∈ found := by
  induction found generalizing before with
  | nil => simp [ranges] at hx
  | cons f tl ih =>
    obtain ⟨g, p, b⟩ := f
    simp only [ranges, List.mem_cons] at hx
    rcases hx with rfl | hx
    · exact ⟨before ++ g, p, (tl.map fun x => x.1 ++ x.2.1).flatten ++ last,
        by simp, by simp [bytes_append], by simp only [bytes_append], g, by simp⟩
    · have e : bytes before + bytes g + bytes p = bytes (before ++ g ++ p) := by
        simp only [bytes_append]
      rw [e] at hx
      obtain ⟨a, piece, c, h1, h2, h3, g', h4⟩ := ih _ hx
      exact ⟨a, piece, c, by rw [← h1]; simp, h2, h3, g', by simp [h4]⟩

theorem utf8Size_pos (c : Char) : 0 < c.utf8Size := by
  exact Char.utf8Size_pos c

theorem bytes_pos {s : List Char} (h : s ≠ []) : 0 < bytes s := by
  cases s with
  | nil => exact absurd rfl h
  | cons c t => rw [bytes_cons]; have := utf8Size_pos c; omega

theorem Spec.Scanned.piece {β} {p : List Char → Option (List Char × β)} {s found last}
    (h : Scanned p s found last) {g q b} (hm : (g, q, b) ∈ found) :
    ∃ rest, p (q ++ rest) = some (rest, b) := by
  induction h with
  | done => simp at hm
  | found gap piece rest b' tl last _ hp _ ih =>
    simp only [List.mem_cons, Prod.mk.injEq] at hm
    rcases hm with ⟨rfl, rfl, rfl⟩ | hm
    · exact ⟨rest, hp⟩
    · exact ih hm

end Verif.Block
