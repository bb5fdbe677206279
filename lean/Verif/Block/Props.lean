import Verif.Block.Lemmas
/-!
# Properties C04 and C05: Aquascope blocks in Markdown
-/
namespace Verif.Block
open Spec Verif.Annotations
open Verif.Annotations.Spec (joinWith)

/-! ## C05: the grammar of a block -/

theorem blank_iff (c : Char) : isWhitespace c = true ↔ Blank c := by
  unfold isWhitespace Blank
  simp only [List.mem_cons, List.not_mem_nil, or_false, Bool.or_eq_true, Bool.and_eq_true, decide_eq_true_eq]
  omega

theorem takeWhile_all {p : Char → Bool} {s : List Char} {c : Char} (h : c ∈ s.takeWhile p) : p c = true := by
  induction s with
  | nil => simp at h
  | cons d s ih =>
    simp only [List.takeWhile_cons] at h
    split at h
    · rename_i hd
      rcases List.mem_cons.1 h with rfl | h
      · exact hd
      · exact ih h
    · simp at h

theorem head_dropWhile_not {p : Char → Bool} {s : List Char} {c : Char}
    (h : (s.dropWhile p).head? = some c) : p c = false := by
  induction s with
  | nil => simp at h
  | cons d s ih =>
    simp only [List.dropWhile_cons] at h
    split at h
    · exact ih h
    · simp only [List.head?_cons, Option.some.injEq] at h
      subst h
      rename_i hp
      simpa using hp

/-- **C05 (trimming).** The program of a block is its body without the white space at both ends. -/
theorem C05_trim (s : List Char) : Trimmed s (trim s) := by
  have h1 : s = s.takeWhile isWhitespace ++ s.dropWhile isWhitespace := (List.takeWhile_append_dropWhile ..).symm
  generalize hm : s.dropWhile isWhitespace = m at h1
  have h2 : m = (m.reverse.dropWhile isWhitespace).reverse ++ (m.reverse.takeWhile isWhitespace).reverse := by
    rw [← List.reverse_append, List.takeWhile_append_dropWhile, List.reverse_reverse]
  refine ⟨s.takeWhile isWhitespace, (m.reverse.takeWhile isWhitespace).reverse, ?_, ?_, ?_, ?_, ?_⟩
  · unfold trim; rw [hm, List.append_assoc, ← h2, ← h1]
  · intro c hc
    exact (blank_iff c).1 (takeWhile_all hc)
  · intro c hc
    exact (blank_iff c).1 (takeWhile_all (List.mem_reverse.1 hc))
  · intro c hc hb
    have hmc : m.head? = some c := by
      unfold trim at hc
      rw [hm] at hc
      rw [h2]
      cases hx : (m.reverse.dropWhile isWhitespace).reverse with
      | nil => rw [hx] at hc; simp at hc
      | cons d x => rw [hx] at hc; simpa using hc
    rw [← hm] at hmc
    have := head_dropWhile_not hmc
    rw [(blank_iff c).2 hb] at this; cases this
  · intro c hc hb
    unfold trim at hc
    rw [hm, List.getLast?_reverse] at hc
    have := head_dropWhile_not hc
    rw [(blank_iff c).2 hb] at this; cases this

theorem blanks_prefix {a t a' t' : List Char} (h : a ++ t = a' ++ t') (ha' : ∀ c ∈ a', Blank c)
    (ht : ∀ c, t.head? = some c → ¬ Blank c) (hne : t ≠ []) : a'.length ≤ a.length := by
  apply Nat.le_of_not_lt
  intro hl
  obtain ⟨c, t, rfl⟩ := List.exists_cons_of_ne_nil hne
  have h1 : (a ++ c :: t)[a.length]? = some c := by simp
  rw [h, List.getElem?_append_left hl] at h1
  exact ht c rfl (ha' c (List.mem_of_getElem? h1))

/-- There is only one such text. -/
theorem trimmed_unique {s t t' : List Char} (h : Trimmed s t) (h' : Trimmed s t') : t = t' := by
  obtain ⟨a, b, e, h1, h2, h3, h4⟩ := h
  obtain ⟨a', b', e', h1', h2', h3', h4'⟩ := h'
  have all : ∀ {a b t : List Char}, s = a ++ t ++ b → (∀ c ∈ a, Blank c) → (∀ c ∈ b, Blank c) → t = [] →
      ∀ c ∈ s, Blank c := by
    rintro a b t e h1 h2 rfl c hc
    rw [e] at hc
    simp only [List.append_nil, List.mem_append] at hc
    exact hc.elim (h1 c) (h2 c)
  by_cases ht : t = []
  · by_cases ht' : t' = []
    · rw [ht, ht']
    · obtain ⟨c, x, rfl⟩ := List.exists_cons_of_ne_nil ht'
      exact absurd (all e h1 h2 ht c (by rw [e']; simp)) (h3' c rfl)
  · by_cases ht' : t' = []
    · obtain ⟨c, x, rfl⟩ := List.exists_cons_of_ne_nil ht
      exact absurd (all e' h1' h2' ht' c (by rw [e]; simp)) (h3 c rfl)
    · have hs : a ++ (t ++ b) = a' ++ (t' ++ b') := by
        rw [← List.append_assoc, ← List.append_assoc, ← e, ← e']
      have hd : ∀ {t b : List Char}, t ≠ [] → (t ++ b).head? = t.head? := by
        intro t b hne
        obtain ⟨c, x, rfl⟩ := List.exists_cons_of_ne_nil hne
        rfl
      have l1 := blanks_prefix hs h1' (by rw [hd ht]; exact h3) (by simp [ht])
      have l2 := blanks_prefix hs.symm h1 (by rw [hd ht']; exact h3') (by simp [ht'])
      have hl : a.length = a'.length := by omega
      obtain ⟨-, hr⟩ := List.append_inj hs hl
      have hr' : b.reverse ++ t.reverse = b'.reverse ++ t'.reverse := by
        rw [← List.reverse_append, ← List.reverse_append, hr]
      have m1 := blanks_prefix hr' (by simpa using h2') (by simpa [List.head?_reverse] using h4) (by simp [ht])
      have m2 := blanks_prefix hr'.symm (by simpa using h2) (by simpa [List.head?_reverse] using h4') (by simp [ht'])
      simp only [List.length_reverse] at m1 m2
      have := (List.append_inj' hr (by omega)).1
      exact this

/-- **C05.** A well-formed block is recognised and yields exactly its operations, its options (a bare
flag meaning `true`) and the annotation parse of its program `p` without white space at both ends; the
text behind the closing fence is left over.  For all operation names and options made of symbols and
every program that does not contain (or complete) a fence. -/
theorem C05_roundtrip (ops : List (List Char)) (opts : List Opt) (program rest p : List Char)
    (hne : ops ≠ []) (hops : ∀ o ∈ ops, Sym o) (hopts : ∀ o ∈ opts, o.Wf)
    (hprog : FenceFree ('\n' :: program)) (hp : Trimmed ('\n' :: program) p) :
    parse (header ops opts ++ '\n' :: program ++ ['`', '`', '`'] ++ rest) =
      some (rest, { operations := ops, config := opts.map Opt.meaning,
                    code := (parseAnnotations p).1, annotations := (parseAnnotations p).2 }) := by
  rw [trimmed_unique hp (C05_trim _)]
  exact parse_some.2 ⟨ops, opts, '\n' :: program, rfl, hne, hops, hopts, ⟨'\n', program, rfl, .inl rfl⟩,
    hprog, rfl⟩

/-- **C05.** Conversely, whatever is recognised as a block is written as an info line of operations
and options, followed by a fence-free body, followed by a fence; and the block is exactly what was
written. -/
theorem C05_sound (s rest : List Char) (b : Block) (h : parse s = some (rest, b)) :
    ∃ ops opts body p, s = header ops opts ++ body ++ ['`', '`', '`'] ++ rest ∧ ops ≠ [] ∧
      (∀ o ∈ ops, Sym o) ∧ (∀ o ∈ opts, Opt.Wf o) ∧ Follows opts body ∧ FenceFree body ∧
      b.operations = ops ∧ b.config = opts.map Opt.meaning ∧ Trimmed body p ∧
      (b.code, b.annotations) = parseAnnotations p := by
  obtain ⟨ops, opts, body, h1, h2, h3, h4, h5, h6, rfl⟩ := parse_some.1 h
  exact ⟨ops, opts, body, trim body, h1, h2, h3, h4, h5, h6, rfl, rfl, C05_trim body, rfl⟩

/-- A program whose text has no fence and ends in a newline meets the hypothesis of `C05_roundtrip`:
the usual way a block is written. -/
theorem C05_fenceFree (program : List Char)
    (h : ∀ a b, program ≠ a ++ ['`', '`', '`'] ++ b) : FenceFree ('\n' :: program ++ ['\n']) := by
  intro a b he
  rcases Nat.lt_or_ge a.length ('\n' :: program ++ ['\n']).length with hlt | hge
  · exfalso
    -- the three characters at `a.length` are backticks
    have hget : ∀ i < 3, ('\n' :: program ++ ['\n'] ++ ['`', '`', '`'])[a.length + i]? = some '`' := by
      intro i hi
      rw [he, List.append_assoc, List.getElem?_append_right (by omega)]
      have : a.length + i - a.length = i := by omega
      rw [this]
      have : i = 0 ∨ i = 1 ∨ i = 2 := by omega
      rcases this with rfl | rfl | rfl <;> rfl
    have hlen : ('\n' :: program ++ ['\n']).length = program.length + 2 := by simp
    rw [hlen] at hlt
    -- no index of the three is the final newline
    have hnl : ∀ i < 3, a.length + i ≠ program.length + 1 := by
      intro i hi e
      have := hget i hi
      rw [e] at this
      simp at this
    have h0 := hget 0 (by omega)
    have hne0 : a.length ≠ 0 := by
      intro e; rw [e] at h0; simp at h0
    have hb : a.length + 2 < program.length + 1 := by
      have := hnl 0 (by omega); have := hnl 1 (by omega); have := hnl 2 (by omega)
      omega
    obtain ⟨n, hn⟩ : ∃ n, a.length = n + 1 := ⟨a.length - 1, by omega⟩
    have hp : ∀ i < 3, program[n + i]? = some '`' := by
      intro i hi
      have := hget i hi
      rw [hn] at this
      have e : n + 1 + i = (n + i) + 1 := by omega
      rw [e, List.append_assoc, List.cons_append, List.getElem?_cons_succ,
        List.getElem?_append_left (by omega)] at this
      exact this
    refine h (program.take n) (program.drop (n + 3)) ?_
    have hd : program.drop n = ['`', '`', '`'] ++ program.drop (n + 3) := by
      have e0 := hp 0 (by omega); have e1 := hp 1 (by omega); have e2 := hp 2 (by omega)
      rw [List.drop_eq_getElem?_toList_append, List.drop_eq_getElem?_toList_append (i := n + 1),
        List.drop_eq_getElem?_toList_append (i := n + 2)]
      simp only [Nat.add_zero] at e0
      rw [e0, e1, e2]; rfl
    rw [List.append_assoc, ← hd, List.take_append_drop]
  · exact hge

/-- Non-vacuity: the example of block.rs:80-93. -/
example : Sym "interpreter".toList ∧ (Opt.pair "foo".toList "bar".toList).Wf ∧
    (Opt.flag "baz".toList).Wf ∧ FenceFree ('\n' :: "content!".toList ++ ['\n']) := by
  refine ⟨?_, ⟨?_, ?_⟩, ?_, C05_fenceFree _ ?_⟩
  · rw [sym_iff]; decide +kernel
  · rw [sym_iff]; decide +kernel
  · rw [sym_iff]; decide +kernel
  · show Sym _; rw [sym_iff]; decide +kernel
  · intro a b h
    have : '`' ∈ "content!".toList := by rw [h]; simp
    revert this; decide +kernel

/-- **Observation (C05).** Options outside the symbol fragment are not rejected: the rest of the info
line silently becomes part of the program. -/
theorem C05_leak :
    (parse "```aquascope,interpreter,a=b=c\nfn f(){}\n```".toList).map (fun r => r.2.code) =
      some "=c\nfn f(){}".toList := by decide +kernel

/-! ## C04: discovery of blocks in a document -/

/-- **C04.** Scanning a document cuts it into gaps and blocks: the result lists exactly the blocks of
this decomposition with their byte ranges, and no block parses at any position inside a gap. -/
theorem C04_scanned (content : List Char) :
    ∃ found last, Scanned parse content found last ∧ parseAll content = ranges 0 found :=
  scan_spec parse parse_length parse_suffix 0 content

/-- **C04.** Ranges are non-empty, in bounds, and the text of each range is the text of a block: it
begins with "```aquascope," and ends with "```", and parsing it there gave the block. -/
theorem C04_range (content : List Char) (x) (hx : x ∈ parseAll content) :
    x.1.1 < x.1.2 ∧ x.1.2 ≤ bytes content ∧
    ∃ a piece c, content = a ++ piece ++ c ∧ bytes a = x.1.1 ∧ bytes (a ++ piece) = x.1.2 ∧
      (∃ ops opts body, piece = header ops opts ++ body ++ ['`', '`', '`']) ∧
      ∃ rest, parse (piece ++ rest) = some (rest, x.2) := by
  obtain ⟨found, last, hs, he⟩ := C04_scanned content
  rw [he] at hx
  obtain ⟨a, piece, c, h1, h2, h3, g, h4⟩ := ranges_slice found last [] x (by simpa using hx)
  obtain ⟨rest, hr⟩ := hs.piece h4
  obtain ⟨ops, opts, body, e, -⟩ := parse_some.1 hr
  have hpiece : piece = header ops opts ++ body ++ ['`', '`', '`'] :=
    List.append_cancel_right e
  have hc : content = a ++ piece ++ c := by rw [← h1]; simpa using hs.text
  refine ⟨?_, ?_, a, piece, c, hc, h2, h3, ⟨ops, opts, body, hpiece⟩, rest, hr⟩
  · have : 0 < bytes piece := bytes_pos (by rw [hpiece]; simp [header])
    rw [← h2, ← h3, bytes_append]; omega
  · rw [← h3, hc, bytes_append (a ++ piece)]; omega

/-- **C04.** The ranges are in increasing order and pairwise disjoint. -/
theorem C04_disjoint (content : List Char) :
    (parseAll content).Pairwise fun x y => x.1.2 ≤ y.1.1 := by
  obtain ⟨found, last, -, he⟩ := C04_scanned content
  rw [he]; exact ranges_pairwise _ _

/-- **C04.** Nothing is missed: if a block parses at some position, then that position lies at the
start of, or inside, one of the ranges found. -/
theorem C04_complete (content a s rest : List Char) (b : Block) (hc : content = a ++ s)
    (hp : parse s = some (rest, b)) :
    ∃ x ∈ parseAll content, x.1.1 ≤ bytes a ∧ bytes a < x.1.2 := by
  obtain ⟨found, last, hs, he⟩ := C04_scanned content
  rw [he]
  have key : ∀ (doc : List Char) (found) (last), Scanned parse doc found last → ∀ (pos : Nat) (a : List Char),
      doc = a ++ s → ∃ x ∈ ranges pos found, x.1.1 ≤ pos + bytes a ∧ pos + bytes a < x.1.2 := by
    intro doc found last h
    induction h with
    | done d hn =>
      intro pos a hd
      rw [hn a s hd] at hp; cases hp
    | found gap piece tail b' tl last hgap hpp htl ih =>
      intro pos a hd
      rw [List.append_assoc] at hd
      rcases List.append_eq_append_iff.1 hd with ⟨y, h1, h2⟩ | ⟨y, h1, h2⟩
      · -- the position is behind the gap
        rcases List.append_eq_append_iff.1 h2 with ⟨z, h3, h4⟩ | ⟨z, h3, h4⟩
        · -- behind the piece
          obtain ⟨x, hx, hx1, hx2⟩ := ih (pos + bytes gap + bytes piece) z h4
          refine ⟨x, by simp only [ranges, List.mem_cons]; exact .inr hx, ?_, ?_⟩
          · rw [h1, h3]; simp only [bytes_append]; omega
          · rw [h1, h3]; simp only [bytes_append]; omega
        · -- inside the piece
          by_cases hz : z = []
          · subst hz
            simp only [List.append_nil, List.nil_append] at h3 h4
            obtain ⟨x, hx, hx1, hx2⟩ := ih (pos + bytes gap + bytes piece) [] (by simp [h4])
            refine ⟨x, by simp only [ranges, List.mem_cons]; exact .inr hx, ?_, ?_⟩
            · rw [h1, ← h3]; simp only [bytes_append]; simp at hx1; omega
            · rw [h1, ← h3]; simp only [bytes_append]; simp at hx2; omega
          · refine ⟨_, by simp only [ranges, List.mem_cons]; exact .inl rfl, ?_, ?_⟩
            · rw [h1]; simp only [bytes_append]; omega
            · have := bytes_pos hz
              rw [h1, h3]; simp only [bytes_append]; omega
      · -- inside the gap: impossible, or at its end
        by_cases hy : y = []
        · subst hy
          simp only [List.append_nil, List.nil_append] at h1 h2
          refine ⟨_, by simp only [ranges, List.mem_cons]; exact .inl rfl, ?_, ?_⟩
          · rw [h1]; simp only; omega
          · have : piece ≠ [] := by
              intro e
              have := parse_length _ _ _ hpp
              rw [e] at this; simp at this
            have := bytes_pos this
            rw [h1]; simp only; omega
        · have := hgap a y h1 hy
          rw [List.append_assoc, ← h2, hp] at this; cases this
  have := key content found last hs 0 a hc
  simpa using this

/-- Non-vacuity: two blocks with text around and between them. -/
example : (parseAll "é ```aquascope,interp\na\n``` x ```aquascope,perm\nb\n``` z".toList).map (·.1)
    = [(3, 28), (31, 54)] := by decide +kernel

end Verif.Block
