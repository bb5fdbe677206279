import Verif.Book.Props
import Verif.Wire.Props
/-!
# C122: from the chapters of a book to its pages

Composition of the build (`Book/Props`), the rewriting of chapters (C121) and the text of elements (C115).
-/
namespace Verif.Book
open Verif.Block (Block parseAll)
open Verif.Cache (Codec File HMap load)
open Verif.Chapter (Text Repl Spliced Right chapter)
open Verif.InlinePerms (Disjoint replacementRanges captures renderTag parsePerms)
open Verif.Preproc Verif.Preproc.Spec
open Verif.Wire (Entries Entry Represents Valid Same blockAttrs writeElement readElement readPage)

/-- `element` writes the element of a block, with its hash maps and its attributes in any order. -/
def Writes (element : Html → Text) : Prop :=
  ∀ b r e, Represents e b r → ∃ e' attrs, Represents e' b r ∧ attrs.Perm (blockAttrs b e') ∧ element (render b r) = writeElement attrs

/-- Answers as they come out of JSON: finitely many, with proper numbers. -/
def Proper (r : Responses) : Prop := (∃ ks : List (List Char), ∀ op, r op ≠ none → op ∈ ks) ∧ ∀ op j, r op = some j → Valid j

/-- The answers that are shown for a block: the stored ones or, if there are none, those of the analyser. -/
def Shown (w : World) (hash : Hasher) (m : HMap Responses) (b : Block) (r : Responses) : Prop :=
  m (hash (hashInput b)) = some r ∨ (m (hash (hashInput b)) = none ∧ runAquascope w b = .ok r)

theorem entry_exists {κ ν : Type} [DecidableEq κ] (f : κ → Option ν) (ks : List κ) :
    ∃ l : List (κ × ν), (l.map (·.1)).Nodup ∧ ∀ k v, (k, v) ∈ l ↔ k ∈ ks ∧ f k = some v := by
  induction ks with
  | nil => exact ⟨[], by simp, by simp⟩
  | cons k ks ih =>
    obtain ⟨l, h1, h2⟩ := ih
    by_cases hk : k ∈ ks
    · exact ⟨l, h1, fun x v => by
        rw [h2]
        constructor
        · rintro ⟨a, b⟩; exact ⟨List.mem_cons_of_mem _ a, b⟩
        · rintro ⟨a, b⟩
          rcases List.mem_cons.1 a with rfl | a
          · exact ⟨hk, b⟩
          · exact ⟨a, b⟩⟩
    · cases hf : f k with
      | none => exact ⟨l, h1, fun x v => by
          rw [h2]
          constructor
          · rintro ⟨a, b⟩; exact ⟨List.mem_cons_of_mem _ a, b⟩
          · rintro ⟨a, b⟩
            rcases List.mem_cons.1 a with rfl | a
            · rw [hf] at b; cases b
            · exact ⟨a, b⟩⟩
      | some y =>
        refine ⟨(k, y) :: l, ?_, fun x v => ?_⟩
        · rw [List.map_cons, List.nodup_cons]
          refine ⟨fun hm => ?_, h1⟩
          obtain ⟨⟨a, b⟩, hab, rfl⟩ := List.mem_map.1 hm
          exact hk ((h2 a b).1 hab).1
        · rw [List.mem_cons, h2, Prod.mk.injEq, List.mem_cons]
          constructor
          · rintro (⟨rfl, rfl⟩ | ⟨a, b⟩)
            · exact ⟨.inl rfl, hf⟩
            · exact ⟨.inr a, b⟩
          · rintro ⟨rfl | a, b⟩
            · rw [hf] at b; exact .inl ⟨rfl, (Option.some.inj b).symm⟩
            · exact .inr ⟨a, b⟩

theorem lookup_mem {α β : Type} [BEq α] [LawfulBEq α] {l : List (α × β)} {k : α} {v : β} (h : l.lookup k = some v) :
    (k, v) ∈ l := by
  induction l with
  | nil => cases h
  | cons x l ih =>
    obtain ⟨a, b⟩ := x
    rw [List.lookup_cons] at h
    split at h
    · rename_i hk; cases h; rw [eq_of_beq hk]; exact List.mem_cons_self
    · exact List.mem_cons_of_mem _ (ih h)

/-- Every block with finitely many answers can be written. -/
theorem represents_exists (b : Block) {r : Responses} (h : ∃ ks : List (List Char), ∀ op, r op ≠ none → op ∈ ks) :
    ∃ e, Represents e b r := by
  obtain ⟨ks, hks⟩ := h
  obtain ⟨rs, a1, a2⟩ := entry_exists r ks
  obtain ⟨cs, b1, b2⟩ := entry_exists (configMap b.config) (b.config.map (·.1))
  obtain ⟨ps, c1, c2⟩ := entry_exists
    (fun n => if b.annotations.focusedPathsAt n = [] then none else some (b.annotations.focusedPathsAt n))
    (b.annotations.stepperPaths.map (·.1))
  refine ⟨⟨rs, cs, ps⟩, ⟨a1, fun k v => ?_⟩, ⟨b1, fun k v => ?_⟩, ⟨c1, fun k v => ?_⟩⟩
  · rw [a2]
    exact ⟨fun h => h.2, fun h => ⟨hks k (by rw [h]; nofun), h⟩⟩
  · rw [b2]
    refine ⟨fun h => h.2, fun h => ⟨?_, h⟩⟩
    have := lookup_mem (l := b.config.reverse) h
    exact List.mem_map.2 ⟨_, List.mem_reverse.1 this, rfl⟩
  · rw [c2]
    refine ⟨fun h => h.2, fun h => ⟨?_, h⟩⟩
    by_cases hn : b.annotations.focusedPathsAt k = []
    · simp only [hn, if_true] at h; cases h
    · unfold Annotations.Annots.focusedPathsAt at hn
      cases hf : b.annotations.stepperPaths.filter (·.1 = k) with
      | nil => rw [hf] at hn; exact absurd rfl hn
      | cons x xs =>
        have hx : x ∈ b.annotations.stepperPaths.filter (·.1 = k) := by rw [hf]; exact List.mem_cons_self
        rw [List.mem_filter] at hx
        exact List.mem_map.2 ⟨x, hx.1, by simpa using hx.2⟩

theorem mapM_get {α β : Type} {f : α → Option β} : ∀ {l : List α} {ys : List β}, l.mapM f = some ys →
    ys.length = l.length ∧ ∀ (n : Nat) x, l[n]? = some x → ∃ y, ys[n]? = some y ∧ f x = some y := by
  intro l
  induction l with
  | nil => intro ys h; simp at h; subst h; exact ⟨rfl, by simp⟩
  | cons a l ih =>
    intro ys h
    rw [List.mapM_cons] at h
    simp only [Option.pure_def, Option.bind_eq_bind, Option.bind_eq_some_iff, Option.some.injEq] at h
    obtain ⟨y, hy, zs, hz, rfl⟩ := h
    obtain ⟨h1, h2⟩ := ih hz
    refine ⟨by simp [h1], fun n x hx => ?_⟩
    cases n with
    | zero => simp at hx; subst hx; exact ⟨y, rfl, hy⟩
    | succ n => simpa using h2 n x (by simpa using hx)

variable {w : World} {hash : Hasher} {codec : Codec Responses} {element : Html → Text} {book : List Text}
  {data : List UInt8} {pos : Nat} {sched : List Nat} {chunks : List (List UInt8)}

/-- **C122 (from chapter to page).** In a book that was built, every chapter whose blocks and tags do not overlap is its text
with the blocks and tags replaced; and in the element that takes the place of a block, the page finds that block with its
program, operations, options and annotations, and the answers that were stored for it or, if there were none, those of the
analyser. -/
theorem C122_page (hnc : NoCollision hash (blocksOf book)) {ts : List Text} {f : File}
    (h : build w hash codec element book data pos sched chunks = .built ts f) (hw : Writes element)
    (hans : ∀ b r, Shown w hash (load codec data pos).map b r → Proper r)
    {n : Nat} {s : Text} (hs : book[n]? = some s) (hd : (replacementRanges s).Pairwise Disjoint) :
    ∃ t l, ts[n]? = some t ∧ Spliced 0 l s t ∧ (l.map (·.1)).Perm (replacementRanges s) ∧
      ∀ range b, (range, b) ∈ parseAll s → ∃ text r page, (range, text) ∈ l ∧ Shown w hash (load codec data pos).map b r ∧
        (readElement text).bind readPage = some (page, true) ∧ page = { render b r with annotations := page.annotations } ∧
        Same page.annotations b.annotations := by
  have hm : book.mapM (chapter (one w hash (load codec data pos).map element)) = some ts := by
    obtain ⟨h1, h2⟩ := C122_exact (element := element) (chunks := chunks) hnc (build_built h).1
    cases hm : book.mapM (chapter (one w hash (load codec data pos).map element)) with
    | none => rw [h2 hm] at h; cases h
    | some ts' =>
      obtain ⟨f', h'⟩ := h1 ts' hm
      rw [h'] at h
      rw [(Stage.built.inj h).1]
  obtain ⟨t, ht, hc⟩ := (mapM_get hm).2 n s hs
  have hbl : ∀ x ∈ parseAll s, x.2 ∈ blocksOf book := fun x hx =>
    List.mem_flatMap.2 ⟨s, List.mem_of_getElem? hs, List.mem_map_of_mem hx⟩
  have hsh : ∀ b ∈ blocksOf book, ∃ r, Shown w hash (load codec data pos).map b r ∧
      alone w hash (load codec data pos).map b = .ok (render b r) := by
    intro b hb
    obtain ⟨x, hx⟩ := built_alone hnc h b hb
    unfold alone at hx ⊢
    unfold Shown
    cases hl : (load codec data pos).map (hash (hashInput b)) with
    | some r => exact ⟨r, .inl rfl, rfl⟩
    | none =>
      rw [hl] at hx
      cases hr : runAquascope w b with
      | error e => rw [hr] at hx; cases hx
      | ok r => exact ⟨r, .inr ⟨rfl, rfl⟩, rfl⟩
  have hp : ∀ x ∈ parseAll s, one w hash (load codec data pos).map element x.2 ≠ none := by
    intro x hx
    obtain ⟨r, -, ha⟩ := hsh x.2 (hbl x hx)
    unfold one; rw [ha]; nofun
  have htag : ∀ x ∈ captures s, ∀ e, renderTag x.2.1 x.2.2 ≠ .error e := by
    intro x hx e he
    rw [Chapter.C121_fails _ s (.inr ⟨x, hx, e, he⟩)] at hc
    cases hc
  obtain ⟨l, out, h1, h2, h3, h4⟩ := Chapter.C121_chapter_partial _ s hd hp htag
  rw [hc] at h1
  cases h1
  refine ⟨t, l, ht, h2, h3, fun range b hb => ?_⟩
  obtain ⟨r, hr, ha⟩ := hsh b (hbl _ hb)
  obtain ⟨hfin, hval⟩ := hans b r hr
  obtain ⟨e, he⟩ := represents_exists b hfin
  obtain ⟨e', attrs, he', hperm, htext⟩ := hw b r e he
  obtain ⟨page, q1, q2, q3⟩ := Wire.C115_round_trip he' hval hperm
  refine ⟨element (render b r), r, page, (h4 _).2 (.inl ⟨b, hb, ?_⟩), hr, by rw [htext]; exact q1, q2, q3⟩
  unfold one
  rw [ha]

/-! ## The hypotheses can be met -/

/-- There is a writer of elements. -/
theorem writes_possible : ∃ element, Writes element := by
  classical
  let element : Html → Text := fun h =>
    if hx : ∃ x : Block × Responses × Entries, render x.1 x.2.1 = h ∧ Represents x.2.2 x.1 x.2.1 then
      writeElement (blockAttrs hx.choose.1 hx.choose.2.2) else []
  refine ⟨element, fun b r e he => ?_⟩
  have hx : ∃ x : Block × Responses × Entries, render x.1 x.2.1 = render b r ∧ Represents x.2.2 x.1 x.2.1 := ⟨(b, r, e), rfl, he⟩
  have key : ∃ x : Block × Responses × Entries, element (render b r) = writeElement (blockAttrs x.1 x.2.2) ∧
      render x.1 x.2.1 = render b r ∧ Represents x.2.2 x.1 x.2.1 :=
    ⟨hx.choose, dif_pos hx, hx.choose_spec⟩
  obtain ⟨⟨b', r', e'⟩, h0, h1, h2⟩ := key
  dsimp only at h0 h1 h2
  have hcode : b'.code = b.code := congrArg Html.code h1
  have ha : b'.annotations = b.annotations := congrArg Html.annotations h1
  have ho : b'.operations = b.operations := congrArg Html.operations h1
  have hr : r' = r := congrArg Html.responses h1
  have hc : configMap b'.config = configMap b.config := congrArg Html.config h1
  refine ⟨e', blockAttrs b' e', ⟨by rw [← hr]; exact h2.responses, by rw [← hc]; exact h2.config, by rw [← ha]; exact h2.paths⟩, ?_, h0⟩
  unfold blockAttrs
  rw [hcode, ha, ho]

/-- A file format for one set of entries. -/
def oneCodec (m : HMap Responses) : Codec Responses where
  Encodes m' bs := m' = m ∧ bs = [1]
  decode bs := if bs = [1] then some m else none
  decode_encode := by rintro m' bs ⟨rfl, rfl⟩; rfl
  decode_prefix := by
    rintro m' bs p ⟨rfl, rfl⟩ hp
    match p, hp with
    | [], _ => exact .inl rfl
    | [a], hp =>
      have : a = 1 := by simpa using hp
      subst this
      exact .inr rfl
    | a :: b :: t, hp => have := hp.length_le; simp at this
  encode_ne := by rintro m' bs ⟨-, rfl⟩; simp

/-- Two chapters, one with a block and a tag. -/
def sampleBook : List Text :=
  [['h', 'i'], ['`', '`', '`', 'a', 'q', 'u', 'a', 's', 'c', 'o', 'p', 'e', ',', 'a', '\n', 'x', '\n', '`', '`', '`', '\n', 'é', ' ',
    '@', 'P', 'e', 'r', 'm', '{', 'o', 'w', 'n', '}']]

/-- The same with a block that cannot be analysed in a third chapter. -/
def badBook : List Text :=
  sampleBook ++ [['`', '`', '`', 'a', 'q', 'u', 'a', 's', 'c', 'o', 'p', 'e', ',', 'b', '\n', 'x', '\n', '`', '`', '`', '\n']]

def sampleElement (h : Html) : Text := '<' :: h.code ++ ['>']

/-- The chapters that a build hands on, and whether it ended with an error. -/
def summary : Stage → Option (List Text) × Bool
  | .running => (none, false)
  | .failed _ => (none, true)
  | .built ts _ => (some ts, false)

/-- The first book is built in three actions of its task; before, the build is not finished. -/
example : (parsePerms (sampleBook[1]) = [.ok ((24, 34), "<span class=\"perm own\">O</span>")]) ∧
    build demoWorld demoHash (oneCodec fun _ => none) sampleElement sampleBook [] 0 [0, 0] [[1]] = .running ∧
    (blocksOf sampleBook).length = 1 ∧ (blocksOf badBook).length = 2 := by
  decide +kernel

/-- The analyser has answered the first block of the second book, and the answer is in the cache; then the other block fails
and the build with it. -/
example : summary (build demoWorld demoHash (oneCodec fun _ => none) sampleElement badBook [] 0 [0, 0, 0, 1, 1] [[1]]) = (none, true) ∧
    (endMap demoWorld demoHash (oneCodec fun _ => none) badBook [] 0 [0, 0, 0, 1, 1] 1).isSome = true := by
  decide +kernel

def plainBook : List Text :=
  [['h', 'i'], ['`', '`', '`', 'a', 'q', 'u', 'a', 's', 'c', 'o', 'p', 'e', ',', 'a', '\n', 'x', '\n', '`', '`', '`', '\n', 'é']]

/-- The same block twice, in another text. -/
def plainBook' : List Text :=
  [['`', '`', '`', 'a', 'q', 'u', 'a', 's', 'c', 'o', 'p', 'e', ',', 'a', '\n', 'x', '\n', '`', '`', '`', '\n', '`', '`', '`', 'a', 'q',
    'u', 'a', 's', 'c', 'o', 'p', 'e', ',', 'a', '\n', 'x', '\n', '`', '`', '`']]

/-- The entries after the first book. -/
def plainMap : HMap Responses := endMap demoWorld demoHash (oneCodec fun _ => none) plainBook [] 0 [0, 0, 0]

theorem plain_end : endMap demoWorld demoHash (oneCodec plainMap) plainBook [] 0 [0, 0, 0] = plainMap := by
  unfold plainMap endMap
  rw [show load (oneCodec (exec demoWorld demoHash (blocksOf plainBook) (init (load (oneCodec fun _ => none) [] 0)) [0, 0, 0]).cache.map) [] 0 =
    load (oneCodec fun _ => none) [] 0 from rfl]

theorem plain_built : build demoWorld demoHash (oneCodec plainMap) sampleElement plainBook [] 0 [0, 0, 0] [[1]] =
    .built [['h', 'i'], ['<', 'x', '>', '\n', 'é']] ⟨[1], 1⟩ := by
  decide +kernel

/-- An analyser that cannot be started. -/
def brokenWorld : World := { demoWorld with exec := fun _ _ => .spawnFailed }

/-- The hypotheses of `C122_again`: two chapters later there is no analyser any more, and the second book is built all the same. -/
example : dataAfter [1] (build brokenWorld demoHash (oneCodec plainMap) sampleElement plainBook' [1] 0 [1, 0] [[7]]) = [1] ∧
    build brokenWorld demoHash (oneCodec plainMap) sampleElement plainBook' [1] 0 [1, 0] [[7]] =
      .built [['<', 'x', '>', '\n', '<', 'x', '>']] ⟨[1], 0⟩ := by
  refine ⟨(C122_again (w := demoWorld) (element := sampleElement) ?_ plain_built ⟨plain_end, rfl⟩ ?_).2.2.2, by decide +kernel⟩
  · intro b hb b' hb' _
    have h : ∀ b ∈ blocksOf plainBook ++ blocksOf plainBook', hashInput b = ([['a']], [], ['x']) := by decide +kernel
    rw [h b hb, h b' hb']
  · intro b' hb'
    have h : ∀ b ∈ blocksOf plainBook', hashInput b = ([['a']], [], ['x']) := by decide +kernel
    have h' : ∃ b ∈ blocksOf plainBook, hashInput b = ([['a']], [], ['x']) := by decide +kernel
    obtain ⟨b, hb, e⟩ := h'
    exact ⟨b, hb, by rw [e, h b' hb']⟩

end Verif.Book
