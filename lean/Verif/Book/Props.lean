import Verif.Book.Model
import Verif.Cache.Props
/-!
# C122: the build of a book
-/
namespace Verif.Book
open Verif.Block (Block parseAll)
open Verif.Cache (Cache Codec File HMap load)
open Verif.Chapter (Text Repl rewrite okOf chapter)
open Verif.InlinePerms (parsePerms)
open Verif.Preproc Verif.Preproc.Spec

/-! ## Specification -/

/-- What takes the place of a block when nothing else is built: the element with the stored answers or, if there are none, with
those of the analyser; nothing if the analysis fails. -/
def one (w : World) (hash : Hasher) (m : HMap Responses) (element : Html → Text) (b : Block) : Option Text :=
  match alone w hash m b with
  | .ok h => some (element h)
  | .error _ => none

/-- What is in the file after the process has ended; one that is stopped before counts, too. -/
def dataAfter (data : List UInt8) : Stage → List UInt8
  | .running => data
  | .failed f => f.data
  | .built _ f => f.data

/-- All tasks have ended. -/
def AllEnded (w : World) (hash : Hasher) (codec : Codec Responses) (book : List Text) (data : List UInt8) (pos : Nat)
    (sched : List Nat) : Prop :=
  ∀ i < (blocksOf book).length, ∃ r, (exec w hash (blocksOf book) (init (load codec data pos)) sched).pc i = .done r

/-! ## Chapters -/

theorem repls_eq (element : Html → Text) (pc : Nat → Pc) (process : Block → Option Text) (first : Nat) (s : Text)
    (h : ∀ i b, ((parseAll s)[i]?).map (·.2) = some b → ((resultOf (pc (first + i))).bind okOf).map element = process b) :
    repls element pc first s = Chapter.replacements process s := by
  unfold repls Chapter.replacements
  congr 2
  refine List.ext_getElem (by simp) fun i h1 h2 => ?_
  have hi : i < (parseAll s).length := by simpa using h2
  simp only [List.getElem_map, List.getElem_zipIdx]
  rw [← h i _ (by rw [List.getElem?_eq_getElem hi]; rfl), Option.map_map]
  rfl

theorem chapters_eq (element : Html → Text) (pc : Nat → Pc) (process : Block → Option Text) (book : List Text) :
    ∀ first, (∀ i b, (blocksOf book)[i]? = some b → ((resultOf (pc (first + i))).bind okOf).map element = process b) →
      chapters element pc first book = book.mapM (chapter process) := by
  induction book with
  | nil => intro _ _; rfl
  | cons s r ih =>
    intro first h
    have hb : blocksOf (s :: r) = (parseAll s).map (·.2) ++ blocksOf r := rfl
    have h1 : repls element pc first s = Chapter.replacements process s := by
      refine repls_eq element pc process first s fun i b hi => h i b ?_
      have hlt : i < (parseAll s).length := by
        cases hx : (parseAll s)[i]? with
        | none => rw [hx] at hi; cases hi
        | some x => exact (List.getElem?_eq_some_iff.1 hx).1
      rw [hb, List.getElem?_append_left (by simpa using hlt), List.getElem?_map, hi]
    have h2 := ih (first + (parseAll s).length) fun i b hi => by
      rw [Nat.add_assoc]
      refine h _ b ?_
      rw [hb, List.getElem?_append_right (by simp)]
      simpa using hi
    rw [chapters, h1, h2, List.mapM_cons]
    show _ = (chapter process s).bind fun a => ((r.mapM (chapter process)).bind fun as => some (a :: as))
    unfold chapter
    cases (Chapter.replacements process s).bind (rewrite s) with
    | none => rfl
    | some t => cases List.mapM (fun s => (Chapter.replacements process s).bind (rewrite s)) r <;> rfl

theorem mapM_none {α β : Type} {f : α → Option β} {l : List α} {x : α} (hx : x ∈ l) (h : f x = none) : l.mapM f = none := by
  induction l with
  | nil => cases hx
  | cons t r ih =>
    rw [List.mapM_cons]
    show (f t).bind (fun a => (r.mapM f).bind fun as => some (a :: as)) = none
    rcases List.mem_cons.1 hx with rfl | hs
    · rw [h]; rfl
    · rw [ih hs]; cases f t <;> rfl

/-! ## The file -/

theorem step_file (w : World) (hash : Hasher) (blocks : List Block) (s : State) (i : Nat) :
    (step w hash blocks s i).cache.file = s.cache.file := by
  unfold step
  split
  · rfl
  · dsimp only
    split
    · split <;> rfl
    · split <;> rfl
    · rfl
    · rfl

theorem exec_file (w : World) (hash : Hasher) (blocks : List Block) (sched : List Nat) (s : State) :
    (exec w hash blocks s sched).cache.file = s.cache.file := by
  induction sched generalizing s with
  | nil => rfl
  | cons i is ih =>
    show (exec w hash blocks (step w hash blocks s i) is).cache.file = _
    rw [ih, step_file]

variable {w w' : World} {hash : Hasher} {codec : Codec Responses} {element element' : Html → Text} {book book' : List Text}
  {data : List UInt8} {pos pos' : Nat} {sched sched' : List Nat} {chunks chunks' : List (List UInt8)}

/-- **C122 (failure).** A build that ends with an error, at whatever moment, leaves the file as it was: nothing of what the
analyser has answered until then is kept. -/
theorem C122_failed_keeps {f : File} (h : build w hash codec element book data pos sched chunks = .failed f) :
    f = ⟨data, pos⟩ := by
  unfold build at h
  dsimp only at h
  rw [exec_file] at h
  split at h
  · exact (Stage.failed.inj h).symm
  · split at h
    · split at h
      · exact (Stage.failed.inj h).symm
      · cases h
    · cases h

/-! ## One build -/

/-- **C122 (exact).** When all tasks have ended, in whatever order they acted, the build has ended.  It succeeds exactly if every
chapter can be made on its own, with the entries that were in the file at the start; then these chapters are handed on, in
order. -/
theorem C122_exact (hnc : NoCollision hash (blocksOf book)) (hfin : AllEnded w hash codec book data pos sched) :
    (∀ ts, book.mapM (chapter (one w hash (load codec data pos).map element)) = some ts →
      ∃ f, build w hash codec element book data pos sched chunks = .built ts f) ∧
    (book.mapM (chapter (one w hash (load codec data pos).map element)) = none →
      build w hash codec element book data pos sched chunks = .failed ⟨data, pos⟩) := by
  have hres : ∀ i b, (blocksOf book)[i]? = some b →
      (exec w hash (blocksOf book) (init (load codec data pos)) sched).pc i = .done (alone w hash (load codec data pos).map b) := by
    intro i b hb
    obtain ⟨r, hr⟩ := hfin i (List.getElem?_eq_some_iff.1 hb).1
    rw [hr, C11_result w hash _ _ hnc sched i b hb r hr]
  have hch := chapters_eq element (exec w hash (blocksOf book) (init (load codec data pos)) sched).pc
    (one w hash (load codec data pos).map element) book 0 fun i b hb => by
      rw [Nat.zero_add, hres i b hb]
      show (okOf (alone w hash (load codec data pos).map b)).map element = one w hash (load codec data pos).map element b
      unfold one
      cases alone w hash (load codec data pos).map b <;> rfl
  have hall : (List.range (blocksOf book).length).all
      (endedAt (exec w hash (blocksOf book) (init (load codec data pos)) sched).pc) = true := by
    rw [List.all_eq_true]
    intro i hi
    obtain ⟨r, hr⟩ := hfin i (List.mem_range.1 hi)
    simp [endedAt, hr, resultOf]
  -- a failed task makes its chapter fail
  have hany : (List.range (blocksOf book).length).any
      (failedAt (exec w hash (blocksOf book) (init (load codec data pos)) sched).pc) = true →
      book.mapM (chapter (one w hash (load codec data pos).map element)) = none := by
    intro h
    obtain ⟨i, hi, hf⟩ := List.any_eq_true.1 h
    have hi := List.mem_range.1 hi
    have hb := List.getElem?_eq_getElem hi
    have hn : one w hash (load codec data pos).map element (blocksOf book)[i] = none := by
      unfold failedAt at hf
      rw [hres i _ hb] at hf
      unfold one
      simp only [resultOf] at hf
      split at hf
      · rename_i e he; injection he with he; rw [he]
      · cases hf
    have hm : (blocksOf book)[i] ∈ blocksOf book := List.getElem_mem hi
    obtain ⟨s, hs, hx⟩ := List.mem_flatMap.1 hm
    obtain ⟨x, hx, he⟩ := List.mem_map.1 hx
    have hc : chapter (one w hash (load codec data pos).map element) s = none :=
      Chapter.C121_fails _ s (.inl ⟨x, hx, by rw [he]; exact hn⟩)
    exact mapM_none hs hc
  unfold build
  dsimp only
  rw [hch, hall, exec_file, show (init (load codec data pos)).cache.file = ⟨data, pos⟩ from rfl]
  constructor
  · intro ts hts
    rw [if_neg (fun h => by rw [hany h] at hts; cases hts), if_pos rfl, hts]
    exact ⟨_, rfl⟩
  · intro hn
    rw [hn]
    split <;> rfl

theorem build_built {ts : List Text} {f : File} (h : build w hash codec element book data pos sched chunks = .built ts f) :
    AllEnded w hash codec book data pos sched ∧
    f = ((exec w hash (blocksOf book) (init (load codec data pos)) sched).cache.save chunks).file := by
  unfold build at h
  dsimp only at h
  split at h
  · cases h
  · split at h
    · rename_i hall
      split at h
      · cases h
      · refine ⟨fun i hi => ?_, (Stage.built.inj h).2.symm⟩
        have := List.all_eq_true.1 hall i (List.mem_range.2 hi)
        unfold endedAt at this
        cases hp : (exec w hash (blocksOf book) (init (load codec data pos)) sched).pc i with
        | done r => exact ⟨r, rfl⟩
        | _ => rw [hp] at this; cases this
    · cases h

/-- The entries with which a build ends. -/
def endMap (w : World) (hash : Hasher) (codec : Codec Responses) (book : List Text) (data : List UInt8) (pos : Nat)
    (sched : List Nat) : HMap Responses :=
  (exec w hash (blocksOf book) (init (load codec data pos)) sched).cache.map

/-- The file after a build that succeeded has the entries with which it ended, if the bytes that were written, if any, encode
them. -/
theorem built_data (hnc : NoCollision hash (blocksOf book)) {ts : List Text} {f : File}
    (h : build w hash codec element book data pos sched chunks = .built ts f)
    (henc : codec.Encodes (endMap w hash codec book data pos sched) chunks.flatten) :
    (load codec f.data pos').map = endMap w hash codec book data pos sched ∧
    ((∀ b ∈ blocksOf book, (load codec data pos).map (hash (hashInput b)) ≠ none) → f.data = data) := by
  obtain ⟨-, rfl⟩ := build_built h
  have hI := inv_exec w hash (blocksOf book) (load codec data pos) hnc sched
  unfold endMap at henc ⊢
  unfold Cache.save
  cases hd : (exec w hash (blocksOf book) (init (load codec data pos)) sched).cache.dirty with
  | false =>
    rw [if_neg (by simp), hI.file, hI.same hd]
    exact ⟨rfl, fun _ => rfl⟩
  | true =>
    rw [if_pos rfl]
    dsimp only
    rw [Cache.save_data]
    constructor
    · have := Cache.loadMap_encoded codec henc
      exact this
    · intro hall
      rcases hI.dirty hd with h | ⟨b, hb, h⟩
      · cases h
      · exact absurd h (hall b hb)

/-- **C122 (success).** A build that hands on a book has made every chapter out of its own text.  The file has afterwards the
entries that it had before and the answers for the blocks that had none, and no others: what was answered once is never
dropped, also if its block is no longer in the book. -/
theorem C122_built (hnc : NoCollision hash (blocksOf book)) {ts : List Text} {f : File}
    (h : build w hash codec element book data pos sched chunks = .built ts f)
    (henc : codec.Encodes (endMap w hash codec book data pos sched) chunks.flatten) :
    book.mapM (chapter (one w hash (load codec data pos).map element)) = some ts ∧
    ∀ k r, (load codec f.data pos').map k = some r ↔
      (load codec data pos).map k = some r ∨
      ((load codec data pos).map k = none ∧ ∃ b ∈ blocksOf book, hash (hashInput b) = k ∧ runAquascope w b = .ok r) := by
  have hfin := (build_built h).1
  constructor
  · obtain ⟨h1, h2⟩ := C122_exact (element := element) (chunks := chunks) hnc hfin
    cases hm : book.mapM (chapter (one w hash (load codec data pos).map element)) with
    | none => rw [h2 hm] at h; cases h
    | some ts' =>
      obtain ⟨f', h'⟩ := h1 ts' hm
      rw [h'] at h
      rw [(Stage.built.inj h).1]
  · intro k r
    rw [(built_data hnc h henc).1]
    exact C11_cache w hash (blocksOf book) (load codec data pos) hnc sched hfin k r

/-- Every block of the second book has the same program, operations and options as some block of the first. -/
def Covers (book book' : List Text) : Prop :=
  ∀ b' ∈ blocksOf book', ∃ b ∈ blocksOf book, hashInput b = hashInput b'

/-- Every block of a book that was built can be rendered alone. -/
theorem built_alone (hnc : NoCollision hash (blocksOf book)) {ts : List Text} {f : File}
    (h : build w hash codec element book data pos sched chunks = .built ts f) :
    ∀ b ∈ blocksOf book, ∃ x, alone w hash (load codec data pos).map b = .ok x := by
  intro b hb
  have hfin := (build_built h).1
  obtain ⟨s, hs, hx⟩ := List.mem_flatMap.1 hb
  obtain ⟨x, hx, he⟩ := List.mem_map.1 hx
  cases ha : alone w hash (load codec data pos).map b with
  | ok y => exact ⟨y, rfl⟩
  | error e =>
    have hc : chapter (one w hash (load codec data pos).map element) s = none :=
      Chapter.C121_fails _ s (.inl ⟨x, hx, by rw [he]; unfold one; rw [ha]⟩)
    rw [(C122_exact (element := element) (chunks := chunks) hnc hfin).2 (mapM_none hs hc)] at h
    cases h

/-- **C122 (next build).** After a build that succeeded, a book with the same blocks, or some of them, in whatever other text,
is built without the analyser: no task ever gets to the point where it would run it, whatever it would answer now; each block
shows the answers of the first build; and the file stays as it is. -/
theorem C122_again (hnc : NoCollision hash (blocksOf book ++ blocksOf book')) {ts : List Text} {f : File}
    (h : build w hash codec element book data pos sched chunks = .built ts f)
    (henc : codec.Encodes (endMap w hash codec book data pos sched) chunks.flatten) (hcov : Covers book book') :
    (∀ i < (blocksOf book').length,
      (exec w' hash (blocksOf book') (init (load codec f.data pos')) sched').pc i = .start ∨
      ∃ x, (exec w' hash (blocksOf book') (init (load codec f.data pos')) sched').pc i = .done (.ok x)) ∧
    (∀ b ∈ blocksOf book', one w' hash (load codec f.data pos').map element' b = one w hash (load codec data pos).map element' b) ∧
    (∀ b ∈ blocksOf book', one w' hash (load codec f.data pos').map element' b ≠ none) ∧
    dataAfter f.data (build w' hash codec element' book' f.data pos' sched' chunks') = f.data := by
  have hnc1 : NoCollision hash (blocksOf book) := fun b hb b' hb' =>
    hnc b (List.mem_append_left _ hb) b' (List.mem_append_left _ hb')
  have hnc2 : NoCollision hash (blocksOf book') := fun b hb b' hb' =>
    hnc b (List.mem_append_right _ hb) b' (List.mem_append_right _ hb')
  have hm := (C122_built (pos' := pos') hnc1 h henc).2
  have hok := built_alone hnc1 h
  -- every block of the second book has an entry
  have hentry : ∀ b' ∈ blocksOf book', ∃ r, (load codec f.data pos').map (hash (hashInput b')) = some r ∧
      alone w hash (load codec data pos).map b' = .ok (render b' r) := by
    intro b' hb'
    obtain ⟨b, hb, he⟩ := hcov b' hb'
    obtain ⟨x, hx⟩ := hok b hb
    unfold alone at hx
    cases hl : (load codec data pos).map (hash (hashInput b)) with
    | some r =>
      refine ⟨r, (hm _ _).2 (.inl (by rw [← he]; exact hl)), ?_⟩
      unfold alone
      rw [← he, hl]
    | none =>
      rw [hl] at hx
      cases hr : runAquascope w b with
      | error e => rw [hr] at hx; cases hx
      | ok r =>
        refine ⟨r, (hm _ _).2 (.inr ⟨by rw [← he]; exact hl, b, hb, by rw [he], hr⟩), ?_⟩
        unfold alone
        rw [← he, hl, runAquascope_congr w he.symm, hr]
        rfl
  have hsome : ∀ b' ∈ blocksOf book', ((load codec f.data pos').get (hash ∘ hashInput) b').isSome = true := by
    intro b' hb'
    obtain ⟨r, hr, -⟩ := hentry b' hb'
    simp [Cache.get, Function.comp, hr]
  have h10 := C10_no_new_block w' hash (blocksOf book') (load codec f.data pos') rfl hsome hnc2 sched'
  have hone : ∀ b ∈ blocksOf book', one w' hash (load codec f.data pos').map element' b =
      one w hash (load codec data pos).map element' b ∧ one w hash (load codec data pos).map element' b ≠ none := by
    intro b hb
    obtain ⟨r, hr, ha⟩ := hentry b hb
    unfold one
    rw [ha]
    simp [alone, hr]
  refine ⟨(h10 []).2.2, fun b hb => (hone b hb).1, fun b hb => by rw [(hone b hb).1]; exact (hone b hb).2, ?_⟩
  cases hb : build w' hash codec element' book' f.data pos' sched' chunks' with
  | running => rfl
  | failed g => rw [C122_failed_keeps hb]; rfl
  | built ts' g =>
    obtain ⟨-, rfl⟩ := build_built hb
    show (Cache.save _ chunks').file.data = _
    rw [(h10 chunks').1]
    rfl

/-- A sequence of builds of the same book, each with its own analyser, order of tasks and bytes to write; a build may be
stopped. -/
def builds (hash : Hasher) (codec : Codec Responses) (book : List Text) :
    List (World × (Html → Text) × Nat × List Nat × List (List UInt8)) → List UInt8 → List UInt8
  | [], data => data
  | (w, element, pos, sched, chunks) :: r, data =>
    builds hash codec book r (dataAfter data (build w hash codec element book data pos sched chunks))

/-- **C122, violated (answers are lost).** As long as one block of the book cannot be analysed, nothing that the analyser answers
for the others is ever kept: after any number of builds the file is what it was, so that each of them asks again for
everything. -/
theorem C122_forgotten (hnc : NoCollision hash (blocksOf book)) {b : Block} (hb : b ∈ blocksOf book)
    (runs : List (World × (Html → Text) × Nat × List Nat × List (List UInt8)))
    (hfail : ∀ x ∈ runs, ∃ e, runAquascope x.1 b = .error e)
    (hmiss : (load codec data 0).map (hash (hashInput b)) = none) :
    builds hash codec book runs data = data := by
  induction runs with
  | nil => rfl
  | cons x r ih =>
    obtain ⟨w, element, pos, sched, chunks⟩ := x
    have hkeep : dataAfter data (build w hash codec element book data pos sched chunks) = data := by
      cases hx : build w hash codec element book data pos sched chunks with
      | running => rfl
      | failed f => rw [C122_failed_keeps hx]; rfl
      | built ts f =>
        obtain ⟨e, he⟩ := hfail _ List.mem_cons_self
        obtain ⟨y, hy⟩ := built_alone hnc hx b hb
        unfold alone at hy
        rw [show (load codec data pos).map (hash (hashInput b)) = none from hmiss, he] at hy
        cases hy
    show builds hash codec book r (dataAfter data (build w hash codec element book data pos sched chunks)) = data
    rw [hkeep]
    exact ih fun x hx => hfail x (List.mem_cons_of_mem _ hx)

end Verif.Book
