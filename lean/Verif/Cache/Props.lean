import Verif.Cache.Spec
/-!
# Properties C08, C09: the result cache
-/
namespace Verif.Cache
open Spec

variable {K V : Type}

/-- One operation on the concrete cache, with its answer. `save` is given the chunks the encoder
emits. -/
def stepC (c : Codec V) (hash : K → UInt64) (s : Cache V) : Op K V → Cache V × Option V
  | .get k => (s, s.get hash k)
  | .set k v => (s.set hash k v, none)
  | .save chunks => (s.save chunks, none)
  | .reload pos => (load c s.file.data pos, none)

/-- Answers of a history on the concrete cache. -/
def runC (c : Codec V) (hash : K → UInt64) (s : Cache V) : List (Op K V) → List (Option V)
  | [] => []
  | o :: os => let r := stepC c hash s o; r.2 :: runC c hash r.1 os

/-- Final state of a history on the concrete cache. -/
def finalC (c : Codec V) (hash : K → UInt64) (s : Cache V) : List (Op K V) → Cache V
  | [] => s
  | o :: os => finalC c hash (stepC c hash s o).1 os

/-- In a history that starts in `s`, every `save` of a dirty cache emits an encoding of the map. -/
def Encoded (c : Codec V) (hash : K → UInt64) (s : Cache V) : List (Op K V) → Prop
  | [] => True
  | o :: os =>
    (match o with
     | .save chunks => s.dirty = true → c.Encodes s.map chunks.flatten
     | _ => True) ∧ Encoded c hash (stepC c hash s o).1 os

/-- Keys of an operation. -/
def Spec.Op.key : Op K V → Option K
  | .get k => some k
  | .set k _ => some k
  | _ => none

theorem write_chunks (chunks : List (List UInt8)) (d : List UInt8) :
    (chunks.map FsOp.write).foldl FsOp.run { data := d, pos := d.length } =
      { data := d ++ chunks.flatten, pos := (d ++ chunks.flatten).length } := by
  induction chunks generalizing d with
  | nil => simp
  | cons x xs ih =>
    simp only [List.map_cons, List.foldl_cons, List.flatten_cons]
    have : FsOp.run { data := d, pos := d.length } (.write x)
        = { data := d ++ x, pos := (d ++ x).length } := by
      simp [FsOp.run]
    rw [this, ih]
    simp

theorem start_ops (f : File) :
    [FsOp.setLen 0, FsOp.rewind].foldl FsOp.run f = { data := [], pos := 0 } := by
  simp [FsOp.run]

/-- `save` replaces the file contents by the encoder output, wherever the cursor was. -/
theorem save_data (f : File) (chunks : List (List UInt8)) :
    ((saveOps chunks).foldl FsOp.run f).data = chunks.flatten := by
  rw [saveOps, List.foldl_append, start_ops]
  have := write_chunks chunks []
  simp only [List.length_nil, List.nil_append] at this
  rw [this]

/-- What a file with these contents gives when loaded. -/
def loadMap (c : Codec V) (data : List UInt8) : HMap V := (load c data 0).map

theorem loadMap_encoded (c : Codec V) {m bs} (h : c.Encodes m bs) : loadMap c bs = m := by
  have hne := c.encode_ne m bs h
  simp [loadMap, load, c.decode_encode m bs h, hne]

/-- Abstraction relation: on the keys of interest the concrete cache shows the abstract state. -/
structure Rel (c : Codec V) (hash : K → UInt64) (keys : K → Prop) (s : Cache V) (a : State K V) :
    Prop where
  now : ∀ k, keys k → s.map (hash k) = a.now k
  disk : ∀ k, keys k → loadMap c s.file.data (hash k) = a.disk k
  clean : s.dirty = false → s.map = loadMap c s.file.data

variable [DecidableEq K]

theorem step_rel (c : Codec V) (hash : K → UInt64) (keys : K → Prop)
    (hinj : ∀ k k', keys k → keys k' → hash k = hash k' → k = k')
    (s : Cache V) (a : State K V) (o : Op K V) (hk : ∀ k, o.key = some k → keys k)
    (he : Encoded c hash s [o]) (hr : Rel c hash keys s a) :
    Rel c hash keys (stepC c hash s o).1 (step a o).1 ∧ (stepC c hash s o).2 = (step a o).2 := by
  cases o with
  | get k => exact ⟨hr, hr.now k (hk k rfl)⟩
  | set k v =>
    refine ⟨⟨?_, hr.disk, by simp [stepC, Cache.set]⟩, rfl⟩
    intro k' hk'
    simp only [stepC, Cache.set, HMap.insert, step]
    by_cases h : k' = k
    · subst h; simp
    · have : hash k' ≠ hash k := fun e => h (hinj _ _ hk' (hk k rfl) e)
      simp [h, this, hr.now k' hk']
  | save chunks =>
    simp only [stepC, step, Cache.save]
    by_cases hd : s.dirty = true
    · have henc := he.1 hd
      rw [if_pos hd]
      refine ⟨⟨hr.now, ?_, ?_⟩, trivial⟩
      · intro k hk'
        simp only [save_data, loadMap_encoded c henc]
        exact hr.now k hk'
      · intro h; exact absurd hd (by simp at h; simp [h])
    · rw [if_neg hd]
      refine ⟨⟨hr.now, ?_, hr.clean⟩, trivial⟩
      intro k hk'
      have := hr.clean (by simpa using hd)
      rw [← this]; exact hr.now k hk'
  | reload pos =>
    refine ⟨⟨?_, hr.disk, fun _ => rfl⟩, rfl⟩
    exact hr.disk

/-- **C08.** For every history of lookups, stores, saves and restarts, started with an empty cache
file, every answer is the one the abstract map gives — the response stored last for that block, as
far as it was saved before the last restart — provided no two blocks of the history have the same
hash. -/
theorem C08_refines (c : Codec V) (hash : K → UInt64) (keys : K → Prop)
    (hinj : ∀ k k', keys k → keys k' → hash k = hash k' → k = k')
    (ops : List (Op K V)) (hk : ∀ o ∈ ops, ∀ k, o.key = some k → keys k)
    (he : Encoded c hash (load c [] 0) ops) :
    runC c hash (load c [] 0) ops = run Spec.empty ops := by
  have key : ∀ (ops : List (Op K V)) (s : Cache V) (a : State K V),
      (∀ o ∈ ops, ∀ k, o.key = some k → keys k) → Encoded c hash s ops →
      Rel c hash keys s a → runC c hash s ops = run a ops := by
    intro ops
    induction ops with
    | nil => intros; rfl
    | cons o os ih =>
      intro s a hk he hr
      obtain ⟨h1, h2⟩ := step_rel c hash keys hinj s a o (hk o (by simp)) ⟨he.1, trivial⟩ hr
      simp only [runC, run, h2]
      rw [ih _ _ (fun o' ho' => hk o' (by simp [ho'])) he.2 h1]
  refine key ops _ _ hk he ⟨?_, ?_, ?_⟩ <;> intros <;> rfl

omit [DecidableEq K] in
/-- **C08.** Direct reading: right after a block's response is stored, and as long as no other
response is stored for it, lookups return it, also across a save and a restart. -/
theorem C08_survives (c : Codec V) (hash : K → UInt64) (s : Cache V) (k : K) (v : V)
    (chunks : List (List UInt8)) (pos : Nat)
    (henc : c.Encodes (s.set hash k v).map chunks.flatten) :
    ((s.set hash k v).get hash k = some v) ∧
    (load c ((s.set hash k v).save chunks).file.data pos).get hash k = some v := by
  constructor
  · simp [Cache.get, Cache.set, HMap.insert]
  · have h1 : ((s.set hash k v).save chunks).file.data = chunks.flatten := by
      simp only [Cache.save, Cache.set, if_true]; exact save_data _ _
    have h2 := loadMap_encoded c henc
    simp only [loadMap, load] at h2
    simp only [h1, load, Cache.get]
    rw [h2]
    simp [Cache.set, HMap.insert]

/-! ## C09 -/

theorem prefix_chunks {bs : List UInt8} {chunks done : List (List UInt8)} {x : List UInt8} {rest}
    (h : chunks = done ++ x :: rest) {p} (hp : p <+: x) (hb : bs = chunks.flatten) :
    done.flatten ++ p <+: bs := by
  obtain ⟨q, rfl⟩ := hp
  exact ⟨q ++ rest.flatten, by rw [hb, h]; simp⟩

/-- The file contents at a crash are the old contents or a prefix of the new encoding. -/
theorem crashed_data (f : File) (chunks : List (List UInt8)) (d : List UInt8)
    (h : Crashed f (saveOps chunks) d) : d = f.data ∨ d <+: chunks.flatten := by
  have hsplit : ∀ done rest, saveOps chunks = done ++ rest →
      done = [] ∨ done = [.setLen 0] ∨
      ∃ ws ws', chunks = ws ++ ws' ∧ done = [.setLen 0, .rewind] ++ ws.map FsOp.write ∧
        rest = ws'.map FsOp.write := by
    intro done rest h
    match done, h with
    | [], _ => exact .inl rfl
    | [a], h => simp [saveOps] at h; exact .inr (.inl (by rw [← h.1]))
    | a :: b :: t, h =>
      simp only [saveOps, List.cons_append, List.nil_append, List.cons.injEq] at h
      obtain ⟨rfl, rfl, h⟩ := h
      obtain ⟨ws, ws', h1, h2, h3⟩ := List.map_eq_append_iff.1 h
      exact .inr (.inr ⟨ws, ws', h1, by simp [h2], h3.symm⟩)
  have hw : ∀ ws : List (List UInt8), ([FsOp.setLen 0, .rewind] ++ ws.map FsOp.write).foldl FsOp.run f =
      { data := ws.flatten, pos := ws.flatten.length } := by
    intro ws
    rw [List.foldl_append, start_ops]
    have := write_chunks ws []
    simpa using this
  cases h with
  | between done rest h =>
    rcases hsplit done rest h with rfl | rfl | ⟨ws, ws', h1, rfl, -⟩
    · exact .inl rfl
    · exact .inr (by simp [FsOp.run])
    · rw [hw]
      exact .inr ⟨ws'.flatten, by simp [h1]⟩
  | during done rest bs part h hp =>
    rcases hsplit done _ h with rfl | rfl | ⟨ws, ws', h1, rfl, h2⟩
    · simp [saveOps] at h
    · simp [saveOps] at h
    · rw [hw]
      cases ws' with
      | nil => simp at h2
      | cons w ws' =>
        simp only [List.map_cons, List.cons.injEq, FsOp.write.injEq] at h2
        obtain ⟨rfl, -⟩ := h2
        refine .inr ?_
        have := prefix_chunks h1 hp rfl
        simp only [FsOp.run, List.take_length, Nat.sub_self, List.replicate_zero, List.append_nil]
        rw [List.drop_eq_nil_of_le (by omega), List.append_nil]
        exact this

/-- **C09.** Whatever is left in the file when the process stops during `save` — after any system
call, or in the middle of a write — the next start loads without failing either exactly the old
contents, or exactly the new entries, or an empty cache. -/
theorem C09_crash (c : Codec V) (s : Cache V) (chunks : List (List UInt8)) (d : List UInt8) (pos : Nat)
    (henc : c.Encodes s.map chunks.flatten) (h : Crashed s.file (saveOps chunks) d) :
    d = s.file.data ∨ (load c d pos).map = s.map ∨ (load c d pos).map = fun _ => none := by
  rcases crashed_data s.file chunks d h with h | h
  · exact .inl h
  · refine .inr ?_
    by_cases hd : d.length = 0
    · right; simp [load, hd]
    · rcases c.decode_prefix s.map _ d henc h with h' | h'
      · right; simp [load, h']
      · left; simp [load, hd, h']

omit [DecidableEq K] in
/-- **C09.** In terms of lookups: after the crash each block is answered as before the build, as the
new cache would, or not at all — never with another response. -/
theorem C09_lookup (c : Codec V) (hash : K → UInt64) (s : Cache V) (chunks : List (List UInt8))
    (d : List UInt8) (pos : Nat) (henc : c.Encodes s.map chunks.flatten)
    (h : Crashed s.file (saveOps chunks) d) (k : K) (v : V)
    (hv : (load c d pos).get hash k = some v) :
    (load c s.file.data pos).get hash k = some v ∨ s.get hash k = some v := by
  rcases C09_crash c s chunks d pos henc h with rfl | h' | h'
  · exact .inl hv
  · right; simp only [Cache.get, h'] at hv; exact hv
  · simp [Cache.get, h'] at hv

/-! ## Non-vacuity -/

/-- A concrete codec for the entry of key 0: a length-prefixed byte. -/
def toyCodec : Codec UInt8 where
  Encodes m bs := (∀ k, k ≠ 0 → m k = none) ∧
    ((m 0 = none ∧ bs = [0]) ∨ ∃ v, m 0 = some v ∧ bs = [1, v])
  decode bs := match bs with
    | [0] => some fun _ => none
    | [1, v] => some fun k => if k = 0 then some v else none
    | _ => none
  decode_encode := by
    rintro m bs ⟨h, ⟨h0, rfl⟩ | ⟨v, hv, rfl⟩⟩
    · simp only [Option.some.injEq]
      funext k
      by_cases hk : k = 0
      · rw [hk, h0]
      · rw [h k hk]
    · simp only [Option.some.injEq]
      funext k
      by_cases hk : k = 0
      · simp [hk, hv]
      · simp [hk, h k hk]
  decode_prefix := by
    rintro m bs p ⟨h, ⟨h0, rfl⟩ | ⟨v, hv, rfl⟩⟩ hp
    · match p, hp with
      | [], _ => exact .inl rfl
      | [a], hp =>
        have : a = 0 := by simpa using hp
        subst this
        right; simp only [Option.some.injEq]; funext k
        by_cases hk : k = 0
        · rw [hk, h0]
        · rw [h k hk]
      | a :: b :: t, hp => have := hp.length_le; simp at this
    · match p, hp with
      | [], _ => exact .inl rfl
      | [a], hp =>
        have : a = 1 := by simpa using hp
        subst this; exact .inl rfl
      | [a, b], hp =>
        have : a = 1 ∧ b = v := by simpa using hp
        obtain ⟨rfl, rfl⟩ := this
        right; simp only [Option.some.injEq]; funext k
        by_cases hk : k = 0
        · simp [hk, hv]
        · simp [hk, h k hk]
      | a :: b :: c :: t, hp => have := hp.length_le; simp at this
  encode_ne := by
    rintro m bs ⟨-, ⟨-, rfl⟩ | ⟨v, -, rfl⟩⟩ <;> simp

/-- A history with a store, a save and a restart meets the hypotheses of `C08_refines`. -/
example : Encoded toyCodec (fun _ : Unit => 0) (load toyCodec [] 0)
    [.set () 7, .save [[1], [7]], .reload 2, .get ()] := by
  refine ⟨trivial, ?_, trivial, trivial, trivial⟩
  intro _
  refine ⟨fun k hk => ?_, .inr ⟨7, ?_, rfl⟩⟩
  · simp [stepC, Cache.set, HMap.insert, hk, load]
  · simp [stepC, Cache.set, HMap.insert]

/-- A crash in the middle of the second write. -/
example : Crashed { data := [9], pos := 1 } (saveOps [[1], [7, 8]]) [1, 7] :=
  .during [.setLen 0, .rewind, .write [1]] [] [7, 8] [7] rfl (by simp)

end Verif.Cache
