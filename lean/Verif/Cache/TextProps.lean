import Verif.Cache.Text
import Verif.Cache.Props
import Verif.Wire.Prefix
import Verif.Wire.PageProps
import Verif.Wire.Props
/-!
# The assumptions on the cache file, proved for JSON and UTF-8
-/
namespace Verif.Cache
open Verif.Preproc (Json)
open Verif.Wire (write read Valid notNum trimEnd)

/-! ## UTF-8 -/

theorem unutf8_utf8 (s : Text) : unutf8 (utf8 s) = some s := by
  have h := List.utf8Decode?_utf8Encode (l := s)
  unfold unutf8 utf8
  unfold List.utf8Encode at h
  rw [h]
  simp

theorem utf8_of_unutf8 {bs : List UInt8} {s : Text} (h : unutf8 bs = some s) : bs = utf8 s := by
  unfold unutf8 at h
  rw [Option.map_eq_some_iff] at h
  obtain ⟨a, h1, rfl⟩ := h
  have h2 := ByteArray.utf8Encode_get_utf8Decode? (b := bs.toByteArray) (h := by rw [h1]; rfl)
  simp only [h1, Option.get_some] at h2
  unfold List.utf8Encode at h2
  exact (List.toByteArray_inj.1 h2).symm

/-- No character's bytes begin another's. -/
theorem utf8_prefix : (s t : Text) → utf8 s <+: utf8 t → s <+: t
  | [], t, _ => List.nil_prefix
  | c :: s, [], h => by
    obtain ⟨q, hq⟩ := h
    have h1 := congrArg List.length hq
    have h2 := c.utf8Size_pos
    simp [utf8] at h1
    omega
  | c :: s, d :: t, h => by
    obtain ⟨q, hq⟩ := h
    simp only [utf8, List.flatMap_cons, List.append_assoc] at hq
    have h1 := ByteArray.utf8DecodeChar?_utf8EncodeChar_append (c := c) (b := (utf8 s ++ q).toByteArray)
    have h2 := ByteArray.utf8DecodeChar?_utf8EncodeChar_append (c := d) (b := (utf8 t).toByteArray)
    rw [← List.toByteArray_append] at h1 h2
    unfold utf8 at h1 h2
    rw [hq, h2] at h1
    injection h1 with h1
    subst h1
    obtain ⟨r, hr⟩ := utf8_prefix s t ⟨q, List.append_cancel_left hq⟩
    exact ⟨r, by rw [← hr]; rfl⟩

/-! ## Entries -/

theorem asKey_digits (k : UInt64) : asKey (Nat.toDigits 10 k.toNat) = some k := by
  have hlt : k.toNat < 18446744073709551616 := k.toNat_lt
  unfold asKey
  rw [Wire.digits_number, Wire.digits_all]
  simp [Nat.ofDigitChars_ten_toDigits, hlt]

theorem asEntries_json (l : Listing) : asEntries (entriesJson l) = some l := by
  simp only [asEntries, entriesJson]
  induction l with
  | nil => rfl
  | cons e l ih => rw [List.map_cons, List.mapM_cons, ih]; simp [asCacheEntry, asKey_digits]

theorem valid_entries (l : Listing) : Valid (entriesJson l) := by
  refine .obj fun f hf => ?_
  rw [List.mem_map] at hf
  obtain ⟨e, -, rfl⟩ := hf
  exact .str

/-- Without two entries for a key, the map gives the value of the entry. -/
theorem foldl_insert (l : Listing) (h : (l.map (·.1)).Nodup) (m : HMap Text) (k : UInt64) :
    (l.foldl (fun m e => m.insert e.1 e.2) m) k = ((l.find? fun e => e.1 == k).map (·.2)).or (m k) := by
  induction l generalizing m with
  | nil => rfl
  | cons e l ih =>
    simp only [List.map_cons, List.nodup_cons] at h
    rw [List.foldl_cons, ih h.2, List.find?_cons]
    by_cases hk : e.1 = k
    · have hn : l.find? (fun e => e.1 == k) = none := by
        rw [List.find?_eq_none]
        intro x hx hxk
        exact h.1 (List.mem_map.2 ⟨x, hx, by rw [hk]; simpa using hxk⟩)
      simp [hn, hk, HMap.insert]
    · have hk' : ¬ k = e.1 := fun h => hk h.symm
      have hb : (e.1 == k) = false := by simpa using hk
      simp [hb, hk', HMap.insert]

theorem toMap_eq {l : Listing} (h : (l.map (·.1)).Nodup) {m : HMap Text} (hm : ∀ k, m k = (l.find? fun e => e.1 == k).map (·.2)) :
    toMap l = m := by
  funext k
  rw [hm k, toMap, foldl_insert l h]
  simp

theorem readEntries_bytes {l : Listing} {t : Text} (h : read t = some (entriesJson l)) : readEntries (utf8 t, true) = some (toMap l) := by
  simp [readEntries, unutf8_utf8, h, asEntries_json]

/-! ## The three assumptions -/

theorem reads_written (g : Gzip) {m : HMap Text} {bs : List UInt8} (h : Writes g m bs) : reads g bs = some m := by
  obtain ⟨l, h1, h2, h3⟩ := h
  unfold reads
  rw [g.unzip_zip _ _ h3]
  unfold entriesBytes
  rw [readEntries_bytes (Wire.read_write_eq (valid_entries l)), toMap_eq h1 h2]

theorem reads_cut (g : Gzip) {m : HMap Text} {bs p : List UInt8} (h : Writes g m bs) (hp : p <+: bs) :
    reads g p = none ∨ reads g p = some m := by
  obtain ⟨l, h1, h2, h3⟩ := h
  have h4 := g.unzip_prefix _ _ _ h3 hp
  unfold reads
  cases hu : g.unzip p with
  | mk y b =>
    rw [hu] at h4
    dsimp only at h4
    cases b with
    | false => left; rfl
    | true =>
      cases ht : unutf8 y with
      | none => left; simp [readEntries, ht]
      | some t =>
        rw [utf8_of_unutf8 ht] at h4 ⊢
        have h5 := utf8_prefix _ _ h4
        by_cases he : t = write (entriesJson l)
        · right
          rw [he, readEntries_bytes (Wire.read_write_eq (valid_entries l)), toMap_eq h1 h2]
        · left
          simp [readEntries, unutf8_utf8, Wire.read_prefix (valid_entries l) (by trivial) h5 he]

/-- JSON and UTF-8 with gzip as the parameter of the model of the cache. -/
def fileCodec (g : Gzip) : Codec Text where
  Encodes := Writes g
  decode := reads g
  decode_encode _ _ h := reads_written g h
  decode_prefix _ _ _ h hp := reads_cut g h hp
  encode_ne _ _ h := by obtain ⟨l, -, -, h⟩ := h; exact g.zip_ne _ _ h

/-! ## The properties -/

/-- **C117.** The file that is written for the entries, in any order, is read as exactly these entries. -/
theorem C117_round_trip (g : Gzip) {m : HMap Text} {bs : List UInt8} (h : Writes g m bs) : reads g bs = some m := reads_written g h

/-- **C117.** Two different sets of entries never give the same file. -/
theorem C117_injective (g : Gzip) {m m' : HMap Text} {bs : List UInt8} (h : Writes g m bs) (h' : Writes g m' bs) : m = m' := by
  have h1 := reads_written g h
  rw [reads_written g h'] at h1
  exact (Option.some.inj h1).symm

/-- **C117.** Of a file that was cut off anywhere nothing is read, or everything: never some of the entries, and never an entry
with a part of its text. -/
theorem C117_cut (g : Gzip) {m : HMap Text} {bs p : List UInt8} (h : Writes g m bs) (hp : p <+: bs) :
    reads g p = none ∨ reads g p = some m := reads_cut g h hp

/-- **C117.** The text inside the file does not rely on the checksum of gzip: cut off anywhere it is no JSON. -/
theorem C117_cut_text (l : Listing) {t : Text} (ht : t <+: write (entriesJson l)) (hne : t ≠ write (entriesJson l)) : read t = none :=
  Wire.read_prefix (valid_entries l) (by trivial) ht hne

/-- **C117.** Whatever is in the file, an entry that is found is written there: a field of the object with the digits of the
key and the text as its value. -/
theorem C117_only (g : Gzip) {bs : List UInt8} {m : HMap Text} (h : reads g bs = some m) {k : UInt64} {v : Text} (hk : m k = some v) :
    ∃ t fs key, g.unzip bs = (utf8 t, true) ∧ read t = some (.obj fs) ∧ (key, .str v) ∈ fs ∧ asKey key = some k := by
  unfold reads readEntries at h
  cases hu : g.unzip bs with
  | mk y b =>
    rw [hu] at h
    cases b with
    | false => simp at h
    | true =>
      simp only [if_true, Option.map_eq_some_iff, Option.bind_eq_some_iff] at h
      obtain ⟨l, ⟨j, ⟨t, h1, h2⟩, h3⟩, rfl⟩ := h
      cases j with
      | obj fs =>
        simp only [asEntries] at h3
        have key : ∀ (l : Listing) (m : HMap Text), (l.foldl (fun m e => m.insert e.1 e.2) m) k = some v →
            (k, v) ∈ l ∨ m k = some v := by
          intro l
          induction l with
          | nil => intro m h; exact .inr h
          | cons e l ih =>
            intro m h
            rcases ih _ h with h | h
            · exact .inl (List.mem_cons_of_mem _ h)
            · simp only [HMap.insert] at h
              split at h
              · rename_i hk
                injection h with h
                left
                rw [show (k, v) = e from by rw [← h, hk]]
                exact List.mem_cons_self
              · exact .inr h
        rcases key l _ hk with hm | hm
        · have mem : ∀ (fs : List (Text × Json)) (l : Listing), fs.mapM asCacheEntry = some l → (k, v) ∈ l →
              ∃ f ∈ fs, asCacheEntry f = some (k, v) := by
            intro fs
            induction fs with
            | nil => intro l h hm; simp at h; subst h; simp at hm
            | cons f fs ih =>
              intro l h hm
              rw [List.mapM_cons] at h
              simp only [Option.pure_def, Option.bind_eq_bind, Option.bind_eq_some_iff, Option.some.injEq] at h
              obtain ⟨x, hx, l', hl', rfl⟩ := h
              rcases List.mem_cons.1 hm with hm | hm
              · exact ⟨f, List.mem_cons_self, by rw [hx, hm]⟩
              · obtain ⟨f', h1, h2⟩ := ih l' hl' hm
                exact ⟨f', List.mem_cons_of_mem _ h1, h2⟩
          obtain ⟨⟨kt, vj⟩, hf, he⟩ := mem fs l h3 hm
          unfold asCacheEntry at he
          split at he
          · rename_i k' v' e1 e2
            simp only [Option.some.injEq, Prod.mk.injEq] at he
            obtain ⟨rfl, rfl⟩ := he
            dsimp only at e1 e2
            subst e2
            exact ⟨t, fs, kt, by rw [utf8_of_unutf8 h1], h2, hf, e1⟩
          · cases he
        · cases hm
      | _ => simp [asEntries] at h3

variable {K : Type}

/-- **C117.** With the file as it is, every history of lookups, stores, saves and restarts gives the answers of the abstract
map (C08). -/
theorem C117_refines [DecidableEq K] (g : Gzip) (hash : K → UInt64) (keys : K → Prop)
    (hinj : ∀ k k', keys k → keys k' → hash k = hash k' → k = k')
    (ops : List (Spec.Op K Text)) (hk : ∀ o ∈ ops, ∀ k, Spec.Op.key o = some k → keys k)
    (he : Encoded (fileCodec g) hash (load (fileCodec g) [] 0) ops) :
    runC (fileCodec g) hash (load (fileCodec g) [] 0) ops = Spec.run Spec.empty ops :=
  C08_refines (fileCodec g) hash keys hinj ops hk he

/-- **C117.** The answers that were computed for a block in one build are the answers in the next: stored as text, written to
the file, read from it and parsed. -/
theorem C117_rebuild (g : Gzip) (hash : K → UInt64) (s : Cache Text) (k : K) {rs : List (Text × Json)} (hv : ∀ f ∈ rs, Valid f.2)
    (chunks : List (List UInt8)) (pos : Nat) (h : Writes g (s.set hash k (write (.obj rs))).map chunks.flatten) :
    ∃ v, (load (fileCodec g) ((s.set hash k (write (.obj rs))).save chunks).file.data pos).get hash k = some v ∧
      read (trimEnd v) = some (.obj rs) :=
  ⟨_, (C08_survives (fileCodec g) hash s k _ chunks pos h).2, Wire.C115_cached hv⟩

/-- **C117.** If the process stops while the file is written, the next build finds for a block what the file had before, what
was to be written, or nothing. -/
theorem C117_crash (g : Gzip) (hash : K → UInt64) (s : Cache Text) (chunks : List (List UInt8)) (d : List UInt8) (pos : Nat)
    (h : Writes g s.map chunks.flatten) (hc : Crashed s.file (saveOps chunks) d) (k : K) (v : Text)
    (hv : (load (fileCodec g) d pos).get hash k = some v) :
    (load (fileCodec g) s.file.data pos).get hash k = some v ∨ s.get hash k = some v :=
  C09_lookup (fileCodec g) hash s chunks d pos h hc k v hv

/-! ## Examples -/

/-- The file without compression, a byte before it. -/
def stored : Gzip where
  zip x z := z = 31 :: x
  unzip z := (z.drop 1, true)
  unzip_zip := by rintro x z rfl; rfl
  unzip_prefix := by
    rintro x z p rfl ⟨q, hq⟩
    cases p with
    | nil => exact List.nil_prefix
    | cons a p => injection hq with _ hq; exact ⟨q, hq⟩
  zip_ne := by rintro x z rfl; simp

/-- Two entries, one with letters that JSON and UTF-8 write with more than one byte. -/
def sampleListing : Listing := [(18446744073709551615, ['{', '"', 'é', '"', '}']), (7, ['\n'])]

example : write (entriesJson sampleListing) = ['{', '"', '1', '8', '4', '4', '6', '7', '4', '4', '0', '7', '3', '7', '0', '9', '5',
    '5', '1', '6', '1', '5', '"', ':', '"', '{', '\\', '"', 'é', '\\', '"', '}', '"', ',', '"', '7', '"', ':', '"', '\\', 'n', '"', '}'] := by
  decide +kernel

example : (entriesBytes sampleListing).length = 44 := by decide +kernel

example : Writes stored (toMap sampleListing) (31 :: entriesBytes sampleListing) :=
  ⟨sampleListing, by decide, fun k => by rw [toMap, foldl_insert _ (by decide)]; simp, rfl⟩

/-- Keys that are no `u64`. -/
example : asKey ['1', '8', '4', '4', '6', '7', '4', '4', '0', '7', '3', '7', '0', '9', '5', '5', '1', '6', '1', '6'] = none ∧
    asKey ['-', '1'] = none ∧ asKey [] = none ∧ asKey ['0', '1'] = none ∧ asKey ['1', '.', '0'] = none := by decide +kernel

end Verif.Cache
