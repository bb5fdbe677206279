import Verif.Preproc.Model
/-!
# Specification of the preprocessor
-/
namespace Verif.Preproc.Spec
open Verif.Block Verif.Cache Verif.Preproc

/-- An object with the given key. -/
def HasKey (k : List Char) (j : Json) : Prop :=
  ∃ fs v, j = .obj fs ∧ fs.lookup k = some v

/-- The answers that count as errors: an object `{"Err": ..}`, a list with such an object, or an
object `{"type": "BuildError", ..}`. -/
inductive ErrorAnswer : Json → Prop
  | obj {j} : HasKey kErr j → ErrorAnswer j
  | arr {xs j} : j ∈ xs → HasKey kErr j → ErrorAnswer (.arr xs)
  | build {fs} : fs.lookup kType = some (.str kBuildError) → ErrorAnswer (.obj fs)

/-- The analyser answered operation `op` of block `b` with `j`, and it is not an error. -/
def Answered (w : World) (b : Block) (op : List Char) (j : Json) : Prop :=
  w.exec b.code (args b op) = .finished true (some j) ∧ ¬ ErrorAnswer j

/-- The environment allows running the analyser at all. -/
def Ready (w : World) : Prop :=
  w.tempdirOk = true ∧ w.cargoNewSpawned = true ∧ w.cargoNewOk = true ∧ w.writeOk = true

/-- What a block rendered alone gives, starting with the entries in `m`: the stored answers if there
are any, and otherwise those of the analyser. -/
def alone (w : World) (hash : Hasher) (m : HMap Responses) (b : Block) : Except RunError Html :=
  match m (hash (hashInput b)) with
  | some r => .ok (render b r)
  | none => (runAquascope w b).map (render b)

/-- Different hash inputs among these blocks have different hashes. -/
def NoCollision (hash : Hasher) (blocks : List Block) : Prop :=
  ∀ b ∈ blocks, ∀ b' ∈ blocks, hash (hashInput b) = hash (hashInput b') → hashInput b = hashInput b'

end Verif.Preproc.Spec
