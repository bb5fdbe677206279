import Verif.Cache.Model
/-!
# Specification of the cache: a map from blocks to responses, and what is on disk
-/
namespace Verif.Cache.Spec
open Verif.Cache

/-- What a user of the cache may do.  `reload` is the start of a new build. -/
inductive Op (K V : Type)
  | get (k : K)
  | set (k : K) (v : V)
  | save (chunks : List (List UInt8))
  | reload (pos : Nat)

/-- The abstract state: the entries known now, and the entries that survive a restart. -/
structure State (K V : Type) where
  now : K → Option V
  disk : K → Option V

/-- The abstract meaning of an operation; `get` answers with the current entry. -/
def step {K V} [DecidableEq K] (s : State K V) : Op K V → State K V × Option V
  | .get k => (s, s.now k)
  | .set k v => ({ s with now := fun k' => if k' = k then some v else s.now k' }, none)
  | .save _ => ({ s with disk := s.now }, none)
  | .reload _ => ({ s with now := s.disk }, none)

/-- Answers of a whole history. -/
def run {K V} [DecidableEq K] (s : State K V) : List (Op K V) → List (Option V)
  | [] => []
  | o :: os => let r := step s o; r.2 :: run r.1 os

/-- Final state of a history. -/
def final {K V} [DecidableEq K] (s : State K V) : List (Op K V) → State K V
  | [] => s
  | o :: os => final (step s o).1 os

/-- The start: nothing stored. -/
def empty {K V} : State K V := ⟨fun _ => none, fun _ => none⟩

end Verif.Cache.Spec
