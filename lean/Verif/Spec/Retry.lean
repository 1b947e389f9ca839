import Verif.Spec.Heap

/-!
# Specification: doing it again

A statement that has run out of memory is executed again, as it stands, until there is enough.
-/

set_option autoImplicit false

namespace Meojson.Stores
open Mem

/-- `while (true) try { <statement> break; } catch (const std::bad_alloc&) {}`: one pattern of failing allocations for each attempt, and none in the last. -/
def retry : List (Addr → Bool) → State → Op → Fin
  | [], st, op => step (fun _ => false) st op
  | oom :: rest, st, op =>
    match step oom st op with
    | .thrown st' => retry rest st' op
    | r => r

/-- A null or empty value that is to be used as a container is one of this kind already. -/
def Prepared (σ : Store) (op : Op) : Prop := ∀ p t v, container op = some (p, t) → σ.get p = some v → Hollowable v → v.type = t

/-- A part of `d` that is to be copied to `d` has the same type. -/
def SameKind (σ : Store) (d s : Place) : Prop := Inside s d → ∀ w v, σ.get d = some w → σ.get s = some v → w.type = v.type

/-- Statements that can be executed again. -/
def Repeatable (σ : Store) (op : Op) : Prop :=
  Prepared σ op ∧
  match op with
  | .copyAssign d s => SameKind σ d s
  | .emplaceKey p k s => SameKind σ ⟨p.x, p.path ++ [.key k]⟩ s
  | .mergeMove _ _ _ => False
  | _ => True

/-- Statements that have done nothing at all when they run out of memory. -/
def AllOrNothing (σ : Store) (op : Op) : Prop :=
  Prepared σ op ∧
  match op with
  | .copyAssign d s => ∀ w v, σ.get d = some w → σ.get s = some v → w.type = v.type
  | .emplaceKey p k s => ∀ w v, σ.get ⟨p.x, p.path ++ [.key k]⟩ = some w → σ.get s = some v → w.type = v.type
  | .merge p s => p = s
  | .mergeMove _ _ _ => False
  | _ => True

end Meojson.Stores
