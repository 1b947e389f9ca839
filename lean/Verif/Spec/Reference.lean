import Verif.Spec.Heap

/-!
# Specification: which references stay valid

A reference to a value is expected to stay valid as long as the value that it designates is there: nothing that happens elsewhere disturbs it, references below a value
that is moved go with it, and members of objects stay where they are. Elements of an array that grows, or in which an earlier element is erased, change their place, but
what they contain does not.
-/

set_option autoImplicit false

namespace Meojson.Stores
open Mem

/-- The value that a path leads to from a place. -/
def Place.below (p : Place) (path : List Sel) : Place := ⟨p.x, p.path ++ path⟩

/-- `q` is an element of the array at `p`. -/
def ElementOf (q p : Place) : Prop := ∃ i, q = Place.below p [.pos i]

/-- `Stays σ op q q'`: a reference to the value at `q` should designate the value at `q'` after the statement. -/
inductive Stays (σ : Store) : Op → Place → Place → Prop
  | init {x v q} : Stays σ (.init x v) q q
  | copyInit {x s q} : Stays σ (.copyInit x s) q q
  | moveInit {x s junk q} : ¬ Inside q s → Stays σ (.moveInit x s junk) q q
  | moveInitBelow {x s junk path} : path ≠ [] → Stays σ (.moveInit x s junk) (Place.below s path) ⟨x, path⟩
  | copyAssign {d s q} : ¬ Inside q d → Stays σ (.copyAssign d s) q q
  | assign {d v q} : ¬ Inside q d → Stays σ (.assign d v) q q
  | moveAssign {d s junk q} : ¬ Inside q d → ¬ Inside q s → Stays σ (.moveAssign d s junk) q q
  | moveAssignBelow {d s junk path} : path ≠ [] → Stays σ (.moveAssign d s junk) (Place.below s path) (Place.below d path)
  | index {p k q} : Stays σ (.index p k) q q
  | emplaceBack {p s q} : ¬ ElementOf q p → Stays σ (.emplaceBack p s) q q
  | emplaceKey {p k s q} : ¬ Inside q (Place.below p [.key k]) → Stays σ (.emplaceKey p k s) q q
  | erasePos {p i q} : (∀ j, i ≤ j → ¬ Within q (Place.below p [.pos j])) → Stays σ (.erasePos p i) q q
  | erasePosBelow {p i j path} : i ≤ j → path ≠ [] → Stays σ (.erasePos p i) (Place.below p (.pos (j + 1) :: path)) (Place.below p (.pos j :: path))
  | eraseKey {p k q} : ¬ Within q (Place.below p [.key k]) → Stays σ (.eraseKey p k) q q
  | append {p s q} : ¬ ElementOf q p → Stays σ (.append p s) q q
  | merge {p s ws q} : σ.get s = some (.obj .object ws) → (∀ w ∈ ws, ¬ Inside q (Place.below p [.key w.1])) → Stays σ (.merge p s) q q
  | asArray {p q} : Stays σ (.asArray p) q q
  | asObject {p q} : Stays σ (.asObject p) q q
  | emplaceBackMove {p s junk q} : ¬ ElementOf q p → ¬ Inside q s → Stays σ (.emplaceBackMove p s junk) q q
  | emplaceBackMoveBelow {p s junk u vs path} : σ.get p = some u → Elems u vs → path ≠ [] →
      Stays σ (.emplaceBackMove p s junk) (Place.below s path) (Place.below p (.pos vs.length :: path))
  | emplaceKeyMove {p k s junk q} : ¬ Inside q s → ¬ Inside q (Place.below p [.key k]) → Stays σ (.emplaceKeyMove p k s junk) q q
  | emplaceKeyMoveBelow {p k s junk path} : path ≠ [] → Stays σ (.emplaceKeyMove p k s junk) (Place.below s path) (Place.below p (.key k :: path))
  | appendMove {p s junk q} : ¬ ElementOf q p → (∀ j, ¬ Inside q (Place.below s [.pos j])) → Stays σ (.appendMove p s junk) q q
  | appendMoveBelow {p s junk u vs j path} : σ.get p = some u → Elems u vs → path ≠ [] →
      Stays σ (.appendMove p s junk) (Place.below s (.pos j :: path)) (Place.below p (.pos (vs.length + j) :: path))
  | mergeMove {p s junk ws q} : σ.get s = some (.obj .object ws) → (∀ w ∈ ws, ¬ Inside q (Place.below p [.key w.1]) ∧ ¬ Inside q (Place.below s [.key w.1])) →
      Stays σ (.mergeMove p s junk) q q
  | mergeMoveBelow {p s junk k path} : path ≠ [] → Stays σ (.mergeMove p s junk) (Place.below s (.key k :: path)) (Place.below p (.key k :: path))
  | drop {x q} : q.x ≠ x → Stays σ (.drop x) q q

/-- The same along a history that leads from `σ` to `σ'`. -/
inductive StaysAll : Store → List Op → Store → Place → Place → Prop
  | nil {σ q} : StaysAll σ [] σ q q
  | cons {σ op σ' ops σ'' q q' q''} : Step σ op σ' → Stays σ op q q' → (σ'.get q').isSome → StaysAll σ' ops σ'' q' q'' → StaysAll σ (op :: ops) σ'' q q''
  | refused {σ op ops σ' q q'} : Refused σ op → StaysAll σ ops σ' q q' → StaysAll σ (op :: ops) σ' q q'

end Meojson.Stores
