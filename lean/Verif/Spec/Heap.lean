import Verif.Model.Heap
import Verif.Spec.WellFormed

/-!
# Specification: values as values

What a programmer expects of statements on values: a store of independent trees. Assigning to a place changes that place and nothing else.
-/

set_option autoImplicit false

namespace Meojson.Stores
open Mem

/-- The part of a value at a path. -/
def getAt : Value → List Sel → Option Value
  | v, [] => some v
  | v, s :: path =>
    match v, s with
    | .arr .array vs, .pos i => vs[i]?.bind (getAt · path)
    | .obj .object ms, .key k => (ms.lookup k).bind (getAt · path)
    | _, _ => none

/-- The value with the part at a path replaced. -/
def setAt : Value → List Sel → Value → Value
  | _, [], w => w
  | v, s :: path, w =>
    match v, s with
    | .arr t vs, .pos i => .arr t (vs.modify i (setAt · path w))
    | .obj t ms, .key k => .obj t (ms.map fun m => if m.1 = k then (m.1, setAt m.2 path w) else m)
    | v, _ => v

/-- Variables and their values. -/
def Store := Nat → Option Value

namespace Store
def empty : Store := fun _ => none
def put (σ : Store) (x : Nat) (v : Option Value) : Store := fun y => if y = x then v else σ y
/-- The value at a place. -/
def get (σ : Store) (p : Place) : Option Value := (σ p.x).bind (getAt · p.path)
/-- The store with the value at a place replaced. -/
def set (σ : Store) (p : Place) (w : Value) : Store := σ.put p.x ((σ p.x).map (setAt · p.path w))
end Store

/-- `p` lies inside `q` and is not `q`. -/
def Inside (p q : Place) : Prop := p.x = q.x ∧ q.path <+: p.path ∧ p.path ≠ q.path

mutual
/-- No null pointer at any depth: nothing inside was moved out. -/
def Whole : Value → Prop
  | .str _ _ => True
  | .arr _ vs => WholeAll vs
  | .obj _ ms => WholeMembers ms
  | _ => False
def WholeAll : List Value → Prop
  | [] => True
  | v :: vs => Whole v ∧ WholeAll vs
def WholeMembers : List (Bytes × Value) → Prop
  | [] => True
  | (_, v) :: ms => Whole v ∧ WholeMembers ms
end

mutual
/-- At every depth the tag fits the payload and keys ascend strictly. Null pointers (under the right tag) are allowed. -/
def Tagged : Value → Prop
  | .str t _ => t ≠ .array ∧ t ≠ .object
  | .arr t vs => t = .array ∧ TaggedAll vs
  | .arrNull t => t = .array
  | .obj t ms => t = .object ∧ ms.Pairwise (fun a b => a.1 < b.1) ∧ TaggedMembers ms
  | .objNull t => t = .object
def TaggedAll : List Value → Prop
  | [] => True
  | v :: vs => Tagged v ∧ TaggedAll vs
def TaggedMembers : List (Bytes × Value) → Prop
  | [] => True
  | (_, v) :: ms => Tagged v ∧ TaggedMembers ms
end

mutual
/-- Keys ascend strictly at every depth. The tags may be wrong. -/
def Keyed : Value → Prop
  | .arr _ vs => KeyedAll vs
  | .obj _ ms => ms.Pairwise (fun a b => a.1 < b.1) ∧ KeyedMembers ms
  | _ => True
def KeyedAll : List Value → Prop
  | [] => True
  | v :: vs => Keyed v ∧ KeyedAll vs
def KeyedMembers : List (Bytes × Value) → Prop
  | [] => True
  | (_, v) :: ms => Keyed v ∧ KeyedMembers ms
end

/-- What is left of a value that was moved from: the tag, and a null pointer or some text. -/
def hollow (junk : Bytes) : Value → Value
  | .str t _ => .str t junk
  | .arr t _ | .arrNull t => .arrNull t
  | .obj t _ | .objNull t => .objNull t

/-- What is left of the elements of an array and of the members of an object that were moved out of it. -/
def hollowElems (junk : Nat → Bytes) (vs : List Value) : List Value := vs.mapIdx fun i v => hollow (junk i) v
def hollowMembers (junk : Bytes → Bytes) (ms : List (Bytes × Value)) : List (Bytes × Value) := ms.map fun m => (m.1, hollow (junk m.1) m.2)

/-- The three kinds of payload. -/
def payloadKind : Value → Nat
  | .str .. => 0
  | .arr .. | .arrNull .. => 1
  | .obj .. | .objNull .. => 2

/-- Null, or an empty string, array or object. -/
inductive Hollowable : Value → Prop
  | null {s} : Hollowable (.str .null s)
  | string : Hollowable (.str .string [])
  | array : Hollowable (.arr .array [])
  | object : Hollowable (.obj .object [])

/-- The elements of a value used as an array. -/
def Elems (v : Value) (vs : List Value) : Prop := (Hollowable v ∧ vs = []) ∨ v = .arr .array vs
/-- The members of a value used as an object. -/
def Members (v : Value) (ms : List (Bytes × Value)) : Prop := (Hollowable v ∧ ms = []) ∨ v = .obj .object ms

/-- Members with `k` bound to `v`. -/
def putMember (k : Bytes) (v : Value) (ms : List (Bytes × Value)) : List (Bytes × Value) :=
  ms.filter (fun m => m.1 < k) ++ (k, v) :: ms.filter (fun m => k < m.1)

/-- Members with those of `ws` put in, one after the other. -/
def putMembers (ws ms : List (Bytes × Value)) : List (Bytes × Value) := ws.foldl (fun ms w => putMember w.1 w.2 ms) ms

/-- Two places, neither of which contains the other. -/
def Apart (p q : Place) : Prop := ¬ (p.x = q.x ∧ q.path <+: p.path) ∧ ¬ (p.x = q.x ∧ p.path <+: q.path)

/-- `p` is `q` or lies inside `q`. -/
def Within (p q : Place) : Prop := p.x = q.x ∧ q.path <+: p.path

/-- What a statement should do. Statements that read null pointers or go wrong because of aliasing (see the theorems) have no successor. -/
inductive Step : Store → Op → Store → Prop
  | init {σ : Store} {x v} : σ x = none → Tagged v → Step σ (.init x v) (σ.put x (some v))
  | copyInit {σ : Store} {x s v} : σ x = none → σ.get s = some v → Whole v → Step σ (.copyInit x s) (σ.put x (some v))
  | moveInit {σ : Store} {x s v junk} : σ x = none → σ.get s = some v →
      Step σ (.moveInit x s junk) ((σ.set s (hollow junk v)).put x (some v))
  | copyAssign {σ : Store} {d s w v} : σ.get d = some w → σ.get s = some v → Whole v → (Inside d s → w.type = v.type) →
      Step σ (.copyAssign d s) (σ.set d v)
  | assign {σ : Store} {d w v} : σ.get d = some w → Tagged v → Step σ (.assign d v) (σ.set d v)
  | moveAssign {σ : Store} {d s w v junk} : σ.get d = some w → σ.get s = some v → d ≠ s → ¬ Inside d s → ¬ Inside s d →
      Step σ (.moveAssign d s junk) ((σ.set s (hollow junk v)).set d v)
  | moveAssignPart {σ : Store} {d s w v junk} : σ.get d = some w → σ.get s = some v → Inside s d → payloadKind w = payloadKind v →
      Step σ (.moveAssign d s junk) (σ.set d v)
  | moveAssignSelf {σ : Store} {d v junk} : σ.get d = some v →
      Step σ (.moveAssign d d junk) (σ.set d (if payloadKind v = 0 then hollow junk v else v))
  | index {σ : Store} {p k v ms} : σ.get p = some v → Members v ms →
      Step σ (.index p k) (σ.set p (.obj .object (if (ms.lookup k).isSome then ms else putMember k .null ms)))
  | emplaceBack {σ : Store} {p s v vs w} : σ.get p = some v → Elems v vs → (σ.get s).isSome →
      (σ.set p (.arr .array vs)).get s = some w → Whole w →
      Step σ (.emplaceBack p s) (σ.set p (.arr .array (vs ++ [w])))
  | emplaceKey {σ : Store} {p k s v ms w} : σ.get p = some v → Members v ms → (σ.get s).isSome →
      (σ.set p (.obj .object ms)).get s = some w → Whole w →
      (∀ old, ms.lookup k = some old → Inside ⟨p.x, p.path ++ [.key k]⟩ s → old.type = w.type) →
      Step σ (.emplaceKey p k s) (σ.set p (.obj .object (putMember k w ms)))
  | erasePos {σ : Store} {p i v vs} : σ.get p = some v → Elems v vs → Step σ (.erasePos p i) (σ.set p (.arr .array (vs.eraseIdx i)))
  | eraseKey {σ : Store} {p k v ms} : σ.get p = some v → Members v ms →
      Step σ (.eraseKey p k) (σ.set p (.obj .object (ms.filter fun m => m.1 ≠ k)))
  | append {σ : Store} {p s v vs us ws} : σ.get p = some v → Elems v vs → σ.get s = some (.arr .array us) → p ≠ s →
      (σ.set p (.arr .array vs)).get s = some (.arr .array ws) → WholeAll ws → Step σ (.append p s) (σ.set p (.arr .array (vs ++ ws)))
  | merge {σ : Store} {p s v ms ws} : σ.get p = some v → Members v ms → σ.get s = some (.obj .object ws) → Apart p s → WholeMembers ws →
      Step σ (.merge p s) (σ.set p (.obj .object (putMembers ws ms)))
  | mergeSelf {σ : Store} {p ms} : σ.get p = some (.obj .object ms) → ms ≠ [] → WholeMembers ms → Step σ (.merge p p) σ
  | asArray {σ : Store} {p v vs} : σ.get p = some v → Elems v vs → Step σ (.asArray p) (σ.set p (.arr .array vs))
  | asObject {σ : Store} {p v ms} : σ.get p = some v → Members v ms → Step σ (.asObject p) (σ.set p (.obj .object ms))
  | emplaceBackMove {σ : Store} {p s u v vs w junk} : σ.get p = some u → σ.get s = some w → ¬ Within p s →
      (σ.set s (hollow junk w)).get p = some v → Elems v vs →
      Step σ (.emplaceBackMove p s junk) ((σ.set s (hollow junk w)).set p (.arr .array (vs ++ [w])))
  | emplaceKeyMove {σ : Store} {p k s u v ms w junk} : σ.get p = some u → σ.get s = some w → ¬ Within p s →
      (σ.set s (hollow junk w)).get p = some v → Members v ms → ms.lookup k = none →
      Step σ (.emplaceKeyMove p k s junk) ((σ.set s (hollow junk w)).set p (.obj .object (putMember k w ms)))
  | emplaceKeyMoveOld {σ σ' : Store} {p k s ms old junk} : σ.get p = some (.obj .object ms) → ms.lookup k = some old →
      Step σ (.moveAssign ⟨p.x, p.path ++ [.key k]⟩ s junk) σ' → Step σ (.emplaceKeyMove p k s junk) σ'
  | appendMove {σ : Store} {p s u v vs ws junk} : σ.get p = some u → σ.get s = some (.arr .array ws) → ¬ Within p s →
      (σ.set s (.arr .array (hollowElems junk ws))).get p = some v → Elems v vs →
      Step σ (.appendMove p s junk) ((σ.set s (.arr .array (hollowElems junk ws))).set p (.arr .array (vs ++ ws)))
  | mergeMove {σ : Store} {p s v ms ws junk} : σ.get p = some v → Members v ms → σ.get s = some (.obj .object ws) → Apart p s →
      Step σ (.mergeMove p s junk) ((σ.set s (.obj .object (hollowMembers junk ws))).set p (.obj .object (putMembers ws ms)))
  | drop {σ : Store} {x v} : σ x = some v → Step σ (.drop x) (σ.put x none)

/-- The place that a statement uses as a container, and the type of that container. -/
def container : Op → Option (Place × VType)
  | .emplaceBack p _ | .erasePos p _ | .append p _ | .asArray p | .emplaceBackMove p _ _ | .appendMove p _ _ => some (p, .array)
  | .index p _ | .emplaceKey p _ _ | .eraseKey p _ | .merge p _ | .asObject p | .emplaceKeyMove p _ _ _ | .mergeMove p _ _ => some (p, .object)
  | _ => none

/-- What a statement that runs out of memory may leave behind. -/
inductive Aborted (σ : Store) : Op → Store → Prop
  /-- The old store. -/
  | same {op} : (container op).isSome → Aborted σ op σ
  | copyInit {x s} : Aborted σ (.copyInit x s) σ
  /-- A null or empty value that should have become a container and has its tag already. -/
  | tag {op p t v} : container op = some (p, t) → σ.get p = some v → Hollowable v → Aborted σ op (σ.set p (v.setType t))
  /-- A null or empty value that has become a container, which is still empty. -/
  | array {op p v} : container op = some (p, .array) → σ.get p = some v → Hollowable v → Aborted σ op (σ.set p (.arr .array []))
  | object {op p v} : container op = some (p, .object) → σ.get p = some v → Hollowable v → Aborted σ op (σ.set p (.obj .object []))
  /-- The target of an assignment, with its old payload and the tag of the source. -/
  | copyAssign {d s w v} : σ.get d = some w → σ.get s = some v → Aborted σ (.copyAssign d s) (σ.set d (w.setType v.type))
  | emplaceKey {p k s ms w v} : σ.get p = some (.obj .object ms) → ms.lookup k = some w → σ.get s = some v →
      Aborted σ (.emplaceKey p k s) (σ.set p (.obj .object (putMember k (w.setType v.type) ms)))
  /-- An object into which only the first members were merged, and possibly one that has the tag of the next. -/
  | merge {p s v ms ws ws'} : σ.get p = some v → Members v ms → σ.get s = some (.obj .object (ws ++ ws')) →
      Aborted σ (.merge p s) (σ.set p (.obj .object (putMembers ws ms)))
  | mergeTag {p s v ms ws ws' k w u} : σ.get p = some v → Members v ms → σ.get s = some (.obj .object (ws ++ (k, u) :: ws')) → (putMembers ws ms).lookup k = some w →
      Aborted σ (.merge p s) (σ.set p (.obj .object (putMember k (w.setType u.type) (putMembers ws ms))))
  | mergeMove {p s v ms ws ws' junk} : σ.get p = some v → Members v ms → σ.get s = some (.obj .object (ws ++ ws')) → Apart p s →
      Aborted σ (.mergeMove p s junk) ((σ.set s (.obj .object (hollowMembers junk ws ++ ws'))).set p (.obj .object (putMembers ws ms)))

/-- A path that leads nowhere: a key or index that is not there, or a step into something that is not a container of that kind. -/
inductive Missing : Value → List Sel → Prop
  | text {t s sel path} : Missing (.str t s) (sel :: path)
  | arrayKey {vs k path} : Missing (.arr .array vs) (.key k :: path)
  | objectPos {ms i path} : Missing (.obj .object ms) (.pos i :: path)
  | pos {vs : List Value} {i path} : vs.length ≤ i → Missing (.arr .array vs) (.pos i :: path)
  | key {ms : List (Bytes × Value)} {k path} : ms.lookup k = none → Missing (.obj .object ms) (.key k :: path)
  | inPos {vs : List Value} {i v path} : vs[i]? = some v → Missing v path → Missing (.arr .array vs) (.pos i :: path)
  | inKey {ms : List (Bytes × Value)} {k v path} : ms.lookup k = some v → Missing v path → Missing (.obj .object ms) (.key k :: path)

/-- An expression that names nothing. -/
def Absent (σ : Store) (p : Place) : Prop := ∃ v, σ p.x = some v ∧ Missing v p.path

/-- The places that a statement mentions. -/
def places : Op → List Place
  | .init .. | .drop _ => []
  | .copyInit _ s | .moveInit _ s _ => [s]
  | .copyAssign d s | .moveAssign d s _ | .emplaceBack d s | .emplaceKey d _ s | .append d s | .merge d s | .emplaceBackMove d s _ | .emplaceKeyMove d _ s _
  | .appendMove d s _ | .mergeMove d s _ => [d, s]
  | .assign p _ | .index p _ | .erasePos p _ | .eraseKey p _ | .asArray p | .asObject p => [p]

/-- The variable that a statement declares. -/
def declares : Op → Option Nat
  | .init x _ | .copyInit x _ | .moveInit x _ _ => some x
  | _ => none

/-- Null, a boolean, a number or a string. -/
def Plain (v : Value) : Prop := ∃ t s, v = .str t s ∧ t ≠ .array ∧ t ≠ .object
/-- Something that cannot be used as an array. -/
def NotArray (v : Value) : Prop := ¬ Hollowable v ∧ (Plain v ∨ ∃ ms, v = .obj .object ms)
/-- Something that cannot be used as an object. -/
def NotObject (v : Value) : Prop := ¬ Hollowable v ∧ (Plain v ∨ ∃ vs, v = .arr .array vs)

/-- Statements that should throw and change nothing. -/
inductive Refused (σ : Store) : Op → Prop
  | absent {op p} : (∀ x, declares op = some x → σ x = none) → (∀ q ∈ places op, (σ.get q).isSome ∨ Absent σ q) → p ∈ places op → Absent σ p → Refused σ op
  | emplaceBack {p s v} : σ.get p = some v → NotArray v → (σ.get s).isSome → Refused σ (.emplaceBack p s)
  | erasePos {p i v} : σ.get p = some v → NotArray v → Refused σ (.erasePos p i)
  | index {p k v} : σ.get p = some v → NotObject v → Refused σ (.index p k)
  | emplaceKey {p k s v} : σ.get p = some v → NotObject v → (σ.get s).isSome → Refused σ (.emplaceKey p k s)
  | eraseKey {p k v} : σ.get p = some v → NotObject v → Refused σ (.eraseKey p k)
  | append {p s v us} : σ.get p = some v → NotArray v → σ.get s = some (.arr .array us) → Refused σ (.append p s)
  | appendNone {p s v} : (σ.get p).isSome → σ.get s = some v → (Plain v ∨ ∃ ms, v = .obj .object ms) → Refused σ (.append p s)
  | merge {p s v ws} : σ.get p = some v → NotObject v → σ.get s = some (.obj .object ws) → Refused σ (.merge p s)
  | mergeNone {p s v} : (σ.get p).isSome → σ.get s = some v → (Plain v ∨ ∃ vs, v = .arr .array vs) → Refused σ (.merge p s)
  | asArray {p v} : σ.get p = some v → NotArray v → Refused σ (.asArray p)
  | asObject {p v} : σ.get p = some v → NotObject v → Refused σ (.asObject p)
  | emplaceBackMove {p s v junk} : σ.get p = some v → NotArray v → (σ.get s).isSome → Refused σ (.emplaceBackMove p s junk)
  | emplaceKeyMove {p k s v junk} : σ.get p = some v → NotObject v → (σ.get s).isSome → Refused σ (.emplaceKeyMove p k s junk)
  | appendMove {p s v us junk} : σ.get p = some v → NotArray v → σ.get s = some (.arr .array us) → Refused σ (.appendMove p s junk)
  | appendMoveNone {p s v junk} : (σ.get p).isSome → σ.get s = some v → (Plain v ∨ ∃ ms, v = .obj .object ms) → Refused σ (.appendMove p s junk)
  | mergeMove {p s v ws junk} : σ.get p = some v → NotObject v → σ.get s = some (.obj .object ws) → Refused σ (.mergeMove p s junk)
  | mergeMoveNone {p s v junk} : (σ.get p).isSome → σ.get s = some v → (Plain v ∨ ∃ vs, v = .arr .array vs) → Refused σ (.mergeMove p s junk)

/-- Nothing was moved out of any value. -/
def WholeStore (σ : Store) : Prop := ∀ x v, σ x = some v → Whole v

/-- Statements that move nothing and whose literals are whole. -/
def Copying : Op → Prop
  | .moveInit .. | .moveAssign .. | .emplaceBackMove .. | .emplaceKeyMove .. | .appendMove .. | .mergeMove .. => False
  | .init _ v | .assign _ v => Whole v
  | _ => True

/-- Every variable that a statement mentions is declared, the one it declares is not, and literals are well formed. -/
def Scoped (σ : Store) (op : Op) : Prop :=
  (∀ p ∈ places op, (σ p.x).isSome) ∧ (∀ x, declares op = some x → σ x = none) ∧
  match op with
  | .init _ v | .assign _ v => Tagged v
  | .drop x => (σ x).isSome
  | _ => True

/-- The kinds of statement that go wrong because source and target overlap. -/
inductive Overlap (σ : Store) : Op → Prop
  | copy {d s w v} : σ.get d = some w → σ.get s = some v → Inside d s → w.type ≠ v.type → Overlap σ (.copyAssign d s)
  | emplace {p k s w v} : σ.get ⟨p.x, p.path ++ [.key k]⟩ = some w → σ.get s = some v → Inside ⟨p.x, p.path ++ [.key k]⟩ s → w.type ≠ v.type →
      Overlap σ (.emplaceKey p k s)
  | moveIn {d s junk} : Inside d s → Overlap σ (.moveAssign d s junk)
  | moveOut {d s w v junk} : σ.get d = some w → σ.get s = some v → Inside s d → payloadKind w ≠ payloadKind v → Overlap σ (.moveAssign d s junk)
  | append {p} : Overlap σ (.append p p)
  | merge {p s} : Inside p s ∨ Inside s p → Overlap σ (.merge p s)
  | mergeEmpty {p} : σ.get p = some (.obj .object []) → Overlap σ (.merge p p)
  | emplaceBackMove {p s junk} : Within p s → Overlap σ (.emplaceBackMove p s junk)
  | emplaceKeyMove {p k s junk} : σ.get ⟨p.x, p.path ++ [.key k]⟩ = none → Within p s → Overlap σ (.emplaceKeyMove p k s junk)
  | emplaceKeyMoveOld {p k s w junk} : σ.get ⟨p.x, p.path ++ [.key k]⟩ = some w → Overlap σ (.moveAssign ⟨p.x, p.path ++ [.key k]⟩ s junk) →
      Overlap σ (.emplaceKeyMove p k s junk)
  | appendMove {p s junk} : Within p s → Overlap σ (.appendMove p s junk)
  | mergeMove {p s junk} : Within p s ∨ Within s p → Overlap σ (.mergeMove p s junk)

/-- The places that a statement may change. -/
def touches : Op → List Place
  | .init x _ | .copyInit x _ | .drop x => [⟨x, []⟩]
  | .moveInit x s _ => [⟨x, []⟩, s]
  | .moveAssign d s _ | .emplaceBackMove d s _ | .emplaceKeyMove d _ s _ | .appendMove d s _ | .mergeMove d s _ => [d, s]
  | .copyAssign p _ | .assign p _ | .index p _ | .emplaceBack p _ | .emplaceKey p _ _ | .erasePos p _ | .eraseKey p _ | .append p _ | .merge p _ | .asArray p
  | .asObject p => [p]

def KeyedStore (σ : Store) : Prop := ∀ x v, σ x = some v → Keyed v

def TaggedStore (σ : Store) : Prop := ∀ x v, σ x = some v → Tagged v

/-- A history. -/
inductive Steps : Store → List Op → Store → Prop
  | nil {σ} : Steps σ [] σ
  | cons {σ op σ' ops σ''} : Step σ op σ' → Steps σ' ops σ'' → Steps σ (op :: ops) σ''
  | refused {σ op ops σ''} : Refused σ op → Steps σ ops σ'' → Steps σ (op :: ops) σ''

/-- Statements that look into the value at `s`, all other places they mention existing. -/
inductive Into (σ : Store) (s : Place) : Op → Prop
  | part {x : Nat} {sel : Sel} {path : List Sel} : σ x = none → Into σ s (.copyInit x ⟨s.x, s.path ++ sel :: path⟩)
  | take {x : Nat} {sel : Sel} {path : List Sel} {junk : Bytes} : σ x = none → Into σ s (.moveInit x ⟨s.x, s.path ++ sel :: path⟩ junk)
  | put {sel : Sel} {path : List Sel} {v : Value} : Into σ s (.assign ⟨s.x, s.path ++ sel :: path⟩ v)
  | index {k : Bytes} : Into σ s (.index s k)
  | emplaceBack {q : Place} : (σ.get q).isSome → Into σ s (.emplaceBack s q)
  | emplaceKey {k : Bytes} {q : Place} : (σ.get q).isSome → Into σ s (.emplaceKey s k q)
  | erasePos {i : Nat} : Into σ s (.erasePos s i)
  | eraseKey {k : Bytes} : Into σ s (.eraseKey s k)
  | append {p : Place} : (σ.get p).isSome → Into σ s (.append p s)
  | appendTo {q : Place} {vs : List Value} : σ.get q = some (.arr .array vs) → Into σ s (.append s q)
  | merge {p : Place} : (σ.get p).isSome → Into σ s (.merge p s)
  | mergeTo {q : Place} {ms : List (Bytes × Value)} : σ.get q = some (.obj .object ms) → Into σ s (.merge s q)
  | asArray : Into σ s (.asArray s)
  | asObject : Into σ s (.asObject s)

/-- A program that stays within the specification, however many of its statements run out of memory. -/
inductive Handled : Store → Prog → Prop
  | stop {σ} : Handled σ .stop
  | step {σ op σ' p q} : Step σ op σ' → Handled σ' p → (∀ σ'', Aborted σ op σ'' → Handled σ'' q) → Handled σ (.stmt op p q)
  | refused {σ op p q} : Refused σ op → Handled σ q → Handled σ (.stmt op p q)

/-- How a program may end. -/
inductive Ending : Store → Prog → Store → Prop
  | stop {σ} : Ending σ .stop σ
  | step {σ op σ' p q τ} : Step σ op σ' → Ending σ' p τ → Ending σ (.stmt op p q) τ
  | aborted {σ op σ' σ'' p q τ} : Step σ op σ' → Aborted σ op σ'' → Ending σ'' q τ → Ending σ (.stmt op p q) τ
  | refused {σ op p q τ} : Refused σ op → Ending σ q τ → Ending σ (.stmt op p q) τ

/-- The end of the lifetimes of some variables. -/
def leave : List Nat → Prog
  | [] => .stop
  | x :: xs => .stmt (.drop x) (leave xs) .stop

/-- The variables that are alive after a statement. -/
def scope (xs : List Nat) : Op → List Nat
  | .init x _ | .copyInit x _ | .moveInit x _ _ => x :: xs
  | .drop x => xs.erase x
  | _ => xs

/-- A function body without a handler: the first exception ends the lifetimes of all variables that are alive, and so does the end of the body. -/
def body : List Nat → List Op → Prog
  | xs, [] => leave xs
  | xs, op :: ops => .stmt op (body (scope xs op) ops) (leave xs)

end Meojson.Stores
