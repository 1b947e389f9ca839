import Verif.Spec.Heap

/-!
# Specification: which memory a statement uses

Two threads race when one writes memory that the other reads or writes. Here: the memory that belongs to a variable, the variables that a statement uses and writes,
and schedules of several threads.
-/

set_option autoImplicit false

namespace Meojson.Stores
open Mem

/-- The address that a value points to. -/
def pointer (v : HVal) : Option Nat :=
  match v.raw with
  | .arr p | .obj p => p
  | .text _ => none

/-- The memory that belongs to variable `x`: what can be reached from it. -/
inductive Owns (st : State) (x : Nat) : Nat → Prop
  | root {v a} : st.var x = some v → pointer v = some a → Owns st x a
  | child {b c v a} : Owns st x b → st.heap.cell b = some c → v ∈ c.children → pointer v = some a → Owns st x a

/-- The variables that a statement may change, and those that it may read or change. -/
def writes (op : Op) : List Nat := (touches op).map (·.x)
def uses (op : Op) : List Nat := writes op ++ (places op).map (·.x)

/-- The variables that a statement declares or ends. -/
def binds : Op → List Nat
  | .init x _ | .copyInit x _ | .moveInit x _ _ | .drop x => [x]
  | _ => []

/-- Neither statement writes what the other uses. -/
def NoConflict (o1 o2 : Op) : Prop := (∀ x ∈ writes o1, x ∉ uses o2) ∧ ∀ x ∈ writes o2, x ∉ uses o1

/-- What was not allocated yet holds nothing. -/
def Fresh (st : State) : Prop := ∀ a, st.heap.next ≤ a → st.heap.cell a = none

/-- Two memories that do not differ in what belongs to the variables `xs`, and the next allocation gives the same address. -/
structure Alike (xs : List Nat) (st st' : State) : Prop where
  next : st'.heap.next = st.heap.next
  var : ∀ x ∈ xs, st'.var x = st.var x
  cell : ∀ x ∈ xs, ∀ a, Owns st x a → st'.heap.cell a = st.heap.cell a

/-- `st'` differs from `st` at most in what belonged to the variables `xs` of `st` and in what was free. -/
structure Kept (xs : List Nat) (st st' : State) : Prop where
  var : ∀ x, x ∉ xs → st'.var x = st.var x
  cell : ∀ a, a < st.heap.next → (∀ x ∈ xs, ¬ Owns st x a) → st'.heap.cell a = st.heap.cell a

/-- What a container looks like from outside: the number of its elements, or its keys. -/
def shape : Cell → Nat ⊕ List Bytes
  | .arr vs => .inl vs.length
  | .obj ms => .inr (ms.map (·.1))

/-- Two containers that differ at most in what lies at the positions in `P`. -/
def SameBut (P : Nat → Prop) : Option Cell → Option Cell → Prop
  | some c, some d => shape d = shape c ∧ ∀ i, ¬ P i → d.children[i]? = c.children[i]?
  | none, none => True
  | _, _ => False

/-- Two ways to end. -/
def SameEnd (P : State → State → Prop) : Fin → Fin → Prop
  | .done s, .done s' | .thrown s, .thrown s' => P s s'
  | .ub, .ub => True
  | _, _ => False

/-! ### Parts of values -/

/-- Neither statement changes a place that contains, or is contained in, a place that the other mentions or changes. -/
def NoClash (o1 o2 : Op) : Prop :=
  (∀ p ∈ touches o1, ∀ q ∈ touches o2 ++ places o2, Apart p q) ∧ ∀ q ∈ touches o2, ∀ p ∈ touches o1 ++ places o1, Apart q p

/-- `p` denotes the slot `l`: a variable, which need not be alive, or what the expression denotes. -/
def Names (st : State) (p : Place) (l : Loc) : Prop := (p.path = [] ∧ l = .var p.x) ∨ st.resolve p = some l

/-- The slots that a statement may change, and those that it may read or change. -/
def Written (st : State) (op : Op) (l : Loc) : Prop := ∃ p ∈ touches op, Names st p l
def Used (st : State) (op : Op) (l : Loc) : Prop := ∃ p ∈ touches op ++ places op, Names st p l

/-- The memory below a slot: what can be reached from the value in it. -/
inductive Below (st : State) (l : Loc) : Nat → Prop
  | root {v a} : st.read l = some v → pointer v = some a → Below st l a
  | child {b c v a} : Below st l b → st.heap.cell b = some c → v ∈ c.children → pointer v = some a → Below st l a

/-- The slots in `U` hold the same values in both memories, and so does what is below them. -/
structure Agrees (U : Loc → Prop) (st st' : State) : Prop where
  next : st'.heap.next = st.heap.next
  slot : ∀ l, U l → st'.read l = st.read l
  cell : ∀ l, U l → ∀ a, Below st l a → st'.heap.cell a = st.heap.cell a

/-- `st'` differs from `st` at most in the slots in `U`, in what was below them, and in what was free. A container that is not below them keeps its size and its keys. -/
structure KeptBut (U : Loc → Prop) (st st' : State) : Prop where
  var : ∀ x, ¬ U (.var x) → st'.var x = st.var x
  cell : ∀ a, a < st.heap.next → (∀ l, U l → ¬ Below st l a) → SameBut (fun i => U (.child a i)) (st.heap.cell a) (st'.heap.cell a)

/-! ### Schedules -/

/-- The statements of thread `i` in a schedule, in their order. -/
def thread (i : Nat) (sched : List (Nat × Op)) : List Op := (sched.filter fun s => s.1 = i).map (·.2)

end Meojson.Stores
