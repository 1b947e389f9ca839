import Verif.Proofs.ParseHeap
import Verif.Props.Safety

/-!
# C86: what parsing leaves in memory

Parsing may fail at any byte and may run out of memory at any allocation. In every case nothing is left behind but the result.
-/

set_option autoImplicit false

namespace Meojson
open Mem

/-- Some allocation made since `h` failed. -/
def FailedSince (oom : Addr → Bool) (h g : Heap) : Prop := ∃ a, h.next ≤ a ∧ a < g.next ∧ oom a = true

/-- Whatever lies in memory already, whichever allocations fail, and whatever the text:
* parsing does nothing undefined, and comes to an end;
* if it returns a value, it is the value that parsing without regard to memory returns; everything that was there is unchanged; the value can be destroyed, which frees all that parsing allocated;
* if it returns `nullopt`, so does parsing without regard to memory, and memory is as it was: everything allocated has been freed, once;
* if an exception leaves it, an allocation has failed, and memory is as it was. -/
theorem C86_parse (a : Accel) (jsonc : Bool) (oom : Addr → Bool) (h : Heap) (cl : ∀ b, h.next ≤ b → h.cell b = none) (s : Bytes) :
    match parserH oom ⟨jsonc, a.traits⟩ h s with
    | .ok g x _ => (∃ v, parser ⟨jsonc, a.traits⟩ s = some v ∧ reify g g.fuel x = some v) ∧ (∀ b, b < h.next → g.cell b = h.cell b) ∧
        ∃ g', destroyVal g.fuel g x = some g' ∧ g'.cell = h.cell
    | .fail g => parser ⟨jsonc, a.traits⟩ s = none ∧ g.cell = h.cell
    | .oom g => g.cell = h.cell ∧ FailedSince oom h g
    | .ub | .timeout => False := by
  have key := parseRunH_agrees oom ⟨jsonc, a.traits⟩ (parseFuel s) h s cl
  have noub := C06_no_read_past_end a jsonc (parseFuel s) s
  have notime : parseRun ⟨jsonc, a.traits⟩ (parseFuel s) s ≠ .timeout := by
    obtain ⟨r, h1, h2, -⟩ := C07_linear a jsonc s
    rw [h2 _ (by unfold parseFuel; omega)]
    rcases h1 with rfl | ⟨v, rest, rfl⟩ <;> exact nofun
  unfold parserH
  unfold parser
  cases hr : parseRunH oom ⟨jsonc, a.traits⟩ (parseFuel s) h s with
  | ok g x rest =>
    rw [hr] at key
    obtain ⟨v, B, h1, h2, h3⟩ := key
    have len : B.length < g.fuel := Nat.lt_succ_of_le (nodup_length_le h3.nodup fun b hb => (h3.fresh b hb).2)
    refine ⟨⟨v, by rw [h1], h2.reify len⟩, fun b hb => h3.old b fun hb' => ?_, ?_⟩
    · have := (h3.fresh b hb').1; omega
    · obtain ⟨g', h4, -, h5⟩ := h2.destroy h3.nodup len
      refine ⟨g', h4, funext fun b => ?_⟩
      rw [h5]
      split
      · next hb => exact (cl b (h3.fresh b hb).1).symm
      · next hb => exact h3.old b hb
  | fail g =>
    rw [hr] at key
    exact ⟨by rw [key.1], funext fun b => key.2.old b List.not_mem_nil⟩
  | oom g =>
    rw [hr] at key
    exact ⟨funext fun b => key.1.old b List.not_mem_nil, key.2⟩
  | ub => rw [hr] at key; exact noub key
  | timeout => rw [hr] at key; exact notime key

/-- With enough memory, an accepted text gives its value and any other text `nullopt`; no exception leaves the parser. -/
theorem C86_ample (a : Accel) (jsonc : Bool) (h : Heap) (cl : ∀ b, h.next ≤ b → h.cell b = none) (s : Bytes) :
    match parser ⟨jsonc, a.traits⟩ s with
    | some v => ∃ g x rest, parserH (fun _ => false) ⟨jsonc, a.traits⟩ h s = .ok g x rest ∧ reify g g.fuel x = some v
    | none => ∃ g, parserH (fun _ => false) ⟨jsonc, a.traits⟩ h s = .fail g := by
  have key := C86_parse a jsonc (fun _ => false) h cl s
  cases hr : parserH (fun _ => false) ⟨jsonc, a.traits⟩ h s with
  | ok g x rest =>
    rw [hr] at key
    obtain ⟨⟨v, h1, h2⟩, -⟩ := key
    rw [h1]
    exact ⟨g, x, rest, rfl, h2⟩
  | fail g =>
    rw [hr] at key
    rw [key.1]
    exact ⟨g, rfl⟩
  | oom g =>
    rw [hr] at key
    obtain ⟨-, b, -, -, hb⟩ := key
    cases hb
  | ub => rw [hr] at key; exact key.elim
  | timeout => rw [hr] at key; exact key.elim

/-- The value can only come out when no allocation made for it failed, so the only difference memory makes is whether the exception is thrown. -/
theorem C86_same_or_exception (a : Accel) (jsonc : Bool) (oom : Addr → Bool) (h : Heap) (cl : ∀ b, h.next ≤ b → h.cell b = none) (s : Bytes) :
    (∃ g, parserH oom ⟨jsonc, a.traits⟩ h s = .oom g) ∨
      match parser ⟨jsonc, a.traits⟩ s with
      | some v => ∃ g x rest, parserH oom ⟨jsonc, a.traits⟩ h s = .ok g x rest ∧ reify g g.fuel x = some v
      | none => ∃ g, parserH oom ⟨jsonc, a.traits⟩ h s = .fail g := by
  have key := C86_parse a jsonc oom h cl s
  cases hr : parserH oom ⟨jsonc, a.traits⟩ h s with
  | ok g x rest =>
    rw [hr] at key
    obtain ⟨⟨v, h1, h2⟩, -⟩ := key
    rw [h1]
    exact .inr ⟨g, x, rest, rfl, h2⟩
  | fail g =>
    rw [hr] at key
    rw [key.1]
    exact .inr ⟨g, rfl⟩
  | oom g => exact .inl ⟨g, rfl⟩
  | ub => rw [hr] at key; exact key.elim
  | timeout => rw [hr] at key; exact key.elim

/-! Not vacuous: `[[[]],{"a":[]}]` makes five cells; `[[],[],x` frees two; a repeated key frees the value of the first and of the second; and failures at each of several allocations. -/

namespace ParseHeapExamples

def fresh : Heap := ⟨fun _ => none, 0⟩

/-- What is left and how it ended: 0 value, 1 `nullopt`, 2 exception, 3 otherwise; the live cells; how many allocations. -/
def seen (oom : Addr → Bool) (s : Bytes) : Nat × List Addr × Nat :=
  let live (h : Heap) := (List.range h.next).filter fun a => (h.cell a).isSome
  match parserH oom ⟨false, none⟩ fresh s with
  | .ok h _ _ => (0, live h, h.next)
  | .fail h => (1, live h, h.next)
  | .oom h => (2, live h, h.next)
  | _ => (3, [], 0)

example : (seen (fun _ => false) (ascii "[[[]],{\"a\":[]}]")).1 = 0 := by decide +kernel
example : (seen (fun _ => false) (ascii "[[[]],{\"a\":[]}]")).2.1.length = 5 := by decide +kernel
example : seen (fun _ => false) (ascii "[[],[],x") = (1, [], 4) := by decide +kernel
example : (seen (fun _ => false) (ascii "{\"a\":[],\"a\":[]}")).1 = 1 ∧ (seen (fun _ => false) (ascii "{\"a\":[],\"a\":[]}")).2.1 = [] := by decide +kernel
-- Two cells are live just before the third allocation of `[[],[]]`.
example : seen (fun _ => false) (ascii "[[],[]]") = (0, [0, 2, 4], 5) := by decide +kernel
example : ∀ n ∈ List.range 5, seen (· == n) (ascii "[[],[]]") = (2, [], n + 1) := by decide +kernel

end ParseHeapExamples

end Meojson
