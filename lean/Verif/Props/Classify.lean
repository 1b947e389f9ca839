import Mathlib.Data.List.Forall2
import Verif.Spec.Classify
import Verif.Proofs.MapOps
import Verif.Proofs.RoundTrip

/-!
# C77: a class whose objects can be written can be read back

If `json::value(x)` compiles for a const `x`, then it compiles for an `x` of every category, and `static_cast` back to the class compiles. This holds for most of the standard containers;
the exact conditions are given here for classes of one kind. A class of two kinds (a range that has `operator*` and `operator bool`, as `std::optional` from C++26 on) can not be written,
or is taken for one thing by `is` and for another by `as`.

What is read back need not be what was written: of the entries of a `std::multimap` with one key, the first is kept.
-/

set_option autoImplicit false

namespace Meojson.Classify

/-- The claim. -/
def C77Claim : Prop := ∀ x : Class, writes x .constLv = true → (∀ c, writes x c = true) ∧ reads x = true

/-- `std::forward_list` and `std::initializer_list` can be written but not read; a `std::vector<bool>` can be written only as an lvalue. -/
theorem C77_refuted : ¬ C77Claim ∧
    (∀ x ∈ [Std.forwardList, Std.initializerList], (∀ c, writes x c = true) ∧ reads x = false) ∧
    (∀ c, writes Std.vectorBool c = true ↔ c = .lv ∨ c = .constLv) ∧ reads Std.vectorBool = true := by
  refine ⟨fun h => absurd (h Std.forwardList (by decide +kernel)).2 (by decide +kernel), ?_, ?_, by decide +kernel⟩
  · intro x hx
    simp only [List.mem_cons, List.not_mem_nil, or_false] at hx
    rcases hx with rfl | rfl <;> exact ⟨fun c => by cases c <;> decide +kernel, by decide +kernel⟩
  · intro c; cases c <;> decide +kernel

/-- The standard classes that go both ways. -/
theorem C77_standard_partial (n : Nat) : ∀ x ∈ [Std.vector, Std.deque, Std.list, Std.set, Std.stringSet, Std.map, Std.array n, Std.pair, Std.tuple n, Std.optional, Std.uniquePtr, Std.sharedPtr],
    (∀ c, writes x c = true) ∧ reads x = true := by
  intro x hx
  simp only [List.mem_cons, List.not_mem_nil, or_false] at hx
  rcases hx with rfl | rfl | rfl | rfl | rfl | rfl | rfl | rfl | rfl | rfl | rfl | rfl <;>
    refine ⟨fun c => ?_, ?_⟩ <;> first | (cases c <;> decide +kernel) | decide +kernel | skip
  · cases c <;> simp [writes, chosen, writers, Std.array, Class.isNullable, Class.isFixed, Class.isCollection, Class.isContainer, Class.isString, Class.isMap, Class.isTupleLike,
      Class.isTextMap, Cand.better, Dispatch.Takes.better, Cand.body, List.zipIdx]
  · simp [reads, reader, Std.array, Class.isFixed, Class.isTextMap, Class.isMap]
  · cases c <;> simp [writes, chosen, writers, Std.tuple, Class.isNullable, Class.isFixed, Class.isCollection, Class.isContainer, Class.isString, Class.isMap, Class.isTupleLike,
      Class.isTextMap, Cand.better, Dispatch.Takes.better, Cand.body, List.zipIdx]
  · simp [reads, reader, Std.tuple, Class.isTupleLike, Class.isCollection, Class.isContainer, Class.isFixed, Class.isTextMap, Class.isMap]

/-- Those that go neither way: maps whose key is not exactly `std::string`, adaptors, other strings, `std::valarray`, `std::bitset`. A `std::span` can be written as a const rvalue only,
which is not taken for a fixed array. -/
theorem C77_neither : (∀ x ∈ [Std.viewMap, Std.intMap, Std.stack, Std.wstring, Std.valarray, Std.bitset], (∀ c, writes x c = false) ∧ reads x = false) ∧
    ∀ n, reads (Std.span n) = false ∧ ∀ c, writes (Std.span n) c = true ↔ c = .constRv := by
  constructor
  · intro x hx
    simp only [List.mem_cons, List.not_mem_nil, or_false] at hx
    rcases hx with rfl | rfl | rfl | rfl | rfl | rfl <;> exact ⟨fun c => by cases c <;> decide +kernel, by decide +kernel⟩
  · refine fun n => ⟨by simp [reads, reader, Std.span, Class.isFixed, Class.isTextMap, Class.isMap], fun c => ?_⟩
    cases c <;> simp [writes, chosen, writers, Std.span, Class.isNullable, Class.isFixed, Class.isCollection, Class.isContainer, Class.isString, Class.isMap, Class.isTupleLike,
      Class.isTextMap, Cand.better, Dispatch.Takes.better, Cand.body, List.zipIdx]

/-- Classes of one kind, told by their members alone.

A collection (a range that is no string, no map and no fixed array) that is nothing else can always be written as an lvalue; as an rvalue if its iterators are no proxies; and read if it
can be made empty and has one of the two functions. -/
theorem C77_collection (x : Class) (h : x.range = true ∧ x.chars = false) (hk : x.key = none ∨ x.mapped = false) (hf : ∀ n, x.form ≠ .sized n) (ht : ∀ k, x.form ≠ .types k (some k))
    (hn : x.bool = false ∨ x.deref = false) (hp : x.pointer = false) :
    (∀ c, writes x c = (c = .lv || c = .constLv || x.refs)) ∧ reads x = (x.default && (x.emplaceBack || x.emplace)) ∧ checker x = some .collection := by
  have a1 : x.isNullable = false := by rcases hn with h | h <;> simp [Class.isNullable, h]
  have a2 : x.isFixed = false := by
    unfold Class.isFixed; split
    · exact absurd (by assumption) (hf _)
    · rfl
  have a3 : x.isContainer = true := by simp [Class.isContainer, Class.isString, h.1, h.2]
  have a4 : x.isMap = false := by rcases hk with h | h <;> simp [Class.isMap, h]
  have a5 : x.isTupleLike = false := by
    unfold Class.isTupleLike; split
    · rename_i k n e
      simp only [decide_eq_false_iff_not]
      rintro rfl
      exact ht _ e
    · rfl
  refine ⟨fun c => ?_, by simp [reads, reader, hp, Class.isCollection, Class.isTextMap, a2, a3, a4, a5], by simp [checker, Class.isCollection, a1, a2, a3, a4]⟩
  cases c <;> simp [writes, chosen, writers, Class.isCollection, Class.isTextMap, a1, a2, a3, a4, a5, Cand.better, Dispatch.Takes.better, Cand.body, List.zipIdx]

example : writes { form := .other, range := true, refs := false } .rv = false ∧ writes { form := .other, range := true, refs := false } .lv = true := by decide +kernel

/-- A map from `std::string` that is nothing else. -/
theorem C77_map (x : Class) (h : x.range = true ∧ x.chars = false) (hk : x.key = some .string ∧ x.mapped = true) (hf : ∀ n, x.form ≠ .sized n) (ht : ∀ k, x.form ≠ .types k (some k))
    (hn : x.bool = false ∨ x.deref = false) (hp : x.pointer = false) :
    (∀ c, writes x c = (c = .lv || c = .constLv || x.refs)) ∧ reads x = (x.default && x.emplace) ∧ checker x = some .map := by
  have a1 : x.isNullable = false := by rcases hn with h | h <;> simp [Class.isNullable, h]
  have a2 : x.isFixed = false := by
    unfold Class.isFixed; split
    · exact absurd (by assumption) (hf _)
    · rfl
  have a3 : x.isContainer = true := by simp [Class.isContainer, Class.isString, h.1, h.2]
  have a4 : x.isMap = true := by simp [Class.isMap, hk.1, hk.2, a3]
  have a5 : x.isTupleLike = false := by
    unfold Class.isTupleLike; split
    · rename_i k n e
      simp only [decide_eq_false_iff_not]
      rintro rfl
      exact ht _ e
    · rfl
  refine ⟨fun c => ?_, by simp [reads, reader, hp, Class.isCollection, Class.isTextMap, a2, a3, a4, a5, hk.1], by simp [checker, Class.isCollection, a1, a2, a3, a4, a5]⟩
  cases c <;> simp [writes, chosen, writers, Class.isCollection, Class.isTextMap, a1, a2, a3, a4, a5, hk.1, Cand.better, Dispatch.Takes.better, Dispatch.rvalue, Cand.body, List.zipIdx]

example : (∀ c, writes Std.map c = true) ∧ reads Std.map = true := ⟨fun c => by cases c <;> decide +kernel, by decide +kernel⟩

/-- A template `C<T, n>` that is not nullable and no map, whatever it stands for, is taken for an array of `n` elements, and needs `at`; only a const rvalue is a collection if it is a range. -/
theorem C77_fixed (x : Class) (n : Nat) (hf : x.form = .sized n) (hk : x.key = none ∨ x.mapped = false) (hn : x.bool = false ∨ x.deref = false) (hp : x.pointer = false) :
    (∀ c, c ≠ .constRv → writes x c = x.indexed) ∧ writes x .constRv = (if x.range && !x.chars then x.refs else x.indexed) ∧ reads x = (x.default && x.indexed) ∧
    checker x = some .fixed := by
  have a1 : x.isNullable = false := by rcases hn with h | h <;> simp [Class.isNullable, h]
  have a2 : x.isFixed = true := by simp [Class.isFixed, hf]
  have a4 : x.isMap = false := by rcases hk with h | h <;> simp [Class.isMap, h]
  have a5 : x.isTupleLike = false := by simp [Class.isTupleLike, hf]
  refine ⟨fun c hc => ?_, ?_, by simp [reads, reader, hp, Class.isCollection, Class.isTextMap, a2, a4], by simp [checker, Class.isCollection, a1, a2]⟩
  · cases c <;> first | exact absurd rfl hc | simp [writes, chosen, writers, Class.isCollection, Class.isTextMap, a1, a2, a4, a5, Cand.better, Dispatch.Takes.better, Cand.body, List.zipIdx]
  · by_cases h : x.range && !x.chars
    · simp [writes, chosen, writers, Class.isCollection, Class.isContainer, Class.isString, Class.isTextMap, a1, a2, a4, a5, h, Cand.better, Dispatch.Takes.better, Cand.body, List.zipIdx]
    · simp [writes, chosen, writers, Class.isCollection, Class.isContainer, Class.isString, Class.isTextMap, a1, a2, a4, a5, h, Cand.better, Dispatch.Takes.better, Cand.body, List.zipIdx]

example : writes { form := .sized 2 } .lv = false ∧ writes (Std.array 2) .lv = true ∧ reads { form := .sized 2, indexed := true, default := false } = false := by decide +kernel

/-- A class with `operator bool` and `operator*` that is nothing else can always be written; it can be read only if it is one of the three the library knows. -/
theorem C77_nullable (x : Class) (h : x.bool = true ∧ x.deref = true) (hr : x.range = false) (hf : ∀ n, x.form ≠ .sized n) (ht : ∀ k, x.form ≠ .types k (some k)) :
    (∀ c, writes x c = true) ∧ reads x = x.pointer ∧ checker x = some .nullable := by
  have a1 : x.isNullable = true := by simp [Class.isNullable, h]
  have a2 : x.isFixed = false := by
    unfold Class.isFixed; split
    · exact absurd (by assumption) (hf _)
    · rfl
  have a3 : x.isContainer = false := by simp [Class.isContainer, hr]
  have a4 : x.isMap = false := by simp [Class.isMap, a3]
  have a5 : x.isTupleLike = false := by
    unfold Class.isTupleLike; split
    · rename_i k n e
      simp only [decide_eq_false_iff_not]
      rintro rfl
      exact ht _ e
    · rfl
  refine ⟨fun c => ?_, ?_, by simp [checker, a1]⟩
  · cases c <;> simp [writes, chosen, writers, Class.isCollection, Class.isTextMap, a1, a2, a3, a4, a5, Dispatch.forward, Cand.better, Dispatch.Takes.better, Cand.body, List.zipIdx]
  · cases hp : x.pointer <;> simp [reads, reader, hp, Class.isCollection, Class.isTextMap, a2, a3, a4, a5]

example : reads { form := .other, bool := true, deref := true } = false ∧ writes { form := .other, bool := true, deref := true } .rv = true := by decide +kernel

/-- A tuple-like class that is nothing else: `std::tuple_size` is the number of its template arguments. -/
theorem C77_tuple (x : Class) (k : Nat) (hf : x.form = .types k (some k)) (hr : x.range = false) (hn : x.bool = false ∨ x.deref = false) (hp : x.pointer = false) :
    (∀ c, writes x c = true) ∧ reads x = x.default ∧ checker x = some .tupleLike := by
  have a1 : x.isNullable = false := by rcases hn with h | h <;> simp [Class.isNullable, h]
  have a2 : x.isFixed = false := by simp [Class.isFixed, hf]
  have a3 : x.isContainer = false := by simp [Class.isContainer, hr]
  have a4 : x.isMap = false := by simp [Class.isMap, a3]
  have a5 : x.isTupleLike = true := by simp [Class.isTupleLike, hf]
  refine ⟨fun c => ?_, by simp [reads, reader, hp, Class.isCollection, Class.isTextMap, a2, a3, a4, a5], by simp [checker, Class.isCollection, a1, a2, a3, a5]⟩
  cases c <;> simp [writes, chosen, writers, Class.isCollection, Class.isTextMap, a1, a2, a3, a4, a5, Cand.better, Dispatch.Takes.better, Cand.body, List.zipIdx]

/-- With another `std::tuple_size` it is none. -/
example : (∀ c, writes { form := .types 2 (some 2) } c = true) ∧ ∀ c, writes { form := .types 1 (some 2) } c = false := by
  constructor <;> intro c <;> cases c <;> decide +kernel

/-- A nullable class that also has the form of an array or a tuple is written as that, unless a lvalue that is not const or a const rvalue; those are taken for nullable, and so does `is`. -/
theorem C77_formed (x : Class) (h : x.bool = true ∧ x.deref = true) (hr : x.range = false) (hp : x.pointer = false)
    (hf : (∃ n, x.form = .sized n) ∨ ∃ k, x.form = .types k (some k)) :
    (∀ c, (chosen x c).map (·.kind) = some (if c = .lv ∨ c = .constRv then .nullable else if x.isFixed then .fixed else .tupleLike)) ∧
    checker x = some .nullable ∧ reader x = some (if x.isFixed then .fixed else .tupleLike) := by
  have a1 : x.isNullable = true := by simp [Class.isNullable, h]
  have a3 : x.isContainer = false := by simp [Class.isContainer, hr]
  have a4 : x.isMap = false := by simp [Class.isMap, a3]
  rcases hf with ⟨n, hf⟩ | ⟨k, hf⟩
  · have a2 : x.isFixed = true := by simp [Class.isFixed, hf]
    have a5 : x.isTupleLike = false := by simp [Class.isTupleLike, hf]
    refine ⟨fun c => ?_, by simp [checker, a1], by simp [reader, hp, Class.isTextMap, a2, a4]⟩
    cases c <;> simp [chosen, writers, Class.isCollection, Class.isTextMap, a1, a2, a3, a4, a5, Dispatch.forward, Cand.better, Dispatch.Takes.better, List.zipIdx]
  · have a2 : x.isFixed = false := by simp [Class.isFixed, hf]
    have a5 : x.isTupleLike = true := by simp [Class.isTupleLike, hf]
    refine ⟨fun c => ?_, by simp [checker, a1], by simp [reader, hp, Class.isCollection, Class.isTextMap, a2, a3, a4, a5]⟩
    cases c <;> simp [chosen, writers, Class.isCollection, Class.isTextMap, a1, a2, a3, a4, a5, Dispatch.forward, Cand.better, Dispatch.Takes.better, List.zipIdx]

/-- A nullable class that is also a range or a map can be written only as an lvalue that is not const. (`std::optional` has `begin()` from C++26 on.) For all but the three classes the
library knows, `is` asks whether the value is null or an element, and the conversion wants an array or an object. -/
theorem C77_both (x : Class) (h : x.bool = true ∧ x.deref = true) (hr : x.range = true ∧ x.chars = false) (hf : ∀ n, x.form ≠ .sized n) (ht : ∀ k, x.form ≠ .types k (some k))
    (hk : x.key = none ∨ x.mapped = false ∨ x.key = some .string) :
    (∀ c, writes x c = true ↔ c = .lv) ∧ checker x = some .nullable ∧
    (x.pointer = false → reader x = some (if x.key.isSome && x.mapped then .map else .collection)) := by
  have a1 : x.isNullable = true := by simp [Class.isNullable, h]
  have a2 : x.isFixed = false := by
    unfold Class.isFixed; split
    · exact absurd (by assumption) (hf _)
    · rfl
  have a3 : x.isContainer = true := by simp [Class.isContainer, Class.isString, hr.1, hr.2]
  have a5 : x.isTupleLike = false := by
    unfold Class.isTupleLike; split
    · rename_i k n e
      simp only [decide_eq_false_iff_not]
      rintro rfl
      exact ht _ e
    · rfl
  refine ⟨fun c => ?_, by simp [checker, a1], fun hp => ?_⟩
  · rcases hk with h | h | h
    · cases c <;> simp [writes, chosen, writers, Class.isCollection, Class.isTextMap, Class.isMap, h, a1, a2, a3, a5, Dispatch.forward, Dispatch.rvalue, Cand.better, Dispatch.Takes.better, Cand.body, List.zipIdx]
    · cases c <;> simp [writes, chosen, writers, Class.isCollection, Class.isTextMap, Class.isMap, h, a1, a2, a3, a5, Dispatch.forward, Dispatch.rvalue, Cand.better, Dispatch.Takes.better, Cand.body, List.zipIdx]
    · cases hm : x.mapped <;> cases c <;> simp [writes, chosen, writers, Class.isCollection, Class.isTextMap, Class.isMap, h, hm, a1, a2, a3, a5, Dispatch.forward, Dispatch.rvalue, Cand.better, Dispatch.Takes.better, Cand.body, List.zipIdx]
  · rcases hk with h | h | h
    · simp [reader, hp, Class.isCollection, Class.isTextMap, Class.isMap, h, a2, a3, a5]
    · simp [reader, hp, Class.isCollection, Class.isTextMap, Class.isMap, h, a2, a3, a5]
    · cases hm : x.mapped <;> simp [reader, hp, Class.isCollection, Class.isTextMap, Class.isMap, h, hm, a2, a3, a5]

example : writes Std.optional26 .constLv = false ∧ writes Std.optional26 .rv = false ∧ writes Std.optional26 .lv = true ∧ reads Std.optional26 = true := by decide +kernel

end Meojson.Classify

namespace Meojson
open RawObject

theorem find_foldl_emplace {β : Type} (k : Bytes) : ∀ (vs m : List (Bytes × β)),
    find k (vs.foldl (fun m e => (emplace e.1 e.2 m).1) m) = (find k m).or (vs.lookup k)
  | [], m => by simp
  | (k', v) :: vs, m => by
    rw [List.foldl_cons, find_foldl_emplace k vs, find_emplace, List.lookup_cons]
    by_cases h : k = k'
    · subst h
      cases find k m <;> simp
    · have : (k == k') = false := by simpa using h
      simp [h, this]

theorem eachBoth_forall {α β : Type} {f : α → Out (β × α)} : ∀ {xs : List α} {vs : List β} {ys : List α}, eachBoth f xs = .ok (vs, ys) →
    List.Forall₂ (fun x v => ∃ y, f x = .ok (v, y)) xs vs
  | [], vs, ys, h => by simp [eachBoth] at h; rw [h.1]; exact .nil
  | x :: xs, vs, ys, h => by
    simp only [eachBoth, Out.bind_eq_ok] at h
    obtain ⟨r, h1, rs, h2, h3⟩ := h
    cases h3
    exact .cons ⟨r.2, h1⟩ (eachBoth_forall (vs := rs.1) (ys := rs.2) h2)

theorem foldl_emplace_sorted {β : Type} : ∀ (vs : List (Bytes × β)) {m : List (Bytes × β)}, Sorted m → Sorted (vs.foldl (fun m e => (emplace e.1 e.2 m).1) m)
  | [], _, h => h
  | e :: vs, _, h => by rw [List.foldl_cons]; exact foldl_emplace_sorted vs (emplace_sorted h e.1 e.2)

/-- What a map is written as, whatever its keys: of the entries with one key, in the order of iteration, the first. Those of a `std::multimap` that come after it are lost. -/
theorem C77_multimap (F : Floats) (t : Ty) (c : Cat) (ms : List (Bytes × CVal)) (v : Value) (y : CVal) (h : (Ty.map t).store F c (.map ms) = .ok (v, y)) :
    ∃ vs m : List (Bytes × Value), v = .ofObject m ∧ List.Forall₂ (fun e w => w.1 = e.1 ∧ ∃ z, t.store F c.element e.2 = .ok (w.2, z)) ms vs ∧
      (m.Pairwise fun a b => a.1 < b.1) ∧ ∀ k w, (k, w) ∈ m ↔ vs.lookup k = some w := by
  simp only [Ty.store, Out.bind_eq_ok] at h
  obtain ⟨r, h1, h2⟩ := h
  cases h2
  have hs := foldl_emplace_sorted r.1 (m := []) List.Pairwise.nil
  refine ⟨r.1, _, rfl, ?_, hs, fun k w => ?_⟩
  · refine (eachBoth_forall (vs := r.1) (ys := r.2) h1).imp fun e w hw => ?_
    obtain ⟨z, hz⟩ := hw
    simp only [Out.bind_eq_ok] at hz
    obtain ⟨q, q1, q2⟩ := hz
    cases q2
    exact ⟨rfl, q.2, q1⟩
  · rw [← find_eq_some hs, find_foldl_emplace]
    simp [find]

/-- A `std::multimap` with `true` and `false` under one key: the `false` is not in the result. -/
theorem C77_multimap_loses (F : Floats) : ∃ y, (Ty.map .bool).store F .constLv (.map [([97], .bool true), ([97], .bool false)]) = .ok (.ofObject [([97], .ofBool true)], y) :=
  ⟨_, rfl⟩

end Meojson
