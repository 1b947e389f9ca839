import Verif.Proofs.View

/-!
# C63: views of text do not outlive the text

C63 says: every text in the result of a conversion can be read after the full expression and is the text that the conversion found. Refuted for types with `std::string_view`.
-/

set_option autoImplicit false

namespace Meojson
open Spec Value

/-- From a variable (`v.as<T>()`, `std::move(v).as<T>()`, `static_cast<T>(v)`) every text can be read, as long as the variable keeps its value: it is in the result, or it is the text at
its path. -/
theorem C63_variable_partial (t : VTy) (v : Value) (xs : List Text) (h : (t.convert .onVariable v).2 = .ok xs) :
    ∀ x ∈ xs, x.read (t.convert .onVariable v).1 = .ok x.bytes ∧ (x.ref = .own ∨ ∃ p, x.ref = .at p ∧ TextIn v p x.bytes) := by
  intro x hx
  have hf := as_fair t [] v xs h x hx
  exact ⟨hf.read, by simpa [Fair] using hf⟩

example : ((VTy.map (.seq .view)).convert .onVariable (.obj .object [([107], .arr .array [.str .string [97], .str .string [98]])])).2 =
    .ok [⟨.own, [107]⟩, ⟨.at [0, 0], [97]⟩, ⟨.at [0, 1], [98]⟩] := rfl

/-- From the result of a function (`f().as<T>()`, `static_cast<T>(f())`) exactly the texts in the result can be read. -/
theorem C63_result_partial (t : VTy) (v : Value) (xs : List Text) (e : Written) (he : e = .onResult ∨ e = .castResult) (h : (t.convert e v).2 = .ok xs) :
    ∀ x ∈ xs, (x.ref = .own → x.read (t.convert e v).1 = .ok x.bytes) ∧ (x.ref ≠ .own → x.read (t.convert e v).1 = .ub) := by
  intro x _
  have h0 : (t.convert e v).1 = none := by rcases he with rfl | rfl <;> rfl
  rw [h0]
  obtain ⟨r, b⟩ := x
  cases r <;> simp [Text.read]

/-- Without `std::string_view` in the type every text can be read, however the conversion is written. -/
theorem C63_owned_partial (t : VTy) (ht : t.hasView = false) (hm : t.movable = true) (v : Value) (xs : List Text) (e : Written) (h : (t.convert e v).2 = .ok xs) :
    ∀ x ∈ xs, x.read (t.convert e v).1 = .ok x.bytes := by
  have key : ∀ xs, t.as [] v = .ok xs → ∀ x ∈ xs, x.ref = .own := as_own t ht [] v
  have key' : ∀ xs, (t.take [] v).2 = .ok xs → ∀ x ∈ xs, x.ref = .own := by
    intro xs h
    rcases take_cases t hm [] v xs h with rfl | ⟨ys, hy⟩
    · simp
    · have h2 := take_of_as t hm [] v ys hy
      cases hi : t.isMap with
      | true => rw [h2.1 hi] at h; cases h; exact key _ hy
      | false =>
        rw [h2.2 hi] at h
        cases h
        intro x hx
        obtain ⟨y, hy', rfl⟩ := List.mem_map.1 hx
        rw [outlived_own (key _ hy y hy')]
        exact key _ hy y hy'
  intro x hx
  have ho : x.ref = .own := by cases e <;> first | exact key _ h x hx | exact key' _ h x hx
  simp [Text.read, ho]

example : ((VTy.seq .string).convert .castMoved (.arr .array [.str .string [97]])).2 = .ok [⟨.own, [97]⟩] := rfl

/-- For which types `static_cast<T>(std::move(v))` does not compile: `std::string_view` and nullable wrappers around it. -/
theorem C63_compiles (t : VTy) : t.movable = false ↔ ∃ ws : List Wrapper, t = ws.foldr .nullable .view := by
  constructor
  · intro h
    induction t with
    | view => exact ⟨[], rfl⟩
    | nullable w t ih => obtain ⟨ws, rfl⟩ := ih h; exact ⟨w :: ws, rfl⟩
    | _ => simp [VTy.movable] at h
  · rintro ⟨ws, rfl⟩
    induction ws with
    | nil => rfl
    | cons w ws ih => exact ih

/-- `static_cast<T>(std::move(v))` gives the texts that `static_cast<T>(v)` gives, where that does not throw. For maps they can all be read, and `v` is as before. For collections,
`std::array` and pairs exactly the texts in the result can be read, even though `v` still exists. -/
theorem C63_moved_partial (t : VTy) (hm : t.movable = true) (v : Value) (xs : List Text) (h : t.as [] v = .ok xs) :
    (t.isMap = true → t.convert .castMoved v = (some v, .ok xs) ∧ ∀ x ∈ xs, x.read (some v) = .ok x.bytes) ∧
    (t.isMap = false → ∃ ys, (t.convert .castMoved v).2 = .ok ys ∧ ys.map Text.bytes = xs.map Text.bytes ∧
      ∀ (i : Nat) (x y : Text), xs[i]? = some x → ys[i]? = some y →
        (x.ref = .own → y.read (t.convert .castMoved v).1 = .ok y.bytes) ∧ (x.ref ≠ .own → y.read (t.convert .castMoved v).1 = .ub)) := by
  have hf := as_fair t [] v xs h
  have h2 := take_of_as t hm [] v xs h
  refine ⟨fun hi => ⟨?_, fun x hx => (hf x hx).read⟩, fun hi => ⟨_, h2.2 hi, ?_, ?_⟩⟩
  · have := h2.1 hi
    simp only [VTy.convert, this]
  · rw [List.map_map]
    refine List.map_congr_left fun x _ => ?_
    obtain ⟨r, b⟩ := x
    cases r <;> rfl
  · intro i x y hx hy
    rw [List.getElem?_map, hx] at hy
    cases hy
    have := hf x (List.mem_of_getElem? hx)
    obtain ⟨r, b⟩ := x
    rcases this with h' | ⟨q, h', _⟩ <;> (simp only at h'; subst h') <;> simp [Text.outlived, Text.read]

example : ((VTy.map .view).convert .castMoved (.obj .object [([107], .str .string [97])])).2 = .ok [⟨.own, [107]⟩, ⟨.at [0], [97]⟩] := rfl

/-- Where `static_cast<T>(v)` throws and `static_cast<T>(std::move(v))` does not, the result is empty. -/
theorem C63_moved_blank (t : VTy) (hm : t.movable = true) (v : Value) (xs : List Text) (h : (t.convert .castMoved v).2 = .ok xs) (hn : ∀ ys, t.as [] v ≠ .ok ys) : xs = [] := by
  rcases take_cases t hm [] v xs h with h | ⟨ys, hy⟩
  · exact h
  · exact absurd hy (hn ys)

example : ((VTy.seq .view).convert .castMoved .null).2 = .ok [] := rfl

/-- `json::value("a").as<std::string_view>()` compiles, although the conversion of an rvalue to `std::string_view` is deleted, and the view refers to the destroyed value. -/
theorem C63_refuted : ∃ x, (VTy.view.convert .onResult (.str .string [97])).2 = .ok [x] ∧ x.read (VTy.view.convert .onResult (.str .string [97])).1 = .ub :=
  ⟨_, rfl, rfl⟩

/-- `static_cast<std::vector<std::string_view>>(std::move(v))` gives views of texts that are destroyed before the conversion returns. -/
theorem C63_refuted_moved : ∃ x, ((VTy.seq .view).convert .castMoved (.arr .array [.str .string [97]])).2 = .ok [x] ∧
    x.read ((VTy.seq .view).convert .castMoved (.arr .array [.str .string [97]])).1 = .ub :=
  ⟨_, rfl, rfl⟩

/-- The texts are those that the conversion gives with `std::string` in place of `std::string_view` (Model/Convert.lean), and it fails in the same cases. -/
theorem C63_texts (F : Floats) (t : VTy) (v : Value) :
    (∃ xs c, t.as [] v = .ok xs ∧ t.owned.as F v = .ok c ∧ xs.map Text.bytes = t.texts c) ∨
    (∃ e, t.as [] v = .throw e ∧ t.owned.as F v = .throw e) ∨ (t.as [] v = .ub ∧ t.owned.as F v = .ub) := by
  have := as_same F t [] v
  revert this
  generalize t.as [] v = a, t.owned.as F v = b
  intro h
  cases h with
  | ok h => exact .inl ⟨_, _, rfl, rfl, h⟩
  | throw => exact .inr (.inl ⟨_, rfl, rfl⟩)
  | ub => exact .inr (.inr ⟨rfl, rfl⟩)

example : (VTy.pair .view .string).texts (.list [.str [97], .str [98]]) = [[97], [98]] := rfl

/-- The same for `static_cast<T>(std::move(v))`, where it compiles; it also leaves the same of `v`. -/
theorem C63_texts_moved (F : Floats) (t : VTy) (hm : t.movable = true) (v : Value) :
    (t.convert .castMoved v).1 = some (t.owned.take F v).1 ∧
    ((∃ xs c, (t.convert .castMoved v).2 = .ok xs ∧ (t.owned.take F v).2 = .ok c ∧ xs.map Text.bytes = t.texts c) ∨
      (∃ e, (t.convert .castMoved v).2 = .throw e ∧ (t.owned.take F v).2 = .throw e) ∨ ((t.convert .castMoved v).2 = .ub ∧ (t.owned.take F v).2 = .ub)) := by
  have := take_same F t hm [] v
  refine ⟨congrArg some this.1, ?_⟩
  replace this := this.2
  simp only [VTy.convert]
  revert this
  generalize (t.take [] v).2 = a, (t.owned.take F v).2 = b
  intro h
  cases h with
  | ok h => exact .inl ⟨_, _, rfl, rfl, h⟩
  | throw => exact .inr (.inl ⟨_, rfl, rfl⟩)
  | ub => exact .inr (.inr ⟨rfl, rfl⟩)

example : ((VTy.pair .view .string).convert .castMoved (.arr .array [.str .string [97]])).2 = .throw .json := rfl

end Meojson
