import Verif.Model.Direct
import Verif.Props.Take

/-!
# C91: arrays and objects convert like the values that hold them

Every theorem holds for every conversion `F` between floating-point numbers and text.
-/

set_option autoImplicit false

namespace Meojson
open Spec Value

private theorem takeOut (vs : List Value) : (clearAfter (takeEach movedOut vs)).2 = .ok vs := by
  have h := takeEach_ok (f := movedOut) (g := id) (fun _ => rfl) vs
  cases ht : takeEach movedOut vs with
  | mk a b => rw [ht] at h; simp only at h; subst h; simp [clearAfter]

private theorem takeMembers (ms : List (Bytes × Value)) : (takeEach (fun e : Bytes × Value => ((e.1, e.2.emptied), Out.ok (e.1, e.2))) ms).2 = .ok ms := by
  have h := takeEach_ok (f := fun e : Bytes × Value => ((e.1, e.2.emptied), Out.ok (e.1, e.2))) (g := id) (fun _ => rfl) ms
  simpa using h

/-- The array in a value that is moved: of null, `""`, `[]` and `{}` an empty one, otherwise the array that the value holds, or `json::exception`. -/
theorem C91_moved_array (v : Value) (hv : v.Sound) : (Blank v → v.moveToArray = (.arr .array [], .ok [])) ∧ (¬ Blank v → v.moveToArray.2 = v.asArray) := by
  rcases onArray_cases hv (fun vs => clearAfter (takeEach movedOut vs)) with ⟨vs, rfl, _, e⟩ | ⟨ht, hb, e⟩ | ⟨ht, hb, e⟩
  · refine ⟨fun hb => ?_, fun _ => ?_⟩
    · rcases hb with h | h | h | h
      · cases h
      · cases h
      · cases h; rfl
      · cases h
    · show (Value.onArray _ _).2 = _
      rw [e, takeOut]; rfl
  · exact ⟨fun _ => e, fun h => absurd hb h⟩
  · refine ⟨fun h => absurd h hb, fun _ => ?_⟩
    show (Value.onArray _ _).2 = _
    rw [e]; simp [Value.asArray, ht, typeError_sound hv]

/-- The object in a value that is moved. -/
theorem C91_moved_object (v : Value) (hv : v.Sound) : (Blank v → v.moveToObject = (.obj .object [], .ok [])) ∧ (¬ Blank v → v.moveToObject.2 = v.asObject) := by
  rcases onObject_cases hv (fun ms => takeEach (fun e : Bytes × Value => ((e.1, e.2.emptied), Out.ok (e.1, e.2))) ms) with ⟨ms, rfl, _, _, e⟩ | ⟨ht, hb, e⟩ | ⟨ht, hb, e⟩
  · refine ⟨fun hb => ?_, fun _ => ?_⟩
    · rcases hb with h | h | h | h
      · cases h
      · cases h
      · cases h
      · cases h; rfl
    · show (Value.onObject _ _).2 = _
      rw [e, takeMembers]; rfl
  · exact ⟨fun _ => e, fun h => absurd hb h⟩
  · refine ⟨fun h => absurd h hb, fun _ => ?_⟩
    show (Value.onObject _ _).2 = _
    rw [e]; simp [Value.asObject, ht, typeError_sound hv]

private theorem user_array (F : Floats) (U : User) (c : Cat) (x : CVal) : ((Ty.user U).toArray F c x) = some (match U.dump x with
    | some v => v.moveToArray.2.bind fun vs => .ok (vs, x)
    | none => .throw .json) := by cases x <;> rfl
private theorem user_object (F : Floats) (U : User) (c : Cat) (x : CVal) : ((Ty.user U).toObject F c x) = some (match U.dump x with
    | some v => v.moveToObject.2.bind fun vs => .ok (vs, x)
    | none => .throw .json) := by cases x <;> rfl
private theorem user_store (F : Floats) (U : User) (c : Cat) (x : CVal) : ((Ty.user U).store F c x) = match U.dump x with
    | some v => .ok (v, x)
    | none => .throw .json := by cases x <;> rfl

private theorem bindPair {α β γ : Type} {e : Out (α × β)} {w : α → Value} {f : β → γ} {v : Value} {y : γ} (h : (e.bind fun r => .ok (w r.1, f r.2)) = Out.ok (v, y)) :
    ∃ a b, e = .ok (a, b) ∧ v = w a ∧ y = f b := by
  cases e with
  | ok r => cases h; exact ⟨r.1, r.2, rfl, rfl, rfl⟩
  | throw => cases h
  | ub => cases h

/-- `json::array(x)`, where it compiles, for `x` of which `json::value(x)` makes `v` and leaves `y`: the array in `v`, and the same is left; but if `v` is null, `""` or `{}`, an empty array. -/
theorem C91_array_partial (F : Floats) (t : Ty) (ht : t ≠ .json) (c : Cat) (x : CVal) (r : Out (List Value × CVal)) (h : t.toArray F c x = some r) (v : Value) (y : CVal)
    (hs : t.store F c x = .ok (v, y)) (hv : v.Sound) : (Blank v → r = .ok ([], y)) ∧ (¬ Blank v → r = v.asArray.bind fun vs => .ok (vs, y)) := by
  have native : ∀ vs, v = .arr .array vs → r = .ok (vs, y) → (Blank v → r = .ok ([], y)) ∧ (¬ Blank v → r = v.asArray.bind fun vs => .ok (vs, y)) := by
    rintro vs rfl rfl
    refine ⟨fun hb => ?_, fun _ => rfl⟩
    rcases hb with h | h | h | h
    · cases h
    · cases h
    · cases h; rfl
    · cases h
  have moved : r = (v.moveToArray.2.bind fun vs => .ok (vs, y)) → (Blank v → r = .ok ([], y)) ∧ (¬ Blank v → r = v.asArray.bind fun vs => .ok (vs, y)) := by
    rintro rfl
    obtain ⟨h1, h2⟩ := C91_moved_array v hv
    exact ⟨fun hb => by rw [h1 hb]; rfl, fun hb => by rw [h2 hb]⟩
  cases t with
  | json => exact absurd rfl ht
  | user U =>
    rw [user_array] at h
    rw [user_store] at hs
    cases hd : U.dump x with
    | none => rw [hd] at hs; cases hs
    | some w =>
      rw [hd] at hs h
      cases hs; cases h
      exact moved rfl
  | jarray =>
    cases x <;> simp only [Ty.toArray, Option.some.injEq, reduceCtorEq] at h
    subst h
    simp only [Ty.store] at hs
    split at hs
    · cases hs; exact native _ rfl (by simp [*])
    · next hc =>
      obtain ⟨ws, e, hs⟩ := Out.bind_eq_ok.1 hs
      cases hs
      exact native _ rfl (by simp [hc, copyElems, e])
  | fixed n t =>
    cases x <;> simp only [Ty.toArray, Option.some.injEq, reduceCtorEq] at h
    simp only [Ty.store] at hs
    obtain ⟨a, b, e, rfl, rfl⟩ := bindPair (w := Value.ofArray) hs
    rw [e] at h; subst h
    exact native _ rfl rfl
  | seq t =>
    cases x <;> simp only [Ty.toArray, Option.some.injEq, reduceCtorEq] at h
    simp only [Ty.store] at hs
    obtain ⟨a, b, e, rfl, rfl⟩ := bindPair (w := Value.ofArray) hs
    rw [e] at h; subst h
    exact native _ rfl rfl
  | set lt t =>
    cases x <;> simp only [Ty.toArray, Option.some.injEq, reduceCtorEq] at h
    simp only [Ty.store] at hs
    obtain ⟨a, b, e, rfl, rfl⟩ := bindPair (w := Value.ofArray) hs
    rw [e] at h; subst h
    exact native _ rfl rfl
  | tuple ts =>
    cases x <;> simp only [Ty.toArray, Option.some.injEq, reduceCtorEq] at h
    simp only [Ty.store] at hs
    obtain ⟨a, b, e, rfl, rfl⟩ := bindPair (w := Value.ofArray) hs
    rw [e] at h; subst h
    exact native _ rfl rfl
  | struct fs =>
    cases x <;> simp only [Ty.toArray, Option.some.injEq, reduceCtorEq] at h
    simp only [Ty.store] at hs
    obtain ⟨a, b, e, rfl, rfl⟩ := bindPair (w := Value.ofObject) hs
    rw [e] at h; subst h
    exact moved rfl
  | _ => simp [Ty.toArray] at h

/-- `json::object(x)` likewise: if `v` is null, `""` or `[]`, an empty object. -/
theorem C91_object_partial (F : Floats) (t : Ty) (ht : t ≠ .json) (c : Cat) (x : CVal) (r : Out (List (Bytes × Value) × CVal)) (h : t.toObject F c x = some r) (v : Value) (y : CVal)
    (hs : t.store F c x = .ok (v, y)) (hv : v.Sound) : (Blank v → r = .ok ([], y)) ∧ (¬ Blank v → r = v.asObject.bind fun ms => .ok (ms, y)) := by
  have native : ∀ ms, v = .obj .object ms → r = .ok (ms, y) → (Blank v → r = .ok ([], y)) ∧ (¬ Blank v → r = v.asObject.bind fun ms => .ok (ms, y)) := by
    rintro ms rfl rfl
    refine ⟨fun hb => ?_, fun _ => rfl⟩
    rcases hb with h | h | h | h
    · cases h
    · cases h
    · cases h
    · cases h; rfl
  have moved : r = (v.moveToObject.2.bind fun ms => .ok (ms, y)) → (Blank v → r = .ok ([], y)) ∧ (¬ Blank v → r = v.asObject.bind fun ms => .ok (ms, y)) := by
    rintro rfl
    obtain ⟨h1, h2⟩ := C91_moved_object v hv
    exact ⟨fun hb => by rw [h1 hb]; rfl, fun hb => by rw [h2 hb]⟩
  cases t with
  | json => exact absurd rfl ht
  | user U =>
    rw [user_object] at h
    rw [user_store] at hs
    cases hd : U.dump x with
    | none => rw [hd] at hs; cases hs
    | some w =>
      rw [hd] at hs h
      cases hs; cases h
      exact moved rfl
  | jobject =>
    cases x <;> simp only [Ty.toObject, Option.some.injEq, reduceCtorEq] at h
    subst h
    simp only [Ty.store] at hs
    split at hs
    · cases hs; exact native _ rfl (by simp [*])
    · next hc =>
      obtain ⟨ws, e, hs⟩ := Out.bind_eq_ok.1 hs
      cases hs
      exact native _ rfl (by simp [hc, copyMembers, e])
  | map t =>
    cases x <;> simp only [Ty.toObject, Option.some.injEq, reduceCtorEq] at h
    simp only [Ty.store] at hs
    obtain ⟨a, b, e, rfl, rfl⟩ := bindPair (w := fun (a : List (Bytes × Value)) => Value.ofObject (a.foldl (fun m e => (RawObject.emplace e.1 e.2 m).1) [])) hs
    rw [e] at h; subst h
    exact native _ rfl rfl
  | struct fs =>
    cases x <;> simp only [Ty.toObject, Option.some.injEq, reduceCtorEq] at h
    simp only [Ty.store] at hs
    obtain ⟨a, b, e, rfl, rfl⟩ := bindPair (w := Value.ofObject) hs
    rw [e] at h; subst h
    exact moved rfl
  | _ => simp [Ty.toObject] at h

/-- If `json::value(x)` throws, so do both. -/
theorem C91_throws (F : Floats) (t : Ty) (c : Cat) (x : CVal) (e : Exn) (hs : t.store F c x = .throw e) :
    (∀ r, t.toArray F c x = some r → r = .throw e) ∧ (∀ r, t.toObject F c x = some r → r = .throw e) := by
  have key : ∀ {α β γ : Type} {o : Out α} {f : α → Out β} {h : α → Out γ}, o.bind f = .throw e → (∀ a, ∃ b, f a = .ok b) → o.bind h = .throw e := by
    intro α β γ o f h h1 h2
    cases o with
    | ok a => obtain ⟨b, hb⟩ := h2 a; rw [Out.bind_ok, hb] at h1; cases h1
    | throw => cases h1; rfl
    | ub => cases h1
  constructor
  · intro r h
    cases t with
    | user U =>
      rw [user_array] at h; rw [user_store] at hs
      cases hd : U.dump x with
      | none => rw [hd] at hs h; cases hs; cases h; rfl
      | some w => rw [hd] at hs; cases hs
    | json =>
      cases x <;> simp only [Ty.toArray, Option.some.injEq, reduceCtorEq] at h
      simp only [Ty.store, Value.copied] at hs
      repeat (split at hs <;> try cases hs)
    | jarray =>
      cases x <;> simp only [Ty.toArray, Option.some.injEq, reduceCtorEq] at h
      subst h
      simp only [Ty.store] at hs
      split at hs
      · cases hs
      · next hc => rw [if_neg hc]; (try unfold copyElems); (try unfold copyMembers); exact key hs (by intro a; exact ⟨_, rfl⟩)
    | _ =>
      cases x <;> simp only [Ty.toArray, Option.some.injEq, reduceCtorEq] at h
      all_goals
        subst h
        simp only [Ty.store] at hs
        exact key hs (by intro a; exact ⟨_, rfl⟩)
  · intro r h
    cases t with
    | user U =>
      rw [user_object] at h; rw [user_store] at hs
      cases hd : U.dump x with
      | none => rw [hd] at hs h; cases hs; cases h; rfl
      | some w => rw [hd] at hs; cases hs
    | json =>
      cases x <;> simp only [Ty.toObject, Option.some.injEq, reduceCtorEq] at h
      simp only [Ty.store, Value.copied] at hs
      repeat (split at hs <;> try cases hs)
    | jobject =>
      cases x <;> simp only [Ty.toObject, Option.some.injEq, reduceCtorEq] at h
      subst h
      simp only [Ty.store] at hs
      split at hs
      · cases hs
      · next hc => rw [if_neg hc]; (try unfold copyElems); (try unfold copyMembers); exact key hs (by intro a; exact ⟨_, rfl⟩)
    | _ =>
      cases x <;> simp only [Ty.toObject, Option.some.injEq, reduceCtorEq] at h
      all_goals
        subst h
        simp only [Ty.store] at hs
        exact key hs (by intro a; exact ⟨_, rfl⟩)

/-- `json::array(v)` and `json::object(v)` for a value: a copy of the array or object in it, or `json::exception`; of an rvalue, the array or object itself (`C91_moved_array`). -/
theorem C91_value (F : Floats) (c : Cat) (v : Value) (hv : v.Sound) (hc : c ≠ .rv) :
    Ty.json.toArray F c (.json v) = some (v.asArray.bind fun vs => .ok (vs, .json v)) ∧ Ty.json.toObject F c (.json v) = some (v.asObject.bind fun ms => .ok (ms, .json v)) := by
  simp only [Ty.toArray, Ty.toObject, hc, if_false]
  cases sound_shape hv with
  | array vs h => exact ⟨by simp [Value.asArray, Value.type, copyElems, each_copied h], rfl⟩
  | object ms _ h => exact ⟨rfl, by simp [Value.asObject, Value.type, copyMembers, each_copied_members h]⟩
  | _ => exact ⟨rfl, rfl⟩

/-- Of an rvalue: null, `""`, `[]` and `{}` give an empty container and are left as one; an array is taken over and left empty; an object is taken over and keeps its keys, each with what is left
of a value that was moved; anything else throws `json::exception`. -/
theorem C91_moved_value (F : Floats) (v : Value) (hv : v.Sound) :
    (Blank v → Ty.json.toArray F .rv (.json v) = some (.ok ([], .json (.arr .array []))) ∧ Ty.json.toObject F .rv (.json v) = some (.ok ([], .json (.obj .object [])))) ∧
      (∀ vs, v = .arr .array vs → Ty.json.toArray F .rv (.json v) = some (.ok (vs, .json (.arr .array [])))) ∧
      (∀ ms, v = .obj .object ms → Ty.json.toObject F .rv (.json v) = some (.ok (ms, .json (.obj .object (ms.map fun e => (e.1, e.2.emptied)))))) ∧
      (¬ Blank v → v.type ≠ .array → Ty.json.toArray F .rv (.json v) = some (.throw .json)) ∧ (¬ Blank v → v.type ≠ .object → Ty.json.toObject F .rv (.json v) = some (.throw .json)) := by
  refine ⟨fun hb => ⟨?_, ?_⟩, ?_, ?_, fun hb ht => ?_, fun hb ht => ?_⟩
  · simp [Ty.toArray, (C91_moved_array v hv).1 hb]
  · simp [Ty.toObject, (C91_moved_object v hv).1 hb]
  · rintro vs rfl
    have h := takeOut vs
    have e : (Value.arr .array vs).moveToArray = (.arr .array (clearAfter (takeEach movedOut vs)).1, (clearAfter (takeEach movedOut vs)).2) := by cases vs <;> rfl
    have h1 : (clearAfter (takeEach movedOut vs)).1 = [] := by
      cases ht : takeEach movedOut vs with
      | mk a b => rw [ht] at h; cases b <;> first | rfl | cases h
    simp [Ty.toArray, e, h, h1]
  · rintro ms rfl
    have h := takeMembers ms
    have e : (Value.obj .object ms).moveToObject = (.obj .object (takeEach (fun e : Bytes × Value => ((e.1, e.2.emptied), Out.ok (e.1, e.2))) ms).1,
        (takeEach (fun e : Bytes × Value => ((e.1, e.2.emptied), Out.ok (e.1, e.2))) ms).2) := by cases ms <;> rfl
    have h1 : ∀ ns : List (Bytes × Value), (takeEach (fun e : Bytes × Value => ((e.1, e.2.emptied), Out.ok (e.1, e.2))) ns).1 = ns.map fun e => (e.1, e.2.emptied) := by
      intro ns
      induction ns with
      | nil => rfl
      | cons e ns ih => simp only [takeEach, List.map_cons, ih]
    simp [Ty.toObject, e, h, h1]
  · have := (C91_moved_array v hv).2 hb
    simp [Ty.toArray, this, Value.asArray, ht, typeError_sound hv]
  · have := (C91_moved_object v hv).2 hb
    simp [Ty.toObject, this, Value.asObject, ht, typeError_sound hv]

/-- `arr.as<T>()`, and `static_cast<T>(arr)` for a class, give what the value that holds the array gives; but for a tuple of one element. -/
theorem C91_from_array_partial (F : Floats) (t : Ty) (vs : List Value) (hv : ∀ v ∈ vs, v.Sound) (h1 : ∀ ts, t = .tuple ts → ts.size ≠ 1) (r : Out CVal) (h : t.ofArray F vs = some r) :
    r = t.as F (.arr .array vs) := by
  have sa : (Value.arr .array vs).Sound := by
    show Value.WfAll _ _ vs
    clear h
    induction vs with
    | nil => trivial
    | cons v vs ih => exact ⟨hv v (by simp), ih fun w hw => hv w (by simp [hw])⟩
  cases t with
  | fixed n t =>
    simp only [Ty.ofArray, Option.some.injEq] at h; subst h
    simp only [Ty.as, Value.asArray, Value.type, if_true, Out.bind_ok]
    by_cases e : vs.length = n <;> simp [e]
  | seq t => simp only [Ty.ofArray, Option.some.injEq] at h; subst h; rfl
  | set lt t => simp only [Ty.ofArray, Option.some.injEq] at h; subst h; rfl
  | tuple ts =>
    simp only [Ty.ofArray, Option.some.injEq] at h; subst h
    simp only [Ty.as, h1 ts rfl, if_false, Value.asArray, Value.type, if_true, Out.bind_ok]
    by_cases e : vs.length = ts.size <;> simp [e]
  | struct fs =>
    simp only [Ty.ofArray, copyElems, each_copied hv, Out.bind_ok, Ty.fromCopy, Option.getD_some, Option.some.injEq] at h; subst h
    simp only [Ty.as, typeError_sound sa]; rfl
  | user U =>
    simp only [Ty.ofArray, copyElems, each_copied hv, Out.bind_ok, Ty.fromCopy, Option.getD_some, Option.some.injEq] at h; subst h
    simp only [Ty.as, typeError_sound sa]; rfl
  | _ => simp [Ty.ofArray] at h

/-- `obj.as<T>()`, and `static_cast<T>(obj)` for a class, give what the value that holds the object gives. -/
theorem C91_from_object (F : Floats) (t : Ty) (ms : List (Bytes × Value)) (hv : (Value.obj .object ms).Sound) (r : Out CVal) (h : t.ofObject F ms = some r) :
    r = t.as F (.obj .object ms) := by
  have hm : ∀ e ∈ ms, e.2.Sound := by
    cases sound_shape hv with
    | object _ _ h => exact h
  cases t with
  | map t => simp only [Ty.ofObject, Option.some.injEq] at h; subst h; rfl
  | struct fs =>
    simp only [Ty.ofObject, copyMembers, each_copied_members hm, Out.bind_ok, Ty.fromCopy, Option.getD_some, Option.some.injEq] at h; subst h
    simp only [Ty.as, typeError_sound hv]; rfl
  | user U =>
    simp only [Ty.ofObject, copyMembers, each_copied_members hm, Out.bind_ok, Ty.fromCopy, Option.getD_some, Option.some.injEq] at h; subst h
    simp only [Ty.as, typeError_sound hv]; rfl
  | _ => simp [Ty.ofObject] at h

/-- A tuple of one element: `arr.as<std::tuple<T>>()` takes the only element of the array, as `is` and `json::value(tuple)` do. -/
theorem C91_single (F : Floats) (t : Ty) (vs : List Value) :
    (Ty.tuple (.cons t .nil)).ofArray F vs = some (match vs with | [v] => (t.as F v).bind fun x => .ok (.list [x]) | _ => .throw .json) := by
  match vs with
  | [] => simp [Ty.ofArray, Tys.size]
  | [v] => simp only [Ty.ofArray, Tys.size, Tys.asAll, List.length_singleton, ne_eq, not_true_eq_false, if_false, Option.some.injEq]; cases t.as F v <;> rfl
  | _ :: _ :: _ => simp [Ty.ofArray, Tys.size]

/-- The types of the standard library whose objects become arrays, and those whose objects become objects. -/
def Ty.Listed : Ty → Prop
  | .fixed _ _ | .seq _ | .set _ _ | .tuple _ => True
  | _ => False
def Ty.Mapped : Ty → Prop
  | .map _ => True
  | _ => False

/-- What C28 says of values holds of arrays as well: an object that survives the way into a value and back survives the way into an array and back. -/
theorem C91_roundtrip_array (F : Floats) (t : Ty) (x : CVal) (ht : t.Listed) (hx : t.Has x) (hl : t.Lossless F x) :
    ∃ vs, (∀ c, ∃ y, t.toArray F c x = some (.ok (vs, y))) ∧ t.ofArray F vs = some (.ok x) := by
  obtain ⟨v, hst, hv, _, has, _⟩ := C28_roundtrip_partial F t x hx hl
  have key : ∀ c y, t.store F c x = .ok (v, y) → ∃ vs, v = .arr .array vs ∧ t.toArray F c x = some (.ok (vs, y)) := by
    intro c y hs
    cases t with
    | fixed n t =>
      cases x <;> simp only [Ty.store, reduceCtorEq] at hs
      obtain ⟨a, b, e, rfl, rfl⟩ := bindPair (w := Value.ofArray) hs
      exact ⟨a, rfl, by simp only [Ty.toArray, e]; rfl⟩
    | seq t =>
      cases x <;> simp only [Ty.store, reduceCtorEq] at hs
      obtain ⟨a, b, e, rfl, rfl⟩ := bindPair (w := Value.ofArray) hs
      exact ⟨a, rfl, by simp only [Ty.toArray, e]; rfl⟩
    | set lt t =>
      cases x <;> simp only [Ty.store, reduceCtorEq] at hs
      obtain ⟨a, b, e, rfl, rfl⟩ := bindPair (w := Value.ofArray) hs
      exact ⟨a, rfl, by simp only [Ty.toArray, e]; rfl⟩
    | tuple ts =>
      cases x <;> simp only [Ty.store, reduceCtorEq] at hs
      obtain ⟨a, b, e, rfl, rfl⟩ := bindPair (w := Value.ofArray) hs
      exact ⟨a, rfl, by simp only [Ty.toArray, e]; rfl⟩
    | _ => exact ht.elim
  obtain ⟨y, hs⟩ := hst .rv
  obtain ⟨vs, rfl, _⟩ := key _ _ hs
  refine ⟨vs, fun c => ?_, ?_⟩
  · obtain ⟨y, hs⟩ := hst c
    obtain ⟨ws, e, h⟩ := key c y hs
    cases e
    exact ⟨y, h⟩
  · have h1 : ∀ ts, t = .tuple ts → ts.size ≠ 1 := by
      rintro ts rfl
      cases x <;> first | exact hx.elim | exact hl.1
    have hvs : ∀ v ∈ vs, v.Sound := by
      cases sound_shape hv with
      | array _ h => exact h
    cases h : t.ofArray F vs with
    | none => cases t <;> first | exact ht.elim | (simp [Ty.ofArray] at h)
    | some r => rw [C91_from_array_partial F t vs hvs h1 r h, has]

/-- The same of objects. -/
theorem C91_roundtrip_object (F : Floats) (t : Ty) (x : CVal) (ht : t.Mapped) (hx : t.Has x) (hl : t.Lossless F x) :
    ∃ ms, (∀ c, ∃ y, t.toObject F c x = some (.ok (ms, y))) ∧ t.ofObject F ms = some (.ok x) := by
  obtain ⟨v, hst, hv, _, has, _⟩ := C28_roundtrip_partial F t x hx hl
  have key : ∀ c y, t.store F c x = .ok (v, y) → ∃ ms, v = .obj .object ms ∧ t.toObject F c x = some (.ok (ms, y)) := by
    intro c y hs
    cases t with
    | map t =>
      cases x <;> simp only [Ty.store, reduceCtorEq] at hs
      obtain ⟨a, b, e, rfl, rfl⟩ := bindPair (w := fun (a : List (Bytes × Value)) => Value.ofObject (a.foldl (fun m e => (RawObject.emplace e.1 e.2 m).1) [])) hs
      exact ⟨_, rfl, by simp only [Ty.toObject, e]; rfl⟩
    | _ => exact ht.elim
  obtain ⟨y, hs⟩ := hst .rv
  obtain ⟨ms, rfl, _⟩ := key _ _ hs
  refine ⟨ms, fun c => ?_, ?_⟩
  · obtain ⟨y, hs⟩ := hst c
    obtain ⟨ns, e, h⟩ := key c y hs
    cases e
    exact ⟨y, h⟩
  · cases h : t.ofObject F ms with
    | none => cases t <;> first | exact ht.elim | (simp [Ty.ofObject] at h)
    | some r => rw [C91_from_object F t ms hv r h, has]

private def silent : User := { has := fun _ => True, check := fun _ => true, load := fun _ => some .null, dump := fun _ => some .null }

/-- The two ways differ: a class whose `to_json()` gives null becomes an empty array and an empty object, though a value with null is neither; and a tuple of one Boolean can be read from an
array with one Boolean but not from the value that holds the array, since `value::as` turns the value itself into the element of the tuple. -/
theorem C91_refuted (F : Floats) :
    ((Ty.user silent).store F .lv .null = .ok (.null, .null) ∧ Value.null.asArray = .throw .json ∧ Value.null.asObject = .throw .json ∧
      (Ty.user silent).toArray F .lv .null = some (.ok ([], .null)) ∧ (Ty.user silent).toObject F .lv .null = some (.ok ([], .null))) ∧
    ((Ty.tuple (.cons .bool .nil)).ofArray F [.str .boolean (ascii "true")] = some (.ok (.list [.bool true])) ∧
      (Ty.tuple (.cons .bool .nil)).as F (.arr .array [.str .boolean (ascii "true")]) = .throw .json) := by
  refine ⟨⟨rfl, rfl, rfl, rfl, rfl⟩, rfl, rfl⟩

example : (Ty.seq .bool).toArray Samples.noFloats .lv (.list [.bool true, .bool false]) = some (.ok ([.str .boolean (ascii "true"), .str .boolean (ascii "false")], .list [.bool true, .bool false])) := rfl
example : (Ty.map .bool).toObject Samples.noFloats .lv (.map [([0x61], .bool true)]) = some (.ok ([([0x61], .str .boolean (ascii "true"))], .map [([0x61], .bool true)])) := rfl
example : (Ty.seq .bool).ofArray Samples.noFloats [.null] = some (.throw .json) := rfl
example : (Ty.map .bool).ofObject Samples.noFloats [([0x61], .str .boolean (ascii "true"))] = some (.ok (.map [([0x61], .bool true)])) := rfl
example : Ty.json.toArray Samples.noFloats .rv (.json .null) = some (.ok ([], .json (.arr .array []))) ∧ Ty.json.toArray Samples.noFloats .lv (.json .null) = some (.throw .json) := ⟨rfl, rfl⟩
example : (Ty.user { silent with dump := fun _ => none }).store Samples.noFloats .lv .null = .throw .json := rfl
example : (Ty.struct Samples.fields).ofArray Samples.noFloats [] = some (.throw .json) := rfl
example : (Ty.seq .bool).Has (.list [.bool true]) ∧ (Ty.seq .bool).Lossless Samples.noFloats (.list [.bool true]) := by simp [Ty.Has, Ty.Lossless]

end Meojson
