import Verif.Proofs.Convert
import Verif.Proofs.Enum
import Verif.Proofs.MapOps

/-! # Proofs: conversion to `json::value` and back -/

set_option autoImplicit false

namespace Meojson
open Spec RawObject

/-- `v` is what `x` is written as, whatever the value category, and `x` is what `v` is read as. -/
structure Trip (F : Floats) (t : Ty) (x : CVal) (v : Value) : Prop where
  stores : ∀ c, ∃ y, t.store F c x = .ok (v, y)
  sound : v.Sound
  json : t.Printable F x → v.Json
  null : v.type = .null ↔ x.IsNull
  is : t.is F v = .ok true
  as : t.as F v = .ok x

/-- The same for the elements of a container. -/
theorem trip_all {F : Floats} {t : Ty} {xs : List CVal} (h : ∀ x ∈ xs, ∃ v, Trip F t x v) :
    ∃ vs, (∀ c, ∃ ys, eachBoth (t.store F c) xs = .ok (vs, ys)) ∧ (∀ v ∈ vs, v.Sound) ∧ ((∀ x ∈ xs, t.Printable F x) → ∀ v ∈ vs, v.Json) ∧
      allAre (t.is F) vs = .ok true ∧ eachOf (t.as F) vs = .ok xs ∧ vs.length = xs.length := by
  induction xs with
  | nil => exact ⟨[], fun _ => ⟨[], rfl⟩, by simp, by simp, rfl, rfl, rfl⟩
  | cons x xs ih =>
    obtain ⟨v, hv⟩ := h x (by simp)
    obtain ⟨vs, h1, h2, h3, h4, h5, h6⟩ := ih fun y hy => h y (by simp [hy])
    refine ⟨v :: vs, ?_, ?_, ?_, ?_, ?_, by simp [h6]⟩
    · intro c
      obtain ⟨y, hy⟩ := hv.stores c
      obtain ⟨ys, hys⟩ := h1 c
      exact ⟨y :: ys, by simp [eachBoth, hy, hys]⟩
    · intro w hw; rcases List.mem_cons.1 hw with rfl | hw
      · exact hv.sound
      · exact h2 w hw
    · intro hp w hw; rcases List.mem_cons.1 hw with rfl | hw
      · exact hv.json (hp x (by simp))
      · exact h3 (fun y hy => hp y (by simp [hy])) w hw
    · simp [allAre, hv.is, h4]
    · simp [eachOf, hv.as, h5]

theorem trip_members {F : Floats} {t : Ty} {ms : List (Bytes × CVal)} (h : ∀ e ∈ ms, ∃ v, Trip F t e.2 v) :
    ∃ vs : List (Bytes × Value), (∀ c, ∃ ys, eachBoth (fun e : Bytes × CVal => (t.store F c e.2).bind fun r => .ok ((e.1, r.1), (e.1, r.2))) ms = .ok (vs, ys)) ∧
      (∀ e ∈ vs, e.2.Sound) ∧ ((∀ e ∈ ms, t.Printable F e.2) → ∀ e ∈ vs, e.2.Json) ∧
      allAre (fun e : Bytes × Value => t.is F e.2) vs = .ok true ∧
      eachOf (fun e : Bytes × Value => (t.as F e.2).bind fun x => .ok (e.1, x)) vs = .ok ms ∧ vs.map Prod.fst = ms.map Prod.fst := by
  induction ms with
  | nil => exact ⟨[], fun _ => ⟨[], rfl⟩, by simp, by simp, rfl, rfl, rfl⟩
  | cons e ms ih =>
    obtain ⟨k, x⟩ := e
    obtain ⟨v, hv⟩ := h (k, x) (by simp)
    obtain ⟨vs, h1, h2, h3, h4, h5, h6⟩ := ih fun y hy => h y (by simp [hy])
    refine ⟨(k, v) :: vs, ?_, ?_, ?_, ?_, ?_, by simp [h6]⟩
    · intro c
      obtain ⟨y, hy⟩ := hv.stores c
      obtain ⟨ys, hys⟩ := h1 c
      exact ⟨(k, y) :: ys, by simp [eachBoth, hy, hys]⟩
    · intro w hw; rcases List.mem_cons.1 hw with rfl | hw
      · exact hv.sound
      · exact h2 w hw
    · intro hp w hw; rcases List.mem_cons.1 hw with rfl | hw
      · exact hv.json (hp (k, x) (by simp))
      · exact h3 (fun y hy => hp y (by simp [hy])) w hw
    · simp [allAre, hv.is, h4]
    · simp [eachOf, hv.as, h5]

theorem emplace_last {β : Type} {m : List (Bytes × β)} {k : Bytes} {v : β} (h : ∀ e ∈ m, e.1 < k) : (emplace k v m).1 = m ++ [(k, v)] := by
  induction m with
  | nil => rfl
  | cons e m ih =>
    obtain ⟨k', v'⟩ := e
    have h1 : k' < k := h (k', v') (by simp)
    have h2 : bytesLt k' k = true := (bytesLt_iff _ _).2 h1
    have h3 : bytesLt k k' = false := by
      rcases bytesLt_cases k k' with h | h | h
      · rw [h.2.1] at h2; cases h2
      · exact h.2.1
      · exact h.1
    simp [emplace, h2, h3, ih fun e he => h e (by simp [he])]

theorem foldl_emplace {β : Type} {m a : List (Bytes × β)} (h : Sorted (a ++ m)) :
    m.foldl (fun m e => (emplace e.1 e.2 m).1) a = a ++ m := by
  induction m generalizing a with
  | nil => simp
  | cons e m ih =>
    have h1 : ∀ x ∈ a, x.1 < e.1 := fun x hx => (List.pairwise_append.1 h).2.2 x hx e (by simp)
    simp only [List.foldl_cons, emplace_last h1]
    rw [ih (by simpa using h)]
    simp

theorem setInsert_last {α : Type} {lt : α → α → Bool} {l : List α} {x : α} (h : ∀ y ∈ l, lt y x = true ∧ lt x y = false) : setInsert lt x l = l ++ [x] := by
  induction l with
  | nil => rfl
  | cons y l ih => simp [setInsert, h y (by simp), ih fun z hz => h z (by simp [hz])]

theorem foldl_setInsert {α : Type} {lt : α → α → Bool} {m a : List α} (h : (a ++ m).Pairwise (fun x y => lt x y = true ∧ lt y x = false)) :
    m.foldl (fun l x => setInsert lt x l) a = a ++ m := by
  induction m generalizing a with
  | nil => simp
  | cons e m ih =>
    have h1 : ∀ x ∈ a, lt x e = true ∧ lt e x = false := fun x hx => (List.pairwise_append.1 h).2.2 x hx e (by simp)
    simp only [List.foldl_cons, setInsert_last h1]
    rw [ih (by simpa using h)]
    simp

theorem sorted_of_keys {β γ : Type} {a : List (Bytes × β)} {b : List (Bytes × γ)} (h : a.map Prod.fst = b.map Prod.fst) (hb : Sorted b) : Sorted a := by
  have h1 : (b.map Prod.fst).Pairwise (· < ·) := by rw [List.pairwise_map]; exact hb
  rw [← h, List.pairwise_map] at h1
  exact h1

theorem ofInt_json (n : Int) : (Value.ofInt n).Json := by
  simp only [Value.ofInt, Value.Json, Value.Wf]
  exact (intText_intLit n).number

theorem ofBool_wf (num : Bytes → Prop) (inv : Prop) (b : Bool) : (Value.ofBool b).Wf num inv := by cases b <;> simp [Value.ofBool, Value.Wf]

/-- `members` of the description are written as `kws`, and each is read back. -/
def Fields.Trips (F : Floats) : Fields → NextState → List CVal → List (Bytes × Value) → Prop
  | .done, _, [], [] => True
  | .opt rest, st, xs, kws => rest.Trips F { st with isOptional := true } xs kws
  | .key k rest, st, xs, kws => rest.Trips F { st with overrideKey := some k } xs kws
  | .var name _ t rest, st, x :: xs, kw :: kws => kw.1 = st.keyFor name ∧ Trip F t x kw.2 ∧ rest.Trips F {} xs kws
  | _, _, _, _ => False

theorem Fields.Trips.keys {F : Floats} : ∀ {fs : Fields} {st : NextState} {xs : List CVal} {kws : List (Bytes × Value)}, fs.Trips F st xs kws →
    kws.map Prod.fst = (fs.membersFrom st.isOptional st.overrideKey).map (·.key)
  | .done, _, [], [], _ => rfl
  | .done, _, _ :: _, _, h => h.elim
  | .done, _, [], _ :: _, h => h.elim
  | .opt rest, st, xs, kws, h => by unfold Fields.Trips at h; exact Fields.Trips.keys (fs := rest) h
  | .key k rest, st, xs, kws, h => by unfold Fields.Trips at h; exact Fields.Trips.keys (fs := rest) h
  | .var name _ t rest, st, x :: xs, kw :: kws, h => by
    have := Fields.Trips.keys (fs := rest) h.2.2
    simp only [List.map_cons, Fields.membersFrom, this, h.1]
    congr 1
    unfold NextState.keyFor
    cases st.overrideKey <;> rfl
  | .var .., _, [], _, h => h.elim
  | .var .., _, _ :: _, [], h => h.elim

theorem Fields.Trips.sound {F : Floats} : ∀ {fs : Fields} {st : NextState} {xs : List CVal} {kws : List (Bytes × Value)}, fs.Trips F st xs kws →
    (∀ e ∈ kws, e.2.Sound) ∧ (fs.Printable F xs → ∀ e ∈ kws, e.2.Json)
  | .done, _, [], [], _ => by simp
  | .done, _, _ :: _, _, h => h.elim
  | .done, _, [], _ :: _, h => h.elim
  | .opt rest, st, xs, kws, h => by unfold Fields.Trips at h; unfold Fields.Printable; exact Fields.Trips.sound (fs := rest) h
  | .key k rest, st, xs, kws, h => by unfold Fields.Trips at h; unfold Fields.Printable; exact Fields.Trips.sound (fs := rest) h
  | .var name _ t rest, st, x :: xs, kw :: kws, h => by
    obtain ⟨h1, h2⟩ := Fields.Trips.sound (fs := rest) h.2.2
    refine ⟨?_, ?_⟩
    · intro w hw; rcases List.mem_cons.1 hw with rfl | hw
      · exact h.2.1.sound
      · exact h1 w hw
    · intro hp w hw; rcases List.mem_cons.1 hw with rfl | hw
      · exact h.2.1.json hp.1
      · exact h2 hp.2 w hw
  | .var .., _, [], _, h => h.elim
  | .var .., _, _ :: _, [], h => h.elim

/-- Inserting one after the other. -/
def insertAll (kws m : List (Bytes × Value)) : List (Bytes × Value) := kws.foldl (fun m e => insertOrAssign e.1 e.2 m) m

theorem insertAll_sorted {kws m : List (Bytes × Value)} (h : Sorted m) : Sorted (insertAll kws m) := by
  induction kws generalizing m with
  | nil => exact h
  | cons e kws ih => exact ih (insertOrAssign_sorted h _ _)

theorem mem_insertAll {kws m : List (Bytes × Value)} : ∀ e ∈ insertAll kws m, e ∈ kws ∨ e ∈ m := by
  induction kws generalizing m with
  | nil => intro e he; exact .inr he
  | cons k kws ih =>
    intro e he
    rcases ih e he with h | h
    · exact .inl (by simp [h])
    · rcases mem_insertOrAssign _ _ _ e h with h | h
      · exact .inl (by simp [h])
      · exact .inr h

theorem find_insertAll_absent {kws m : List (Bytes × Value)} {k : Bytes} (h : k ∉ kws.map Prod.fst) : find k (insertAll kws m) = find k m := by
  induction kws generalizing m with
  | nil => rfl
  | cons e kws ih =>
    simp only [List.map_cons, List.mem_cons, not_or] at h
    show find k (insertAll kws _) = _
    rw [ih h.2, find_insertOrAssign, if_neg h.1]

theorem find_insertAll {kws m : List (Bytes × Value)} (hn : (kws.map Prod.fst).Nodup) : ∀ e ∈ kws, find e.1 (insertAll kws m) = some e.2 := by
  induction kws generalizing m with
  | nil => simp
  | cons k kws ih =>
    simp only [List.map_cons, List.nodup_cons] at hn
    intro e he
    rcases List.mem_cons.1 he with rfl | he
    · show find e.1 (insertAll kws _) = _
      rw [find_insertAll_absent hn.1, find_insertOrAssign, if_pos rfl]
    · exact ih hn.2 e he

theorem Fields.Trips.dump {F : Floats} : ∀ {fs : Fields} {st : NextState} {xs : List CVal} {kws : List (Bytes × Value)}, fs.Trips F st xs kws →
    ∀ m, ∃ ys, fs.dump F st xs m = .ok (insertAll kws m, ys)
  | .done, _, [], [], _, m => ⟨[], by simp [Fields.dump, insertAll]⟩
  | .done, _, _ :: _, _, h, _ => h.elim
  | .done, _, [], _ :: _, h, _ => h.elim
  | .opt rest, st, xs, kws, h, m => by unfold Fields.Trips at h; unfold Fields.dump; exact Fields.Trips.dump (fs := rest) h m
  | .key k rest, st, xs, kws, h, m => by unfold Fields.Trips at h; unfold Fields.dump; exact Fields.Trips.dump (fs := rest) h m
  | .var name _ t rest, st, x :: xs, kw :: kws, h, m => by
    obtain ⟨y, hy⟩ := h.2.1.stores .constLv
    obtain ⟨ys, hys⟩ := Fields.Trips.dump (fs := rest) h.2.2 (insertOrAssign (st.keyFor name) kw.2 m)
    refine ⟨y :: ys, ?_⟩
    simp [Fields.dump, hy, hys, insertAll, h.1]
  | .var .., _, [], _, h, _ => h.elim
  | .var .., _, _ :: _, [], h, _ => h.elim

/-- Reading: every key leads to what was written. -/
theorem Fields.Trips.load {F : Floats} : ∀ {fs : Fields} {st : NextState} {xs : List CVal} {kws : List (Bytes × Value)}, fs.Trips F st xs kws →
    ∀ ms, (∀ e ∈ kws, find e.1 ms = some e.2) → ∀ dst, dst.length = fs.size →
    fs.check F st (.obj .object ms) = .ok none ∧ fs.load F st (.obj .object ms) dst = (.ok none, xs)
  | .done, _, [], [], _, _, _, [], _ => ⟨by simp [Fields.check], by simp [Fields.load]⟩
  | .done, _, [], [], _, _, _, _ :: _, hd => by simp [Fields.size] at hd
  | .done, _, _ :: _, _, h, _, _, _, _ => h.elim
  | .done, _, [], _ :: _, h, _, _, _, _ => h.elim
  | .opt rest, st, xs, kws, h, ms, hm, dst, hd => by
    unfold Fields.Trips at h; unfold Fields.check Fields.load; exact Fields.Trips.load (fs := rest) h ms hm dst hd
  | .key k rest, st, xs, kws, h, ms, hm, dst, hd => by
    unfold Fields.Trips at h; unfold Fields.check Fields.load; exact Fields.Trips.load (fs := rest) h ms hm dst hd
  | .var name _ t rest, st, x :: xs, kw :: kws, h, ms, hm, d :: dst, hd => by
    obtain ⟨h1, h2⟩ := Fields.Trips.load (fs := rest) h.2.2 ms (fun e he => hm e (by simp [he])) dst (by simpa [Fields.size] using hd)
    have h3 : (Value.obj .object ms).findKey (st.keyFor name) = .ok (some kw.2) := by
      show Out.ok (find _ ms) = _
      rw [← h.1, hm kw (by simp)]
    unfold Fields.check Fields.load
    simp [h3, h2, h1, h.2.1.is, h.2.1.as, Out.noexcept]
  | .var .., _, _, _, _, _, _, [], hd => by simp [Fields.size] at hd
  | .var .., _, [], _, h, _, _, _, _ => h.elim
  | .var .., _, _ :: _, [], h, _, _, _, _ => h.elim

theorem storeAlt_get (F : Floats) : ∀ (ts : Tys) (c : Cat) (i : Nat) (x : CVal) (u : Ty), ts.get? i = some u → ts.storeAlt F c i x = u.store F c x
  | .cons _ _, _, 0, _, _, h => by cases h; simp [Tys.storeAlt]
  | .cons _ ts, c, i + 1, x, u, h => by unfold Tys.storeAlt; exact storeAlt_get F ts c i x u h

mutual
theorem trip (F : Floats) : ∀ (t : Ty) (x : CVal), t.Has x → t.Lossless F x → ∃ v, Trip F t x v
  | .user U, x, _, hl => by
    obtain ⟨v, h1, h2, h3, h4, h5⟩ : ∃ v, U.dump x = some v ∧ v.Sound ∧ U.check v = true ∧ U.load v = some x ∧ (v.type = .null ↔ x.IsNull) := by simpa [Ty.Lossless] using hl
    exact ⟨v, fun _ => ⟨x, by simp [Ty.store, h1]⟩, h2, fun hp => by unfold Ty.Printable at hp; exact hp v h1, h5, by simp [Ty.is, h3], by simp [Ty.as, h4]⟩
  | .bool, .bool b, _, _ => ⟨.ofBool b, fun _ => ⟨_, by rw [Ty.store]⟩, ofBool_wf _ _ b, fun _ => ofBool_wf _ _ b, by simp [Value.ofBool, Value.type, CVal.IsNull],
      by simp [Ty.is, Value.ofBool, Value.type], by cases b <;> simp [Ty.as, Value.asBoolean, Value.ofBool, Value.type, Value.basicStr]⟩
  | .int T, .int n, h, _ => by
    replace h : T.Has n := h
    have := tryParseInteger_intText (T := T) (n := n)
    rw [if_pos h] at this
    exact ⟨.ofInt n, fun _ => ⟨_, by rw [Ty.store]⟩, by simp [Value.ofInt, Value.Wf], fun _ => ofInt_json n, by simp [Value.ofInt, Value.type, CVal.IsNull],
      by simp [Ty.is, Value.isInt, Value.ofInt, Value.type, this], by simp [Ty.as, Value.asInt, Value.ofInt, Value.type, Value.basicStr, this]⟩
  | .float f, .flt x, _, h => by
    replace h : F.read f (F.print f x) = some x := h
    exact ⟨.str .number (F.print f x), fun _ => ⟨_, by rw [Ty.store]⟩, by simp [Value.Wf], fun hp => hp, by simp [Value.type, CVal.IsNull],
      by simp [Ty.is, Value.isFloat, Value.type, h], by simp [Ty.as, Value.asFloat, Value.type, Value.basicStr, h]⟩
  | .string, .str s, _, _ => ⟨.str .string s, fun _ => ⟨_, by rw [Ty.store]⟩, by simp [Value.Wf], fun _ => by simp [Value.Wf], by simp [Value.type, CVal.IsNull],
      by simp [Ty.is, Value.type], by simp [Ty.as, Value.asString, Value.type, Value.basicStr]⟩
  | .null, .null, _, _ => ⟨.null, fun _ => ⟨_, by rw [Ty.store]⟩, by simp [Value.null, Value.Wf], fun _ => by simp [Value.null, Value.Wf],
      by simp [Value.null, Value.type, CVal.IsNull], by simp [Ty.is, Value.null, Value.type], by simp [Ty.as, Value.asNull, Value.null, Value.type]⟩
  | .json, .json v, h, _ => by
    refine ⟨v, fun c => ?_, h, fun hp => hp, Iff.rfl, by simp [Ty.is], by simp [Ty.as, sound_copied h]⟩
    unfold Ty.store
    split
    · exact ⟨_, rfl⟩
    · exact ⟨_, by rw [sound_copied h]; rfl⟩
  | .jarray, .jarray vs, h, _ => by
    have hs : ∀ v ∈ vs, v.Sound := wfAll_iff.1 h
    refine ⟨.ofArray vs, fun c => ?_, h, fun hp => hp, by simp [Value.ofArray, Value.type, CVal.IsNull], by simp [Ty.is, Value.ofArray, Value.type],
      by simp [Ty.as, Value.asArray, Value.ofArray, Value.type, each_copied hs]⟩
    unfold Ty.store
    split
    · exact ⟨_, rfl⟩
    · exact ⟨_, by rw [each_copied hs]; rfl⟩
  | .jobject, .jobject ms, h, _ => by
    have hs : ∀ e ∈ ms, e.2.Sound := wfMembers_iff.1 h.2
    refine ⟨.ofObject ms, fun c => ?_, h, fun hp => hp, by simp [Value.ofObject, Value.type, CVal.IsNull], by simp [Ty.is, Value.ofObject, Value.type],
      by simp [Ty.as, Value.asObject, Value.ofObject, Value.type, each_copied_members hs]⟩
    unfold Ty.store
    split
    · exact ⟨_, rfl⟩
    · exact ⟨_, by rw [each_copied_members hs]; rfl⟩
  | .nullable .optional _, .nothing, _, hl => hl.elim
  | .nullable .pointer t, .nothing, _, _ => ⟨.null, fun _ => ⟨_, by rw [Ty.store]⟩, by simp [Value.null, Value.Wf], fun _ => by simp [Value.null, Value.Wf],
      by simp [Value.null, Value.type, CVal.IsNull], by simp [Ty.is, Value.null, Value.type], by simp [Ty.as, Value.null, Value.type]⟩
  | .nullable .optional t, .just x, h, hl => by
    obtain ⟨v, hv⟩ := trip F t x h hl
    refine ⟨v, fun c => ?_, hv.sound, fun hp => hv.json hp, ?_, by simp [Ty.is, hv.is], by simp [Ty.as, hv.as]⟩
    · obtain ⟨y, hy⟩ := hv.stores (c.content .optional)
      exact ⟨.just y, by simp [Ty.store, hy]⟩
    · simp only [CVal.IsNull]; exact hv.null
  | .nullable .pointer t, .just x, h, hl => by
    obtain ⟨v, hv⟩ := trip F t x h hl.1
    have hn : v.type ≠ .null := fun h => hl.2 (hv.null.1 h)
    refine ⟨v, fun c => ?_, hv.sound, fun hp => hv.json hp, ?_, by simp [Ty.is, hv.is], by simp [Ty.as, hn, hv.as]⟩
    · obtain ⟨y, hy⟩ := hv.stores (c.content .pointer)
      exact ⟨.just y, by simp [Ty.store, hy]⟩
    · simp only [CVal.IsNull]; exact hv.null
  | .enum E, .enum e, h, hl => by
    obtain ⟨v, h1, h2, h3, h4⟩ := enum_round h hl
    refine ⟨v, fun _ => ⟨_, by simp [Ty.store, h1]; rfl⟩, ?_, fun _ => ?_, ?_, by simp [Ty.is, h2], by simp [Ty.as, h3]⟩
    · rcases h4 with ⟨s, rfl⟩ | ⟨n, rfl⟩ <;> simp [Value.ofInt, Value.Wf]
    · rcases h4 with ⟨s, rfl⟩ | ⟨n, rfl⟩
      · simp [Value.Wf]
      · exact ofInt_json n
    · rcases h4 with ⟨s, rfl⟩ | ⟨n, rfl⟩ <;> simp [Value.ofInt, Value.type, CVal.IsNull]
  | .seq t, .list xs, h, hl => by
    obtain ⟨vs, h1, h2, h3, h4, h5, _⟩ := trip_all fun x hx => trip F t x (h x hx) (hl x hx)
    refine ⟨.ofArray vs, fun c => ?_, wfAll_iff.2 h2, fun hp => wfAll_iff.2 (h3 hp), by simp [Value.ofArray, Value.type, CVal.IsNull],
      by simpa [Ty.is, Value.ofArray, Value.type, Value.asArray, Out.noexcept] using h4, by simp [Ty.as, Value.asArray, Value.ofArray, Value.type, h5]⟩
    obtain ⟨ys, hys⟩ := h1 c.element
    exact ⟨.list ys, by simp [Ty.store, hys]⟩
  | .set lt t, .list xs, h, hl => by
    obtain ⟨vs, h1, h2, h3, h4, h5, _⟩ := trip_all fun x hx => trip F t x (h.1 x hx) (hl x hx)
    have h6 := foldl_setInsert (a := []) (m := xs) (by simpa using h.2)
    refine ⟨.ofArray vs, fun c => ?_, wfAll_iff.2 h2, fun hp => wfAll_iff.2 (h3 hp), by simp [Value.ofArray, Value.type, CVal.IsNull],
      by simpa [Ty.is, Value.ofArray, Value.type, Value.asArray, Out.noexcept] using h4, by
        simp only [Ty.as, Value.asArray, Value.ofArray, Value.type, if_true, Out.bind_ok, h5, h6, List.nil_append]⟩
    obtain ⟨ys, hys⟩ := h1 c.setElement
    exact ⟨.list ys, by simp [Ty.store, hys]⟩
  | .fixed n t, .list xs, h, hl => by
    obtain ⟨vs, h1, h2, h3, h4, h5, h6⟩ := trip_all fun x hx => trip F t x (h.2 x hx) (hl x hx)
    have h7 : vs.length = n := h6.trans h.1
    refine ⟨.ofArray vs, fun c => ?_, wfAll_iff.2 h2, fun hp => wfAll_iff.2 (h3 hp), by simp [Value.ofArray, Value.type, CVal.IsNull],
      by simpa [Ty.is, Value.ofArray, Value.type, Value.asArray, Out.noexcept, h7] using h4, by simp [Ty.as, Value.asArray, Value.ofArray, Value.type, h5, h7]⟩
    obtain ⟨ys, hys⟩ := h1 c.part
    exact ⟨.list ys, by simp [Ty.store, hys]⟩
  | .tuple ts, .list xs, h, hl => by
    obtain ⟨vs, h1, h2, h3, h4, h5, h6⟩ := trip_tuple F ts xs h hl.2
    refine ⟨.ofArray vs, fun c => ?_, wfAll_iff.2 h2, fun hp => wfAll_iff.2 (h3 hp), by simp [Value.ofArray, Value.type, CVal.IsNull],
      by simpa [Ty.is, Value.ofArray, Value.type, Value.asArray, Out.noexcept, h6] using h4, by simp [Ty.as, hl.1, Value.asArray, Value.ofArray, Value.type, h5, h6]⟩
    obtain ⟨ys, hys⟩ := h1 c.part
    exact ⟨.list ys, by simp [Ty.store, hys]⟩
  | .variant ts, .alt i x, h, .inl ⟨hc, hl⟩ => by
    obtain ⟨v, hs, hso, hj, hnu, his, has⟩ := trip_nth F ts i x h hl
    refine ⟨v, fun c => ?_, hso, fun hp => hj hp, ?_, by simp [Ty.is, his], by simp [Ty.as, hc, has]⟩
    · obtain ⟨y, hy⟩ := hs c.part
      exact ⟨.alt i y, by simp [Ty.store, hy]⟩
    · simp only [CVal.IsNull]; exact hnu
  | .variant ts, .alt i x, h, .inr ⟨hc, hl⟩ => by
    obtain ⟨v, u, hu, hs, hso, hj, hnu, his, has⟩ := trip_alt F ts i x h hl
    refine ⟨v, fun c => ?_, hso, fun hp => hj hp, ?_, by simp [Ty.is, his], by simpa [Ty.as, hc] using has 0⟩
    · obtain ⟨y, hy⟩ := hs c.part
      exact ⟨.alt i y, by simp [Ty.store, hy]⟩
    · simp only [CVal.IsNull]; exact hnu
  | .map t, .map ms, h, hl => by
    obtain ⟨vs, h1, h2, h3, h4, h5, h6⟩ := trip_members fun e he => trip F t e.2 (h.2 e he) (hl e he)
    have h7 : Sorted vs := sorted_of_keys h6 h.1
    have h8 := foldl_emplace (a := []) (m := vs) h7
    have h9 := foldl_emplace (a := []) (m := ms) h.1
    refine ⟨.ofObject vs, fun c => ?_, ⟨h7, wfMembers_iff.2 h2⟩, fun hp => ⟨h7, wfMembers_iff.2 (h3 hp)⟩, by simp [Value.ofObject, Value.type, CVal.IsNull],
      by simpa [Ty.is, Value.ofObject, Value.type, Value.asObject, Out.noexcept] using h4, by
        simp only [Ty.as, Value.asObject, Value.ofObject, Value.type, if_true, Out.bind_ok, h5, h9, List.nil_append]⟩
    obtain ⟨ys, hys⟩ := h1 c.element
    exact ⟨.map ys, by simp only [Ty.store, hys, Out.bind_ok, h8, List.nil_append]⟩
  | .struct fs, .list xs, h, hl => by
    obtain ⟨kws, hk⟩ := trip_fields F fs {} xs h hl.2
    have hn : (kws.map Prod.fst).Nodup := by rw [hk.keys]; exact hl.1
    obtain ⟨ys, hys⟩ := hk.dump []
    obtain ⟨h1, h2⟩ := hk.load (insertAll kws []) (find_insertAll hn) fs.defaults (defaults_length fs)
    refine ⟨.ofObject (insertAll kws []), fun c => ⟨.list ys, by simp [Ty.store, hys]⟩, ⟨insertAll_sorted Sorted.nil, wfMembers_iff.2 ?_⟩,
      fun hp => ⟨insertAll_sorted Sorted.nil, wfMembers_iff.2 ?_⟩, by simp [Value.ofObject, Value.type, CVal.IsNull], ?_, ?_⟩
    · intro e he
      rcases mem_insertAll e he with h | h
      · exact hk.sound.1 e h
      · cases h
    · intro e he
      rcases mem_insertAll e he with h | h
      · exact hk.sound.2 hp e h
      · cases h
    · simp [Ty.is, Value.ofObject, h1]
    · simp [Ty.as, Value.ofObject, h2]
theorem trip_tuple (F : Floats) : ∀ (ts : Tys) (xs : List CVal), ts.HasAll xs → ts.LosslessAll F xs →
    ∃ vs, (∀ c, ∃ ys, ts.storeAll F c xs = .ok (vs, ys)) ∧ (∀ v ∈ vs, v.Sound) ∧ (ts.PrintableAll F xs → ∀ v ∈ vs, v.Json) ∧
      ts.areAll F vs = .ok true ∧ ts.asAll F vs = .ok xs ∧ vs.length = ts.size
  | .nil, [], _, _ => ⟨[], fun _ => ⟨[], by simp [Tys.storeAll]⟩, by simp, by simp, by simp [Tys.areAll], by simp [Tys.asAll], rfl⟩
  | .nil, _ :: _, h, _ => h.elim
  | .cons _ _, [], h, _ => h.elim
  | .cons t ts, x :: xs, h, hl => by
    obtain ⟨v, hv⟩ := trip F t x h.1 hl.1
    obtain ⟨vs, h1, h2, h3, h4, h5, h6⟩ := trip_tuple F ts xs h.2 hl.2
    refine ⟨v :: vs, ?_, ?_, ?_, ?_, ?_, by simp [Tys.size, h6]⟩
    · intro c
      obtain ⟨y, hy⟩ := hv.stores c
      obtain ⟨ys, hys⟩ := h1 c
      exact ⟨y :: ys, by simp [Tys.storeAll, hy, hys]⟩
    · intro w hw; rcases List.mem_cons.1 hw with rfl | hw
      · exact hv.sound
      · exact h2 w hw
    · intro hp w hw; rcases List.mem_cons.1 hw with rfl | hw
      · exact hv.json hp.1
      · exact h3 hp.2 w hw
    · simp [Tys.areAll, hv.is, h4]
    · simp [Tys.asAll, hv.as, h5]
theorem trip_nth (F : Floats) : ∀ (ts : Tys) (i : Nat) (x : CVal), ts.HasAlt i x → ts.LosslessNth F i x →
    ∃ v, (∀ c, ∃ y, ts.storeAlt F c i x = .ok (v, y)) ∧ v.Sound ∧ (ts.PrintableAlt F i x → v.Json) ∧ (v.type = .null ↔ x.IsNull) ∧
      ts.isAny F v = .ok true ∧ ts.asNth F i v = .ok x
  | .nil, _, _, h, _ => h.elim
  | .cons t ts, 0, x, h, hl => by
    obtain ⟨v, hv⟩ := trip F t x h hl
    exact ⟨v, fun c => by simpa [Tys.storeAlt] using hv.stores c, hv.sound, fun hp => hv.json hp, hv.null, by simp [Tys.isAny, hv.is], by simp [Tys.asNth, hv.as]⟩
  | .cons t ts, i + 1, x, h, hl => by
    obtain ⟨v, hs, hso, hj, hnu, his, has⟩ := trip_nth F ts i x h hl
    obtain ⟨b, hb⟩ := is_total F t v hso
    refine ⟨v, fun c => by simpa [Tys.storeAlt] using hs c, hso, fun hp => hj hp, hnu, ?_, by simpa [Tys.asNth] using has⟩
    cases b <;> simp [Tys.isAny, hb, his]
theorem trip_alt (F : Floats) : ∀ (ts : Tys) (i : Nat) (x : CVal), ts.HasAlt i x → ts.LosslessAlt F i x →
    ∃ v u, ts.get? i = some u ∧ (∀ c, ∃ y, ts.storeAlt F c i x = .ok (v, y)) ∧ v.Sound ∧ (ts.PrintableAlt F i x → v.Json) ∧ (v.type = .null ↔ x.IsNull) ∧
      ts.isAny F v = .ok true ∧ ∀ j, ts.asAny F j v = .ok (.alt (j + i) x)
  | .nil, _, _, h, _ => h.elim
  | .cons t ts, 0, x, h, hl => by
    obtain ⟨v, hv⟩ := trip F t x h hl
    exact ⟨v, t, rfl, fun c => by simpa [Tys.storeAlt] using hv.stores c, hv.sound, fun hp => hv.json hp, hv.null, by simp [Tys.isAny, hv.is],
      fun j => by simp [Tys.asAny, hv.is, hv.as]⟩
  | .cons t ts, i + 1, x, h, hl => by
    obtain ⟨v, u, hu, hs, hso, hj, hnu, his, has⟩ := trip_alt F ts i x h hl.1
    have hf : t.is F v = .ok false := by
      obtain ⟨y, hy⟩ := hs .constLv
      rw [storeAlt_get F ts _ i x u hu] at hy
      exact hl.2 u v y hu hy
    refine ⟨v, u, hu, fun c => by simpa [Tys.storeAlt] using hs c, hso, fun hp => hj hp, hnu, by simp [Tys.isAny, hf, his], fun j => ?_⟩
    have := has (j + 1)
    simp only [Tys.asAny, hf, Out.bind_ok]
    rw [if_neg (by simp), this, Nat.add_right_comm, Nat.add_assoc]
theorem trip_fields (F : Floats) : ∀ (fs : Fields) (st : NextState) (xs : List CVal), fs.Has xs → fs.Lossless F xs → ∃ kws, fs.Trips F st xs kws
  | .done, _, [], _, _ => ⟨[], trivial⟩
  | .done, _, _ :: _, h, _ => h.elim
  | .opt rest, st, xs, h, hl => by
    unfold Fields.Has at h; unfold Fields.Lossless at hl; unfold Fields.Trips; exact trip_fields F rest _ xs h hl
  | .key _ rest, st, xs, h, hl => by
    unfold Fields.Has at h; unfold Fields.Lossless at hl; unfold Fields.Trips; exact trip_fields F rest _ xs h hl
  | .var name _ t rest, st, x :: xs, h, hl => by
    obtain ⟨v, hv⟩ := trip F t x h.1 hl.1
    obtain ⟨kws, hk⟩ := trip_fields F rest {} xs h.2 hl.2
    exact ⟨(st.keyFor name, v) :: kws, rfl, hv, hk⟩
  | .var .., _, [], h, _ => h.elim
end

end Meojson
